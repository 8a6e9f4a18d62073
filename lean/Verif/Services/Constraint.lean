import Verif.Mls.Model

/-!
# Model of constraint evaluation and validation

libsepol/src/services.c:386-838 (`constraint_expr_eval_reason`) and
libsepol/src/policydb_validate.c:238-379 (`validate_constraint_nodes`).

Left out: the text of the reason buffer.  Allocation succeeds.  Undefined behaviour
(array index out of bounds, NULL role) is the outcome `none`.
-/

namespace Verif.Services
open Verif.Policy Verif.Mls

/-- `type_set_t`, policydb.h. -/
structure TypeSet where
  types : Ebitmap.Ebitmap
  negset : Ebitmap.Ebitmap
  flags : Nat
deriving DecidableEq, Repr

/-- `constraint_expr_t`, constraint.h:35-69. -/
structure CExpr where
  exprType : Nat
  attr : Nat
  op : Nat
  names : Ebitmap.Ebitmap
  typeNames : TypeSet
deriving DecidableEq, Repr

/-- `constraint_node_t`, constraint.h:71-75. -/
structure Constraint where
  perms : BitVec 32
  expr : List CExpr
deriving DecidableEq, Repr

/-! constraint.h:31-63 -/
def MAXDEPTH : Nat := 5
def NOT : Nat := 1
def AND : Nat := 2
def OR : Nat := 3
def ATTR : Nat := 4
def NAMES : Nat := 5
def USER : Nat := 1
def ROLE : Nat := 2
def TYPE : Nat := 4
def TARGET : Nat := 8
def XTARGET : Nat := 16
def L1L2 : Nat := 32
def L1H2 : Nat := 64
def H1L2 : Nat := 128
def H1H2 : Nat := 256
def L1H1 : Nat := 512
def L2H2 : Nat := 1024
def EQ : Nat := 1
def NEQ : Nat := 2
def DOM : Nat := 3
def DOMBY : Nat := 4
def INCOMP : Nat := 5

/-- `a & b` as a condition, for a `b` with one bit. -/
def band (a b : Nat) : Bool := a &&& b != 0

/-- `x - 1` on `uint32_t`. -/
def pred32 (x : Nat) : Nat := (x + (2 ^ 32 - 1)) % 2 ^ 32

/-- The effect of one expression node: push a value, leave through `goto out` with the given
return code, or undefined behaviour. -/
inductive Step
  | push (b : Bool)
  | out (rc : Int)
  | ub
deriving DecidableEq, Repr

/-- -EINVAL. -/
def EINVAL : Int := -22

/-- `policydb->role_val_to_struct[val - 1]`: reading outside the array is undefined. -/
def roleIndexOk (p : Policy) (v : Nat) : Bool := decide (1 ≤ v ∧ v ≤ p.nRoles)

/-- The level comparison after label `mls_ops`, services.c:593-622. -/
def mlsOp (op : Nat) (l1 l2 : Level) : Step :=
  if op = EQ then .push (levelEq l1 l2)
  else if op = NEQ then .push (!levelEq l1 l2)
  else if op = DOM then .push (levelDom l1 l2)
  else if op = DOMBY then .push (levelDom l2 l1)
  else if op = INCOMP then .push (levelIncomp l2 l1)
  else .out 0

/-- The value comparison, services.c:629-641. -/
def valOp (op v1 v2 : Nat) : Step :=
  if op = EQ then .push (v1 == v2)
  else if op = NEQ then .push (v1 != v2)
  else .out 0

/-- Case CEXPR_ROLE, services.c:526-556. -/
def roleOp (p : Policy) (op v1 v2 : Nat) : Step :=
  if !(roleIndexOk p v1 && roleIndexOk p v2) then .ub
  else
    let r1 := p.roleStruct (v1 - 1)
    let r2 := p.roleStruct (v2 - 1)
    if op = DOM then
      match r1 with
      | none => .ub
      | some r1 => .push (Ebitmap.getBit r1.dominates (v2 - 1))
    else if op = DOMBY then
      match r2 with
      | none => .ub
      | some r2 => .push (Ebitmap.getBit r2.dominates (v1 - 1))
    else if op = INCOMP then
      match r1 with
      | none => .ub
      | some r1 =>
        if Ebitmap.getBit r1.dominates (v2 - 1) then .push false
        else match r2 with
          | none => .ub
          | some r2 => .push (!Ebitmap.getBit r2.dominates (v1 - 1))
    else valOp op v1 v2

/-- Case CEXPR_ATTR without the depth check, services.c:507-642. -/
def attrStep (p : Policy) (s t : Context) (e : CExpr) : Step :=
  if e.attr = USER then valOp e.op s.user t.user
  else if e.attr = TYPE then valOp e.op s.type t.type
  else if e.attr = ROLE then roleOp p e.op s.role t.role
  else if e.attr = L1L2 then mlsOp e.op s.range.low t.range.low
  else if e.attr = L1H2 then mlsOp e.op s.range.low t.range.high
  else if e.attr = H1L2 then mlsOp e.op s.range.high t.range.low
  else if e.attr = H1H2 then mlsOp e.op s.range.high t.range.high
  else if e.attr = L1H1 then mlsOp e.op s.range.low s.range.high
  else if e.attr = L2H2 then mlsOp e.op t.range.low t.range.high
  else .out 0

/-- Case CEXPR_NAMES without the depth check, services.c:646-694. -/
def namesStep (s t : Context) (x : Option Context) (e : CExpr) : Step :=
  let c := if band e.attr TARGET then some t else if band e.attr XTARGET then x else some s
  match c with
  | none => .out 0
  | some c =>
    let v := if band e.attr USER then some c.user
      else if band e.attr ROLE then some c.role
      else if band e.attr TYPE then some c.type
      else none
    match v with
    | none => .out 0
    | some v =>
      if e.op = EQ then .push (Ebitmap.getBit e.names (pred32 v))
      else if e.op = NEQ then .push (!Ebitmap.getBit e.names (pred32 v))
      else .out 0

/-- The loop over the expression list, services.c:439-702; the stack has its top first.
The result is the return code, or `none` for undefined behaviour. -/
def loop (p : Policy) (s t : Context) (x : Option Context) : List CExpr → List Bool → Option Int
  | [], st => some (match st.getLast? with | some true => 1 | _ => 0)
  | e :: l, st =>
    if e.exprType = NOT then
      match st with
      | a :: st => loop p s t x l ((!a) :: st)
      | _ => some EINVAL
    else if e.exprType = AND then
      match st with
      | b :: a :: st => loop p s t x l ((a && b) :: st)
      | _ => some EINVAL
    else if e.exprType = OR then
      match st with
      | b :: a :: st => loop p s t x l ((a || b) :: st)
      | _ => some EINVAL
    else if e.exprType = ATTR ∨ e.exprType = NAMES then
      if st.length = MAXDEPTH then some 0
      else match (if e.exprType = ATTR then attrStep p s t e else namesStep s t x e) with
        | .push b => loop p s t x l (b :: st)
        | .out rc => some rc
        | .ub => none
    else some 0

/-- `constraint_expr_eval_reason`, services.c:386-838: the return code. -/
def constraintEval (p : Policy) (s t : Context) (x : Option Context) (c : Constraint) : Option Int :=
  loop p s t x c.expr []

/-! ## Validation -/

/-- `validate_t`, policydb_validate.c: number of symbols and gaps in their numbering. -/
structure Flavor where
  nprim : Nat
  gaps : Ebitmap.Ebitmap

/-- `validate_ebitmap`, policydb_validate.c:119-130 (true is success). -/
def validateEbitmap (m : Ebitmap.Ebitmap) (f : Flavor) : Bool :=
  if !m.node.isEmpty && m.highbit > 0 && decide (Ebitmap.highestSetBit m ≥ f.nprim) then false
  else if Ebitmap.matchAny m f.gaps then false
  else true

/-- `ebitmap_is_empty`, ebitmap.h:42. -/
def isEmpty (m : Ebitmap.Ebitmap) : Bool := m.node.isEmpty

/-- `validate_empty_type_set`, policydb_validate.c:154-167. -/
def validateEmptyTypeSet (s : TypeSet) : Bool := isEmpty s.types && isEmpty s.negset && s.flags == 0

/-- `validate_type_set`, policydb_validate.c:132-152; TYPE_STAR 1, TYPE_COMP 2. -/
def validateTypeSet (s : TypeSet) (f : Flavor) : Bool :=
  validateEbitmap s.types f && validateEbitmap s.negset f && (s.flags == 0 || s.flags == 1 || s.flags == 2)

/-- The three `validate_t` used by constraints. -/
structure Flavors where
  users : Flavor
  roles : Flavor
  types : Flavor

/-- Case CEXPR_NAMES without the depth check, policydb_validate.c:265-304. -/
def validateNames (fl : Flavors) (isVT : Bool) (e : CExpr) : Bool :=
  if band e.attr XTARGET && !isVT then false
  else if !(band e.attr TYPE) && !validateEmptyTypeSet e.typeNames then false
  else if !(e.op == EQ || e.op == NEQ) then false
  else if e.attr = USER ∨ e.attr = USER ||| TARGET ∨ e.attr = USER ||| XTARGET then validateEbitmap e.names fl.users
  else if e.attr = ROLE ∨ e.attr = ROLE ||| TARGET ∨ e.attr = ROLE ||| XTARGET then validateEbitmap e.names fl.roles
  else if e.attr = TYPE ∨ e.attr = TYPE ||| TARGET ∨ e.attr = TYPE ||| XTARGET then
    validateEbitmap e.names fl.types && validateTypeSet e.typeNames fl.types
  else false

/-- Case CEXPR_ATTR without the depth check, policydb_validate.c:310-342. -/
def validateAttr (e : CExpr) : Bool :=
  if !isEmpty e.names then false
  else if !validateEmptyTypeSet e.typeNames then false
  else if !(if e.op = EQ ∨ e.op = NEQ then true
    else if e.op = DOM ∨ e.op = DOMBY ∨ e.op = INCOMP then !(band e.attr USER || band e.attr TYPE)
    else false) then false
  else e.attr == USER || e.attr == ROLE || e.attr == TYPE || e.attr == L1L2 || e.attr == L1H2 || e.attr == H1L2 ||
    e.attr == H1H2 || e.attr == L1H1 || e.attr == L2H2

/-- The checks after the operator cases, policydb_validate.c:358-365. -/
def validateOperator (e : CExpr) : Bool :=
  e.op == 0 && e.attr == 0 && isEmpty e.names && validateEmptyTypeSet e.typeNames

/-- The loop over one expression, policydb_validate.c:259-370, with `depth`. -/
def validateExpr (fl : Flavors) (isVT : Bool) : List CExpr → Int → Bool
  | [], depth => depth == 0
  | e :: l, depth =>
    if e.exprType = NAMES then
      if depth ≥ (MAXDEPTH : Int) - 1 then false
      else if !validateNames fl isVT e then false
      else validateExpr fl isVT l (depth + 1)
    else if e.exprType = ATTR then
      if depth ≥ (MAXDEPTH : Int) - 1 then false
      else if !validateAttr e then false
      else validateExpr fl isVT l (depth + 1)
    else if e.exprType = NOT then
      if depth < 0 then false
      else if !validateOperator e then false
      else validateExpr fl isVT l depth
    else if e.exprType = AND ∨ e.exprType = OR then
      if depth < 1 then false
      else if !validateOperator e then false
      else validateExpr fl isVT l (depth - 1)
    else false

/-- `validate_constraint_nodes`, policydb_validate.c:238-379 (true is success); `nperms` is
UINT32_MAX for validatetrans rules; PERM_SYMTAB_SIZE is 32. -/
def validateConstraints (fl : Flavors) (nperms : Nat) (cons : List Constraint) : Bool :=
  let isVT := nperms == 2 ^ 32 - 1
  if !cons.isEmpty && nperms == 0 then false
  else cons.all (fun c =>
    if isVT && c.perms != 0 then false
    else if !isVT && c.perms == 0 then false
    else if !isVT && nperms != 32 && decide (c.perms.toNat ≥ 2 ^ nperms) then false
    else if c.expr.isEmpty then false
    else validateExpr fl isVT c.expr (-1))

end Verif.Services
