import Verif.CilBin.Model
import Verif.CilCond.Model
import Verif.Services.Constraint

/-!
# Model of the constraints of CIL

The statements `constrain`, `mlsconstrain`, `validatetrans` and `mlsvalidatetrans`: reading the
expression, libsepol/cil/src/cil_build_ast.c:2740-2922 with cil_verify.c:253-363, finding the names in
it, cil_resolve_ast.c:3152-3241, and compiling the statement, cil_binary.c:2756-3245.

The statements are taken one after another through all of these; in the code all statements are read
before the first name is looked up and so on, which makes no difference to the result as the first error
ends all.  Class permissions are trees as in `CilDeny.Model`, and looking up a name from the place of the
statement is a parameter.  Allocation succeeds, messages are left out, and `none` is a return code other
than `SEPOL_OK`.
-/

namespace Verif.CilConstr
open Ebitmap (Ebitmap)
open CilCond (Tree Syn verifySyntax)
open CilDeny (CP MP)
open Services (CExpr Constraint TypeSet)

/-! ### Reading an expression -/

/-- The operators of constraints, cil_flavor.h. -/
inductive Op where
  | and | or | not | eq | neq | dom | domby | incomp
deriving DecidableEq

/-- `__cil_get_constraint_operator_flavor`, cil_build_ast.c:2740-2751; `none` is `CIL_NONE`. -/
def opOf (s : String) : Option Op :=
  if s = "and" then some .and
  else if s = "or" then some .or
  else if s = "not" then some .not
  else if s = "eq" then some .eq
  else if s = "neq" then some .neq
  else if s = "dom" then some .dom
  else if s = "domby" then some .domby
  else if s = "incomp" then some .incomp
  else none

/-- The operands that are keywords, cil_flavor.h. -/
inductive Operand where
  | t1 | t2 | t3 | r1 | r2 | r3 | u1 | u2 | u3 | l1 | l2 | h1 | h2
deriving DecidableEq

/-- The keywords in `__cil_get_constraint_operand_flavor`, cil_build_ast.c:2753-2770. -/
def keyword (s : String) : Option Operand :=
  if s = "t1" then some .t1
  else if s = "t2" then some .t2
  else if s = "t3" then some .t3
  else if s = "r1" then some .r1
  else if s = "r2" then some .r2
  else if s = "r3" then some .r3
  else if s = "u1" then some .u1
  else if s = "u2" then some .u2
  else if s = "u3" then some .u3
  else if s = "l1" then some .l1
  else if s = "l2" then some .l2
  else if s = "h1" then some .h1
  else if s = "h2" then some .h2
  else none

/-- The flavor of an operand: a keyword, `CIL_STRING` or `CIL_LIST`. -/
inductive OperandFlavor where
  | key (o : Operand)
  | string
  | list
deriving DecidableEq

/-- `__cil_get_constraint_operand_flavor`, cil_build_ast.c:2753-2770. -/
def operandFlavor : Tree → OperandFlavor
  | .list _ => .list
  | .atom s =>
    match keyword s with
    | some o => .key o
    | none => .string

/-- The flavor of the list of a leaf: what the names in it are names of, or `CIL_LEVEL`. -/
inductive Flavor where
  | user | role | type | level
deriving DecidableEq

/-- The first `switch` of `__cil_fill_constraint_leaf_expr`, cil_build_ast.c:2782-2806. -/
def Operand.flavor : Operand → Flavor
  | .u1 | .u2 | .u3 => .user
  | .r1 | .r2 | .r3 => .role
  | .t1 | .t2 | .t3 => .type
  | .l1 | .l2 | .h1 | .h2 => .level

/-- `cil_verify_constraint_leaf_expr_syntax`, cil_verify.c:253-315; `vt` is whether the statement is a
`validatetrans` or `mlsvalidatetrans`. -/
def verifyLeaf (vt : Bool) (l : Operand) (r : OperandFlavor) (op : Op) : Bool :=
  match r with
  | .string | .list =>
    if l = .l1 ∨ l = .l2 ∨ l = .h1 ∨ l = .h2 then false
    else if l = .u3 ∨ l = .r3 ∨ l = .t3 then vt
    else true
  | .key r =>
    if r = .u1 ∨ r = .r1 ∨ r = .t1 then false
    else if r = .u3 ∨ r = .r3 ∨ r = .t3 then false
    else if r = .u2 then
      if op ≠ .eq ∧ op ≠ .neq then false else decide (l = .u1)
    else if r = .r2 then decide (l = .r1)
    else if r = .t2 then
      if op ≠ .eq ∧ op ≠ .neq then false else decide (l = .t1)
    else if r = .l2 then decide (l = .l1 ∨ l = .h1)
    else if r = .h2 then decide (l = .l1 ∨ l = .l2 ∨ l = .h1)
    else if r = .h1 then decide (l = .l1)
    else true

/-- `cil_verify_constraint_expr_syntax`, cil_verify.c:317-363. -/
def verifyExpr (l : List Tree) : Op → Bool
  | .not => verifySyntax l [{ string := true }, { list := true }, { stop := true }]
  | .and | .or => verifySyntax l [{ string := true }, { list := true }, { list := true }, { stop := true }]
  | .eq | .neq => verifySyntax l [{ string := true }, { string := true }, { string := true, list := true }, { stop := true }]
  | .dom | .domby | .incomp => verifySyntax l [{ string := true }, { string := true }, { string := true }, { stop := true }]

/-- The right operand of a leaf: `CIL_CONS_OPERAND`, `CIL_STRING` or `CIL_DATUM`, and `CIL_LIST`. -/
inductive Right (α : Type) where
  | key (o : Operand)
  | one (a : α)
  | list (l : List α)

/-- The lists made of an expression, `struct cil_list`: one for each leaf, with its flavor, and one for each
`not`, `and` and `or`. -/
inductive Cons (α : Type) where
  | leaf (f : Flavor) (op : Op) (l : Operand) (r : Right α)
  | not (a : Cons α)
  | and (a b : Cons α)
  | or (a b : Cons α)

/-- The string of a node of the parse tree. -/
def str : Tree → String
  | .atom s => s
  | .list _ => ""

/-- `cil_fill_list`, cil_build_ast.c:59-83. -/
def fillList (l : List Tree) : Option (List String) :=
  if verifySyntax l [{ nStrings := true }, { stop := true }] then some (l.map str) else none

/-- `__cil_fill_constraint_leaf_expr`, cil_build_ast.c:2772-2838, with the two operands. -/
def fillLeaf (vt : Bool) (op : Op) (l r : Tree) : Option (Cons String) :=
  match operandFlavor l with
  | .key o =>
    if !verifyLeaf vt o (operandFlavor r) op then none
    else
      match operandFlavor r with
      | .key k => some (.leaf o.flavor op o (.key k))
      | .string => some (.leaf o.flavor op o (.one (str r)))
      | .list =>
        match r with
        | .atom _ => none
        | .list ts => (fillList ts).map fun ns => .leaf o.flavor op o (.list ns)
  | _ => none

/-- `__cil_fill_constraint_expr`, cil_build_ast.c:2840-2900, with `cil_gen_constraint_expr`, 2902-2922:
a node that is a string has no children. -/
def fill (vt : Bool) : Tree → Option (Cons String)
  | .atom _ => none
  | .list [] => none
  | .list (.list _ :: _) => none
  | .list (.atom s :: l) =>
    match opOf s with
    | none => none
    | some op =>
      if !verifyExpr (.atom s :: l) op then none
      else
        match l with
        | [] => none
        | a :: l' =>
          match op with
          | .not => (fill vt a).map .not
          | .and =>
            match l' with
            | [] => none
            | b :: _ => (fill vt a).bind fun x => (fill vt b).map fun y => .and x y
          | .or =>
            match l' with
            | [] => none
            | b :: _ => (fill vt a).bind fun x => (fill vt b).map fun y => .or x y
          | op =>
            match l' with
            | [] => none
            | b :: _ => fillLeaf vt op a b

/-! ### Names -/

/-- A symbol for users, roles or types: one of them, by its number, or an attribute with its members; for a
type attribute also whether it is to be an attribute of the binary policy and its value there. -/
inductive Datum where
  | one (i : Nat)
  | attr (members : Ebitmap) (keep : Bool) (value : Option Nat)

/-- The names of a list, with `cil_resolve_name`. -/
def resolveNames (look : String → Option Datum) : List String → Option (List Datum)
  | [] => some []
  | s :: l => (look s).bind fun d => (resolveNames look l).map fun ds => d :: ds

/-- `cil_resolve_expr`, cil_resolve_ast.c:3152-3241: names are looked up in the table that the flavor of
the list tells; there is none for levels. -/
def resolve (look : Flavor → String → Option Datum) : Cons String → Option (Cons Datum)
  | .leaf f op l (.key k) => some (.leaf f op l (.key k))
  | .leaf f op l (.one s) => (look f s).map fun d => .leaf f op l (.one d)
  | .leaf f op l (.list ss) => (resolveNames (look f) ss).map fun ds => .leaf f op l (.list ds)
  | .not a => (resolve look a).map .not
  | .and a b => (resolve look a).bind fun x => (resolve look b).map fun y => .and x y
  | .or a b => (resolve look a).bind fun x => (resolve look b).map fun y => .or x y

/-! ### The expression of the policy -/

/-- The parts of `struct cil_db` and of the policy that are used: classes and permissions as in
`CilBin.Db`, the values in the policy of the users, roles and types by their numbers, and whether the
version of the policy is at least `POLICYDB_VERSION_CONSTRAINT_NAMES`. -/
structure Db where
  bin : CilBin.Db
  user : Nat → Option Nat
  role : Nat → Option Nat
  type : Nat → Option Nat
  withNames : Bool

/-- `__cil_get_sepol_user_datum` and its like, cil_binary.c:81-121, of `db->val_to_user[i]` and its like. -/
def Db.value (db : Db) : Flavor → Nat → Option Nat
  | .user => db.user
  | .role => db.role
  | .type => db.type
  | .level => fun _ => none

/-- `__cil_expand_user`, `__cil_expand_role` and `__cil_expand_type`, cil_binary.c:156-236. -/
def expandDatum : Datum → Option Ebitmap
  | .attr m _ _ => some (Ebitmap.cpy m)
  | .one i => Ebitmap.setBit Ebitmap.init i true

/-- The loops of `__cil_constrain_expr_datum_to_sepol_expr`, cil_binary.c:2769-2780, 2791-2802 and
2832-2843. -/
def setNames (val : Nat → Option Nat) : List Nat → Ebitmap → Option Ebitmap
  | [], e => some e
  | i :: l, e => (val i).bind fun v => (Ebitmap.setBit e (v - 1) true).bind fun e => setNames val l e

/-- The name of a type itself, cil_binary.c:2810-2827. -/
def setTypeName (db : Db) (d : Datum) (ts : TypeSet) : Option TypeSet :=
  if !db.withNames then some ts
  else
    match d with
    | .one i => (db.type i).bind fun v => (Ebitmap.setBit ts.types (v - 1) true).map fun e => { ts with types := e }
    | .attr _ keep value =>
      match value with
      | none => if keep then none else some ts
      | some v => (Ebitmap.setBit ts.types (v - 1) true).map fun e => { ts with types := e }

/-- `__cil_constrain_expr_datum_to_sepol_expr`, cil_binary.c:2756-2854. -/
def datumToSepol (db : Db) (f : Flavor) (d : Datum) (e : CExpr) : Option CExpr :=
  match f with
  | .user | .role =>
    ((expandDatum d).bind CilBin.bits).bind fun l =>
      (setNames (db.value f) l e.names).map fun n => { e with names := n }
  | .type =>
    (setTypeName db d e.typeNames).bind fun ts =>
      ((expandDatum d).bind CilBin.bits).bind fun l =>
        (setNames (db.value f) l e.names).map fun n => { e with names := n, typeNames := ts }
  | .level => none

/-- The loop over the names, cil_binary.c:2932-2938. -/
def datumsToSepol (db : Db) (f : Flavor) : List Datum → CExpr → Option CExpr
  | [], e => some e
  | d :: l, e => (datumToSepol db f d e).bind fun e => datumsToSepol db f l e

/-- The `switch` over the left operand, cil_binary.c:2864-2919; `none` is the error.  The right operand is
looked at as if it was a keyword. -/
def attrOf (l : Operand) (r : Option Operand) : Option Nat :=
  match l with
  | .u1 => some Services.USER
  | .u2 => some (Services.USER ||| Services.TARGET)
  | .u3 => some (Services.USER ||| Services.XTARGET)
  | .r1 => some Services.ROLE
  | .r2 => some (Services.ROLE ||| Services.TARGET)
  | .r3 => some (Services.ROLE ||| Services.XTARGET)
  | .t1 => some Services.TYPE
  | .t2 => some (Services.TYPE ||| Services.TARGET)
  | .t3 => some (Services.TYPE ||| Services.XTARGET)
  | .l1 => some (if r = some .l2 then Services.L1L2 else if r = some .h1 then Services.L1H1 else Services.L1H2)
  | .l2 => some Services.L2H2
  | .h1 => some (if r = some .l2 then Services.H1L2 else Services.H1H2)
  | .h2 => none

/-- The keyword that is the right operand. -/
def Right.operand {α : Type} : Right α → Option Operand
  | .key o => some o
  | _ => none

/-- `__cil_constrain_expr_leaf_to_sepol_expr`, cil_binary.c:2856-2949. -/
def leafToSepol (db : Db) (f : Flavor) (l : Operand) (r : Right Datum) (e : CExpr) : Option CExpr :=
  match attrOf l r.operand with
  | none => none
  | some a =>
    match r with
    | .key _ => some { e with attr := a, exprType := Services.ATTR }
    | .one d => datumToSepol db f d { e with attr := a, exprType := Services.NAMES }
    | .list ds => datumsToSepol db f ds { e with attr := a, exprType := Services.NAMES }

/-- `constraint_expr_init`, constraint.c:28-37. -/
def exprInit : CExpr := ⟨0, 0, 0, Ebitmap.init, ⟨Ebitmap.init, Ebitmap.init, 0⟩⟩

/-- The `switch` over the operator, cil_binary.c:2973-3006, for leaves. -/
def opCode : Op → Nat
  | .eq => Services.EQ
  | .neq => Services.NEQ
  | .dom => Services.DOM
  | .domby => Services.DOMBY
  | .incomp => Services.INCOMP
  | _ => 0

/-- `__cil_constrain_expr_to_sepol_expr_helper`, cil_binary.c:2951-3047, with
`__cil_constrain_expr_to_sepol_expr`, 3049-3063. -/
def toSepol (db : Db) : Cons Datum → Option (List CExpr)
  | .leaf f op l r => (leafToSepol db f l r { exprInit with op := opCode op }).map fun e => [e]
  | .not a => (toSepol db a).map fun x => x ++ [{ exprInit with exprType := Services.NOT }]
  | .and a b =>
    (toSepol db a).bind fun x => (toSepol db b).map fun y => x ++ (y ++ [{ exprInit with exprType := Services.AND }])
  | .or a b =>
    (toSepol db a).bind fun x => (toSepol db b).map fun y => x ++ (y ++ [{ exprInit with exprType := Services.OR }])

/-- The loop of `__cil_validate_constrain_expr`, cil_binary.c:3065-3105 (true is success). -/
def validate : List CExpr → Int → Bool
  | [], depth => depth == 0
  | e :: l, depth =>
    if e.exprType = Services.NOT then
      if depth < 0 then false else validate l depth
    else if e.exprType = Services.AND ∨ e.exprType = Services.OR then
      if depth < 1 then false else validate l (depth - 1)
    else if e.exprType = Services.ATTR ∨ e.exprType = Services.NAMES then
      if depth = (Services.MAXDEPTH : Int) - 1 then false else validate l (depth + 1)
    else false

/-! ### Statements -/

/-- The lists of constraints of the classes of the policy, by their values. -/
structure State where
  cons : Nat → List Constraint
  vt : Nat → List Constraint

/-- `cil_constrain_to_policydb_helper`, cil_binary.c:3107-3151. -/
def constrainHelper (db : Db) (c : Nat) (ps : List Nat) (expr : Cons Datum) (st : State) : Option State :=
  match db.bin.classVal c with
  | none => none
  | some cv =>
    match CilBin.permsToDatum db.bin c ps 0#32 with
    | none => none
    | some perms =>
      if perms = 0#32 then some st
      else
        match toSepol db expr with
        | none => none
        | some l =>
          if !validate l (-1) then none
          else some { st with cons := fun v => if v = cv then ⟨perms, l⟩ :: st.cons v else st.cons v }

mutual
/-- `cil_constrain_expand`, cil_binary.c:3153-3189. -/
def constrainExpand (db : Db) (expr : Cons Datum) : List CP → State → Option State
  | [], st => some st
  | x :: xs, st => (constrainItem db expr x st).bind fun st => constrainExpand db expr xs st
/-- One item of `cil_constrain_expand`. -/
def constrainItem (db : Db) (expr : Cons Datum) : CP → State → Option State
  | .cls c ps, st => constrainHelper db c ps expr st
  | .map _ ms, st => constrainMap db expr ms st
  | .set _ l, st => constrainExpand db expr l st
/-- The loop over the permissions of a class map. -/
def constrainMap (db : Db) (expr : Cons Datum) : List MP → State → Option State
  | [], st => some st
  | .mk _ l :: ms, st => (constrainExpand db expr l st).bind fun st => constrainMap db expr ms st
end

/-- The class of a `validatetrans`: a class, or a class map with its permissions. -/
inductive ClassRef where
  | cls (c : Nat)
  | map (ms : List MP)

mutual
/-- `__add_classes_from_classperms_list`, cil_find.c:350-372. -/
def classesOf : List CP → List Nat
  | [] => []
  | x :: xs => classesOfItem x ++ classesOf xs
/-- One item of it. -/
def classesOfItem : CP → List Nat
  | .cls c _ => [c]
  | .map _ ms => classesOfMap ms
  | .set _ l => classesOf l
/-- The loop over the permissions of a class map, also `__add_classes_from_map_perms`, cil_find.c:374-382. -/
def classesOfMap : List MP → List Nat
  | [] => []
  | .mk _ l :: ms => classesOf l ++ classesOfMap ms
end

/-- `cil_expand_class`, cil_find.c:384-397. -/
def expandClass : ClassRef → List Nat
  | .cls c => [c]
  | .map ms => classesOfMap ms

/-- The loop of `cil_validatetrans_to_policydb`, cil_binary.c:3207-3245. -/
def validatetransLoop (db : Db) (expr : Cons Datum) : List Nat → State → Option State
  | [], st => some st
  | c :: l, st =>
    match db.bin.classVal c with
    | none => none
    | some cv =>
      match toSepol db expr with
      | none => none
      | some e =>
        validatetransLoop db expr l { st with vt := fun v => if v = cv then ⟨0#32, e⟩ :: st.vt v else st.vt v }

/-- A statement: `constrain` or `mlsconstrain`, `validatetrans` or `mlsvalidatetrans`, with what its class
permissions or class stand for, and its expression. -/
inductive Stmt where
  | constrain (perms : List CP) (expr : Tree)
  | validatetrans (cls : ClassRef) (expr : Tree)

/-- One statement: `cil_gen_constrain`, cil_build_ast.c:3905-3945, or `cil_gen_validatetrans`, 3962-4000,
`cil_resolve_constrain` or `cil_resolve_validatetrans`, cil_resolve_ast.c:1702-1744, and
`cil_constrain_to_policydb`, cil_binary.c:3191-3205, or `cil_validatetrans_to_policydb`. -/
def stmt (db : Db) (look : Flavor → String → Option Datum) : Stmt → State → Option State
  | .constrain cp t, st =>
    ((fill false t).bind (resolve look)).bind fun e => constrainExpand db e cp st
  | .validatetrans c t, st =>
    ((fill true t).bind (resolve look)).bind fun e => validatetransLoop db e (expandClass c) st

/-- All statements of a policy. -/
def stmts (db : Db) (look : Flavor → String → Option Datum) : List Stmt → State → Option State
  | [], st => some st
  | s :: l, st => (stmt db look s st).bind fun st => stmts db look l st

/-- The constraints of a policy. -/
def compile (db : Db) (look : Flavor → String → Option Datum) (l : List Stmt) : Option State :=
  stmts db look l ⟨fun _ => [], fun _ => []⟩

end Verif.CilConstr
