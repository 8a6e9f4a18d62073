import Verif.Prelude

/-!
# Model of libsepol/src/conditional.c and booleans.c

The current values of the booleans are a function from the (1-based) boolean value
to `Bool`: `bool_isvalid` (conditional.c:560-565) and `bool_update`
(booleans.c:36-39) only let the integers 0 and 1 in, and expressions only refer to
existing booleans (`expr_isvalid`, conditional.c:740 and policydb_validate.c).
Rules are identified by numbers (addresses of avtab nodes); whether a rule is
enabled (AVTAB_ENABLED in `key.specified`) is a function of the number.
-/

namespace Verif.Cond

/-- COND_EXPR_MAXDEPTH, conditional.h:33. -/
def maxDepth : Nat := 10

/-- COND_MAX_BOOLS, conditional.h:41. -/
def maxBools : Nat := 5

/-- `cond_expr_t`, conditional.h:47-61; `bad` stands for every unknown `expr_type`. -/
inductive Tok
  | bool (n : Nat)
  | not
  | or
  | and
  | xor
  | eq
  | neq
  | bad
deriving DecidableEq, Repr

/-- Current boolean values, `p->bool_val_to_struct[n - 1]->state`. -/
abbrev State := Nat → Bool

/-- The two-operand cases of the switch, conditional.c:233-262, on the operands
`s[sp-1]` and `s[sp]`. -/
def binop (t : Tok) (a b : Bool) : Bool :=
  match t with
  | .or => a || b
  | .and => a && b
  | .xor => a != b
  | .eq => a == b
  | .neq => a != b
  | _ => false

/-- Loop of `cond_evaluate_expr`, conditional.c:220-266; the stack has its top first.
`none` is the early return of -1. -/
def run (σ : State) : List Tok → List Bool → Option (List Bool)
  | [], s => some s
  | .bool n :: l, s => if s.length = maxDepth then none else run σ l (σ n :: s)
  | .not :: l, s => match s with
    | [] => none
    | a :: s => run σ l ((!a) :: s)
  | .bad :: _, _ => none
  | t :: l, s => match s with
    | b :: a :: s => run σ l (binop t a b :: s)
    | _ => none

/-- `cond_evaluate_expr`, conditional.c:211-268: the return value is `s[0]`, the bottom
of the stack, which is -1 (`none`) if nothing was pushed. -/
def evaluate (σ : State) (e : List Tok) : Option Bool :=
  match run σ e [] with
  | none => none
  | some s => s.getLast?

/-- The `int` returned by `cond_evaluate_expr`. -/
def toInt : Option Bool → Int
  | none => -1
  | some false => 0
  | some true => 1

/-- `cond_node_t`, conditional.h:80-97.  `boolIds` holds the used entries of
`bool_ids`. -/
structure Node where
  curState : Int
  expr : List Tok
  trueList : List Nat
  falseList : List Nat
  avTrue : List Nat
  avFalse : List Nat
  nbools : Nat
  boolIds : List Nat
  preComp : BitVec 32
  flags : Nat
deriving DecidableEq, Repr

/-! ## Evaluation of the conditionals of a policy -/

/-- The conditional part of a policy. -/
structure CondPolicy where
  bools : State
  enabled : Nat → Bool
  nodes : List Node

/-- Turn the rules of a list on or off, conditional.c:320-335. -/
def switch (l : List Nat) (on : Bool) (en : Nat → Bool) : Nat → Bool :=
  fun r => if r ∈ l then on else en r

/-- `evaluate_cond_node`, conditional.c:309-338. -/
def evaluateNode (σ : State) (n : Node) (en : Nat → Bool) : Node × (Nat → Bool) :=
  let new := toInt (evaluate σ n.expr)
  if new ≠ n.curState then
    ({ n with curState := new },
     switch n.falseList (decide (new = 0)) (switch n.trueList (decide (new > 0)) en))
  else (n, en)

/-- `evaluate_conds`, conditional.c:440-451. -/
def evaluateConds (σ : State) : List Node → (Nat → Bool) → List Node × (Nat → Bool)
  | [], en => ([], en)
  | n :: l, en =>
    let r := evaluateNode σ n en
    let r' := evaluateConds σ l r.2
    (r.1 :: r'.1, r'.2)

/-- `sepol_bool_set`, booleans.c:82-104, on a boolean found in the policy; `v` is the
integer of the record, other values than 0 and 1 are refused (booleans.c:36-39). -/
def boolSet (p : CondPolicy) (b : Nat) (v : Int) : Option CondPolicy :=
  if v ≠ 0 ∧ v ≠ 1 then none
  else
    let σ : State := fun n => if n = b then decide (v = 1) else p.bools n
    let r := evaluateConds σ p.nodes p.enabled
    some { bools := σ, enabled := r.2, nodes := r.1 }

/-! ## Normalisation and comparison -/

/-- `bool_present`, conditional.c:62-76. -/
def boolPresent (target : Nat) (bools : List Nat) (numBools : Nat) : Bool :=
  if numBools > maxBools then false else (bools.take numBools).contains target

/-- The loop collecting the booleans of an expression, conditional.c:387-402. -/
def collect : List Tok → List Nat → Nat → List Nat × Nat
  | [], ids, n => (ids, n)
  | .bool b :: l, ids, n =>
    if boolPresent b ids n then collect l ids n
    else if n < maxBools then collect l (ids ++ [b]) (n + 1)
    else collect l ids (n + 1)
  | _ :: l, ids, n => collect l ids n

/-- Setting the booleans `ids` from the bits of `test`, conditional.c:416-420; `j` is the
index of the first one. -/
def setBits (test : Nat) : List Nat → Nat → State → State
  | [], _, σ => σ
  | b :: l, j, σ => setBits test l (j + 1) (fun n => if n = b then test.testBit j else σ n)

/-- Restoring the saved values, conditional.c:433-435. -/
def restore : List (Nat × Bool) → State → State
  | [], σ => σ
  | (b, v) :: l, σ => restore l (fun n => if n = b then v else σ n)

/-- The precomputation loop, conditional.c:413-430, for `k` more values of `test`:
final booleans, table and whether the loop ran to its end. -/
def precompute (e : List Tok) (ids : List Nat) : Nat → Nat → State → BitVec 32 → State × BitVec 32 × Bool
  | 0, _, σ, pc => (σ, pc, true)
  | k+1, test, σ, pc =>
    let σ := setBits test ids 0 σ
    match evaluate σ e with
    | none => (σ, pc, false)
    | some b => precompute e ids k (test + 1) σ (if b then pc ||| (1#32 <<< test) else pc)

/-- Outcome of `cond_normalize_expr`: new booleans, new node, success? -/
structure Norm where
  bools : State
  node : Node
  ok : Bool

/-- The second half of `cond_normalize_expr`, conditional.c:386-438, on a node whose
trailing negation has been removed. -/
def normalizeTail (σ : State) (n : Node) : Norm :=
  let c := collect n.expr [] 0
  let n := { n with boolIds := c.1, nbools := c.2, preComp := 0 }
  if c.2 ≤ maxBools then
    let orig := c.1.map (fun b => (b, σ b))
    let r := precompute n.expr c.1 (2 ^ c.2) 0 σ 0
    if r.2.2 then ⟨restore orig r.1, { n with preComp := r.2.1 }, true⟩
    else ⟨r.1, { n with preComp := r.2.1 }, false⟩
  else ⟨σ, n, true⟩

/-- `cond_normalize_expr`, conditional.c:344-438.  An empty expression would make the
code dereference NULL; it is never called with one (`none`). -/
def normalize (σ : State) (n : Node) : Option Norm :=
  match n.expr.getLast? with
  | none => none
  | some .not =>
    if n.expr.dropLast = [] then some ⟨σ, { n with boolIds := [], nbools := 0, preComp := 0 }, false⟩
    else some (normalizeTail σ { n with
      expr := n.expr.dropLast, trueList := n.falseList, falseList := n.trueList,
      avTrue := n.avFalse, avFalse := n.avTrue })
  | some _ => some (normalizeTail σ n)

/-- `same_bools`, conditional.c:78-93. -/
def sameBools (a b : Node) : Bool :=
  if a.nbools ≠ b.nbools then false
  else a.boolIds.all (fun x => boolPresent x b.boolIds a.nbools)

/-- Comparison of two expression elements, conditional.c:125-130. -/
def sameTok (a b : Tok) : Bool :=
  match a, b with
  | .bool x, .bool y => x == y
  | .bool _, _ => false
  | _, .bool _ => false
  | a, b => a == b

/-- The element-wise loop of `cond_expr_equal`, conditional.c:120-133. -/
def sameExpr : List Tok → List Tok → Bool
  | [], [] => true
  | a :: l, b :: m => sameTok a b && sameExpr l m
  | _, _ => false

/-- `cond_expr_equal`, conditional.c:98-135, on non-NULL nodes. -/
def exprEqual (a b : Node) : Bool :=
  if a.nbools ≠ b.nbools then false
  else if a.nbools ≤ maxBools ∧ b.nbools ≤ maxBools then
    if !sameBools a b then false else a.preComp == b.preComp
  else sameExpr a.expr b.expr

/-- `cond_node_find`, conditional.c:175-189: the index of the matching conditional, or
`none` if a new one has to be created. -/
def nodeFind (needle : Node) (haystack : List Node) : Option Nat :=
  haystack.findIdx? (fun n => exprEqual needle n)

/-- `cond_node_create`, conditional.c:142-168. -/
def nodeCreate (σ : State) (n : Node) : Node :=
  { curState := toInt (evaluate σ n.expr), expr := n.expr, trueList := [], falseList := [], avTrue := [],
    avFalse := [], nbools := n.nbools, boolIds := n.boolIds.take maxBools, preComp := n.preComp, flags := n.flags }

/-- `cond_node_map_bools`, expand.c:2024-2045, with the final normalisation. -/
def mapBools (σo : State) (f : Nat → Nat) (n : Node) : Option Norm :=
  normalize σo { n with
    expr := n.expr.map (fun t => match t with | .bool b => .bool (if b = 0 then 0 else f b) | t => t),
    boolIds := n.boolIds.map f }

/-- Appending the expanded rules to an existing conditional, expand.c:2097-2106; a source
rule keeps its number (the expansion of one rule to types is not modelled here). -/
def addRules (t f : List Nat) (n : Node) : Node :=
  { n with trueList := n.trueList ++ t, falseList := n.falseList ++ f }

/-- `cond_node_copy`, expand.c:2050-2109, for one conditional that is not a tunable:
`σb`, `σo` are the booleans of the base and of the output policy, `f` the boolean
map, `out` the conditionals of the output so far.  Uses `cond_node_search`,
conditional.c:192-203: a new conditional goes to the front. -/
def nodeCopy (σb σo : State) (f : Nat → Nat) (cn : Node) (out : List Node) : Option (List Node) :=
  match normalize σb cn with
  | none => none
  | some r =>
    if r.ok then
      match mapBools σo f (nodeCreate σb r.node) with
      | none => none
      | some r' =>
        if r'.ok then
          match nodeFind r'.node out with
          | some i => some (out.modify i (addRules r.node.avTrue r.node.avFalse))
          | none => some (addRules r.node.avTrue r.node.avFalse (nodeCreate σo r'.node) :: out)
        else none
    else none

/-! ## Reordering of the rule lists -/

/-- `cond_optimize`, conditional.c:31-49: `front` are the elements from `top` to `p`, the
remaining ones start at `cur`; `isType` tells whether a rule is a type rule.  The
relinking `p->next = cur->next; cur->next = top; top = cur` is modelled on lists. -/
def optimizeLoop (isType : Nat → Bool) : List Nat → List Nat → List Nat
  | front, [] => front
  | front, r :: rest =>
    if isType r ∧ front ≠ [] then optimizeLoop isType (r :: front) rest
    else optimizeLoop isType (front ++ [r]) rest

/-- `cond_optimize`, conditional.c:31-49. -/
def optimizeList (isType : Nat → Bool) (l : List Nat) : List Nat := optimizeLoop isType [] l

/-- `cond_optimize_lists`, conditional.c:52-60. -/
def optimizeLists (isType : Nat → Bool) (l : List Node) : List Node :=
  l.map (fun n => { n with trueList := optimizeList isType n.trueList, falseList := optimizeList isType n.falseList })

end Verif.Cond
