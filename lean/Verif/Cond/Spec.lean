import Verif.Cond.Model

/-!
# Specification of boolean expressions and conditionals
-/

namespace Verif.Cond

/-- Abstract syntax of boolean expressions. -/
inductive BExpr
  | var (n : Nat)
  | not (a : BExpr)
  | or (a b : BExpr)
  | and (a b : BExpr)
  | xor (a b : BExpr)
  | eq (a b : BExpr)
  | neq (a b : BExpr)
deriving DecidableEq, Repr

/-- Meaning of an expression. -/
def BExpr.val (σ : State) : BExpr → Bool
  | .var n => σ n
  | .not a => !a.val σ
  | .or a b => a.val σ || b.val σ
  | .and a b => a.val σ && b.val σ
  | .xor a b => Bool.xor (a.val σ) (b.val σ)
  | .eq a b => decide (a.val σ = b.val σ)
  | .neq a b => decide (a.val σ ≠ b.val σ)

/-- Reverse polish notation. -/
def BExpr.postfix : BExpr → List Tok
  | .var n => [.bool n]
  | .not a => a.postfix ++ [.not]
  | .or a b => a.postfix ++ b.postfix ++ [.or]
  | .and a b => a.postfix ++ b.postfix ++ [.and]
  | .xor a b => a.postfix ++ b.postfix ++ [.xor]
  | .eq a b => a.postfix ++ b.postfix ++ [.eq]
  | .neq a b => a.postfix ++ b.postfix ++ [.neq]

/-- Stack cells needed to evaluate the postfix form from left to right. -/
def BExpr.need : BExpr → Nat
  | .var _ => 1
  | .not a => a.need
  | .or a b => max a.need (1 + b.need)
  | .and a b => max a.need (1 + b.need)
  | .xor a b => max a.need (1 + b.need)
  | .eq a b => max a.need (1 + b.need)
  | .neq a b => max a.need (1 + b.need)

/-- The booleans occurring in an expression. -/
def BExpr.vars : BExpr → List Nat
  | .var n => [n]
  | .not a => a.vars
  | .or a b => a.vars ++ b.vars
  | .and a b => a.vars ++ b.vars
  | .xor a b => a.vars ++ b.vars
  | .eq a b => a.vars ++ b.vars
  | .neq a b => a.vars ++ b.vars

/-- The rules a conditional `if (t) trueList else falseList` selects. -/
def selected (σ : State) (t : BExpr) (trueList falseList : List Nat) : List Nat :=
  if t.val σ then trueList else falseList

/-- The row of the truth table of `ids` that corresponds to `τ`: the first boolean is
the least significant bit. -/
def row (τ : State) : List Nat → Nat
  | [] => 0
  | b :: l => (if τ b then 1 else 0) + 2 * row τ l

/-- What normalisation promises about a conditional with expression `t`: its booleans
are listed once each, and up to five of them the table gives the value of `t` in
every row and has no other bit set. -/
def Prepared (n : Node) (t : BExpr) : Prop :=
  n.expr = t.postfix ∧ t.need ≤ maxDepth ∧ n.boolIds.Nodup ∧ n.boolIds.length = min n.nbools maxBools ∧
  (n.nbools ≤ maxBools → ∀ b, b ∈ n.boolIds ↔ b ∈ t.vars) ∧
  (n.nbools ≤ maxBools → ∀ τ, n.preComp.getLsbD (row τ n.boolIds) = t.val τ) ∧
  (n.nbools ≤ maxBools → ∀ i, 2 ^ n.nbools ≤ i → n.preComp.getLsbD i = false)

/-- Renaming of the booleans of an expression. -/
def BExpr.rename (f : Nat → Nat) : BExpr → BExpr
  | .var n => .var (f n)
  | .not a => .not (a.rename f)
  | .or a b => .or (a.rename f) (b.rename f)
  | .and a b => .and (a.rename f) (b.rename f)
  | .xor a b => .xor (a.rename f) (b.rename f)
  | .eq a b => .eq (a.rename f) (b.rename f)
  | .neq a b => .neq (a.rename f) (b.rename f)

/-- Rule `r` is selected under `τ` by one of the conditionals of a policy. -/
def SelectedBy (τ : State) (nodes : List Node) (r : Nat) : Prop :=
  ∃ n ∈ nodes, (evaluate τ n.expr = some true ∧ r ∈ n.trueList) ∨
    (evaluate τ n.expr = some false ∧ r ∈ n.falseList)

/-- Every rule belongs to one list of one conditional, once. -/
def OwnRules (nodes : List Node) : Prop :=
  (nodes.flatMap (fun n => n.trueList ++ n.falseList)).Nodup

/-- Every conditional has recorded its value under `σ`, and its rules are switched
accordingly: the true list is enabled iff the value is true, the false list iff
it is false (so none if the expression is undefined). -/
def Consistent (σ : State) (nodes : List Node) (en : Nat → Bool) : Prop :=
  ∀ n ∈ nodes, n.curState = toInt (evaluate σ n.expr) ∧
    (∀ r ∈ n.trueList, en r = true ↔ evaluate σ n.expr = some true) ∧
    (∀ r ∈ n.falseList, en r = true ↔ evaluate σ n.expr = some false)

/-- A call of the boolean-setting API. -/
structure SetCall where
  bool : Nat
  value : Int

/-- A history of calls; refused calls change nothing. -/
def runCalls (p : CondPolicy) : List SetCall → CondPolicy
  | [] => p
  | c :: cs => runCalls ((boolSet p c.bool c.value).getD p) cs

/-- The booleans after the history: the last accepted assignment wins. -/
def finalBools (σ : State) : List SetCall → State
  | [] => σ
  | c :: cs => finalBools (fun n => if n = c.bool ∧ (c.value = 0 ∨ c.value = 1) then decide (c.value = 1) else σ n) cs

end Verif.Cond
