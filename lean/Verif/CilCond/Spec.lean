import Verif.CilCond.Model

/-!
# Specification of the conditionals of CIL

Independent of the functions of the model: the expressions as the language defines them, how they
are written, and what they mean.
-/

namespace Verif.CilCond
open Cond (State)

/-- The operators with two operands. -/
inductive Bin where
  | and
  | or
  | xor
  | eq
  | neq
deriving DecidableEq

/-- Expressions: a name, a negation, two expressions with an operator, or a list of one or more
expressions. -/
inductive Expr where
  | name (s : String)
  | not (e : Expr)
  | bin (o : Bin) (a b : Expr)
  | any (e : Expr) (es : List Expr)

/-- The word of an operator. -/
def Bin.word : Bin → String
  | .and => "and"
  | .or => "or"
  | .xor => "xor"
  | .eq => "eq"
  | .neq => "neq"

mutual
/-- How an expression is written. -/
def Expr.tree : Expr → Tree
  | .name s => .atom s
  | .not e => .list [.atom "not", e.tree]
  | .bin o a b => .list [.atom o.word, a.tree, b.tree]
  | .any e es => .list (e.tree :: Expr.trees es)
/-- How the expressions of a list are written. -/
def Expr.trees : List Expr → List Tree
  | [] => []
  | e :: es => e.tree :: Expr.trees es
end

/-- The words that are not names. -/
def reserved : List String := ["and", "or", "xor", "not", "eq", "neq", "all", "range"]

mutual
/-- The names in an expression, from left to right. -/
def Expr.names : Expr → List String
  | .name s => [s]
  | .not e => e.names
  | .bin _ a b => a.names ++ b.names
  | .any e es => e.names ++ Expr.namesOf es
/-- The names in the expressions of a list. -/
def Expr.namesOf : List Expr → List String
  | [] => []
  | e :: es => e.names ++ Expr.namesOf es
end

/-- No name is a reserved word. -/
def Expr.Ok (e : Expr) : Prop := ∀ s ∈ e.names, s ∉ reserved

/-- What an operator means. -/
def Bin.sem : Bin → Bool → Bool → Bool
  | .and, a, b => a && b
  | .or, a, b => a || b
  | .xor, a, b => decide (a ≠ b)
  | .eq, a, b => decide (a = b)
  | .neq, a, b => decide (a ≠ b)

mutual
/-- What an expression means when the names have the values `ρ`: a list is true if one of its
expressions is. -/
def Expr.val (ρ : String → Bool) : Expr → Bool
  | .name s => ρ s
  | .not e => !e.val ρ
  | .bin o a b => o.sem (a.val ρ) (b.val ρ)
  | .any e es => e.val ρ || Expr.valAny ρ es
/-- Whether one of the expressions of a list is true. -/
def Expr.valAny (ρ : String → Bool) : List Expr → Bool
  | [] => false
  | e :: es => e.val ρ || Expr.valAny ρ es
end

mutual
/-- How many values must be remembered to evaluate an expression from left to right. -/
def Expr.need : Expr → Nat
  | .name _ => 1
  | .not e => e.need
  | .bin _ a b => max a.need (1 + b.need)
  | .any e es => max e.need (Expr.needRest es)
/-- The same for the expressions of a list after the first: each is evaluated while the value of
those before it is remembered. -/
def Expr.needRest : List Expr → Nat
  | [] => 0
  | e :: es => max (1 + e.need) (Expr.needRest es)
end

/-- The elements of a list in the order of their first occurrences. -/
def firsts : List Nat → List Nat
  | [] => []
  | b :: l => b :: (firsts l).filter (fun x => x ≠ b)

/-- The values of names, when the booleans, which are found by `look`, have the values `τ`. -/
def env (look : String → Option Nat) (τ : State) (s : String) : Bool :=
  match look s with
  | some b => τ b
  | none => false

/-- The values of names, when tunables have the values `look`. -/
def tunEnv (look : String → Option Bool) (s : String) : Bool :=
  match look s with
  | some v => v
  | none => false

/-- Rule `r` is in the block that the statement `s` chooses when the names have the values `ρ`. -/
def Chooses (ρ : String → Bool) (s : Stmt) (r : Nat) : Prop :=
  ∃ e : Expr, e.Ok ∧ s.expr = e.tree ∧
    ∃ b ∈ s.blocks, b.1 = (if e.val ρ then "true" else "false") ∧ r ∈ b.2

/-- The blocks of a statement are a true block, a false block, or one of each in any order. -/
def BlocksOk (s : Stmt) : Prop :=
  ∃ t f, s.blocks = [("true", t)] ∨ s.blocks = [("false", f)] ∨ s.blocks = [("true", t), ("false", f)] ∨
    s.blocks = [("false", f), ("true", t)]

/-- The booleans in the expression of a statement, in the order of their first occurrences. -/
def Mentions (look : String → Option Nat) (s : Stmt) (bs : List Nat) : Prop :=
  ∃ e : Expr, e.Ok ∧ s.expr = e.tree ∧ bs = firsts (e.names.filterMap look)

/-- Statements whose expressions have the same booleans, five or fewer, mention them in the same
order. -/
def SameOrder (look : String → Option Nat) (l : List Stmt) : Prop :=
  ∀ s ∈ l, ∀ s' ∈ l, ∀ bs bs', Mentions look s bs → Mentions look s' bs' → bs.length ≤ 5 →
    (∀ b, b ∈ bs ↔ b ∈ bs') → bs = bs'

end Verif.CilCond
