import Verif.CilOrder.Model

/-!
# What the order statements ask for

An order statement lists symbols in the order in which their numbers shall increase.  An order of
the symbols agrees with the statements if it has no symbol twice and every statement is a
subsequence of it.
-/

namespace Verif.CilOrder

/-- The order agrees with the statements and has their symbols and no others. -/
structure Agrees (lists : List (List Nat)) (order : List Nat) : Prop where
  nodup : order.Nodup
  sub : ∀ l ∈ lists, l.Sublist order
  mem : ∀ x, x ∈ order ↔ ∃ l ∈ lists, x ∈ l

/-- Where an item of the list has the same neighbour before it in some statement, and the same
neighbour after it in some statement (no neighbour counting as a neighbour). -/
def Justified (lists : List (List Nat)) (complete : List Nat) : Prop :=
  ∀ a x b, complete = a ++ x :: b →
    (∃ l ∈ lists, ∃ p q, l = p ++ x :: q ∧ p.getLast? = a.getLast?) ∧
    (∃ l ∈ lists, ∃ p q, l = p ++ x :: q ∧ q.head? = b.head?)

/-- The unordered symbols in the order of their first appearance, without those that are in
`front`. -/
def leftOver (front : List Nat) (unordered : List (List Nat)) : List Nat :=
  (unordered.flatten.filter (· ∉ front)).eraseDups

/-- Every statement repeats part of the order so far, or repeats part of it up to its end and then
goes on with new symbols. -/
inductive Extending : List (List Nat) → List Nat → Prop
  | nil : Extending [] []
  | repeats {ls c l} : Extending ls c → l.Sublist c → Extending (ls ++ [l]) c
  | extends {ls c s new} : Extending ls c → s.Sublist c → s.getLast? = c.getLast? → new.Nodup →
      (∀ x ∈ new, x ∉ c) → Extending (ls ++ [s ++ new]) (c ++ new)

end Verif.CilOrder
