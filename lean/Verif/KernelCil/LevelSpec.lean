import Verif.KernelCil.Level
import Verif.KernelCil.Spec

/-!
# Specification of levels

A list of categories has single categories and ranges; it stands for the categories that are listed or in between.
-/

namespace Verif.KernelCil
open CilCond (Tree)

/-- An element of a list of categories. -/
inductive CatItem where
  | one (i : Nat)
  | range (a b : Nat)

/-- The categories that an element stands for. -/
def CatItem.has : CatItem → Nat → Prop
  | .one i, n => n = i
  | .range a b, n => a ≤ n ∧ n ≤ b

/-- A range goes up. -/
def CatItem.Ok : CatItem → Prop
  | .one _ => True
  | .range a b => a < b

/-- How an element is written in CIL. -/
def CatItem.tree (cat : Nat → Str) : CatItem → Tree
  | .one i => .atom (String.ofList (cat i))
  | .range a b => .list [.atom "range", .atom (String.ofList (cat a)), .atom (String.ofList (cat b))]

/-- The level with the sensitivity `s` and the categories of a list in CIL. -/
def levelTree (sens cat : Nat → Str) (s : Nat) (items : List CatItem) : Tree :=
  .list (.atom (String.ofList (sens (s - 1))) :: if items = [] then [] else [.list (items.map (CatItem.tree cat))])

/-- The list stands for the set. -/
def ListOf (items : List CatItem) (set : Ebitmap.Ebitmap) : Prop :=
  (∀ it ∈ items, it.Ok) ∧ ∀ n, Ebitmap.getBit set n = true ↔ ∃ it ∈ items, it.has n

/-- How an element is written in policy.conf. -/
def CatItem.conf (cat : Nat → Str) : CatItem → Str
  | .one i => cat i
  | .range a b => cat a ++ '.' :: cat b

/-- Elements with commas in between. -/
def confItems (cat : Nat → Str) : List CatItem → Str
  | [] => []
  | [it] => it.conf cat
  | it :: l => it.conf cat ++ ',' :: confItems cat l

/-- A level in policy.conf. -/
def levelConf (sens cat : Nat → Str) (s : Nat) (items : List CatItem) : Str :=
  sens (s - 1) ++ if items = [] then [] else ':' :: confItems cat items

end Verif.KernelCil
