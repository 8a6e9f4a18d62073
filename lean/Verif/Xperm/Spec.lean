import Verif.Xperm.Model
import Verif.CilX.Spec

/-!
# Specification: the numbers that a list of extended permissions stands for
-/

namespace Verif.Xperm
open Avtab (XPerms)
open CilX (XKind Lists)

/-- What can be written in a list: a number, or the first and the last number of a range. -/
inductive Item
  | one (n : Nat)
  | range (first last : Nat)

/-- The words that are put in the queue. -/
def Item.toks : Item → List Tok
  | .one n => [.num n]
  | .range m n => [.num m, .dash, .num n]

/-- A list, perhaps with a `~` in front, as it is put in the queue: the `~` comes last (policy_parse.y:801-821; sets within sets leave
nothing but their items). -/
def toks (tilde : Bool) (is : List Item) : List Tok := is.flatMap Item.toks ++ (if tilde then [.tilde] else [])

/-- The numbers that an item stands for. -/
def Item.Names : Item → Nat → Prop
  | .one n, x => x = n
  | .range m n, x => m ≤ x ∧ x ≤ n

/-- The numbers in an item are at most 0xffff. -/
def Item.Fits : Item → Prop
  | .one n => n ≤ 65535
  | .range m n => m ≤ 65535 ∧ n ≤ 65535

/-- Ranges ascend. -/
def Item.Ascends : Item → Prop
  | .one _ => True
  | .range m n => m ≤ n

/-- A number is in one of the items. -/
def Named (is : List Item) (x : Nat) : Prop := ∃ i ∈ is, i.Names x

/-- The numbers that a list stands for: those that are named, or with `~` those that are not. -/
def Wanted (tilde : Bool) (is : List Item) (x : Nat) : Prop := if tilde = true then ¬ Named is x else Named is x

end Verif.Xperm
