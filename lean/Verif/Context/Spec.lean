import Verif.Bytes

/-!
# What a security context string is

Independent of the model: `user:role:type` or `user:role:type:range`, where
only the range may contain colons and spaces.  Bytes are written as numbers:
58 is `:`, 32 a space, 9, 10 and 13 are tab, newline and carriage return.
-/

namespace Verif.Context

/-- `s` is the concatenation of the components, separated by colons, and only
the range may contain colons. -/
structure Splits (s u r t : Bytes) (g : Option Bytes) : Prop where
  user : 58 ∉ u
  role : 58 ∉ r
  type : 58 ∉ t
  eq : s = u ++ [58] ++ r ++ [58] ++ t ++ (match g with | none => [] | some g => 58 :: g)

/-- No tab, newline or carriage return. -/
def NoCtrl (s : Bytes) : Prop := 9 ∉ s ∧ 10 ∉ s ∧ 13 ∉ s

/-- The strings `context_new` is documented to accept (context.c:17-21, 54-57):
three or four components, no control character, no space outside of the range,
at most two colons in the range. -/
def Valid (s : Bytes) : Prop :=
  ∃ u r t g, Splits s u r t g ∧ NoCtrl s ∧ 32 ∉ u ∧ 32 ∉ r ∧ 32 ∉ t ∧
    (∀ x, g = some x → x.count 58 ≤ 2)

/-- A component, as the getters give it: NULL for an empty last one. -/
def orNull (s : Bytes) : Option Bytes := if s = [] then none else some s

end Verif.Context
