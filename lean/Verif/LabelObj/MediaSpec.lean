import Verif.FileLabel.Spec
/-! # Specification: a line with a medium and its context -/
namespace Verif.LabelObj.Spec
open Verif.FileLabel (isspace)

/-- A line is a word, white space and the rest. There may be white space before the
word. -/
def Parts (l w c : Bytes) : Prop :=
  ∃ a b : Bytes, l = a ++ (w ++ (b ++ c)) ∧ (∀ x ∈ a, isspace x = true) ∧ w ≠ [] ∧ (∀ x ∈ w, isspace x = false) ∧
    b ≠ [] ∧ (∀ x ∈ b, isspace x = true) ∧ (∀ x, c.head? = some x → isspace x = false)

end Verif.LabelObj.Spec
