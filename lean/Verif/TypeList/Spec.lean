import Verif.Bytes
/-!
# Files with one type in each line
-/
namespace Verif.TypeList.Spec

/-- Space, tab, newline, vertical tab, form feed and carriage return. -/
def Space (b : UInt8) : Prop := b ∈ [(32 : UInt8), 9, 10, 11, 12, 13]

/-- The first word of a line. -/
def First (line w : Bytes) : Prop :=
  ∃ pre post, line = pre ++ w ++ post ∧ (∀ b ∈ pre, Space b) ∧ w ≠ [] ∧ (∀ b ∈ w, ¬ Space b) ∧
    (post = [] ∨ ∃ b post', post = b :: post' ∧ Space b)

/-- A file of lines that end in a newline, and of a last one that does not. -/
def file (lines : List Bytes) (last : Bytes) : Bytes := lines.flatMap (fun l => l ++ [10]) ++ last

end Verif.TypeList.Spec
