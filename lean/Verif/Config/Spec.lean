import Verif.FileLabel.Spec
/-!
# What the lines of the configuration file mean
-/
namespace Verif.Config.Spec

/-- White space. -/
def space (b : UInt8) : Prop := b ∈ [(9 : UInt8), 10, 11, 12, 13, 32]

/-- A control character. -/
def ctrl (b : UInt8) : Prop := b < 32 ∨ b = 127

/-- The ASCII bytes of a string. -/
def ascii (s : String) : Bytes := s.toList.map (fun c => UInt8.ofNat c.toNat)

/-- The same byte, or the same letter as a capital. -/
def sameLetter (x y : UInt8) : Prop := x = y ∨ (97 ≤ y ∧ y ≤ 122 ∧ x = y - 32)

/-- `w` is the word `s` (of small letters), in small or capital letters. -/
def isWord (s : String) (w : Bytes) : Prop :=
  w.length = (ascii s).length ∧ ∀ (i : Nat) (x y : UInt8), w[i]? = some x → (ascii s)[i]? = some y → sameLetter x y

/-- The words for modes. -/
def modes : List (String × Int) := [("enforcing", 1), ("permissive", 0), ("disabled", -1)]

/-- The line begins with `SELINUX=`, white space and a word for the mode. -/
def SetsMode (l : Bytes) (m : Int) : Prop :=
  ∃ a w rest s, l = ascii "SELINUX=" ++ a ++ w ++ rest ∧ (∀ x ∈ a, space x) ∧ (s, m) ∈ modes ∧ isWord s w

/-- The line is `SELINUXTYPE=` in any letters and the type `w`, with white space around
these and control characters at the end. Nothing is cut from a type of one byte. -/
def SetsType (l : Bytes) (w : Bytes) : Prop :=
  ∃ a tag b c, l = a ++ tag ++ b ++ w ++ c ∧ (∀ x ∈ a, space x) ∧ isWord "selinuxtype=" tag ∧ (∀ x ∈ b, space x) ∧
    ((w = [] ∧ c = []) ∨
      ((∃ x, w.head? = some x ∧ ¬ space x) ∧ (w.length = 1 ∨ ∃ y, w.getLast? = some y ∧ ¬ space y ∧ ¬ ctrl y) ∧
        ∀ x ∈ c, space x ∨ ctrl x))

/-- The line is `REQUIRESEUSERS=` and the value `v`, with white space before each. -/
def SetsRequire (l : Bytes) (v : Bytes) : Prop :=
  ∃ a b, l = a ++ ascii "REQUIRESEUSERS=" ++ b ++ v ∧ (∀ x ∈ a, space x) ∧ (∀ x ∈ b, space x) ∧
    ∀ x, v.head? = some x → ¬ space x

/-- A file of lines that end in newlines, and a last line without one (if it is not
empty). -/
def fileOf (ls : List Bytes) (last : Bytes) : Bytes := (ls.map (· ++ [10])).flatten ++ last

end Verif.Config.Spec
