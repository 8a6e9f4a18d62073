import Verif.Prelude
import Verif.Bytes
/-!
# What replacing text means
-/
namespace Verif.HomeDirs.Spec

/-- `s` has `pat` after `pre` and not before. -/
def FirstAt (pat s pre post : Bytes) : Prop :=
  s = pre ++ pat ++ post ∧ ∀ pre' post', s = pre' ++ pat ++ post' → pre.length ≤ pre'.length

/-- `out` is `s` with occurrences of `pat` replaced by `repl` from the left: `some k`
of them at most, or all. -/
inductive Replaced (pat repl : Bytes) : Option Nat → Bytes → Bytes → Prop
  | stop (s : Bytes) : Replaced pat repl (some 0) s s
  | none (k : Option Nat) (s : Bytes) (h : ∀ pre post, s ≠ pre ++ pat ++ post) : Replaced pat repl k s s
  | all (s pre post out : Bytes) (h : FirstAt pat s pre post) (hr : Replaced pat repl none post out) :
      Replaced pat repl none s (pre ++ repl ++ out)
  | some (k : Nat) (s pre post out : Bytes) (h : FirstAt pat s pre post) (hr : Replaced pat repl (some k) post out) :
      Replaced pat repl (some (k + 1)) s (pre ++ repl ++ out)

/-- White space. -/
def space (b : UInt8) : Prop := b ∈ [(9 : UInt8), 10, 11, 12, 13, 32]

/-- The ASCII bytes of a string. -/
def ascii (s : String) : Bytes := s.toList.map (fun c => UInt8.ofNat c.toNat)

/-- A word: it is not empty and has no white space. -/
def Word (w : Bytes) : Prop := w ≠ [] ∧ ∀ x ∈ w, ¬ space x

/-- Text whose length is a number the machine has. -/
def Fits (s : Bytes) : Prop := s.length + 1 < 2 ^ 64

/-- A line is this text and a context: its last word, with the white space after it. -/
def EndsWith (r p w tr : Bytes) : Prop :=
  r = p ++ w ++ tr ∧ Word w ∧ (∀ x ∈ tr, space x) ∧ ∀ x, p.getLast? = some x → space x

/-- `l` is the line `r` with its context (at the first place its text is found)
replaced as `f` says, or `r` itself if it has no context. -/
def WithContext (f : Bytes → Option Bytes) (r l : Bytes) : Prop :=
  ∃ p w tr, EndsWith r p w tr ∧
    ((w ++ tr = ascii "<<none>>" ∧ l = r) ∨
      ∃ new, w ++ tr ≠ ascii "<<none>>" ∧ f (w ++ tr) = some new ∧ Replaced (w ++ tr) new (some 1) r l)

end Verif.HomeDirs.Spec
