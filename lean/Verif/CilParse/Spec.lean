import Verif.CilParse.Model

/-!
# Specification of the parser of CIL

How the statements of CIL are written: a grammar that is independent of the functions of the model but for the
characters of symbols.
-/

namespace Verif.CilParse
open CilCond (Tree)

/-- The text has no character of a symbol at its start. -/
def NoSymbolNext (l : List Char) : Prop := ∀ c l', l = c :: l' → symbolChar c = false

/-- The text is a way to write the trees. -/
inductive Writes : List Tree → List Char → Prop
  | nil : Writes [] []
  | white {c : Char} {ts : List Tree} {l : List Char} (hc : c = ' ' ∨ c = '\t' ∨ c = '\n') (h : Writes ts l) : Writes ts (c :: l)
  | comment {body : List Char} {ts : List Tree} {l : List Char} (hb : '\n' ∉ body) (h : Writes ts l) :
      Writes ts (';' :: body ++ '\n' :: l)
  | symbol {s : List Char} {ts : List Tree} {l : List Char} (hs : s ≠ []) (hc : ∀ c ∈ s, symbolChar c = true) (hl : NoSymbolNext l)
      (h : Writes ts l) : Writes (.atom (String.ofList s) :: ts) (s ++ l)
  | string {s : List Char} {ts : List Tree} {l : List Char} (hs : '"' ∉ s ∧ '\n' ∉ s ∧ '\x00' ∉ s) (h : Writes ts l) :
      Writes (.atom (String.ofList s) :: ts) ('"' :: s ++ '"' :: l)
  | list {sub ts : List Tree} {inner l : List Char} (h1 : Writes sub inner) (h : Writes ts l) :
      Writes (.list sub :: ts) ('(' :: inner ++ ')' :: l)

/-- The same, with a comment on the last line that has no end. -/
def WritesFile (ts : List Tree) (l : List Char) : Prop :=
  Writes ts l ∨ ∃ l' body, l = l' ++ ';' :: body ∧ '\n' ∉ body ∧ Writes ts l'

mutual
/-- How deep the lists of a tree are nested. -/
def depth : Tree → Nat
  | .atom _ => 0
  | .list l => 1 + depths l
def depths : List Tree → Nat
  | [] => 0
  | t :: ts => max (depth t) (depths ts)
end

/-- A text without line marks: `;;*` is not at the start of a line. -/
def NoMarks (l : List Char) : Prop := ∀ a b, l = a ++ ';' :: ';' :: '*' :: b → a ≠ [] ∧ a.getLast? ≠ some '\n'

/-- A list and not a string. -/
def IsList (t : Tree) : Prop := ∃ l, t = .list l

end Verif.CilParse
