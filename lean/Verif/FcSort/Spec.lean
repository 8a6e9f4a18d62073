import Verif.Bytes
/-!
# Specification: file-context files and their order

Independent of the model: the grammar of a file-context file, how specific an
entry is, and what a stable sort is.
-/
namespace Verif.FcSort.Spec

/-- White space other than the end of the line. -/
def isBlank (b : Byte) : Bool := b == 32 || b == 9 || b == 11 || b == 12 || b == 13

/-- A word: not empty, no white space, no NUL. -/
def Word (w : Bytes) : Prop := w ≠ [] ∧ ∀ b ∈ w, isBlank b = false ∧ b ≠ 10 ∧ b ≠ 0

/-- A run of white space within a line. -/
def Blanks (w : Bytes) : Prop := ∀ b ∈ w, isBlank b = true

/-- An entry of a file-context file. -/
structure Entry where
  path : Bytes
  ftype : Option Bytes
  context : Bytes
  deriving DecidableEq, Repr

/-- A line of a file-context file, without its newline. -/
inductive Line
  /-- white space only -/
  | blank (ws : Bytes)
  /-- white space, `#` and anything -/
  | comment (ws text : Bytes)
  /-- a path without a context -/
  | incomplete (ws1 path ws2 : Bytes)
  /-- a path and a type without a context -/
  | incompleteType (ws1 path ws2 ty ws3 : Bytes)
  /-- white space, path, white space, context; then white space and anything -/
  | entry (ws1 path ws2 context rest : Bytes)
  /-- the same with a type after the path -/
  | typed (ws1 path ws2 ty ws3 context rest : Bytes)

/-- What may follow the context on its line. -/
def Rest (r : Bytes) : Prop := 10 ∉ r ∧ (∀ b, r.head? = some b → isBlank b = true)

/-- A type: two bytes, the first is `-`. -/
def Ty (t : Bytes) : Prop := Word t ∧ t.length = 2 ∧ t.head? = some 45

/-- A path does not look like a comment. -/
def Path (p : Bytes) : Prop := Word p ∧ p.head? ≠ some 35

/-- The line is of the form its constructor names. -/
def Line.WF : Line → Prop
  | .blank ws => Blanks ws
  | .comment ws text => Blanks ws ∧ 10 ∉ text
  | .incomplete ws1 p ws2 => Blanks ws1 ∧ Path p ∧ Blanks ws2
  | .incompleteType ws1 p ws2 ty ws3 =>
    Blanks ws1 ∧ Path p ∧ Blanks ws2 ∧ ws2 ≠ [] ∧ Ty ty ∧ Blanks ws3
  | .entry ws1 p ws2 c r =>
    Blanks ws1 ∧ Path p ∧ Blanks ws2 ∧ ws2 ≠ [] ∧ Word c ∧ c.head? ≠ some 45 ∧ Rest r
  | .typed ws1 p ws2 ty ws3 c r =>
    Blanks ws1 ∧ Path p ∧ Blanks ws2 ∧ ws2 ≠ [] ∧ Ty ty ∧ Blanks ws3 ∧ Word c ∧ Rest r

/-- The bytes of the line. -/
def Line.bytes : Line → Bytes
  | .blank ws => ws
  | .comment ws text => ws ++ 35 :: text
  | .incomplete ws1 p ws2 => ws1 ++ p ++ ws2
  | .incompleteType ws1 p ws2 ty ws3 => ws1 ++ p ++ ws2 ++ ty ++ ws3
  | .entry ws1 p ws2 c r => ws1 ++ p ++ ws2 ++ c ++ r
  | .typed ws1 p ws2 ty ws3 c r => ws1 ++ p ++ ws2 ++ ty ++ ws3 ++ c ++ r

/-- The entry of the line, if it has one. -/
def Line.entry? : Line → Option Entry
  | .entry _ p _ c _ => some ⟨p, none, c⟩
  | .typed _ p _ ty _ c _ => some ⟨p, some ty, c⟩
  | _ => none

/-- A file: every line is terminated by a newline. -/
def render (ls : List Line) : Bytes := ls.flatMap (fun l => l.bytes ++ [10])

/-- The entries of a file, in order. -/
def entries (ls : List Line) : List Entry := ls.filterMap Line.entry?

/-- How an entry is written. -/
def Entry.print (e : Entry) : Bytes :=
  match e.ftype with
  | none => e.path ++ [9] ++ e.context ++ [10]
  | some t => e.path ++ [9] ++ t ++ [9] ++ e.context ++ [10]

/-- A list of entries as a file. -/
def printAll (es : List Entry) : Bytes := es.flatMap Entry.print

/-- A regular expression as a sequence of characters, each with the information
whether it was written with an escape; a `\` at the very end is no character. -/
def chars : Bytes → List (Bool × Byte)
  | [] => []
  | [b] => if b = 92 then [] else [(false, b)]
  | b :: c :: bs => if b = 92 then (true, c) :: chars bs else (false, b) :: chars (c :: bs)

/-- The path ends in the middle of an escape. -/
def dangling : Bytes → Bool
  | [] => false
  | [b] => b == 92
  | b :: c :: bs => if b = 92 then dangling bs else dangling (c :: bs)

/-- A character with a special meaning: one of `.^$?*+|[({`, not escaped. -/
def special (c : Bool × Byte) : Bool := !c.1 && (".^$?*+|[({".toList.any (fun d => d.toNat == c.2.toNat))

/-- The path is a regular expression and not just a name. -/
def isRegex (p : Bytes) : Bool := (chars p).any special

/-- The number of characters before the first special one (of a regular
expression). -/
def stem (p : Bytes) : Nat := ((chars p).takeWhile (fun c => !special c)).length

/-- The number of characters. -/
def len (p : Bytes) : Nat := (chars p).length

/-- The documented order (semanage_store.c:2285-2302): `a` is less specific
than `b`. -/
def Less (a b : Entry) : Prop :=
  if isRegex a.path ≠ isRegex b.path then isRegex a.path = true
  else if isRegex a.path = true ∧ stem a.path ≠ stem b.path then stem a.path < stem b.path
  else if len a.path ≠ len b.path then len a.path < len b.path
  else a.ftype = none ∧ b.ftype ≠ none

instance (a b : Entry) : Decidable (Less a b) := by unfold Less; infer_instance

/-- Equally specific. -/
def Same (a b : Entry) : Prop := ¬ Less a b ∧ ¬ Less b a

instance (a b : Entry) : Decidable (Same a b) := by unfold Same; infer_instance

/-- `out` is `inp` sorted stably from least to most specific. -/
def StableSort (inp out : List Entry) : Prop :=
  out.Perm inp ∧
  out.Pairwise (fun a b => ¬ Less b a) ∧
  ∀ e, out.filter (fun x => decide (Same x e)) = inp.filter (fun x => decide (Same x e))

end Verif.FcSort.Spec
