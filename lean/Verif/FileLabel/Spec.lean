import Verif.FileLabel.Model
/-!
# Specification: what a list of file-context lines says about a path
-/
namespace Verif.FileLabel.Spec

/-- A specification: expression, kind of file (0 for any), context, and its place
(file and line). -/
structure Entry where
  regex : Bytes
  kind : Nat
  ctx : Bytes
  input : Nat
  line : Nat
  deriving DecidableEq, Repr

/-- An earlier place. -/
def Older (a b : Entry) : Prop := a.input < b.input ∨ a.input = b.input ∧ a.line < b.line

/-- The path that an expression without special characters stands for: escaped
characters stand for themselves. -/
def plain : Bytes → Option Bytes
  | [] => some []
  | [b] => if isMeta b ∨ b = 92 then none else some [b]
  | b :: c :: r =>
    if b = 92 then (if isEscapable c then (plain r).map (c :: ·) else none)
    else if isMeta b then none
    else (plain (c :: r)).map (b :: ·)

/-- The parts of a text that are followed by a slash. -/
def parts : Bytes → List Bytes
  | [] => []
  | b :: bs =>
    if b = 47 then [] :: parts bs
    else match parts bs with
      | [] => []
      | d :: ds => (b :: d) :: ds

/-- The directories on the way to a path. -/
def dirs (path : Bytes) : List Bytes := parts (path.drop 1)

/-- The leading directories of an expression that are fixed names (at most
three; empty ones do not count). -/
def leading (regex : Bytes) : List Bytes :=
  ((((parts (regex.drop 1)).filter (· ≠ [])).map plain).takeWhile Option.isSome).filterMap id |>.take 3

/-- A path without duplicate slashes that starts at the root. -/
def Clean (path : Bytes) : Prop := path.head? = some 47 ∧ ∀ d ∈ dirs path, d ≠ []

/-- The specification is for this kind of file (0 is an unknown kind). -/
def Fits (kind : Nat) (e : Entry) : Prop := kind = 0 ∨ e.kind = 0 ∨ e.kind = kind

/-- The specification names this path. -/
def Names (e : Entry) (path : Bytes) (kind : Nat) : Prop := plain e.regex = some path ∧ Fits kind e

/-- The specification is an expression that matches the path. -/
def Matches (eng : Engine) (e : Entry) (path : Bytes) (kind : Nat) : Prop :=
  plain e.regex = none ∧ Fits kind e ∧ eng e.regex path false = .full

/-- What the lookup returns for a specification: `<<none>>` is no context. -/
def answer (e : Entry) : Except Err (Bytes × Nat × Bytes) :=
  if e.ctx = none_ then .error .noent else .ok (e.regex, e.kind, e.ctx)

/-- What a list of specifications says about a path: a specification that names
the path, of the kind of the file before of any kind; else the last expression
that matches; else nothing. -/
inductive Says (eng : Engine) (es : List Entry) (path : Bytes) (kind : Nat) :
    Except Err (Bytes × Nat × Bytes) → Prop
  | named (e : Entry) (he : e ∈ es) (hn : Names e path kind)
      (hbest : ∀ e' ∈ es, Names e' path kind → e'.kind ≤ e.kind) : Says eng es path kind (answer e)
  | matched (e : Entry) (he : e ∈ es) (hno : ∀ e' ∈ es, ¬ Names e' path kind) (hm : Matches eng e path kind)
      (hlast : ∀ e' ∈ es, Matches eng e' path kind → e' = e ∨ Older e' e) : Says eng es path kind (answer e)
  | nothing (hno : ∀ e' ∈ es, ¬ Names e' path kind) (hnm : ∀ e' ∈ es, ¬ Matches eng e' path kind) :
      Says eng es path kind (.error .noent)

/-- A matching path lies in the fixed leading directories of the expression. -/
def Rooted (eng : Engine) (es : List Entry) (path : Bytes) : Prop :=
  ∀ e ∈ es, plain e.regex = none → eng e.regex path false = .full → leading e.regex <+: dirs path

/-- The engine has an answer for all the expressions. -/
def NoError (eng : Engine) (es : List Entry) (path : Bytes) : Prop :=
  ∀ e ∈ es, plain e.regex = none → eng e.regex path false = .full ∨ eng e.regex path false = .no

/-- No expression with `<<none>>` matches that is older than another match but
has more fixed leading directories. -/
def NoneLast (eng : Engine) (es : List Entry) (path : Bytes) (kind : Nat) : Prop :=
  ∀ e ∈ es, Matches eng e path kind → e.ctx = none_ →
    ∀ w ∈ es, Matches eng w path kind → Older e w → (leading e.regex).length ≤ (leading w.regex).length

/-- A comparison function `qsort` may be used with. -/
structure Consistent {α : Type} (cmp : α → α → Int) : Prop where
  anti : ∀ a b, cmp a b < 0 ↔ 0 < cmp b a
  trans : ∀ a b c, cmp a b ≤ 0 → cmp b c ≤ 0 → cmp a c ≤ 0

/-- `qsort` sorts: it permutes, and the result is in order. -/
def Sorts (q : Qsort) : Prop :=
  ∀ {α : Type} (cmp : α → α → Int) (l : List α),
    (q.sort cmp l).Perm l ∧ (Consistent cmp → (q.sort cmp l).Pairwise (fun a b => cmp a b ≤ 0))

/-- The specifications of the lines of a file, in order. -/
def entriesFrom (input : Nat) : Nat → List Bytes → List Entry
  | _, [] => []
  | n, l :: ls =>
    match parseLine l with
    | .spec r k c => ⟨r, k, c, input, n + 1⟩ :: entriesFrom input (n + 1) ls
    | _ => entriesFrom input (n + 1) ls

/-- The specifications of files, in order. -/
def entries : Nat → List (List Bytes) → List Entry
  | _, [] => []
  | i, f :: fs => entriesFrom i 0 f ++ entries (i + 1) fs

/-- The parts of a path: nonempty names between slashes. -/
def names (path : Bytes) : List Bytes := (parts (path ++ [47])).filter (· ≠ [])

/-- The path with these parts, from the root. -/
def joinPath (ns : List Bytes) : Bytes :=
  match ns with
  | [] => [47]
  | _ => (ns.map (47 :: ·)).flatten

/-! ## Lines -/

/-- The words of a text, with the letters of the current one so far. -/
def wordsFrom (w : Bytes) : Bytes → List Bytes
  | [] => if w = [] then [] else [w]
  | b :: s =>
    if isspace b then (if w = [] then wordsFrom [] s else w :: wordsFrom [] s)
    else wordsFrom (w ++ [b]) s

/-- The words of a text. -/
def words (s : Bytes) : List Bytes := wordsFrom [] s

/-- The names of the kinds of files: `-d`, `-c`, `-b`, `-s`, `-p`, `-l`, `--`. -/
def kindNames : List (Bytes × Nat) :=
  [([45, 100], 1), ([45, 99], 2), ([45, 98], 3), ([45, 115], 4), ([45, 112], 5), ([45, 108], 6), ([45, 45], 7)]

/-- A word that is not allowed: bytes that are not ASCII, or too long. -/
def badWord (w : Bytes) : Prop := (∃ b ∈ w, 128 ≤ b.toNat) ∨ 65535 ≤ w.length

/-- The text of a line ends at a zero byte. -/
def text (l : Bytes) : Bytes := l.takeWhile (· ≠ 0)

/-- What a line of a file-context file means. -/
inductive Means (l : Bytes) : Line → Prop
  | blank (h : words (text l) = []) : Means l .skip
  | comment (w : Bytes) (ws : List Bytes) (h : words (text l) = w :: ws) (hc : w.head? = some 35) : Means l .skip
  | bad (w : Bytes) (ws : List Bytes) (h : words (text l) = w :: ws) (hc : w.head? ≠ some 35)
      (hb : ∃ x ∈ (w :: ws).take 3, badWord x) : Means l .err
  | one (w : Bytes) (h : words (text l) = [w]) (hc : w.head? ≠ some 35) : Means l .err
  | two (r c : Bytes) (h : words (text l) = [r, c]) (hc : r.head? ≠ some 35) (hb : ∀ x ∈ [r, c], ¬ badWord x) :
      Means l (.spec r 0 c)
  | three (r t c : Bytes) (k : Nat) (ws : List Bytes) (h : words (text l) = r :: t :: c :: ws)
      (hc : r.head? ≠ some 35) (hb : ∀ x ∈ [r, t, c], ¬ badWord x) (ht : (t, k) ∈ kindNames) :
      Means l (.spec r k c)
  | badKind (r t c : Bytes) (ws : List Bytes) (h : words (text l) = r :: t :: c :: ws)
      (hc : r.head? ≠ some 35) (hb : ∀ x ∈ [r, t, c], ¬ badWord x) (ht : ∀ k, (t, k) ∉ kindNames) :
      Means l .err

/-- White space at the end of a line. -/
def Trailing (l : Bytes) : Prop := ∃ b, (text l).getLast? = some b ∧ isspace b = true

/-! ## Substitutions -/

/-- A path is a directory or lies below it. -/
def Under (dir path rest : Bytes) : Prop := path = dir ++ rest ∧ (rest = [] ∨ rest.head? = some 47)

/-- The path in the new directory. -/
def place (dir rest : Bytes) : Bytes := if dir = [47] ∧ rest ≠ [] then rest else dir ++ rest

/-- The first substitution for a path. -/
def Substitutes (subs : List Sub) (path out : Bytes) : Prop :=
  ∃ before s after rest, subs = before ++ s :: after ∧ Under s.src path rest ∧
    (∀ x ∈ before, ¬ ∃ rest, Under x.src path rest) ∧ out = place s.dst rest

/-- The substitution of a line. -/
def subOf (l : Bytes) : Option Sub :=
  match words l with
  | a :: b :: _ => if a.head? = some 35 then none else some ⟨a, b⟩
  | _ => none

/-! ## Expressions with a fixed beginning -/

/-- `?`, `*`, `+` or `{` -/
def quantifier (b : Byte) : Bool := b == 63 || b == 42 || b == 43 || b == 123

/-- Every `|` is inside of parentheses. -/
def barsNested : Nat → Bytes → Bool
  | _, [] => true
  | _, [92] => false
  | d, 92 :: c :: r => isEscapable c && barsNested d r
  | d, 40 :: c :: r => (c != 63 && c != 42) && barsNested (d + 1) (c :: r)
  | d, 41 :: r => d != 0 && barsNested (d - 1) r
  | d, 124 :: r => d != 0 && barsNested d r
  | d, b :: r => b != 91 && barsNested d r

/-- An expression that has no alternatives, or only nested ones. -/
def NoTopBar (r : Bytes) : Prop := 124 ∉ r ∨ barsNested 0 r = true

/-- The law of fixed beginnings: an expression that begins with a plain text, of
which the last character is not repeated, only matches paths that begin with
this text. -/
def FixedBeginning (eng : Engine) : Prop :=
  ∀ lit rest t path, plain lit = some t → (∀ b, rest.head? = some b → quantifier b = false) →
    NoTopBar (lit ++ rest) → eng (lit ++ rest) path false = .full → t <+: path

/-- The expressions start at the root, have no alternatives at the top and no
repeated slashes. -/
def Regular (r : Bytes) : Prop :=
  r.head? = some 47 ∧ NoTopBar r ∧ ∀ a b c, r = a ++ 47 :: b :: c → quantifier b = false

end Verif.FileLabel.Spec
