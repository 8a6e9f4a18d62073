import Verif.CilCon.Model

/-!
# What is expected of the context rules

A rule gives contexts to an object: the files of a path and kind, a range of ports of a protocol,
and so on.  Two rules for the same object must not give it different contexts.
-/

namespace Verif.CilCon

/-- The categories of a level. -/
def Level.categories (l : Level) : List Str := l.cats.getD []

/-- Two levels with the same sensitivity and the same set of categories. -/
def SameLevel (a b : Level) : Prop := a.sens = b.sens ∧ ∀ c, c ∈ a.categories ↔ c ∈ b.categories

/-- The same context. -/
def SameContext (a b : Context) : Prop :=
  a.user = b.user ∧ a.role = b.role ∧ a.type = b.type ∧ SameLevel a.low b.low ∧ SameLevel a.high b.high

/-- Contexts that agree but for the categories. -/
def AlmostSame (a b : Context) : Prop :=
  a.user = b.user ∧ a.role = b.role ∧ a.type = b.type ∧ a.low.sens = b.low.sens ∧ a.high.sens = b.high.sens ∧
  (a.low.cats = none ↔ b.low.cats = none) ∧ (a.high.cats = none ↔ b.high.cats = none)

/-- A table of rules: how they are compared, the object of a rule, and its contexts. -/
structure Table (α β : Type) where
  cmp : α → α → Int
  con : α → α → Option Int
  object : α → β
  contexts : α → List Context

/-- `qsort` has sorted the rules: it has exchanged some, and none is greater than a later one. -/
structure SortedBy {α : Type} (cmp : α → α → Int) (rules sorted : List α) : Prop where
  perm : sorted.Perm rules
  pairwise : sorted.Pairwise fun a b => cmp a b ≤ 0

/-- A comparison function as `qsort` needs it. -/
structure IsCmp {α : Type} (cmp : α → α → Int) : Prop where
  swap : ∀ a b, cmp b a = - cmp a b
  trans : ∀ a b c, cmp a b ≤ 0 → cmp b c ≤ 0 → cmp a c ≤ 0

/-- The rules that compare equal are those with the same object, and contexts compare equal if
they agree but for the categories. -/
structure Lawful {α β : Type} (t : Table α β) : Prop where
  isCmp : IsCmp t.cmp
  object : ∀ a b, t.cmp a b = 0 ↔ t.object a = t.object b
  contexts : ∀ a b, (t.contexts a).length = (t.contexts b).length ∧
    ∃ r, t.con a b = some r ∧ (r = 0 ↔ ∀ p ∈ (t.contexts a).zip (t.contexts b), AlmostSame p.1 p.2)

/-- Two rules give the same contexts. -/
def SameContexts {α β : Type} (t : Table α β) (a b : α) : Prop :=
  ∀ p ∈ (t.contexts a).zip (t.contexts b), SameContext p.1 p.2

/-- Two rules give contexts that agree but for the categories. -/
def AlmostSameContexts {α β : Type} (t : Table α β) (a b : α) : Prop :=
  ∀ p ∈ (t.contexts a).zip (t.contexts b), AlmostSame p.1 p.2

/-- The rules that are kept: sorted, from the rules given, and exactly one for each object. -/
structure Kept {α β : Type} (t : Table α β) (rules kept : List α) : Prop where
  sorted : kept.Pairwise fun a b => t.cmp a b < 0
  sub : ∀ r ∈ kept, r ∈ rules
  one : ∀ r ∈ rules, ∃ k ∈ kept, t.object k = t.object r

/-! ### Paths -/

/-- The characters of the path of a `filecon` rule, each with whether a backslash is before it. -/
def chars : Str → List (Bool × Nat)
  | [] => []
  | [c] => [(c == 92, c)]
  | c :: d :: cs => if c = 92 then (true, d) :: chars cs else (false, c) :: chars (d :: cs)

/-- One of `. ^ $ ? * + | [ ( {`, without a backslash. -/
def isSpecial (c : Bool × Nat) : Bool := !c.1 && c.2 ∈ [46, 94, 36, 63, 42, 43, 124, 91, 40, 123]

/-- The path is a pattern. -/
def IsPattern (path : Str) : Prop := ∃ c ∈ chars path, isSpecial c = true

/-- The length of the path before its first special character. -/
def stemLength (path : Str) : Nat := ((chars path).takeWhile fun c => !isSpecial c).length

/-- The path `a` is less specific than `b`, or they cannot be told apart: patterns are less
specific than others, then paths with a shorter stem, then shorter ones. -/
def LessSpecific (a b : Str) : Prop :=
  (IsPattern a ∧ ¬ IsPattern b) ∨
  ((IsPattern a ↔ IsPattern b) ∧ (stemLength a < stemLength b ∨
    (stemLength a = stemLength b ∧ (chars a).length ≤ (chars b).length)))

/-! ### The tables -/

def fileconTable : Table Filecon (Str × Nat) :=
  ⟨fileconCompare, fun a b => contextComparePtr a.context b.context, fun r => (r.path, r.type), fun r => r.context.toList⟩

def ibpkeyconTable : Table Ibpkeycon (Str × BitVec 32 × BitVec 32) :=
  ⟨ibpkeyconCompare, fun a b => some (contextCompare a.context b.context), fun r => (r.subnet, r.low, r.high), fun r => [r.context]⟩

def portconTable : Table Portcon (Nat × BitVec 32 × BitVec 32) :=
  ⟨portconCompare, fun a b => some (contextCompare a.context b.context), fun r => (r.proto, r.low, r.high), fun r => [r.context]⟩

/-- With the objects that the comparison distinguishes: it does not look at the kind of file. -/
def genfsconTable : Table Genfscon (Str × Str) :=
  ⟨genfsconCompare, fun a b => some (contextCompare a.context b.context), fun r => (r.fs, r.path), fun r => [r.context]⟩

def netifconTable : Table Netifcon Str :=
  ⟨netifconCompare, fun a b => some (netifconContextCompare a b), fun r => r.interface, fun r => [r.ifContext, r.packetContext]⟩

def ibendportconTable : Table Ibendportcon (Str × Nat) :=
  ⟨ibendportconCompare, fun a b => some (contextCompare a.context b.context), fun r => (r.dev, r.port), fun r => [r.context]⟩

def nodeconTable : Table Nodecon (Bool × Str × Str) :=
  ⟨nodeconCompare, fun a b => some (contextCompare a.context b.context), fun r => (r.v6, r.addr, r.mask), fun r => [r.context]⟩

def numconTable : Table Numcon Nat :=
  ⟨numconCompare, fun a b => some (contextCompare a.context b.context), fun r => r.num, fun r => [r.context]⟩

def ioconTable (w : Nat) : Table (Iocon w) (BitVec w × BitVec w) :=
  ⟨ioconCompare, fun a b => some (contextCompare a.context b.context), fun r => (r.low, r.high), fun r => [r.context]⟩

def devicetreeconTable : Table Devicetreecon Str :=
  ⟨devicetreeconCompare, fun a b => some (contextCompare a.context b.context), fun r => r.path, fun r => [r.context]⟩

def fsuseTable : Table Fsuse (Nat × Str) :=
  ⟨fsuseCompare, fun a b => some (contextCompare a.context b.context), fun r => (r.type, r.fs), fun r => [r.context]⟩

end Verif.CilCon
