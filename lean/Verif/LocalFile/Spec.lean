import Verif.Login.Spec
import Verif.LocalFile.Model

/-!
# What can be kept in the files of local customisations

Independent of how the files are printed and parsed; only the types of the records are those of the model.  59 is `;`, 61 `=`, 125 `}`.
-/

namespace Verif.LocalFile
open Verif.Context Verif.Login

/-- A word: not empty, no white space, no NUL. -/
def Word (s : Bytes) : Prop := s ≠ [] ∧ ∀ c ∈ s, c ≠ 0 ∧ ¬ Space c

/-- A text on one line that does not start with white space: not empty, no newline, no NUL. -/
def Line (s : Bytes) : Prop := 0 ∉ s ∧ 10 ∉ s ∧ ∃ c x, s = c :: x ∧ ¬ Space c

/-- It does not start like a comment. -/
def NoComment (s : Bytes) : Prop := ∀ x, s ≠ 35 :: x

/-- A context without white space and NULs, with colons in the range only. -/
def Con.Good (c : Con) : Prop :=
  58 ∉ c.user ∧ 58 ∉ c.role ∧ 58 ∉ c.type ∧
    ∀ s, (s = c.user ∨ s = c.role ∨ s = c.type ∨ c.mls = some s) → ∀ x ∈ s, x ≠ 0 ∧ ¬ Space x

/-- A number that fits. -/
def Num (n : Int) : Prop := 0 ≤ n ∧ n < 2147483648

/-- A login: the names are texts without colons, the range is a word. -/
def Seuser.Good (r : Seuser) : Prop :=
  Line r.name ∧ 58 ∉ r.name ∧ NoComment r.name ∧ Line r.sename ∧ 58 ∉ r.sename ∧ ∀ m, r.mls = some m → Word m

/-- A boolean: the name is a word without `=`, the value 0 or 1. -/
def Boolean.Good (r : Boolean) : Prop := Word r.name ∧ 61 ∉ r.name ∧ NoComment r.name ∧ (r.value = 0 ∨ r.value = 1)

/-- The ways to write the value of a boolean by hand. -/
inductive Spells : String → Int → Prop
  | one : Spells "1" 1
  | zero : Spells "0" 0
  | true : Spells "true" 1
  | TRUE : Spells "TRUE" 1
  | false : Spells "false" 0
  | FALSE : Spells "FALSE" 0

/-- A file context: the expression is a word. -/
def Fcontext.Good (r : Fcontext) : Prop := Word r.expr ∧ NoComment r.expr ∧ ∀ c, r.con = some c → c.Good

/-- What follows a single number may not look like a range. -/
def NoDash (low high : Int) (c : Con) : Prop := low = high → ∀ x, c.user ≠ 45 :: x

/-- A port. -/
def Port.Good (r : Port) : Prop := r.proto ≠ .other ∧ Num r.low ∧ Num r.high ∧ NoDash r.low r.high r.con ∧ r.con.Good

/-- An interface. -/
def Iface.Good (r : Iface) : Prop := Word r.name ∧ r.ifcon.Good ∧ r.msgcon.Good

/-- An InfiniBand end port. -/
def Ibendport.Good (r : Ibendport) : Prop := Word r.name ∧ Num r.port ∧ r.con.Good

/-- Addresses are shown as words that are read as the same addresses. -/
def AddrFns.Good {A : Type} (f : AddrFns A) (a : A) : Prop := Word (f.show_ a) ∧ f.read (f.show_ a) = some a

/-- A node. -/
def Node.Good {A : Type} (f : Bool → AddrFns A) (r : Node A) : Prop := (f r.v6).Good r.addr ∧ (f r.v6).Good r.mask ∧ r.con.Good

/-- An InfiniBand partition key. -/
def Ibpkey.Good {A : Type} (f : AddrFns A) (r : Ibpkey A) : Prop := f.Good r.prefix_ ∧ Num r.low ∧ Num r.high ∧ NoDash r.low r.high r.con ∧ r.con.Good

/-- A user: at least one role; words without `;` and `}`; a level and a range or none of both. -/
def User.Good (r : User) : Prop :=
  Word r.name ∧ r.roles ≠ [] ∧ r.roles.Nodup ∧ (∀ x ∈ r.roles, Word x ∧ 59 ∉ x ∧ 125 ∉ x) ∧
    (r.level = none ∧ r.range = none ∨ ∃ l g, r.level = some l ∧ r.range = some g ∧ Word l ∧ Line g ∧ 59 ∉ g)

/-- The prefix of a user. -/
def UserExtra.Good (r : UserExtra) : Prop := Word r.name ∧ Line r.prefix_ ∧ 59 ∉ r.prefix_

/-- A comment or an empty line, with its newline. -/
def Idle (l : Bytes) : Prop := ∃ a, l = a ++ [10] ∧ 10 ∉ a ∧ ((∀ c ∈ a, Space c) ∨ ∃ pre x, a = pre ++ 35 :: x ∧ ∀ c ∈ pre, Space c)

/-- Nothing or whole lines. -/
def WholeLines (bs : Bytes) : Prop := bs = [] ∨ ∃ a, bs = a ++ [10]

end Verif.LocalFile
