import Verif.Context.Spec
import Batteries.Data.List.Basic

/-!
# What the files about logins mean

Independent of the model.  Bytes are written as numbers: 58 is `:`, 35 `#`, 37 `%`, 42 `*`, 10 newline.  White space is 32 and 9 to 13.
-/

namespace Verif.Login
open Verif.Context

/-- White space. -/
def Space (b : UInt8) : Prop := b = 32 ∨ 9 ≤ b ∧ b ≤ 13

/-- The text of a line of a file: what precedes a NUL. -/
def TextOf (line s : Bytes) : Prop := 0 ∉ s ∧ (line = s ∨ ∃ x, line = s ++ 0 :: x)

/-- The lines of a file: each ends with its only newline, except that the last may have none. -/
inductive LinesOf : Bytes → List Bytes → Prop
  | nil : LinesOf [] []
  | last {l : Bytes} : l ≠ [] → 10 ∉ l → LinesOf l [l]
  | line {l rest : Bytes} {ls : List Bytes} : 10 ∉ l → LinesOf rest ls → LinesOf (l ++ 10 :: rest) ((l ++ [10]) :: ls)

/-- `w` is the first word of `s`, or empty if `s` is empty or starts with white space: no white space is in it and it is followed by
white space or the end. -/
def FirstWord (s w : Bytes) : Prop :=
  (∀ c ∈ w, ¬ Space c) ∧ ∃ rest, s = w ++ rest ∧ ∀ c x, rest = c :: x → Space c

/-! ## The file "seusers" -/

/-- An entry: the name of a Linux user or `%` and a group, the SELinux user, the level. -/
structure Entry where
  luser : Bytes
  seuser : Bytes
  level : Option Bytes

/-- A line `luser:seuser` or `luser:seuser:level`; the level counts only if MLS is enabled.  Comments start with `#`. -/
def IsEntry (mls : Bool) (line : Bytes) (e : Entry) : Prop :=
  ∃ s pre rest, TextOf line s ∧ s = pre ++ e.luser ++ 58 :: rest ∧ (∀ c ∈ pre, Space c) ∧
    (∀ c x, e.luser ++ [58] = c :: x → ¬ Space c ∧ c ≠ 35) ∧ 58 ∉ e.luser ∧ e.seuser ≠ [] ∧
    ((∃ more, 58 ∉ e.seuser ∧ rest = e.seuser ++ 58 :: more ∧
        (mls = false ∧ e.level = none ∨ mls = true ∧ ∃ l, l ≠ [] ∧ FirstWord more l ∧ e.level = some l)) ∨
     (58 ∉ rest ∧ FirstWord rest e.seuser ∧ e.level = none))

/-- The entries of lines, in order; other lines are ignored. -/
inductive EntriesOf (mls : Bool) : List Bytes → List Entry → Prop
  | nil : EntriesOf mls [] []
  | entry {l : Bytes} {e : Entry} {ls : List Bytes} {es : List Entry} :
      IsEntry mls l e → EntriesOf mls ls es → EntriesOf mls (l :: ls) (e :: es)
  | other {l : Bytes} {ls : List Bytes} {es : List Entry} :
      (∀ e, ¬ IsEntry mls l e) → EntriesOf mls ls es → EntriesOf mls (l :: ls) es

/-- The first of a list with a property. -/
def First {α : Type} (p : α → Prop) (l : List α) (a : α) : Prop :=
  ∃ pre post, l = pre ++ a :: post ∧ p a ∧ ∀ x ∈ pre, ¬ p x

/-- The last of a list with a property. -/
def Last {α : Type} (p : α → Prop) (l : List α) (a : α) : Prop :=
  ∃ pre post, l = pre ++ a :: post ∧ p a ∧ ∀ x ∈ post, ¬ p x

/-- The entry is for the user. -/
def ForUser (name : Bytes) (e : Entry) : Prop := e.luser = name
/-- The entry is for a group of which the user is a member. -/
def ForGroup (member : Bytes → Bool) (e : Entry) : Prop := ∃ g, e.luser = 37 :: g ∧ member g = true
/-- The entry is for all others, `__default__`. -/
def ForOthers (e : Entry) : Prop := e.luser = "__default__".toUTF8.toList

/-! ## The files of a user for services -/

/-- The texts of the lines of a file. -/
def TextsOf (bs : Bytes) (ts : List Bytes) : Prop := ∃ ls, LinesOf bs ls ∧ List.Forall₂ TextOf ls ts

/-- The line is for the service. -/
def ForService (service t : Bytes) : Prop := ∃ x, t = service ++ 58 :: x

/-- A line `service:seuser:level`. -/
def Record (service t seuser level : Bytes) : Prop :=
  58 ∉ seuser ∧ 10 ∉ level ∧
    (t = service ++ 58 :: (seuser ++ 58 :: level) ∨ t = service ++ 58 :: (seuser ++ 58 :: (level ++ [10])))

/-! ## The file of types of roles -/

/-- Each line has a newline, at most 249 bytes and no NUL. -/
def Tidy (ls : List Bytes) : Prop := ∀ l ∈ ls, (∃ a, l = a ++ [10]) ∧ l.length ≤ 249 ∧ 0 ∉ l

/-- A line `role:type`. -/
def TypeLine (role l type : Bytes) : Prop := ∃ pre, l = pre ++ role ++ 58 :: (type ++ [10]) ∧ ∀ c ∈ pre, Space c

/-! ## The files of contexts -/

/-- The words of a text. -/
inductive WordsOf : Bytes → List Bytes → Prop
  | nil {s : Bytes} : (∀ c ∈ s, Space c) → WordsOf s []
  | word {pre w rest : Bytes} {ws : List Bytes} : (∀ c ∈ pre, Space c) → w ≠ [] → (∀ c ∈ w, ¬ Space c) →
      (∀ c x, rest = c :: x → Space c) → WordsOf rest ws → WordsOf (pre ++ w ++ rest) (w :: ws)

/-- The line is about the role and the type: its first word is `role:type` or `role:type:...`; what follows the word is `rest`.
Something must follow, if only white space. -/
def About (role type line rest : Bytes) : Prop :=
  ∃ s pre word, TextOf line s ∧ s = pre ++ word ++ rest ∧ (∀ c ∈ pre, Space c) ∧ (∀ c ∈ word, ¬ Space c) ∧
    (word = role ++ 58 :: type ∨ ∃ x, word = role ++ 58 :: (type ++ 58 :: x)) ∧
    (∃ c x, rest = c :: x ∧ Space c) ∧ rest ≠ [10]

/-- The words of the first line about the role and the type; none if there is no such line or no file. -/
def Listed (file : Option Bytes) (role type : Bytes) (ws : List Bytes) : Prop :=
  (∃ bs ls l rest, file = some bs ∧ LinesOf bs ls ∧ First (fun l => ∃ r, About role type l r) ls l ∧ About role type l rest ∧ WordsOf rest ws) ∨
  (ws = [] ∧ ∀ bs ls, file = some bs → LinesOf bs ls → ∀ l ∈ ls, ∀ r, ¬ About role type l r)

/-- A level behind a context. -/
def withLevel (c : Bytes) : Option Bytes → Bytes
  | none => c
  | some l => c ++ 58 :: l

/-- The context for a word `role:type` or `role:type:range`: the user, the role, the type and the given level, if that is something
that can be a context at all.  (The type may be missing: `role:`.) -/
def ContextFor (user : Bytes) (level : Option Bytes) (w c : Bytes) : Prop :=
  Valid (user ++ 58 :: w) ∧ ∃ r t g, Splits (user ++ 58 :: w) user r t g ∧
    c = withLevel (if g = none ∧ t = [] then user ++ 58 :: r else user ++ 58 :: (r ++ 58 :: t)) level

end Verif.Login
