import Verif.Mls.Context
import Verif.Ebitmap.Spec

/-!
# Specification vocabulary for MLS

Category sets are described by membership (`Ebitmap.getBit`), names by functions;
nothing here mentions parsing or printing.
-/

namespace Verif.Mls

open Verif.Policy

/-- Category membership (0-based category number). -/
def HasCat (l : Level) (b : Nat) : Prop := Ebitmap.getBit l.cat b = true

/-- Both category sets are properly built bitmaps. -/
def WFLevel (l : Level) : Prop := Ebitmap.WF l.cat
def WFRange (r : Range) : Prop := WFLevel r.low ∧ WFLevel r.high

/-- Dominance, the textbook definition. -/
def Dominates (a b : Level) : Prop := b.sens ≤ a.sens ∧ ∀ c, HasCat b c → HasCat a c

/-- Two levels denote the same sensitivity and category set. -/
def Same (a b : Level) : Prop := a.sens = b.sens ∧ ∀ c, HasCat a c ↔ HasCat b c

/-- Names that survive the textual syntax: no separator characters. -/
def PlainSens (n : Str) : Prop := ∀ c ∈ n, c ≠ ':' ∧ c ≠ '-'
def PlainCat (n : Str) : Prop := ∀ c ∈ n, c ≠ ',' ∧ c ≠ '-' ∧ c ≠ '.'

/-- The level's sensitivity and categories have names, the names are plain, and
looking the name up leads back to the number. -/
structure Named (p : Policy) (l : Level) : Prop where
  sens : l.sens ≠ 0 ∧ ∃ n lev, p.sensName (l.sens - 1) = some n ∧ PlainSens n ∧
    p.levels n = some lev ∧ lev.sens = l.sens
  cats : ∀ b, HasCat l b → ∃ n, p.catName b = some n ∧ PlainCat n ∧ p.cats n = some (b + 1)

/-- No run of categories ends at a 64-bit word boundary in front of an empty word
followed by more categories.  (Without this the printer prints wrong
categories, see `C10_wrong_categories`.) -/
def NoGapAfterFullWord (l : Level) : Prop :=
  ∀ b, HasCat l b → b % 64 = 63 → (∃ c, b < c ∧ HasCat l c) → ∃ c, HasCat l c ∧ c / 64 = b / 64 + 1

/-- The level exists in the policy: its sensitivity is defined, and each of its
categories is defined and associated with that sensitivity. -/
def LevelExists (p : Policy) (l : Level) : Prop :=
  1 ≤ l.sens ∧ l.sens ≤ p.nLevels ∧ ∃ name lev, p.sensName (l.sens - 1) = some name ∧
    p.levels name = some lev ∧ ∀ b, HasCat l b → b < p.nCats ∧ HasCat lev b

/-- Component-wise description of an authorised security context. -/
structure Authorised (p : Policy) (c : Context) : Prop where
  user : 1 ≤ c.user ∧ c.user ≤ p.nUsers
  role : 1 ≤ c.role ∧ c.role ≤ p.nRoles
  type : 1 ≤ c.type ∧ c.type ≤ p.nTypes
  /-- the role may be associated with the type (object_r with every type) -/
  roleType : c.role = OBJECT_R_VAL ∨
    ∃ d, p.roleStruct (c.role - 1) = some d ∧ Ebitmap.getBit d.cache (c.type - 1) = true
  /-- the user may have the role -/
  userRole : c.role = OBJECT_R_VAL ∨
    ∃ d, p.userStruct (c.user - 1) = some d ∧ Ebitmap.getBit d.cache (c.role - 1) = true
  dom : p.mls = true → Dominates c.range.high c.range.low
  low : p.mls = true → LevelExists p c.range.low
  high : p.mls = true → LevelExists p c.range.high
  /-- the range lies inside the user's clearance (except for object_r) -/
  clearance : p.mls = true → c.role = OBJECT_R_VAL ∨
    ∃ d, p.userStruct (c.user - 1) = some d ∧
      Dominates c.range.low d.expRange.low ∧ Dominates d.expRange.high c.range.high

/-- Invariants of loaded policies (established by policydb_read and checked by
policydb_validate): bitmaps are built by the bitmap API, and the categories of a
sensitivity are defined categories. -/
structure WFPolicy (p : Policy) : Prop where
  levelWF : ∀ n lev, p.levels n = some lev → WFLevel lev
  levelCats : ∀ n lev, p.levels n = some lev → ∀ b, HasCat lev b → b < p.nCats
  userRange : ∀ i d, p.userStruct i = some d → WFRange d.expRange
  /-- values are 32-bit words -/
  catVal : ∀ n v, p.cats n = some v → v < 2^32

/-- All names in the index arrays are C strings: they contain no NUL. -/
structure CNames (p : Policy) : Prop where
  user : ∀ i n, p.userName i = some n → '\x00' ∉ n
  role : ∀ i n, p.roleName i = some n → '\x00' ∉ n
  type : ∀ i n, p.typeName i = some n → '\x00' ∉ n
  sens : ∀ i n, p.sensName i = some n → '\x00' ∉ n
  cat : ∀ i n, p.catName i = some n → '\x00' ∉ n

/-- User, role and type have names without colon, and looking those up leads back to
the values. -/
structure IdsNamed (p : Policy) (c : Context) : Prop where
  user : ∃ n d, p.userName (c.user - 1) = some n ∧ ':' ∉ n ∧ p.users n = some d ∧ d.value = c.user
  role : ∃ n d, p.roleName (c.role - 1) = some n ∧ ':' ∉ n ∧ p.roles n = some d ∧ d.value = c.role
  type : ∃ n d, p.typeName (c.type - 1) = some n ∧ ':' ∉ n ∧ p.types n = some d ∧ d.value = c.type ∧
    d.flavor ≠ TYPE_ATTRIB

end Verif.Mls
