import Verif.Sidtab.Load
import Verif.Mls.Spec

/-!
# Specification of the SID table
-/

namespace Verif.Sidtab
open Verif.Policy Verif.Mls

/-- A call: load an initial SID, or convert a context. -/
inductive Op
  | insert (sid : Nat) (c : Context)
  | convert (c : Context)

def Op.ctx : Op → Context
  | .insert _ c => c
  | .convert c => c

/-- Legal calls: initial SIDs are neither 0 nor the largest number, category bitmaps are
well-formed. -/
def Op.Ok : Op → Prop
  | .insert sid c => 0 < sid ∧ sid < 2 ^ 32 - 1 ∧ WFRange c.range
  | .convert c => WFRange c.range

/-- Run one call; a failing call leaves the table as it is. -/
def step (s : Sidtab) : Op → Sidtab
  | .insert sid c => (insert s sid c).getD s
  | .convert c => ((contextToSid s c).map (·.1)).getD s

/-- Tables reachable from the empty one. -/
def run (s : Sidtab) (ops : List Op) : Sidtab := ops.foldl step s

/-- The calls that convert contexts only. -/
def conversions (cs : List Context) : List Op := cs.map .convert

/-- Category values of a policy are between 1 and 2^32. -/
def CatVals (p : Policy) : Prop := ∀ n v, p.cats n = some v → 1 ≤ v ∧ v ≤ 2 ^ 32

/-- SID tables that occur: empty, after a legal call, after a policy reload. -/
inductive Reach : Sidtab → Prop
  | init : Reach init
  | call {s : Sidtab} {o : Op} : Reach s → o.Ok → Reach (step s o)
  | reload {s s' : Sidtab} {old new db : Db} {e : Bool} : Reach s → CatVals new.pol →
      loadPolicy e ⟨some old, s⟩ (some new) = (⟨some db, s'⟩, true) → Reach s'

/-- Context `c'` of policy `newp` carries the same names as `c` in `oldp`: user, role, type
and, with MLS, sensitivities and categories. -/
structure SameNames (oldp newp : Policy) (c c' : Context) : Prop where
  user : ∃ n d, oldp.userName (c.user - 1) = some n ∧ newp.users n = some d ∧ c'.user = d.value
  role : ∃ n d, oldp.roleName (c.role - 1) = some n ∧ newp.roles n = some d ∧ c'.role = d.value
  type : ∃ n d, oldp.typeName (c.type - 1) = some n ∧ newp.types n = some d ∧ c'.type = d.value
  sens : oldp.mls = true → ∀ l l', (l = c.range.low ∧ l' = c'.range.low) ∨ (l = c.range.high ∧ l' = c'.range.high) →
    ∃ n lev, oldp.sensName (l.sens - 1) = some n ∧ newp.levels n = some lev ∧ l'.sens = lev.sens
  cats : oldp.mls = true → ∀ l l', (l = c.range.low ∧ l' = c'.range.low) ∨ (l = c.range.high ∧ l' = c'.range.high) →
    (∀ k, HasCat l' k ↔ ∃ b n, HasCat l b ∧ oldp.catName b = some n ∧ newp.cats n = some (k + 1)) ∧
    (∀ b, HasCat l b → ∃ n v, oldp.catName b = some n ∧ newp.cats n = some v)
  norange : oldp.mls = false → c'.range = c.range

end Verif.Sidtab
