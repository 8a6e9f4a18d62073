import Verif.Bounds.Model
import Verif.Assertion.Spec
import Batteries.Data.List.Basic

/-!
# Specification of bounded types, roles and users
-/

namespace Verif.Bounds
open Verif.Avtab Verif.Policy Verif.Optimize Verif.Assertion

/-- The target that the bounding type needs access to: the bounding type of the target, if it has one. -/
def lowered (p : OPolicy) (t : Nat) : Nat := if Services.boundOf p.sp t = 0 then t else Services.boundOf p.sp t

/-- With booleans `σ`, type `child` has no permission that type `parent` does not have. -/
def Within (p : OPolicy) (σ : Cond.State) (child parent : Nat) : Prop :=
  ∀ t cls b, PlainType p t → Decides p σ child t cls (.allow b) → Decides p σ parent (lowered p t) cls (.allow b)

/-- The rules of the type in conditionals are allow rules or rules on extended permissions. -/
def OnlyAllow (p : OPolicy) (ty : Nat) : Prop :=
  ∀ id ∈ listed p.conds, Services.Covers p.sp ty (p.tab.node id).key.source → (p.tab.node id).key.specified ∈ ALLOWED :: xKinds

/-! ## What the check compares -/

/-- An unconditional rule allows the permission. -/
def TeAllows (p : OPolicy) (s t cls b : Nat) : Prop := ∃ n ∈ nodes p.sp.te, Says p.sp s t cls (.allow b) n

/-- A rule of the branch allows the permission. -/
def BranchAllows (p : OPolicy) (l : List Nat) (s t cls b : Nat) : Prop := ∃ id ∈ l, Says p.sp s t cls (.allow b) (p.tab.node id)

/-- A rule of the branch, of any kind, has the bit set. -/
def BranchMentions (p : OPolicy) (l : List Nat) (s t cls b : Nat) : Prop :=
  ∃ id ∈ l, Services.Covers p.sp s (p.tab.node id).key.source ∧ Services.Covers p.sp t (p.tab.node id).key.target ∧
    (p.tab.node id).key.cls = cls ∧ (p.tab.node id).datum.data.getLsbD b = true

/-- An unconditional rule, or both branches of a conditional. -/
def Always (p : OPolicy) (s t cls b : Nat) : Prop :=
  TeAllows p s t cls b ∨ ∃ c ∈ p.conds, BranchMentions p c.trueList s t cls b ∧ BranchMentions p c.falseList s t cls b

/-- What is needed for the rules of `child` to be accepted. -/
def Accepts (p : OPolicy) (child parent : Nat) : Prop :=
  ∀ t cls b, PlainType p t →
    (TeAllows p child t cls b → Always p parent (lowered p t) cls b) ∧
    ∀ c ∈ p.conds,
      (BranchAllows p c.trueList child t cls b →
        BranchMentions p c.trueList parent (lowered p t) cls b ∨ Always p parent (lowered p t) cls b) ∧
      (BranchAllows p c.falseList child t cls b →
        BranchMentions p c.falseList parent (lowered p t) cls b ∨ Always p parent (lowered p t) cls b)

/-- Bounds are numbers of types. -/
def BoundsOk (p : OPolicy) : Prop := ∀ i d, p.sp.typeStruct i = some d → d.bounds ≤ p.sp.pol.nTypes

/-! ## Symbols -/

/-- The name up to its last dot. -/
def DotParent (s a : Str) : Prop := ∃ b, s = a ++ '.' :: b ∧ '.' ∉ b

/-- A symbol table with unique names, where each number has one primary name. -/
structure TableOk (t : Table) : Prop where
  names : ∀ n d d', (n, d) ∈ t → (n, d') ∈ t → d = d'
  one : ∀ e ∈ t, ∀ e' ∈ t, e.2.primary = true → e'.2.primary = true → e.2.value = e'.2.value → e = e'
  all : ∀ e ∈ t, ∃ e' ∈ t, e'.2.primary = true ∧ e'.2.value = e.2.value
  wf : ∀ e ∈ t, Ebitmap.WF e.2.set

/-- `name` is the primary name of the symbol with number `v`. -/
def Named (t : Table) (v : Nat) (name : Str) : Prop := ∃ d, (name, d) ∈ t ∧ d.primary = true ∧ d.value = v

/-- The symbol has no declared bound and its name has a dot, but the part before its last dot is not a symbol. -/
def Orphan (t : Table) (d : Sym) : Prop :=
  d.bounds = 0 ∧ ∃ name a, Named t d.value name ∧ DotParent name a ∧ ∀ pd, (a, pd) ∉ t

/-- The bound of a symbol: the declared one, or else that given by its name, or else none (0). -/
def BoundIs (t : Table) (d : Sym) (v : Nat) : Prop :=
  (d.bounds ≠ 0 ∧ v = d.bounds) ∨
  (d.bounds = 0 ∧ ∃ name, Named t d.value name ∧
    (('.' ∉ name ∧ v = 0) ∨ (∃ a pd, DotParent name a ∧ (a, pd) ∈ t ∧ v = pd.value) ∨ (Orphan t d ∧ v = 0)))

/-- The table `t'` is `t` with the bounds that follow from the names. -/
def Completed (t t' : Table) : Prop :=
  List.Forall₂ (fun e e' => ∃ v, BoundIs t e.2 v ∧ e' = (e.1, { e.2 with bounds := v })) t t'

/-- No symbol has a member (a type of a role, a role of a user) that its bounding symbol does not have. -/
def SetsWithin (t : Table) : Prop :=
  ∀ e ∈ t, ∀ e' ∈ t, e.2.bounds ≠ 0 → e'.2.primary = true → e'.2.value = e.2.bounds →
    ∀ i, Ebitmap.getBit e.2.set i = true → Ebitmap.getBit e'.2.set i = true

/-- A policy that has been expanded or read, with its symbol tables. -/
structure HOk (h : HPolicy) (σ0 : Cond.State) : Prop where
  pol : AssertOk h.pol σ0
  types : TableOk h.types
  roles : TableOk h.roles
  users : TableOk h.users
  values : ∀ e ∈ h.types, (1 ≤ e.2.value ∧ e.2.value ≤ h.op.sp.pol.nTypes) ∧ e.2.bounds ≤ h.op.sp.pol.nTypes

end Verif.Bounds
