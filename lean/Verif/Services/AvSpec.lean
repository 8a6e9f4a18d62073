import Verif.Services.Av
import Verif.Services.ConstraintSpec
import Verif.Avtab.Spec

/-!
# Specification of access decisions
-/

namespace Verif.Services
open Verif.Policy Verif.Mls

open Classical in
/-- The table contains exactly the listed rules: a query returns the rules that answer it. -/
def Contains (h : Avtab.Avtab) (rules : List Avtab.Node) : Prop :=
  ∀ k, (Avtab.enumerate h k).Perm (rules.filter (fun r => Avtab.Answers k r))

/-- The rules of the unconditional and the conditional table. -/
structure Rules where
  te : List Avtab.Node
  cond : List Avtab.Node

/-- Type `ty` is covered by type or attribute `n`. -/
def Covers (p : SPolicy) (ty n : Nat) : Prop :=
  1 ≤ n ∧ ∃ m, p.typeAttr (ty - 1) = some m ∧ Ebitmap.getBit m (n - 1) = true

/-- An active rule of the given kind whose source and target cover the two types. -/
def Applies (p : SPolicy) (R : Rules) (kind : BitVec 16) (s t : Context) (cls : Nat) (r : Avtab.Node) : Prop :=
  Covers p s.type r.key.source ∧ Covers p t.type r.key.target ∧ r.key.cls = cls ∧
  ((r ∈ R.te ∧ r.key.specified = kind) ∨
   (r ∈ R.cond ∧ r.key.specified &&& kind = kind ∧ r.key.specified &&& Avtab.ENABLED = Avtab.ENABLED))

/-- Some active allow rule grants permission `b`. -/
def TeAllows (p : SPolicy) (R : Rules) (s t : Context) (cls b : Nat) : Prop :=
  ∃ r, Applies p R Avtab.ALLOWED s t cls r ∧ r.datum.data.getLsbD b = true

/-- Every constraint that covers permission `b` holds. -/
def ConstraintsOk (p : SPolicy) (s t : Context) (cls b : Nat) : Prop :=
  ∀ ci, p.classes (cls - 1) = some ci → ∀ c ∈ ci.constraints, c.perms.getLsbD b = true →
    ∃ tree, Postfix c.expr tree ∧ tree.Holds p.pol s t none

/-- A role change on a process transition is authorised by a role allow rule. -/
def RoleOk (p : SPolicy) (s t : Context) (cls b : Nat) : Prop :=
  cls = p.processClass → p.transDyntrans.getLsbD b = true → s.role ≠ t.role → (s.role, t.role) ∈ p.roleAllow

/-- The bounding type of a type, 0 if none. -/
def boundOf (p : SPolicy) (ty : Nat) : Nat := ((p.typeStruct (ty - 1)).map (·.bounds)).getD 0

/-- The target's bounding type if it has one. -/
def lowerTarget (p : SPolicy) (t : Context) : Context :=
  if boundOf p t.type = 0 then t else { t with type := boundOf p t.type }

/-- Permission `b` of class `cls` is granted to `s` on `t`: type enforcement, constraints and role rules
agree, and if the source type is bounded then its bounding type has the permission too. -/
inductive Granted (p : SPolicy) (R : Rules) (cls b : Nat) : Context → Context → Prop
  | intro {s t : Context} : TeAllows p R s t cls b → ConstraintsOk p s t cls b → RoleOk p s t cls b →
      (boundOf p s.type ≠ 0 → Granted p R cls b { s with type := boundOf p s.type } (lowerTarget p t)) →
      Granted p R cls b s t

/-- Properties of loaded policies: tables hold the rules; the attribute map consists of properly built
bitmaps and type numbers fit the 16-bit rule keys; constraints were validated; bounds are
32-bit numbers. -/
structure PolicyOk (p : SPolicy) (R : Rules) : Prop where
  te : Contains p.te R.te
  cond : Contains p.cond R.cond
  attr : ∀ ty m, p.typeAttr ty = some m → Ebitmap.WF m ∧ ∀ b, Ebitmap.getBit m b = true → b < 2 ^ 16 - 1
  cons : ∀ i ci, p.classes i = some ci → ∃ fl nperms, nperms ≠ 2 ^ 32 - 1 ∧ validateConstraints fl nperms ci.constraints = true
  bounds : ∀ i d, p.typeStruct i = some d → d.bounds < 2 ^ 32

end Verif.Services
