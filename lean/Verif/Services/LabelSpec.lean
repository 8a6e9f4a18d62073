import Verif.Services.Label
import Verif.Services.AvSpec
import Verif.Mls.Spec

/-!
# Specification of the label of a new object

Each component is described by the rules of the policy language: an explicit rule wins over the default
of the class, the class default over the built-in default.
-/

namespace Verif.Services
open Verif.Policy Verif.Mls

/-- `d` are the defaults declared for class `cls`; all zero (unset) for a class the policy does not define. -/
def DefaultsOf (p : LPolicy) (cls : Nat) (d : Defaults) : Prop :=
  (1 ≤ cls ∧ cls ≤ p.nClasses ∧ p.defaults (cls - 1) = some d) ∨
  (¬ (1 ≤ cls ∧ cls ≤ p.nClasses ∧ ∃ d, p.defaults (cls - 1) = some d) ∧ d = ⟨0, 0, 0, 0⟩)

/-- A type rule of the kind for exactly these types and this class. -/
def TypeRuleFor (s t : Context) (cls : Nat) (k : Kind) (r : Avtab.Node) : Prop :=
  r.key.source = s.type ∧ r.key.target = t.type ∧ r.key.cls = cls ∧ r.key.specified &&& k.code = k.code

/-- A conditional rule that is switched on. -/
def Active (r : Avtab.Node) : Prop := r.key.specified &&& Avtab.ENABLED = Avtab.ENABLED

/-- The user of the new label. -/
inductive UserOf (p : LPolicy) (s t : Context) (cls : Nat) : Kind → Nat → Prop
  | member : UserOf p s t cls .member t.user
  | target (k d) : k ≠ .member → DefaultsOf p cls d → d.user = 2 → UserOf p s t cls k t.user
  | source (k d) : k ≠ .member → DefaultsOf p cls d → d.user ≠ 2 → UserOf p s t cls k s.user

/-- The role by default. -/
inductive DefaultRoleOf (p : LPolicy) (s t : Context) (cls : Nat) : Nat → Prop
  | source (d) : DefaultsOf p cls d → d.role = 1 → DefaultRoleOf p s t cls s.role
  | target (d) : DefaultsOf p cls d → d.role = 2 → DefaultRoleOf p s t cls t.role
  | process (d) : DefaultsOf p cls d → d.role ≠ 1 → d.role ≠ 2 → cls = p.processClass → DefaultRoleOf p s t cls s.role
  | object (d) : DefaultsOf p cls d → d.role ≠ 1 → d.role ≠ 2 → cls ≠ p.processClass →
      DefaultRoleOf p s t cls OBJECT_R_VAL

/-- A role_transition rule for this role, type and class. -/
def RoleRuleFor (s t : Context) (cls : Nat) (r : RoleTrans) : Prop := r.role = s.role ∧ r.type = t.type ∧ r.cls = cls

/-- The role of the new label. -/
inductive RoleOf (p : LPolicy) (s t : Context) (cls : Nat) : Kind → Nat → Prop
  | rule (r) : r ∈ p.roleTr → RoleRuleFor s t cls r → RoleOf p s t cls .transition r.newRole
  | none (v) : (∀ r ∈ p.roleTr, ¬ RoleRuleFor s t cls r) → DefaultRoleOf p s t cls v → RoleOf p s t cls .transition v
  | other (k v) : k ≠ .transition → DefaultRoleOf p s t cls v → RoleOf p s t cls k v

/-- The type by default. -/
inductive DefaultTypeOf (p : LPolicy) (s t : Context) (cls : Nat) : Nat → Prop
  | source (d) : DefaultsOf p cls d → d.type = 1 → DefaultTypeOf p s t cls s.type
  | target (d) : DefaultsOf p cls d → d.type = 2 → DefaultTypeOf p s t cls t.type
  | process (d) : DefaultsOf p cls d → d.type ≠ 1 → d.type ≠ 2 → cls = p.processClass → DefaultTypeOf p s t cls s.type
  | object (d) : DefaultsOf p cls d → d.type ≠ 1 → d.type ≠ 2 → cls ≠ p.processClass → DefaultTypeOf p s t cls t.type

/-- The type of the new label: an unconditional rule, else an active conditional rule, else the default. -/
inductive TypeOf (p : LPolicy) (R : Rules) (s t : Context) (cls : Nat) (k : Kind) : Nat → Prop
  | rule (r) : r ∈ R.te → TypeRuleFor s t cls k r → TypeOf p R s t cls k r.datum.data.toNat
  | cond (r) : (∀ r ∈ R.te, ¬ TypeRuleFor s t cls k r) → r ∈ R.cond → TypeRuleFor s t cls k r → Active r →
      TypeOf p R s t cls k r.datum.data.toNat
  | none (v) : (∀ r ∈ R.te, ¬ TypeRuleFor s t cls k r) → (∀ r ∈ R.cond, TypeRuleFor s t cls k r → ¬ Active r) →
      DefaultTypeOf p s t cls v → TypeOf p R s t cls k v

/-- The range of a new object without a rule: processes keep the range of their creator, other objects get
the creator's current (low) level. -/
inductive PlainRangeOf (p : LPolicy) (s : Context) (cls : Nat) : Range → Prop
  | process : cls = p.processClass → PlainRangeOf p s cls s.range
  | object : cls ≠ p.processClass → PlainRangeOf p s cls ⟨s.range.low, s.range.low⟩

/-- The greatest lower/least upper bound range: sensitivities between the larger low and the smaller high one,
categories in common. -/
def GlbLub (r1 r2 r : Range) : Prop :=
  r2.low.sens ≤ r1.high.sens ∧ r1.low.sens ≤ r2.high.sens ∧
  r.low.sens = max r1.low.sens r2.low.sens ∧ r.high.sens = min r1.high.sens r2.high.sens ∧
  (∀ b, HasCat r.low b ↔ HasCat r1.low b ∧ HasCat r2.low b) ∧
  (∀ b, HasCat r.high b ↔ HasCat r1.high b ∧ HasCat r2.high b)

/-- The range given by the class default `v` of a transition. -/
inductive ClassRange (p : LPolicy) (s t : Context) (cls : Nat) : Nat → Range → Prop
  | sourceLow : ClassRange p s t cls 1 ⟨s.range.low, s.range.low⟩
  | sourceHigh : ClassRange p s t cls 2 ⟨s.range.high, s.range.high⟩
  | sourceRange : ClassRange p s t cls 3 s.range
  | targetLow : ClassRange p s t cls 4 ⟨t.range.low, t.range.low⟩
  | targetHigh : ClassRange p s t cls 5 ⟨t.range.high, t.range.high⟩
  | targetRange : ClassRange p s t cls 6 t.range
  | glblub (r) : GlbLub s.range t.range r → ClassRange p s t cls 7 r
  | unset (v r) : v = 0 ∨ 7 < v → PlainRangeOf p s cls r → ClassRange p s t cls v r

/-- The range of the new label (policies with MLS). -/
inductive RangeOf (p : LPolicy) (s t : Context) (cls : Nat) : Kind → Range → Prop
  | rule (r) : p.rangeTr s.type t.type cls = some r → RangeOf p s t cls .transition r
  | default (d r) : p.rangeTr s.type t.type cls = none → DefaultsOf p cls d → ClassRange p s t cls d.range r →
      RangeOf p s t cls .transition r
  | change (r) : PlainRangeOf p s cls r → RangeOf p s t cls .change r
  | member : RangeOf p s t cls .member ⟨s.range.low, s.range.low⟩

/-- `n` is a label the policy prescribes for a new object of class `cls` created by `s` in relation to `t`. -/
structure LabelOf (p : LPolicy) (R : Rules) (s t : Context) (cls : Nat) (k : Kind) (n : Context) : Prop where
  user : UserOf p s t cls k n.user
  role : RoleOf p s t cls k n.role
  type : TypeOf p R s t cls k n.type
  range : p.pol.mls = true → RangeOf p s t cls k n.range
  norange : p.pol.mls = false → n.range = emptyRange

/-- Rule tables and rules agree; range rules are well-formed. -/
structure LabelPolicyOk (p : LPolicy) (R : Rules) : Prop where
  te : Contains p.te R.te
  cond : Contains p.cond R.cond
  ranges : ∀ a b c r, p.rangeTr a b c = some r → WFRange r

/-- No two rules contradict each other (the policy compiler rejects them). -/
structure Consistent (p : LPolicy) (R : Rules) (s t : Context) (cls : Nat) (k : Kind) : Prop where
  te : ∀ r ∈ R.te, ∀ r' ∈ R.te, TypeRuleFor s t cls k r → TypeRuleFor s t cls k r' → r.datum.data = r'.datum.data
  cond : ∀ r ∈ R.cond, ∀ r' ∈ R.cond, TypeRuleFor s t cls k r → TypeRuleFor s t cls k r' → Active r → Active r' →
    r.datum.data = r'.datum.data
  role : ∀ r ∈ p.roleTr, ∀ r' ∈ p.roleTr, RoleRuleFor s t cls r → RoleRuleFor s t cls r' → r.newRole = r'.newRole

end Verif.Services
