import Verif.Assertion.Model
import Verif.Optimize.Spec

/-!
# Specification: what a neverallow rule forbids
-/

namespace Verif.Assertion
open Verif.Avtab Verif.Policy Verif.Optimize

/-- Type number `s` names a type, not an attribute. -/
def PlainType (p : OPolicy) (s : Nat) : Prop :=
  1 ≤ s ∧ s ≤ p.sp.pol.nTypes ∧ ∃ d, p.sp.typeStruct (s - 1) = some d ∧ d.flavor ≠ TYPE_ATTRIB

/-- A well-formed kernel policy with both attribute maps, as `expand_module` and `policydb_read` build them. -/
structure AssertOk (p : OPolicy) (σ0 : Cond.State) : Prop extends OptOk p σ0 where
  /-- attributes contain types -/
  members : ∀ a i, a < p.sp.pol.nTypes → Ebitmap.getBit (p.attrType a) i = true → PlainType p (i + 1)
  /-- a type stands for itself -/
  self : ∀ i, PlainType p (i + 1) → Ebitmap.getBit (p.attrType i) i = true ∧
    ∀ m, p.sp.typeAttr i = some m → Ebitmap.getBit m i = true
  only : ∀ a i, PlainType p (a + 1) → Ebitmap.getBit (p.attrType a) i = true → i = a
  /-- only the permission block of an extended permission rule is used -/
  noData : ∀ id ∈ p.tab.ids, (p.tab.node id).key.specified ∈ xKinds → (p.tab.node id).datum.data = 0#32

/-- The rule is written with `self` in its target. -/
def HasSelf (na : Avrule) : Prop := na.flags = RULE_SELF
/-- The rule is written with `~self` or `-self` in its target. -/
def HasNotSelf (na : Avrule) : Prop := na.flags = RULE_NOTSELF

/-- A rule accepted by `validate_avrules` (policydb_validate.c:1076-1094), with bitmaps made by the bitmap functions. -/
structure RuleWF (na : Avrule) : Prop where
  kind : na.specified = NEVERALLOW ∨ na.specified = XPERMS_NEVERALLOW
  flags : na.flags = 0#32 ∨ HasSelf na ∨ HasNotSelf na
  stypes : Ebitmap.WF na.stypes
  ttypes : Ebitmap.WF na.ttypes
  xkind : na.xperms.specified = FUNCTION ∨ na.xperms.specified = DRIVER ∨ na.xperms.specified = NLMSG
  xlen : na.xperms.perms.length = 8

/-- Type `s` is in the set. -/
def In (e : Ebitmap.Ebitmap) (s : Nat) : Prop := Ebitmap.getBit e (s - 1) = true

/-- The rule names `s` as source and `t` as target: `neverallow S T`, `neverallow S self`, `neverallow S { T self }`, or with
`-self`, where an empty `T` means any type (`~self`). -/
def Names (na : Avrule) (s t : Nat) : Prop :=
  In na.stypes s ∧
  ((na.flags = 0#32 ∧ In na.ttypes t) ∨ (HasSelf na ∧ (In na.ttypes t ∨ s = t)) ∨
   (HasNotSelf na ∧ s ≠ t ∧ ((∀ b, Ebitmap.getBit na.ttypes b = false) ∨ In na.ttypes t)))

/-- Some rule, unconditional or of a conditional, allows permission `b` of the class. -/
def SomeAllow (p : OPolicy) (s t cls b : Nat) : Prop :=
  (∃ n ∈ Avtab.nodes p.sp.te, Says p.sp s t cls (.allow b) n) ∨ ∃ id ∈ listed p.conds, Says p.sp s t cls (.allow b) (p.tab.node id)

/-- A neverallow rule is violated: a source and target type it names are allowed a permission it names. -/
def Violated (p : OPolicy) (na : Avrule) : Prop :=
  ∃ s t, PlainType p s ∧ PlainType p t ∧ Names na s t ∧ ∃ cp ∈ na.perms, ∃ b, cp.2.getLsbD b = true ∧ SomeAllow p s t cp.1 b

/-- Ioctl commands and netlink messages: a driver byte and a function byte. -/
inductive Cmd
  | ioctl (driver fn : Nat)
  | nlmsg (driver fn : Nat)

/-- The extended permission block lists the command. -/
def Lists (x : XPerms) : Cmd → Prop
  | .ioctl dr fn => dr < 256 ∧ fn < 256 ∧
      ((x.specified = FUNCTION ∧ x.driver.toNat = dr ∧ xbit x.perms fn) ∨ (x.specified = DRIVER ∧ xbit x.perms dr))
  | .nlmsg dr fn => dr < 256 ∧ fn < 256 ∧ x.specified = NLMSG ∧ x.driver.toNat = dr ∧ xbit x.perms fn

/-- `allowxperm` rules filter commands of this kind. -/
def Cmd.filtered : Cmd → Fact
  | .ioctl _ _ => .ioctlFiltered XPERMS_ALLOWED
  | .nlmsg _ _ => .nlmsgFiltered XPERMS_ALLOWED

/-- An `allowxperm` rule lists the command. -/
def Cmd.listed : Cmd → Fact
  | .ioctl dr fn => .ioctl XPERMS_ALLOWED dr fn
  | .nlmsg dr fn => .nlmsg XPERMS_ALLOWED dr fn

/-- With booleans `σ`, the command is possible: the permission itself is allowed, and the command is listed unless commands of its
kind are not filtered at all. -/
def Permitted (p : OPolicy) (σ : Cond.State) (s t cls b : Nat) (c : Cmd) : Prop :=
  Decides p σ s t cls (.allow b) ∧ (Decides p σ s t cls c.filtered → Decides p σ s t cls c.listed)

/-- A neverallowxperm rule is violated with booleans `σ`. -/
def XViolated (p : OPolicy) (σ : Cond.State) (na : Avrule) : Prop :=
  ∃ s t, PlainType p s ∧ PlainType p t ∧ Names na s t ∧
    ∃ cp ∈ na.perms, ∃ b, cp.2.getLsbD b = true ∧ ∃ c, Lists na.xperms c ∧ Permitted p σ s t cp.1 b c

/-- A rule of the policy, unconditional or of a conditional. -/
def IsRule (p : OPolicy) (n : Avtab.Node) : Prop := n ∈ Avtab.nodes p.sp.te ∨ ∃ id ∈ listed p.conds, n = p.tab.node id

/-- The allowxperm rules on the classes of the rule are about the same kind of commands as the rule. -/
def SameKind (p : OPolicy) (na : Avrule) : Prop :=
  ∀ n, IsRule p n → n.key.specified = XPERMS_ALLOWED → (∃ cp ∈ na.perms, cp.1 = n.key.cls) →
    ∀ x, n.datum.xperms = some x → (x.specified = NLMSG ↔ na.xperms.specified = NLMSG)

/-- Every condition has a value. -/
def CondsDefined (p : OPolicy) : Prop := ∀ c ∈ p.conds, ∀ σ, Cond.evaluate σ c.expr ≠ none

end Verif.Assertion
