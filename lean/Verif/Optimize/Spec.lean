import Verif.Optimize.Model
import Verif.Services.AvSpec
import Verif.Cond.Spec

/-!
# Specification: what a policy decides
-/

namespace Verif.Optimize
open Verif.Avtab Verif.Policy

/-- The rule kinds of a policy. -/
def avKinds : List (BitVec 16) := [ALLOWED, AUDITALLOW, AUDITDENY]
def xKinds : List (BitVec 16) := [XPERMS_ALLOWED, XPERMS_AUDITALLOW, XPERMS_DONTAUDIT]
def typeKinds : List (BitVec 16) := [TRANSITION, MEMBER, CHANGE]

/-- Bit `n` of a 256-bit set stored in eight words. -/
def xbit (perms : List (BitVec 32)) (n : Nat) : Prop := (perms.getD (n / 32) 0#32).getLsbD (n % 32) = true

/-- Something a rule can say about a subject, an object and a class. -/
inductive Fact
  /-- the permission is allowed / audited when granted / exempt from auditing when denied -/
  | allow (b : Nat)
  | auditallow (b : Nat)
  | dontaudit (b : Nat)
  /-- an ioctl command (driver and function byte) or a netlink message type is in the set of the given kind -/
  | ioctl (kind : BitVec 16) (driver fn : Nat)
  | nlmsg (kind : BitVec 16) (driver fn : Nat)
  /-- ioctl commands, or netlink messages, are filtered at all -/
  | ioctlFiltered (kind : BitVec 16)
  | nlmsgFiltered (kind : BitVec 16)
deriving DecidableEq, Repr

/-- What a rule with the given kind and datum says: a function rule lists the functions of one driver, a driver rule lists
drivers whose functions are all in the set. -/
def Grants (kind : BitVec 16) (d : Datum) : Fact → Prop
  | .allow b => kind = ALLOWED ∧ b < 32 ∧ d.data.getLsbD b = true
  | .auditallow b => kind = AUDITALLOW ∧ b < 32 ∧ d.data.getLsbD b = true
  | .dontaudit b => kind = AUDITDENY ∧ b < 32 ∧ d.data.getLsbD b = false
  | .ioctl k dr fn => kind = k ∧ k ∈ xKinds ∧ dr < 256 ∧ fn < 256 ∧ ∃ x, d.xperms = some x ∧
      ((x.specified = FUNCTION ∧ x.driver.toNat = dr ∧ xbit x.perms fn) ∨ (x.specified = DRIVER ∧ xbit x.perms dr))
  | .nlmsg k dr fn => kind = k ∧ k ∈ xKinds ∧ dr < 256 ∧ fn < 256 ∧ ∃ x, d.xperms = some x ∧
      x.specified = NLMSG ∧ x.driver.toNat = dr ∧ xbit x.perms fn
  | .ioctlFiltered k => kind = k ∧ k ∈ xKinds ∧ ∃ x, d.xperms = some x ∧ (x.specified = FUNCTION ∨ x.specified = DRIVER)
  | .nlmsgFiltered k => kind = k ∧ k ∈ xKinds ∧ ∃ x, d.xperms = some x ∧ x.specified = NLMSG

/-- The rule applies to types `s`, `t` and class `cls` and says `f`. -/
def Says (p : Services.SPolicy) (s t cls : Nat) (f : Fact) (n : Avtab.Node) : Prop :=
  Services.Covers p s n.key.source ∧ Services.Covers p t n.key.target ∧ n.key.cls = cls ∧ Grants n.key.specified n.datum f

/-- The policy decides `f` for `s`, `t`, `cls` when the booleans are `σ`: some unconditional rule, or some rule of the selected
branch of a conditional, says so. -/
def Decides (p : OPolicy) (σ : Cond.State) (s t cls : Nat) (f : Fact) : Prop :=
  (∃ n ∈ Avtab.nodes p.sp.te, Says p.sp s t cls f n) ∨ ∃ id, Cond.SelectedBy σ p.conds id ∧ Says p.sp s t cls f (p.tab.node id)

/-- Type number `ty` does not name an attribute. -/
def IsType (p : Services.SPolicy) (ty : Nat) : Prop := isAttr p (ty - 1) = false

/-- A rule of a validated policy: one kind, existing types, and an extended permission rule has a block of eight words. -/
structure RuleOk (p : Services.SPolicy) (n : Avtab.Node) : Prop where
  kind : n.key.specified ∈ avKinds ++ xKinds ++ typeKinds
  source : 1 ≤ n.key.source ∧ n.key.source ≤ p.pol.nTypes ∧ p.typeStruct (n.key.source - 1) ≠ none
  target : 1 ≤ n.key.target ∧ n.key.target ≤ p.pol.nTypes ∧ p.typeStruct (n.key.target - 1) ≠ none
  block : n.key.specified ∈ xKinds → ∃ x, n.datum.xperms = some x ∧ x.perms.length = 8

/-- A table as the insertion functions build it: chains in order, nodes in their slot, `nel` counts them. -/
structure TableOk (h : Avtab.Avtab) : Prop where
  sorted : ∀ tb, h.htable = some tb → ∀ i, (tb i).Pairwise (fun a b => before b.key a.key = false)
  slot : ∀ tb, h.htable = some tb → ∀ i n, n ∈ tb i → Avtab.hash n.key h.mask = i ∧ i < h.nslot
  null : h.htable = none → h.nslot = 0
  count : h.nel = (Avtab.nodes h).length

/-- The nodes of the conditional table. -/
def CondTab.ids (t : CondTab) : List Nat := (List.range t.nslot).flatMap t.htable

/-- All rules of the conditionals. -/
def listed (conds : List Cond.Node) : List Nat := conds.flatMap (fun c => c.trueList ++ c.falseList)

/-- A kernel policy as the compilers write it and the library loads it (version 24 or later). -/
structure OptOk (p : OPolicy) (σ0 : Cond.State) : Prop where
  te : TableOk p.sp.te
  teRules : ∀ n ∈ Avtab.nodes p.sp.te, RuleOk p.sp n
  cond : TableOk (p.tab.avtab p.enabled)
  ids : p.tab.ids.Nodup
  condRules : ∀ id ∈ p.tab.ids, RuleOk p.sp (p.tab.node id)
  /-- every rule of the conditional table belongs to one branch of one conditional -/
  own : Cond.OwnRules p.conds
  all : ∀ id, id ∈ listed p.conds ↔ id ∈ p.tab.ids
  /-- the conditionals have been evaluated -/
  consistent : Cond.Consistent σ0 p.conds p.enabled
  small : p.sp.pol.nTypes < 2 ^ 16
  attr : ∀ i, i < p.sp.pol.nTypes → ∃ m, p.sp.typeAttr i = some m
  attrWF : ∀ i m, p.sp.typeAttr i = some m → Ebitmap.WF m ∧ ∀ b, Ebitmap.getBit m b = true → b < p.sp.pol.nTypes
  attrTypeWF : ∀ i, Ebitmap.WF (p.attrType i)
  /-- a type is listed with itself and with attributes only -/
  proper : ∀ i m b, isAttr p.sp i = false → p.sp.typeAttr i = some m → Ebitmap.getBit m b = true → b = i ∨ isAttr p.sp b = true
  /-- the two attribute maps are inverse to each other -/
  inverse : ∀ i m a, isAttr p.sp i = false → isAttr p.sp a = true → p.sp.typeAttr i = some m →
    (Ebitmap.getBit m a = true ↔ Ebitmap.getBit (p.attrType a) i = true)

end Verif.Optimize
