import Verif.PolicyIO.Model
import Verif.Validate.Spec
import Verif.Avtab.Lemmas2
import Batteries.Data.List.Basic

/-!
# What it means that a policy can be written and is kept

`held p` is what of a policy the format of its version holds.  `Fits` says that the parts of a policy have the sizes that the
format has room for, that names differ, and so on.  Nothing here mentions bytes.
-/

namespace Verif.PolicyIO
open Verif.Policy Verif.Services Verif.Validate

/-! ## What the format holds -/

/-- The sets of an expression are held only for a comparison with names (5), the one with attributes from version 29 on. -/
def heldExpr (version : Nat) (e : CExpr) : CExpr :=
  if e.exprType = 5 then { e with typeNames := if 29 ≤ version then e.typeNames else ⟨Ebitmap.init, Ebitmap.init, 0⟩ }
  else { e with names := Ebitmap.init, typeNames := ⟨Ebitmap.init, Ebitmap.init, 0⟩ }

def heldConstraint (version : Nat) (c : Constraint) : Constraint := { c with expr := c.expr.map (heldExpr version) }

/-- The defaults for users, roles and ranges of new objects are held from version 27 on, that for types from 28 on, and the range
"glblub" (7) from 32 on. -/
def heldClass (version : Nat) (c : ClassP) : ClassP := { c with
  datum := { c.datum with
    constraints := c.datum.constraints.map (heldConstraint version)
    validatetrans := c.datum.validatetrans.map (heldConstraint version)
    defaultUser := if 27 ≤ version then c.datum.defaultUser else 0
    defaultRole := if 27 ≤ version then c.datum.defaultRole else 0
    defaultRange := if 27 ≤ version ∧ (32 ≤ version ∨ c.datum.defaultRange ≠ 7) then c.datum.defaultRange else 0
    defaultType := if 28 ≤ version then c.datum.defaultType else 0 } }

/-- Of a role the types and the roles that it dominates are held. -/
def heldRole (d : RoleD) : RoleD := ⟨d.value, d.dominates, ⟨d.types.types, Ebitmap.init, 0⟩, d.bounds, Ebitmap.init, 0⟩

/-- Role attributes (flavor 1) are not held, and nothing of the role `object_r`, which every policy has. -/
def heldRoles (t : Symtab RoleD) : Symtab RoleD :=
  ⟨("object_r".toList, ⟨1, Ebitmap.init, ⟨Ebitmap.init, Ebitmap.init, 0⟩, 0, Ebitmap.init, 0⟩) ::
    (t.entries.filter fun e => e.2.flavor != 1 && e.1 != "object_r".toList).map fun e => (e.1, heldRole e.2), t.nprim⟩

/-- Of a type it is held whether it is an alias and whether it is an attribute. -/
def heldType (d : TypeD) : TypeD :=
  { d with primary := if d.primary = 0 then 0 else 1, flavor := if d.flavor = 1 then 1 else 0, types := Ebitmap.init, flags := 0 }

/-- Of a user the levels in terms of sensitivities are held. -/
def heldUser (d : UserD) : UserD :=
  { d with roles := ⟨d.roles.roles, 0⟩, low := ⟨0, []⟩, high := ⟨0, []⟩, dfltlevel := ⟨0, []⟩ }

/-- The rules with extended permissions have no other data. -/
def heldNode (n : Avtab.Node) : Avtab.Node :=
  if Avtab.isXperm n.key then ⟨n.key, ⟨0#32, n.datum.xperms⟩⟩ else n

def heldCond (c : CondD) : CondD :=
  { c with trueList := c.trueList.map heldNode, falseList := c.falseList.map heldNode, flags := 0 }

/-- The empty entry of a list of contexts. -/
def noOcon : OconP :=
  ⟨⟨0, 0, 0, ⟨⟨0, Ebitmap.init⟩, ⟨0, Ebitmap.init⟩⟩⟩, ⟨0, 0, 0, ⟨⟨0, Ebitmap.init⟩, ⟨0, Ebitmap.init⟩⟩⟩,
    0, none, 0, 0, 0, [], [], 0, [], 0, 0, none, 0, 0, 0, 0, 0, 0, 0⟩

/-- What is held of an entry of list `i`.  For Linux the lists are: initial SIDs, file systems, ports, interfaces, nodes, fs_use,
IPv6 nodes, Infiniband keys and ports; for Xen: initial SIDs, interrupts, I/O ports, I/O memory, PCI devices, device tree
nodes. -/
def heldOcon (target i : Nat) (o : OconP) : OconP :=
  if target = 0 then
    if i = 0 then { noOcon with sid := o.sid, context0 := o.context0 }
    else if i = 1 ∨ i = 3 then { noOcon with name := o.name, context0 := o.context0, context1 := o.context1 }
    else if i = 2 then { noOcon with protocol := o.protocol, lowPort := o.lowPort, highPort := o.highPort, context0 := o.context0 }
    else if i = 4 ∨ i = 6 then { noOcon with addr := o.addr, mask := o.mask, context0 := o.context0 }
    else if i = 5 then { noOcon with behavior := o.behavior, name := o.name, context0 := o.context0 }
    else if i = 7 then { noOcon with prefix_ := o.prefix_, lowPkey := o.lowPkey, highPkey := o.highPkey, context0 := o.context0 }
    else { noOcon with devName := o.devName, ibPort := o.ibPort, context0 := o.context0 }
  else
    if i = 0 then { noOcon with sid := o.sid, context0 := o.context0 }
    else if i = 1 then { noOcon with pirq := o.pirq, context0 := o.context0 }
    else if i = 2 then { noOcon with lowIoport := o.lowIoport, highIoport := o.highIoport, context0 := o.context0 }
    else if i = 3 then { noOcon with lowIomem := o.lowIomem, highIomem := o.highIomem, context0 := o.context0 }
    else if i = 4 then { noOcon with device := o.device, context0 := o.context0 }
    else { noOcon with name := o.name, context0 := o.context0 }

/-- The number of lists of contexts of a version. -/
def lists (target version : Nat) : Nat := if target = 0 then (if version < 31 then 7 else 9) else 6

/-- An initial SID with user 0 has no context and is not held. -/
def heldOcons (p : PolicyDb) (i : Nat) : List OconP :=
  if i < lists p.target p.version then
    ((p.ocontexts i).filter fun o => !(i == 0 && o.context0.user == 0)).map (heldOcon p.target i)
  else []

/-- What of the policy is held; the rules outside of conditionals are the subject of `Same`. -/
def held (p : PolicyDb) : PolicyDb := { p with
  classes := ⟨p.classes.entries.map fun e => (e.1, heldClass p.version e.2), p.classes.nprim⟩
  roles := heldRoles p.roles
  types := ⟨p.types.entries.map fun e => (e.1, heldType e.2), p.types.nprim⟩
  users := ⟨p.users.entries.map fun e => (e.1, heldUser e.2), p.users.nprim⟩
  bools := ⟨p.bools.entries.map fun e => (e.1, { e.2 with flags := 0 }), p.bools.nprim⟩
  levels := ⟨p.levels.entries.map fun e => (e.1, { e.2 with notdefined := 0 }), p.levels.nprim⟩
  conds := p.conds.map heldCond
  ocontexts := heldOcons p }

/-! ## Equal policies -/

/-- The same file systems, each with the same entries, in some order. -/
def SameGenfs (a b : List GenfsP) : Prop :=
  ∃ c : List GenfsP, c.Perm a ∧ List.Forall₂ (fun x y : GenfsP => x.fstype = y.fstype ∧ x.head.Perm y.head) c b

/-- The policy `q` is `p`, up to the order of rules and of paths. -/
structure Same (p q : PolicyDb) : Prop where
  version : q.version = p.version
  target : q.target = p.target
  mls : q.mls = p.mls
  handleUnknown : q.handleUnknown = p.handleUnknown
  policycaps : q.policycaps = p.policycaps
  permissive : q.permissive = p.permissive
  commons : q.commons = p.commons
  classes : q.classes = p.classes
  roles : q.roles = p.roles
  types : q.types = p.types
  users : q.users = p.users
  bools : q.bools = p.bools
  levels : q.levels = p.levels
  cats : q.cats = p.cats
  rules : (Avtab.nodes q.avtab).Perm ((Avtab.nodes p.avtab).map heldNode)
  conds : q.conds = p.conds
  roleTrans : q.roleTrans = p.roleTrans
  roleAllow : q.roleAllow = p.roleAllow
  filenameTrans : q.filenameTrans = p.filenameTrans
  filenameTransCount : q.filenameTransCount = p.filenameTransCount
  ocontexts : q.ocontexts = p.ocontexts
  genfs : SameGenfs p.genfs q.genfs
  rangeTrans : q.rangeTrans = p.rangeTrans
  typeAttr : ∀ i < p.types.nprim, q.typeAttr i = p.typeAttr i
  attrType : ∀ i < p.types.nprim, q.attrType i = p.attrType i

/-! ## Policies that there is room for -/

/-- A number of 32 bits. -/
def Word (n : Nat) : Prop := n < 2 ^ 32

/-- A name has one or more characters, which are bytes other than NUL. -/
def GoodName (s : Str) : Prop := s ≠ [] ∧ s.length < 2 ^ 32 ∧ ∀ c ∈ s, 1 ≤ c.toNat ∧ c.toNat < 256

def LevelFits (l : Level) : Prop := Word l.sens ∧ Ebitmap.WF l.cat
def RangeFits (r : Range) : Prop := LevelFits r.low ∧ LevelFits r.high
def ContextFits (c : Context) : Prop := Word c.user ∧ Word c.role ∧ Word c.type ∧ RangeFits c.range

/-- The names of a table are names and differ. -/
def NamesFit {δ : Type} (l : List (Str × δ)) : Prop := (∀ e ∈ l, GoodName e.1) ∧ (l.map (·.1)).Nodup

/-- A table of which `n` entries are written.  Since a policy is refused whose tables cannot have been there (policydb.c:4353), each
number stands for an entry. -/
def TableFits {δ : Type} (t : Symtab δ) (n : Nat) : Prop :=
  NamesFit t.entries ∧ t.nprim < 2 ^ 32 - 64 ∧ Word n ∧ t.nprim ≤ n ∧ (t.nprim = 0 → n = 0)

/-- Permissions. -/
def PermsFit (t : Symtab Nat) : Prop :=
  NamesFit t.entries ∧ t.nprim ≤ 32 ∧ Word t.entries.length ∧ ∀ e ∈ t.entries, 1 ≤ e.2 ∧ e.2 ≤ t.nprim

def ExprFits (e : CExpr) : Prop :=
  Word e.attr ∧ Word e.op ∧ Ebitmap.WF e.names ∧ Ebitmap.WF e.typeNames.types ∧ Ebitmap.WF e.typeNames.negset ∧ Word e.typeNames.flags

def ConstraintFits (c : Constraint) : Prop := Word c.expr.length ∧ ∀ e ∈ c.expr, ExprFits e

structure ClassFits (p : PolicyDb) (c : ClassP) : Prop where
  value : c.datum.value ≤ 65535
  perms : PermsFit c.datum.perms
  noCommon : c.comkey = none → c.datum.common = none
  common : ∀ k, c.comkey = some k → GoodName k ∧ ∃ d, (k, d) ∈ p.commons.entries ∧ c.datum.common = some d
  constraints : Word c.datum.constraints.length ∧ ∀ x ∈ c.datum.constraints, ConstraintFits x
  validatetrans : Word c.datum.validatetrans.length ∧ ∀ x ∈ c.datum.validatetrans, ConstraintFits x
  defaults : c.datum.defaultUser < 256 ∧ c.datum.defaultRole < 256 ∧ c.datum.defaultType < 256 ∧ c.datum.defaultRange < 256

/-- The rules outside of conditionals have been put into a table one by one; there is at least one, and extended permissions
appear from version 30 on. -/
def RulesFit (p : PolicyDb) : Prop :=
  ∃ (n : Nat) (rules : List (Avtab.Key × Avtab.Datum)), n ≠ 0 ∧ rules ≠ [] ∧ rules.length < 2 ^ 32 - 1 ∧
    (∀ r ∈ rules, Avtab.Storable ⟨r.1, r.2⟩ ∧ (Avtab.isXperm r.1 = true → 30 ≤ p.version)) ∧
    p.avtab = Avtab.run n (rules.map fun r => .insert r.1 r.2)

/-- A rule that says which type something new has. -/
def IsTypeRule (n : Avtab.Node) : Prop := n.key.specified &&& Avtab.TYPE ≠ 0#16

/-- Type rules of a conditional do not contradict each other or other rules: only one in the true branch and one in the false
branch of the same conditional may be about the same. -/
structure NoConflict (p : PolicyDb) : Prop where
  outside : ∀ c ∈ p.conds, ∀ n ∈ c.trueList ++ c.falseList, IsTypeRule n → ∀ r ∈ Avtab.nodes p.avtab, ¬ Avtab.Answers n.key r
  branch : ∀ c ∈ p.conds, (c.trueList.Pairwise fun a b => IsTypeRule b → ¬ Avtab.Answers b.key a) ∧
    (c.falseList.Pairwise fun a b => IsTypeRule b → ¬ Avtab.Answers b.key a)
  across : p.conds.Pairwise fun c d => ∀ a ∈ c.trueList ++ c.falseList, ∀ b ∈ d.trueList ++ d.falseList, IsTypeRule b →
    ¬ Avtab.Answers b.key a

def CondFits (c : CondD) : Prop :=
  Word c.expr.length ∧ Word c.trueList.length ∧ Word c.falseList.length ∧
  ∀ n ∈ c.trueList ++ c.falseList, Avtab.Storable n

/-- The number of rules of an entry. -/
def ruleCount (f : FileTransP) : Nat := (f.data.map fun d => Ebitmap.cardinality d.1).sum

structure FileTransFits (f : FileTransP) : Prop where
  name : GoodName f.name
  key : Word f.ttype ∧ Word f.tclass
  nonempty : f.data ≠ []
  count : Word f.data.length
  data : ∀ d ∈ f.data, Ebitmap.WF d.1 ∧ (∃ b, Ebitmap.getBit d.1 b = true)
  types : f.data.Pairwise fun d e => d.2 ≠ e.2
  sources : f.data.Pairwise fun d e => ∀ b, ¬ (Ebitmap.getBit d.1 b = true ∧ Ebitmap.getBit e.1 b = true)

def OconFits (target i : Nat) (o : OconP) : Prop :=
  ContextFits o.context0 ∧
  (target = 0 →
    (i = 0 → o.sid < 2 ^ 32 - 1) ∧
    (i = 1 ∨ i = 3 → ContextFits o.context1 ∧ ∃ s, o.name = some s ∧ GoodName s ∧ s.length ≤ 63) ∧
    (i = 2 → o.protocol < 2 ^ 8 ∧ o.lowPort < 2 ^ 16 ∧ o.highPort < 2 ^ 16) ∧
    (i = 4 → o.addr.length = 4 ∧ o.mask.length = 4) ∧
    (i = 5 → Word o.behavior ∧ ∃ s, o.name = some s ∧ GoodName s) ∧
    (i = 6 → o.addr.length = 16 ∧ o.mask.length = 16) ∧
    (i = 7 → o.prefix_.length = 8 ∧ o.lowPkey < 2 ^ 16 ∧ o.highPkey < 2 ^ 16) ∧
    (i = 8 → 1 ≤ o.ibPort ∧ o.ibPort < 256 ∧ ∃ s, o.devName = some s ∧ GoodName s ∧ s.length ≤ 63)) ∧
  (target = 1 →
    (i = 0 → o.sid < 2 ^ 32 - 1) ∧
    (i = 1 → o.pirq < 2 ^ 16) ∧
    (i = 2 → Word o.lowIoport ∧ Word o.highIoport) ∧
    (i = 3 → o.lowIomem < 2 ^ 64 ∧ o.highIomem < 2 ^ 64) ∧
    (i = 4 → Word o.device) ∧
    (i = 5 → ∃ s, o.name = some s ∧ GoodName s))

/-- The entries of a file system: for one path there is one entry, or one for each of several classes. -/
structure GenfsFits (g : GenfsP) : Prop where
  name : GoodName g.fstype
  count : Word g.head.length
  entries : ∀ e ∈ g.head, GoodName e.name ∧ Word e.sclass ∧ ContextFits e.context
  distinct : g.head.Pairwise fun a b => a.name = b.name → a.sclass ≠ b.sclass ∧ a.sclass ≠ 0 ∧ b.sclass ≠ 0

/-- There is an entry, which is not an alias, for type number `v`. -/
def IsEntry (p : PolicyDb) (v : Nat) : Prop := ∃ e ∈ p.types.entries, e.2.primary ≠ 0 ∧ e.2.value = v

/-- The two maps between types and attributes say the same; a type is in its own set, an attribute only in one of the maps. -/
structure MapsAgree (p : PolicyDb) : Prop where
  wf : ∀ i < p.types.nprim, Ebitmap.WF (p.typeAttr i) ∧ Ebitmap.WF (p.attrType i)
  self : ∀ i < p.types.nprim, IsEntry p (i + 1) → Ebitmap.getBit (p.typeAttr i) i = true
  bound : ∀ i < p.types.nprim, ∀ j, Ebitmap.getBit (p.typeAttr i) j = true → j < p.types.nprim
  inverse : ∀ i < p.types.nprim, ∀ j, Ebitmap.getBit (p.attrType i) j = true ↔
    j < p.types.nprim ∧ (i ≠ j ∧ Ebitmap.getBit (p.typeAttr j) i = true ∨
      i = j ∧ ∃ e ∈ p.types.entries, e.2.primary ≠ 0 ∧ e.2.value = i + 1 ∧ e.2.flavor ≠ 1)

/-- All parts of the policy have room. -/
structure Fits (p : PolicyDb) : Prop where
  version : 26 ≤ p.version ∧ p.version ≤ 34
  target : p.target = 0 ∨ p.target = 1 ∧ p.version = 30
  policycaps : Ebitmap.WF p.policycaps
  permissive : Ebitmap.WF p.permissive
  commonTable : TableFits p.commons p.commons.entries.length
  classTable : TableFits p.classes p.classes.entries.length
  roleTable : TableFits p.roles (p.roles.entries.filter fun e => e.2.flavor != 1).length
  typeTable : TableFits p.types p.types.entries.length
  userTable : TableFits p.users p.users.entries.length
  boolTable : TableFits p.bools p.bools.entries.length
  levelTable : TableFits p.levels p.levels.entries.length
  catTable : TableFits p.cats p.cats.entries.length
  commons : ∀ e ∈ p.commons.entries, Word e.2.value ∧ PermsFit e.2.perms
  classes : ∀ e ∈ p.classes.entries, ClassFits p e.2
  roles : ∀ e ∈ p.roles.entries, Word e.2.value ∧ Word e.2.bounds ∧ Ebitmap.WF e.2.dominates ∧ Ebitmap.WF e.2.types.types ∧
    (e.1 = "object_r".toList → e.2.flavor ≠ 1 → e.2.value = 1)
  types : ∀ e ∈ p.types.entries, Word e.2.value ∧ Word e.2.bounds
  users : ∀ e ∈ p.users.entries, Word e.2.value ∧ Word e.2.bounds ∧ Ebitmap.WF e.2.roles.roles ∧ RangeFits e.2.expRange ∧
    LevelFits e.2.expDfltlevel
  bools : ∀ e ∈ p.bools.entries, Word e.2.value
  levels : ∀ e ∈ p.levels.entries, LevelFits e.2.level
  cats : ∀ e ∈ p.cats.entries, Word e.2.value
  rules : RulesFit p
  condCount : Word p.conds.length
  conds : ∀ c ∈ p.conds, CondFits c
  conflict : NoConflict p
  roleTransCount : Word p.roleTrans.length
  roleTrans : ∀ t ∈ p.roleTrans, Word t.role ∧ Word t.type ∧ Word t.tclass ∧ Word t.newRole
  roleAllowCount : Word p.roleAllow.length
  roleAllow : ∀ t ∈ p.roleAllow, Word t.1 ∧ Word t.2
  filenameTransCount : Word p.filenameTrans.length ∧ Word p.filenameTransCount
  filenameTransSum : p.filenameTransCount = (p.filenameTrans.map ruleCount).sum
  filenameTrans : ∀ f ∈ p.filenameTrans, FileTransFits f
  filenameTransKeys : p.filenameTrans.Pairwise fun f g => ¬ (f.name = g.name ∧ f.ttype = g.ttype ∧ f.tclass = g.tclass)
  oconCount : ∀ i < lists p.target p.version, Word (p.ocontexts i).length
  ocontexts : ∀ i < lists p.target p.version, ∀ o ∈ p.ocontexts i, OconFits p.target i o
  genfsCount : Word p.genfs.length
  genfs : ∀ g ∈ p.genfs, GenfsFits g
  genfsNames : (p.genfs.map (·.fstype)).Nodup
  rangeTransCount : Word p.rangeTrans.length
  rangeTrans : ∀ t ∈ p.rangeTrans, RangeFits t.range
  rangeTransKeys : p.rangeTrans.Pairwise fun s t => ¬ (s.source = t.source ∧ s.target = t.target ∧ s.tclass = t.tclass)
  maps : MapsAgree p

/-- Whether a context is valid depends on users, roles, types and levels only. -/
def OfNames (valid : PolicyDb → Context → Bool) : Prop :=
  ∀ p q : PolicyDb, p.mls = q.mls → p.users = q.users → p.roles = q.roles → p.types = q.types → p.levels = q.levels → p.cats = q.cats →
    valid p = valid q

/-- All contexts of the policy are valid. -/
def ContextsValid (valid : PolicyDb → Context → Bool) (p : PolicyDb) : Prop :=
  (∀ i < lists p.target p.version, ∀ o ∈ p.ocontexts i, valid p o.context0 = true ∧
    (p.target = 0 → i = 1 ∨ i = 3 → valid p o.context1 = true)) ∧
  ∀ g ∈ p.genfs, ∀ e ∈ g.head, valid p e.context = true

/-- What can be relied on of a policy that has been read, whatever the file: `Valid` says that all references are to things that
exist and that all values are legal (see C85); the rest, which no later check looks at, says that nothing is there twice or
contradicts something else. -/
structure Accepted (valid : PolicyDb → Context → Bool) (q : PolicyDb) : Prop where
  version : 26 ≤ q.version ∧ q.version ≤ 34
  target : q.target = 0 ∨ q.target = 1 ∧ q.version = 30
  isValid : Valid q.toV
  names : (q.commons.entries.map (·.1)).Nodup ∧ (q.classes.entries.map (·.1)).Nodup ∧ (q.roles.entries.map (·.1)).Nodup ∧
    (q.types.entries.map (·.1)).Nodup ∧ (q.users.entries.map (·.1)).Nodup ∧ (q.bools.entries.map (·.1)).Nodup ∧
    (q.levels.entries.map (·.1)).Nodup ∧ (q.cats.entries.map (·.1)).Nodup
  /-- Other than rules with extended permissions no two rules are about the same. -/
  rules : ∃ l, l.Perm (Avtab.nodes q.avtab) ∧ l ≠ [] ∧ (∀ n ∈ l, Avtab.Storable n) ∧
    l.Pairwise fun a b => Avtab.isXperm a.key = false → ¬ Avtab.Answers a.key b
  condRules : ∀ c ∈ q.conds, ∀ n ∈ c.trueList ++ c.falseList, Avtab.Storable n
  conflict : NoConflict q
  filenameTrans : ∀ f ∈ q.filenameTrans, f.data ≠ [] ∧ (∀ d ∈ f.data, Ebitmap.WF d.1) ∧ f.data.Pairwise fun d e => d.2 ≠ e.2
  filenameTransKeys : q.filenameTrans.Pairwise fun f g => ¬ (f.name = g.name ∧ f.ttype = g.ttype ∧ f.tclass = g.tclass)
  /-- The number that is written in front of the rules is the number of rules. -/
  filenameTransCount : q.filenameTransCount = (q.filenameTrans.map ruleCount).sum
  /-- From version 33 on a source has one new type for a name. -/
  filenameTransSources : 33 ≤ q.version → ∀ f ∈ q.filenameTrans,
    f.data.Pairwise fun d e => ∀ b, ¬ (Ebitmap.getBit d.1 b = true ∧ Ebitmap.getBit e.1 b = true)
  contexts : ContextsValid valid q
  noOther : ∀ i, lists q.target q.version ≤ i → q.ocontexts i = []
  genfsNames : (q.genfs.map (·.fstype)).Nodup
  /-- The first entry that is a prefix of a path is the longest. -/
  genfsOrder : ∀ g ∈ q.genfs, g.head.Pairwise fun a b => b.name.length ≤ a.name.length
  genfsDistinct : ∀ g ∈ q.genfs, g.head.Pairwise fun a b => a.name = b.name → a.sclass ≠ b.sclass ∧ a.sclass ≠ 0 ∧ b.sclass ≠ 0
  rangeTransKeys : q.rangeTrans.Pairwise fun s t => ¬ (s.source = t.source ∧ s.target = t.target ∧ s.tclass = t.tclass)
  maps : MapsAgree q

end Verif.PolicyIO
