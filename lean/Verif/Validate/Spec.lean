import Verif.Validate.Model
import Verif.Ebitmap.Spec
import Verif.Cond.Spec

/-!
# When a kernel policy is accepted

`Valid` is stated with the entries of the tables only: a number refers to something if an entry of the table, which is not
an alias, has that number.
-/

namespace Verif.Validate
open Verif.Policy Verif.Services

/-! ## What numbers refer to -/

/-- There is an entry, which is not skipped, with number `v`, and `v` is one of the numbers of the table. -/
def Declared {δ : Type} (val : δ → Nat) (skip : δ → Bool) (t : Symtab δ) (v : Nat) : Prop :=
  1 ≤ v ∧ v ≤ t.nprim ∧ ∃ e ∈ t.entries, skip e.2 = false ∧ val e.2 = v

def IsCommon (p : VPolicy) (v : Nat) : Prop := Declared CommonD.value (fun _ => false) p.commons v
def IsClass (p : VPolicy) (v : Nat) : Prop := Declared ClassD.value (fun _ => false) p.classes v
def IsRole (p : VPolicy) (v : Nat) : Prop := Declared RoleD.value (fun _ => false) p.roles v
def IsUser (p : VPolicy) (v : Nat) : Prop := Declared UserD.value (fun _ => false) p.users v
def IsBool (p : VPolicy) (v : Nat) : Prop := Declared BoolD.value (fun _ => false) p.bools v
def IsSens (p : VPolicy) (v : Nat) : Prop := Declared (fun d : LevelD => d.level.sens) LevelD.isalias p.levels v
def IsCat (p : VPolicy) (v : Nat) : Prop := Declared CatD.value CatD.isalias p.cats v

/-- A type or attribute.  In versions 20 to 23 attributes have numbers but no entries. -/
def IsType (p : VPolicy) (v : Nat) : Prop :=
  if 20 ≤ p.version ∧ p.version ≤ 23 then 1 ≤ v ∧ v ≤ p.types.nprim
  else Declared TypeD.value (fun d => d.primary == 0) p.types v

/-- A type that is not an attribute. -/
def IsRealType (p : VPolicy) (v : Nat) : Prop :=
  1 ≤ v ∧ v ≤ p.types.nprim ∧ ∃ e ∈ p.types.entries, e.2.primary ≠ 0 ∧ e.2.value = v ∧ e.2.flavor ≠ 1

/-- Bit `b` stands for number `b + 1`: all members of the set are as stated. -/
def Members (m : Ebitmap.Ebitmap) (P : Nat → Prop) : Prop := ∀ b, Ebitmap.getBit m b = true → P (b + 1)

def NoMembers (m : Ebitmap.Ebitmap) : Prop := ∀ b, Ebitmap.getBit m b = false

/-- The entries that are not skipped have numbers from 1 to `nprim`, and no two the same. -/
def Numbered {δ : Type} (val : δ → Nat) (skip : δ → Bool) (t : Symtab δ) : Prop :=
  (∀ e ∈ t.entries, skip e.2 = false → 1 ≤ val e.2 ∧ val e.2 ≤ t.nprim) ∧
  t.entries.Pairwise fun e f => skip e.2 = false → skip f.2 = false → val e.2 ≠ val f.2

/-! ## Expressions in postfix form -/

/-- `l` is the postfix form of an expression whose leaves, one-place and two-place operators are as stated; `n` is the number
of values that are kept at a time when it is evaluated from left to right. -/
inductive Post {α : Type} (leaf un bin : α → Prop) : List α → Nat → Prop
  | leaf {e : α} : leaf e → Post leaf un bin [e] 1
  | un {e : α} {l : List α} {n : Nat} : un e → Post leaf un bin l n → Post leaf un bin (l ++ [e]) n
  | bin {e : α} {l l' : List α} {n n' : Nat} : bin e → Post leaf un bin l n → Post leaf un bin l' n' →
      Post leaf un bin (l ++ l' ++ [e]) (max n (1 + n'))

/-! ## Constraints -/

def TypeSetOk (p : VPolicy) (s : TypeSet) : Prop := Members s.types (IsType p) ∧ Members s.negset (IsType p) ∧ s.flags ≤ 2

def NoTypeSet (s : TypeSet) : Prop := NoMembers s.types ∧ NoMembers s.negset ∧ s.flags = 0

/-- A comparison with a set: `kind` says whether users, roles or types are compared, `side` whether those of the source, the
target or, in a validatetrans rule, the third context. -/
def NamesOk (p : VPolicy) (vt : Bool) (e : CExpr) : Prop :=
  e.exprType = NAMES ∧ (e.op = EQ ∨ e.op = NEQ) ∧
  ∃ kind side, e.attr = kind + side ∧ (side = 0 ∨ side = TARGET ∨ side = XTARGET ∧ vt = true) ∧
    (kind = USER ∧ Members e.names (IsUser p) ∧ NoTypeSet e.typeNames ∨
     kind = ROLE ∧ Members e.names (IsRole p) ∧ NoTypeSet e.typeNames ∨
     kind = TYPE ∧ Members e.names (IsType p) ∧ TypeSetOk p e.typeNames)

/-- A comparison of the two contexts: users and types are equal or not, roles and levels can also dominate one another. -/
def AttrOk (e : CExpr) : Prop :=
  e.exprType = ATTR ∧ NoMembers e.names ∧ NoTypeSet e.typeNames ∧
  ((e.attr = USER ∨ e.attr = TYPE) ∧ (e.op = EQ ∨ e.op = NEQ) ∨
   (e.attr = ROLE ∨ e.attr = L1L2 ∨ e.attr = L1H2 ∨ e.attr = H1L2 ∨ e.attr = H1H2 ∨ e.attr = L1H1 ∨ e.attr = L2H2) ∧
     (e.op = EQ ∨ e.op = NEQ ∨ e.op = DOM ∨ e.op = DOMBY ∨ e.op = INCOMP))

/-- An operator has no operands of its own. -/
def OperatorOk (e : CExpr) : Prop := e.op = 0 ∧ e.attr = 0 ∧ NoMembers e.names ∧ NoTypeSet e.typeNames

/-- The expression of a constraint; no more than five values are kept. -/
def ConExprOk (p : VPolicy) (vt : Bool) (l : List CExpr) : Prop :=
  ∃ n ≤ 5, Post (fun e => NamesOk p vt e ∨ AttrOk e) (fun e => e.exprType = NOT ∧ OperatorOk e)
    (fun e => (e.exprType = AND ∨ e.exprType = OR) ∧ OperatorOk e) l n

/-- A constraint on the permissions of a class with `nperms` of them. -/
def ConstraintOk (p : VPolicy) (nperms : Nat) (c : Constraint) : Prop :=
  c.perms ≠ 0#32 ∧ (∀ b, c.perms.getLsbD b = true → b < nperms) ∧ ConExprOk p false c.expr

/-- A validatetrans rule. -/
def TransOk (p : VPolicy) (c : Constraint) : Prop := c.perms = 0#32 ∧ ConExprOk p true c.expr

/-! ## Symbols -/

/-- The permissions of a common have the numbers from 1 on. -/
def CommonOk (p : VPolicy) (d : CommonD) : Prop :=
  IsCommon p d.value ∧ 1 ≤ d.perms.nprim ∧ d.perms.nprim ≤ 32 ∧ d.perms.entries.length = d.perms.nprim ∧
  (∀ e ∈ d.perms.entries, 1 ≤ e.2 ∧ e.2 ≤ d.perms.nprim) ∧ (d.perms.entries.map (·.2)).Nodup

def inherited (d : ClassD) : Nat := match d.common with | none => 0 | some c => c.perms.nprim

/-- The permissions of a class have the numbers after those of its common. -/
def ClassOk (p : VPolicy) (d : ClassD) : Prop :=
  d.value ≤ 65535 ∧ IsClass p d.value ∧ (∀ c, d.common = some c → CommonOk p c) ∧
  d.perms.nprim ≤ 32 ∧ d.perms.nprim = d.perms.entries.length + inherited d ∧
  (∀ e ∈ d.perms.entries, inherited d < e.2 ∧ e.2 ≤ d.perms.nprim) ∧ (d.perms.entries.map (·.2)).Nodup ∧
  (∀ c ∈ d.constraints, ConstraintOk p d.perms.nprim c) ∧ (∀ c ∈ d.validatetrans, TransOk p c) ∧
  d.defaultUser ≤ 2 ∧ d.defaultRole ≤ 2 ∧ d.defaultType ≤ 2 ∧ d.defaultRange ≤ 7

def RoleOk (p : VPolicy) (d : RoleD) : Prop :=
  IsRole p d.value ∧ Members d.dominates (IsRole p) ∧ TypeSetOk p d.types ∧ (d.bounds = 0 ∨ IsRole p d.bounds) ∧
  Members d.roles (IsRole p) ∧ d.flavor ≤ 1

/-- A type.  The member `primary` is 1 for every type that is not an alias, and it is checked as if it were the number of a
type. -/
def TypeOk (p : VPolicy) (d : TypeD) : Prop :=
  IsType p d.value ∧ (d.primary = 0 ∨ IsType p d.primary) ∧
  ((d.flavor = 0 ∨ d.flavor = 2) ∧ NoMembers d.types ∧ (d.bounds = 0 ∨ IsRealType p d.bounds) ∨
    d.flavor = 1 ∧ Members d.types (IsType p) ∧ d.bounds = 0) ∧
  d.flags ∈ [0, 1, 2, 4, 6]

def SemLevelOk (p : VPolicy) (l : SemLevel) : Prop :=
  l.sens = 0 ∨ IsSens p l.sens ∧ ∀ c ∈ l.cats, IsCat p c.1 ∧ IsCat p c.2 ∧ c.1 ≤ c.2

def LevelOk (p : VPolicy) (l : Level) : Prop := IsSens p l.sens ∧ Members l.cat (IsCat p)

def RangeOk (p : VPolicy) (r : Range) : Prop := LevelOk p r.low ∧ LevelOk p r.high

def UserOk (p : VPolicy) (d : UserD) : Prop :=
  IsUser p d.value ∧ Members d.roles.roles (IsRole p) ∧ d.roles.flags ≤ 2 ∧
  SemLevelOk p d.low ∧ SemLevelOk p d.high ∧ SemLevelOk p d.dfltlevel ∧
  (p.mls ≠ 0 → RangeOk p d.expRange ∧ LevelOk p d.expDfltlevel) ∧ (d.bounds = 0 ∨ IsUser p d.bounds)

/-- A sensitivity; an alias has the categories of the sensitivity that it stands for. -/
def LevelDOk (p : VPolicy) (d : LevelD) : Prop :=
  d.notdefined = 0 ∧ LevelOk p d.level ∧
  (d.isalias = true → ∀ e ∈ p.levels.entries, e.2.isalias = false → e.2.level.sens = d.level.sens →
    ∀ b, Ebitmap.getBit e.2.level.cat b = Ebitmap.getBit d.level.cat b)

def BoolOk (p : VPolicy) (d : BoolD) : Prop := IsBool p d.value ∧ (d.state = 0 ∨ d.state = 1) ∧ d.flags ≤ 1

/-! ## Rules -/

/-- The rule kinds, avtab.h:54-69. -/
def avKinds : List (BitVec 16) := [0x1#16, 0x2#16, 0x4#16]
def typeKinds : List (BitVec 16) := [0x10#16, 0x20#16, 0x40#16]
def xKinds : List (BitVec 16) := [0x100#16, 0x200#16, 0x400#16]

/-- The vector has a bit of a permission of the class. -/
def HasPerm (p : VPolicy) (cls : Nat) (av : BitVec 32) : Prop :=
  ∃ e ∈ p.classes.entries, e.2.value = cls ∧ ∃ b < e.2.perms.nprim, av.getLsbD b = true

/-- A rule: types and class are declared, and there is a permission that it grants, audits or does not audit; the rules about
new types use no attributes; there are extended permissions only in policies for Linux. -/
def NodeOk (p : VPolicy) (conditional : Bool) (n : Avtab.Node) : Prop :=
  IsClass p n.key.cls ∧
  (0xFFF#16 &&& n.key.specified ∈ avKinds ∧ IsType p n.key.source ∧ IsType p n.key.target ∧
      HasPerm p n.key.cls (if 0xFFF#16 &&& n.key.specified = 0x4#16 then ~~~ n.datum.data else n.datum.data) ∨
   0xFFF#16 &&& n.key.specified ∈ typeKinds ∧ IsRealType p n.key.source ∧ IsRealType p n.key.target ∧ IsRealType p n.datum.data.toNat ∨
   0xFFF#16 &&& n.key.specified ∈ xKinds ∧ IsType p n.key.source ∧ IsType p n.key.target ∧ p.target = 0 ∧
     (conditional = true → 34 ≤ p.version) ∧ (n.datum.data = 0 ∨ HasPerm p n.key.cls n.datum.data) ∧
     ∃ x, n.datum.xperms = some x ∧ (x.specified = 1#8 ∨ x.specified = 2#8 ∨ x.specified = 3#8))

/-- The expression of a conditional; no more than ten values are kept. -/
def CondExprOk (p : VPolicy) (l : List CondTok) : Prop :=
  ∃ n ≤ 10, Post (fun e : CondTok => e.exprType = 1 ∧ IsBool p e.boolean) (fun e => e.exprType = 2 ∧ e.boolean = 0)
    (fun e => 3 ≤ e.exprType ∧ e.exprType ≤ 7 ∧ e.boolean = 0) l n

def CondOk (p : VPolicy) (c : CondD) : Prop :=
  CondExprOk p c.expr ∧ (∀ n ∈ c.trueList, NodeOk p true n) ∧ (∀ n ∈ c.falseList, NodeOk p true n) ∧
  (c.curState = 0 ∨ c.curState = 1) ∧ c.flags ≤ 1

def RoleTransOk (p : VPolicy) (t : RoleTrans) : Prop := IsRole p t.role ∧ IsType p t.type ∧ IsClass p t.tclass ∧ IsRole p t.newRole

def FileTransOk (p : VPolicy) (t : FileTrans) : Prop :=
  IsType p t.ttype ∧ IsClass p t.tclass ∧ t.data ≠ [] ∧ ∀ d ∈ t.data, Members d.1 (IsType p) ∧ IsRealType p d.2

def RangeTrOk (p : VPolicy) (t : RangeTr) : Prop := IsType p t.source ∧ IsType p t.target ∧ IsClass p t.tclass ∧ RangeOk p t.range

/-! ## Contexts -/

def ContextOk (p : VPolicy) (c : Context) : Prop :=
  IsUser p c.user ∧ IsRole p c.role ∧ IsType p c.type ∧ (p.mls ≠ 0 → RangeOk p c.range)

/-- The lists of a policy for Linux: initial SIDs, file systems, ports, interfaces, nodes, fs_use, IPv6 nodes, Infiniband
keys and ports. -/
def LinuxOconOk (p : VPolicy) (i : Nat) (o : Ocon) : Prop :=
  (i = 0 → 1 ≤ o.sid ∧ o.sid < 28) ∧
  (i = 1 ∨ i = 3 → ContextOk p o.context1 ∧ o.hasName = true) ∧
  (i = 2 → o.lowPort ≤ o.highPort) ∧
  (i = 5 → 1 ≤ o.behavior ∧ o.behavior ≤ 3 ∧ o.hasName = true) ∧
  (i = 7 → o.lowPkey ≤ o.highPkey) ∧
  (i = 8 → o.ibPort ≠ 0 ∧ o.hasDevName = true)

/-- The lists of a policy for Xen: initial SIDs, interrupts, I/O ports, I/O memory, PCI devices, device tree nodes. -/
def XenOconOk (p : VPolicy) (i : Nat) (o : Ocon) : Prop :=
  (i = 0 → 1 ≤ o.sid ∧ o.sid < 13) ∧
  (i = 2 → o.lowIoport ≤ o.highIoport) ∧
  (i = 3 → o.lowIomem ≤ o.highIomem ∧ (p.version < 30 → o.highIomem < 2 ^ 32)) ∧
  (i = 5 → o.hasName = true)

def OconOk (p : VPolicy) (i : Nat) (o : Ocon) : Prop :=
  ContextOk p o.context0 ∧ (p.target = 0 → LinuxOconOk p i o) ∧ (p.target = 1 → XenOconOk p i o)

def GenfsOk (p : VPolicy) (g : Genfs) : Prop :=
  g.hasFstype = true ∧ ∀ o ∈ g.head, ContextOk p o.1 ∧ (o.2 = 0 ∨ IsClass p o.2)

/-! ## The policy -/

/-- The policy refers only to things that it declares. -/
structure Valid (p : VPolicy) : Prop where
  commonsNumbered : Numbered CommonD.value (fun _ => false) p.commons
  classesNumbered : Numbered ClassD.value (fun _ => false) p.classes
  rolesNumbered : Numbered RoleD.value (fun _ => false) p.roles
  typesNumbered : Numbered TypeD.value (fun d => d.primary == 0) p.types
  usersNumbered : Numbered UserD.value (fun _ => false) p.users
  boolsNumbered : Numbered BoolD.value (fun _ => false) p.bools
  levelsNumbered : p.levels.nprim ≠ 0 ∨ p.mls ≠ 0 → Numbered (fun d : LevelD => d.level.sens) LevelD.isalias p.levels
  catsNumbered : Numbered CatD.value CatD.isalias p.cats
  version : 15 ≤ p.version ∧ p.version ≤ 34
  mls : p.mls = 0 ∨ p.mls = 1 ∧ 19 ≤ p.version
  target : p.target ≤ 1
  unknown : p.handleUnknown = 0 ∨ p.handleUnknown = 2 ∨ p.handleUnknown = 4
  policycaps : ∀ b, Ebitmap.getBit p.policycaps b = true → b ≤ 9
  permissive : ∀ b, Ebitmap.getBit p.permissive b = true → IsRealType p b
  commons : ∀ e ∈ p.commons.entries, CommonOk p e.2
  classes : ∀ e ∈ p.classes.entries, ClassOk p e.2
  roles : ∀ e ∈ p.roles.entries, RoleOk p e.2
  types : ∀ e ∈ p.types.entries, TypeOk p e.2
  users : ∀ e ∈ p.users.entries, UserOk p e.2
  bools : ∀ e ∈ p.bools.entries, BoolOk p e.2
  levels : p.mls ≠ 0 → ∀ e ∈ p.levels.entries, LevelDOk p e.2
  cats : ∀ e ∈ p.cats.entries, 1 ≤ e.2.value ∧ e.2.value ≤ p.cats.nprim
  rules : ∀ n ∈ p.avtab, NodeOk p false n
  conds : 16 ≤ p.version → ∀ c ∈ p.conds, CondOk p c
  roleTrans : ∀ t ∈ p.roleTrans, RoleTransOk p t
  roleAllow : ∀ t ∈ p.roleAllow, IsRole p t.1 ∧ IsRole p t.2
  filenameTrans : 25 ≤ p.version → ∀ t ∈ p.filenameTrans, FileTransOk p t
  ocontexts : ∀ i < 9, ∀ o ∈ p.ocontexts i, OconOk p i o
  genfs : ∀ g ∈ p.genfs, GenfsOk p g
  rangeTrans : ∀ t ∈ p.rangeTrans, RangeTrOk p t
  typeAttr : ∀ i < p.types.nprim, Members (p.typeAttr i) (IsType p)
  attrType : ∀ i < p.types.nprim, Members (p.attrType i) (IsType p)

/-! ## What the reader ensures -/

/-- The bitmaps of a context. -/
def RangeWf (r : Range) : Prop := Ebitmap.WF r.low.cat ∧ Ebitmap.WF r.high.cat

def TypeSetWf (s : TypeSet) : Prop := Ebitmap.WF s.types ∧ Ebitmap.WF s.negset

def ConWf (c : Constraint) : Prop := ∀ e ∈ c.expr, Ebitmap.WF e.names ∧ TypeSetWf e.typeNames

/-- The policy has been read: bitmaps are well formed (as C06 shows for those that are read), numbers have 32 bits, the names
in a table differ, the number of permissions is checked by `class_read` (policydb.c:2287) and a rule with extended
permissions has some (avtab.c:509-540). -/
structure Read (p : VPolicy) : Prop where
  sizes : p.commons.nprim ≤ 2 ^ 32 - 64 ∧ p.classes.nprim ≤ 2 ^ 32 - 64 ∧ p.roles.nprim ≤ 2 ^ 32 - 64 ∧ p.types.nprim ≤ 2 ^ 32 - 64 ∧
    p.users.nprim ≤ 2 ^ 32 - 64 ∧ p.bools.nprim ≤ 2 ^ 32 - 64 ∧ p.levels.nprim ≤ 2 ^ 32 - 64 ∧ p.cats.nprim ≤ 2 ^ 32 - 64
  names : (p.levels.entries.map (·.1)).Nodup
  policycaps : Ebitmap.WF p.policycaps
  permissive : Ebitmap.WF p.permissive
  classes : ∀ e ∈ p.classes.entries, e.2.perms.nprim ≤ 32 ∧ (∀ c ∈ e.2.constraints, ConWf c) ∧ (∀ c ∈ e.2.validatetrans, ConWf c)
  roles : ∀ e ∈ p.roles.entries, Ebitmap.WF e.2.dominates ∧ Ebitmap.WF e.2.roles ∧ TypeSetWf e.2.types
  types : ∀ e ∈ p.types.entries, Ebitmap.WF e.2.types
  users : ∀ e ∈ p.users.entries, Ebitmap.WF e.2.roles.roles ∧ RangeWf e.2.expRange ∧ Ebitmap.WF e.2.expDfltlevel.cat
  levels : ∀ e ∈ p.levels.entries, Ebitmap.WF e.2.level.cat
  rules : ∀ n ∈ p.avtab ++ p.conds.flatMap (fun c => c.trueList ++ c.falseList),
    n.key.specified &&& Avtab.XPERMS ≠ 0 → n.datum.xperms ≠ none
  filenameTrans : ∀ t ∈ p.filenameTrans, ∀ d ∈ t.data, Ebitmap.WF d.1
  ocontexts : ∀ i < 9, ∀ o ∈ p.ocontexts i, RangeWf o.context0.range ∧ RangeWf o.context1.range
  genfs : ∀ g ∈ p.genfs, ∀ o ∈ g.head, RangeWf o.1.range
  rangeTrans : ∀ t ∈ p.rangeTrans, RangeWf t.range
  maps : ∀ i < p.types.nprim, Ebitmap.WF (p.typeAttr i) ∧ Ebitmap.WF (p.attrType i)

end Verif.Validate
