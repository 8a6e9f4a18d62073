import Verif.Avtab.Model
import Verif.Ebitmap.Model
import Verif.Services.Constraint

/-!
# Model of the expansion of rules, libsepol/src/expand.c

A module states rules for sets of types; the kernel policy has a table with one entry for each
source, target, class and kind.  `expand_module` builds that table.

Simplifications: `malloc` and the insertion in the table succeed.  A table is the list of its nodes,
the newest first: by `C06_search_latest`, `C07_enumerate` and `C40` (Avtab/Props.lean) a search finds
the nodes that answer a key in that order.  A node has a number, which stands for its address; the
list of rules of a branch of a conditional is a list of such numbers, and the branch itself (the
`cond_av_list_t **` that is kept in `parse_context`) is a number too.  Messages are left out.  An
access outside of an array, the use of a NULL pointer and a failing `assert` are the outcome `ub`.
-/

namespace Verif.Expand
open Avtab (Key XPerms Datum hits)
open Services (TypeSet)
open Ebitmap (Ebitmap getBit setBit union init)

/-- The outcome of a function that can fail: the value, `-1` (`EXPAND_RULE_ERROR`), a conflict of type
rules (`EXPAND_RULE_CONFLICT`, expand.c:1699-1701), or undefined behaviour. -/
inductive Res (α : Type)
  | ok (a : α)
  | err
  | conflict
  | ub
deriving DecidableEq, Repr

/-- Go on after a call that succeeded. -/
def Res.bind {α β : Type} : Res α → (α → Res β) → Res β
  | .ok a, f => f a
  | .err, _ => .err
  | .conflict, _ => .conflict
  | .ub, _ => .ub

/-- A loop that stops at the first call that does not succeed. -/
def forM {α σ : Type} (f : σ → α → Res σ) : σ → List α → Res σ
  | s, [] => .ok s
  | s, a :: l => (f s a).bind fun s' => forM f s' l

/-- `ebitmap_for_each_positive_bit`; the result `none` (a loop that does not end) is proved not to occur. -/
def bits (e : Ebitmap) : List Nat := (Ebitmap.forEachPositiveBit (e.highbit + 1) e).getD []

/-- `ebitmap_set_bit` as it is used here: failure is an error. -/
def set1 (e : Ebitmap) (i : Nat) (v : Bool) : Res Ebitmap :=
  match setBit e i v with
  | some e' => .ok e'
  | none => .err

/-! ## Types -/

/-- `TYPE_STAR` and `TYPE_COMP`, policydb.h:224-225. -/
def TYPE_STAR : Nat := 1
def TYPE_COMP : Nat := 2

/-- `flags & bit`. -/
def flag (flags bit : Nat) : Bool := flags &&& bit != 0

/-- The parts of `type_datum_t` (policydb.h:177-197) that are used: `flavor == TYPE_ATTRIB`, the
types of an attribute and the flag `TYPE_FLAGS_EXPAND_ATTR_TRUE`. -/
structure TypeD where
  isAttr : Bool
  types : Ebitmap
  expandTrue : Bool

/-- The types of the kernel policy that is built: `p_types.nprim` and `type_val_to_struct`, which is an
array of that length. -/
structure Types where
  nprim : Nat
  types : Nat → Option TypeD

/-- `type_val_to_struct[i]` is an attribute. -/
def isAttr (p : Types) (i : Nat) : Bool :=
  match p.types i with
  | some t => t.isAttr
  | none => false

/-- The loop over `set->types`, expand.c:2555-2580. -/
def posStep (p : Types) (expand : Bool) (types : Ebitmap) (i : Nat) : Res Ebitmap :=
  if i ≥ p.nprim then .err else
  match p.types i with
  | none => .err
  | some t => if t.isAttr && (expand || t.expandTrue) then .ok (union types t.types) else set1 types i true

/-- The loop over `set->negset`, expand.c:2584-2598; here `i` is not compared with `nprim`. -/
def negStep (p : Types) (neg : Ebitmap) (i : Nat) : Res Ebitmap :=
  if i ≥ p.nprim then .ub else
  match p.types i with
  | some t => if t.isAttr then .ok (union neg t.types) else set1 neg i true
  | none => set1 neg i true

/-- The loop for `*`, expand.c:2602-2610. -/
def starStep (p : Types) (neg : Ebitmap) (t : Ebitmap) (i : Nat) : Res Ebitmap :=
  if getBit neg i then .ok t
  else if isAttr p i then .ok t
  else set1 t i true

/-- The loop that takes the excluded types away, expand.c:2614-2618. -/
def minusStep (neg : Ebitmap) (t : Ebitmap) (i : Nat) : Res Ebitmap :=
  if getBit neg i then .ok t else set1 t i true

/-- The loop for `~`, expand.c:2621-2634. -/
def compStep (p : Types) (t : Ebitmap) (i : Nat) : Res Ebitmap :=
  if isAttr p i then (if getBit t i then .ub else .ok t)
  else if getBit t i then set1 t i false
  else set1 t i true

/-- `type_set_expand`, expand.c:2533-2645. -/
def typeSetExpand (p : Types) (set : TypeSet) (alwaysexpand : Bool) : Res Ebitmap :=
  let expand := alwaysexpand || set.negset.node != [] || set.flags != 0
  (forM (posStep p expand) init (bits set.types)).bind fun types =>
  (forM (negStep p) init (bits set.negset)).bind fun neg =>
  if flag set.flags TYPE_STAR then forM (starStep p neg) init (List.range p.nprim)
  else (forM (minusStep neg) init (bits types)).bind fun t =>
    if flag set.flags TYPE_COMP then forM (compStep p) t (List.range p.nprim) else .ok t

/-- `map_ebitmap`, expand.c:59-72; `map` is an array. -/
def mapEbitmap (map : List Nat) (src : Ebitmap) : Res Ebitmap :=
  forM (fun dst i =>
    match map[i]? with
    | none => .ub
    | some 0 => .ok dst
    | some (v + 1) => set1 dst v true) init (bits src)

/-- `expand_convert_type_set`, expand.c:2393-2415. -/
def convertTypeSet (p : Types) (map : List Nat) (set : TypeSet) (alwaysexpand : Bool) : Res Ebitmap :=
  (mapEbitmap map set.types).bind fun types =>
  (mapEbitmap map set.negset).bind fun neg =>
  typeSetExpand p ⟨types, neg, set.flags⟩ alwaysexpand

/-! ## Rules -/

/-- `AVRULE_*`, policydb.h:272-287. -/
def ALLOWED : BitVec 32 := 0x1#32
def AUDITALLOW : BitVec 32 := 0x2#32
def AUDITDENY : BitVec 32 := 0x4#32
def DONTAUDIT : BitVec 32 := 0x8#32
def NEVERALLOW : BitVec 32 := 0x80#32
def TRANSITION : BitVec 32 := 0x10#32
def MEMBER : BitVec 32 := 0x20#32
def CHANGE : BitVec 32 := 0x40#32
def X_ALLOWED : BitVec 32 := 0x100#32
def X_AUDITALLOW : BitVec 32 := 0x200#32
def X_DONTAUDIT : BitVec 32 := 0x400#32
def X_NEVERALLOW : BitVec 32 := 0x800#32
def AVRULE_AV : BitVec 32 := ALLOWED ||| AUDITALLOW ||| AUDITDENY ||| DONTAUDIT ||| NEVERALLOW
def AVRULE_TYPE : BitVec 32 := TRANSITION ||| MEMBER ||| CHANGE
def AVRULE_XPERMS : BitVec 32 := X_ALLOWED ||| X_AUDITALLOW ||| X_DONTAUDIT ||| X_NEVERALLOW

/-- `RULE_SELF`, policydb.h:289. -/
def RULE_SELF : BitVec 32 := 1#32

/-- `a & b` as a condition. -/
def anyBit (a b : BitVec 32) : Bool := a &&& b != 0#32

/-- `class_perm_node_t`, policydb.h:242-246. -/
structure ClassPerm where
  tclass : Nat
  data : BitVec 32
deriving DecidableEq, Repr

/-- `avrule_t`, policydb.h:258-328; `av_extended_perms_t` has the fields of `XPerms`. -/
structure Rule where
  specified : BitVec 32
  flags : BitVec 32
  stypes : TypeSet
  ttypes : TypeSet
  perms : List ClassPerm
  xperms : Option XPerms

/-- A node of the table with its number and `parse_context`. -/
structure ENode where
  id : Nat
  key : Key
  datum : Datum
  ctx : Option Nat
deriving DecidableEq, Repr

/-- A table with the lists of the branches that are kept for it (`cond_av_list_t`). -/
structure Tab where
  nodes : List ENode
  lists : Nat → List Nat

/-- The nodes that answer a key, in the order of `avtab_search_node` and `avtab_search_node_next`. -/
def answers (t : Tab) (k : Key) : List ENode := t.nodes.filter fun n => hits k n.key

/-- The two equal tests of expand.c:1640-1641; a node without extended permissions is not found by a
key of that kind (avtab.c:104-118). -/
def sameX (x : XPerms) (n : ENode) : Bool :=
  match n.datum.xperms with
  | some y => y.specified == x.specified && y.driver == x.driver
  | none => false

/-- The first part of `find_avtab_node`, expand.c:1631-1654: the nodes from the one that is found on, which
for extended permissions is the first one with the same kind and driver. -/
def candidates (t : Tab) (k : Key) (x : Option XPerms) : List ENode :=
  if Avtab.isXperm k then
    match x with
    | none => []
    | some x => (answers t k).dropWhile fun n => !sameX x n
  else answers t k

/-- The search of `find_avtab_node`, expand.c:1631-1664: in a conditional, the next node of the same
branch. -/
def findNode (t : Tab) (k : Key) (cond : Option Nat) (x : Option XPerms) : Option ENode :=
  match cond with
  | none => (candidates t k x).head?
  | some c => (candidates t k x).find? fun n => n.ctx == some c

/-- `find_avtab_node`, expand.c:1621-1690: the table and the number of the node. -/
def findAvtabNode (t : Tab) (k : Key) (cond : Option Nat) (x : Option XPerms) : Tab × Nat :=
  match findNode t k cond x with
  | some n => (t, n.id)
  | none =>
    let id := t.nodes.length
    let data : BitVec 32 := if k.specified == Avtab.AUDITDENY then ~~~0#32 else 0#32
    let xp := if Avtab.isXperm k then some XPerms.zero else none
    (⟨⟨id, k, ⟨data, xp⟩, cond⟩ :: t.nodes,
      match cond with
      | none => t.lists
      | some c => fun c' => if c' = c then id :: t.lists c else t.lists c'⟩, id)

/-- Change the node with number `id`. -/
def modify (t : Tab) (id : Nat) (f : ENode → ENode) : Tab :=
  { t with nodes := t.nodes.map fun n => if n.id = id then f n else n }

/-- `node->key.specified |= AVTAB_ENABLED` or `&= ~AVTAB_ENABLED`, expand.c:1782-1786 and 1866-1870. -/
def setEnabled (enabled : Bool) (n : ENode) : ENode :=
  { n with key := { n.key with specified :=
      if enabled then n.key.specified ||| Avtab.ENABLED else n.key.specified &&& ~~~ Avtab.ENABLED } }

/-- `avrule_to_avtab_spec`, expand.c:1692-1696, with the conversion to `uint16_t` at its uses. -/
def avtabSpec (s : BitVec 32) : BitVec 16 :=
  (if s == DONTAUDIT then 0x4#32 else s).truncate 16

/-- The key of a rule, expand.c:1720-1722, 1728 and 1854-1856, 1860; `source_type` has 16 bits. -/
def mkKey (s : BitVec 32) (stype ttype cls : Nat) : Key :=
  ⟨(stype + 1) % 2 ^ 16, (ttype + 1) % 2 ^ 16, cls % 2 ^ 16, avtabSpec s⟩

/-- `perms[i] |= extended_perms->perms[i]` for the eight words. -/
def orPerms (a b : List (BitVec 32)) : List (BitVec 32) := List.zipWith (· ||| ·) a b

/-- `allocate_xperms`, expand.c:1801-1836: `none` is the error.  The values of `AVRULE_XPERMS_*` and
`AVTAB_XPERMS_*` for the kinds of extended permissions are the same. -/
def allocateXperms (d : Datum) (x : XPerms) : Option Datum :=
  let old := d.xperms.getD XPerms.zero
  if x.specified = 1#8 ∨ x.specified = 2#8 ∨ x.specified = 3#8 then
    some ⟨d.data, some ⟨x.specified, x.driver, orPerms old.perms x.perms⟩⟩
  else none

/-- The `switch` of `expand_avrule_helper`, expand.c:1873-1902: `none` is the error. -/
def avUpdate (s : BitVec 32) (data : BitVec 32) (x : Option XPerms) (d : Datum) : Option Datum :=
  if s = ALLOWED ∨ s = AUDITALLOW ∨ s = NEVERALLOW then some { d with data := d.data ||| data }
  else if s = DONTAUDIT then some { d with data := d.data &&& ~~~data }
  else if s = AUDITDENY then some { d with data := d.data &&& data }
  else if s = X_ALLOWED ∨ s = X_AUDITALLOW ∨ s = X_DONTAUDIT ∨ s = X_NEVERALLOW then
    match x with
    | some x => allocateXperms d x
    | none => none
  else none

/-- The body of the loop of `expand_avrule_helper`, expand.c:1859-1904, for one class.  With a key for
extended permissions but no extended permissions a node is made and `extended_perms` is then used. -/
def avClass (s : BitVec 32) (cond : Option Nat) (enabled : Bool) (x : Option XPerms) (stype ttype : Nat)
    (t : Tab) (cp : ClassPerm) : Res Tab :=
  let r := findAvtabNode t (mkKey s stype ttype cp.tclass) cond x
  if anyBit s AVRULE_XPERMS && x.isNone then .ub else
  match r.1.nodes.find? fun n => n.id == r.2 with
  | none => .ub
  | some n =>
    match avUpdate s cp.data x n.datum with
    | none => .err
    | some d => .ok (modify r.1 r.2 fun n => setEnabled enabled { n with datum := d })

/-- `expand_avrule_helper`, expand.c:1838-1907. -/
def avruleHelper (noDontaudit : Bool) (s : BitVec 32) (cond : Option Nat) (enabled : Bool) (x : Option XPerms)
    (perms : List ClassPerm) (t : Tab) (stype ttype : Nat) : Res Tab :=
  if anyBit s (DONTAUDIT ||| X_DONTAUDIT) && noDontaudit then .ok t
  else forM (avClass s cond enabled x stype ttype) t perms

/-- The two tables of the policy: `te_avtab` and `te_cond_avtab`. -/
structure State where
  te : Tab
  cond : Tab

/-- Where a rule goes: to the table of the rules without a condition, or to branch `c` of a
conditional whose other branch is `other`; `enabled` is the present value of the branch. -/
inductive Dest
  | te
  | cond (c other : Nat) (enabled : Bool)

/-- `cond`, `other` and `enabled` of a call. -/
def Dest.ctx : Dest → Option Nat
  | .te => none
  | .cond c _ _ => some c

def Dest.other : Dest → Option Nat
  | .te => none
  | .cond _ o _ => some o

def Dest.enabled : Dest → Bool
  | .te => false
  | .cond _ _ e => e

/-- `dest_avtab`. -/
def Dest.tab : Dest → State → Tab
  | .te, s => s.te
  | .cond .., s => s.cond

def Dest.put : Dest → State → Tab → State
  | .te, s, t => { s with te := t }
  | .cond .., s, t => { s with cond := t }

/-- The search for an earlier type rule, expand.c:1735-1744: the node and whether it is in the table of
the rules without a condition. -/
def earlier (st : State) (k : Key) (other : Option Nat) : Option (ENode × Bool) :=
  match (answers st.te k).head? with
  | some n => some (n, true)
  | none =>
    match (answers st.cond k).head? with
    | some n => if n.ctx == other then none else some (n, false)
    | none => none

/-- The loop of `expand_terule_helper`, expand.c:1724-1797.  A duplicate ends the loop (line 1762). -/
def teClasses (map : List Nat) (s : BitVec 32) (d : Dest) (stype ttype : Nat) : State → List ClassPerm → Res State
  | st, [] => .ok st
  | st, cp :: l =>
    match map[(cp.data - 1#32).toNat]? with
    | none => .ub
    | some v =>
      let k := mkKey s stype ttype cp.tclass
      match earlier st k d.other with
      | some (n, inTe) =>
        if n.datum.data = BitVec.ofNat 32 v then
          if (inTe && d.ctx == none) || n.ctx == d.ctx then .ok st else .conflict
        else .conflict
      | none =>
        let r := findAvtabNode (d.tab st) k d.ctx none
        let t := modify r.1 r.2 fun n => setEnabled d.enabled { n with datum := { n.datum with data := BitVec.ofNat 32 v } }
        teClasses map s d stype ttype (d.put st t) l

/-- `expand_terule_helper`, expand.c:1703-1799. -/
def teruleHelper (map : List Nat) (s : BitVec 32) (d : Dest) (perms : List ClassPerm) (st : State)
    (stype ttype : Nat) : Res State :=
  if !anyBit s AVRULE_TYPE then .err else teClasses map s d stype ttype st perms

/-- One pair of `expand_rule_helper`, expand.c:1922-1935 and 1938-1951. -/
def onePair (noDontaudit : Bool) (map : List Nat) (d : Dest) (r : Rule) (st : State) (ij : Nat × Nat) : Res State :=
  if anyBit r.specified (AVRULE_AV ||| AVRULE_XPERMS) then
    (avruleHelper noDontaudit r.specified d.ctx d.enabled r.xperms r.perms (d.tab st) ij.1 ij.2).bind fun t =>
      .ok (d.put st t)
  else teruleHelper map r.specified d r.perms st ij.1 ij.2

/-- The pairs of `expand_rule_helper`, expand.c:1920-1953, in their order. -/
def pairs (r : Rule) (stypes ttypes : Ebitmap) : List (Nat × Nat) :=
  (bits stypes).flatMap fun i =>
    (if anyBit r.flags RULE_SELF then [(i, i)] else []) ++ (bits ttypes).map fun j => (i, j)

/-- `convert_and_expand_rule`, expand.c:1964-2000, with `expand_rule_helper`, expand.c:1909-1956, for
`do_neverallow == 0`. -/
def expandRule (p : Types) (noDontaudit : Bool) (map : List Nat) (d : Dest) (st : State) (r : Rule) : Res State :=
  if anyBit r.specified NEVERALLOW then .ok st
  else if anyBit r.specified X_NEVERALLOW then .ok st
  else
    let always := anyBit r.specified AVRULE_TYPE || anyBit r.flags RULE_SELF
    (convertTypeSet p map r.stypes always).bind fun stypes =>
    (convertTypeSet p map r.ttypes always).bind fun ttypes =>
    forM (onePair noDontaudit map d r) st (pairs r stypes ttypes)

/-- What `copy_and_expand_avrule_block` (expand.c:2747-2824) and `cond_node_copy` (expand.c:2050-2109) do
one after the other: a rule without a condition, or the two lists of rules of a conditional whose
branches in the policy that is built are `2 * k` and `2 * k + 1`.  The search for that conditional is
`Verif.Cond.nodeCopy`; equal conditionals have the same `k`. -/
inductive Step
  | rule (r : Rule)
  | cond (k : Nat) (cur : Bool) (onTrue onFalse : List Rule)

/-- One step; a rule that is not copied by `copy_neverallow` is expanded (expand.c:2788-2806), and
`cond_avrule_list_copy`, expand.c:2002-2022. -/
def step (p : Types) (noDontaudit : Bool) (map : List Nat) (st : State) : Step → Res State
  | .rule r => expandRule p noDontaudit map .te st r
  | .cond k cur rt rf =>
    (forM (expandRule p noDontaudit map (.cond (2 * k) (2 * k + 1) cur)) st rt).bind fun st =>
    forM (expandRule p noDontaudit map (.cond (2 * k + 1) (2 * k) (!cur))) st rf

/-- The empty tables, expand.c:2753-2761. -/
def emptyTab : Tab := ⟨[], fun _ => []⟩
def emptyState : State := ⟨emptyTab, emptyTab⟩

/-- The expansion of all rules. -/
def expandAll (p : Types) (noDontaudit : Bool) (map : List Nat) (steps : List Step) : Res State :=
  forM (step p noDontaudit map) emptyState steps

end Verif.Expand
