import Verif.Assertion.Model

/-!
# Model of the bounds checks, libsepol/src/hierarchy.c

`none` is undefined behaviour (an index outside of the attribute map) or the
error return of a failed insertion (which does not happen, since the tables are
allocated).

Simplifications: allocation succeeds; messages are not modelled, only the list of
rules they report; the counters do not overflow.
-/

namespace Verif.Bounds
open Verif.Avtab Verif.Policy Verif.Optimize Verif.Assertion

/-- `dup->data |= data` on the node that `avtab_search` finds (the walk of
avtab.c:224-242). -/
def orChain (k : Key) (v : BitVec 32) : List Avtab.Node → List Avtab.Node
  | [] => []
  | c :: cs =>
    if hits k c.key then ⟨c.key, { c.datum with data := c.datum.data ||| v }⟩ :: cs
    else if before k c.key then c :: cs
    else c :: orChain k v cs

/-- The same on a table. -/
def orData (h : Avtab) (k : Key) (v : BitVec 32) : Avtab :=
  match h.htable with
  | none => h
  | some tb => { h with htable := some (setBucket tb (hash k h.mask) (orChain k v (tb (hash k h.mask)))) }

/-- Insert or add permissions, hierarchy.c:61-68, 78-88. -/
def insertOr (h : Avtab) (k : Key) (v : BitVec 32) : Option Avtab :=
  match search h k with
  | none => match insert h k ⟨v, none⟩ with
    | (h', .ok) => some h'
    | _ => none
  | some _ => some (orData h k v)

/-- `bounds_insert_rule`, hierarchy.c:56-95, on the table and the global table;
`other` is given for the rules of the false branch. -/
def insertRule (avtab global : Avtab) (other : Option Avtab) (k : Key) (v : BitVec 32) :
    Option (Avtab × Avtab) :=
  (insertOr avtab k v).bind fun avtab =>
  match other with
  | none => some (avtab, global)
  | some o =>
    match search o k with
    | none => some (avtab, global)
    | some dup =>
      if dup.data &&& v ≠ 0#32 then (insertOr global k (dup.data &&& v)).map fun g => (avtab, g)
      else some (avtab, global)

/-- The loop over the targets, hierarchy.c:114-119. -/
def insertTargets (other : Option Avtab) (parent cls : Nat) (v : BitVec 32) :
    List Nat → Avtab × Avtab → Option (Avtab × Avtab)
  | [], s => some s
  | i :: l, s =>
    (insertRule s.1 s.2 other ⟨parent % 2 ^ 16, (i + 1) % 2 ^ 16, cls, ALLOWED⟩ v).bind
      (insertTargets other parent cls v l)

/-- `bounds_expand_rule`, hierarchy.c:97-124. -/
def expandRule (p : OPolicy) (other : Option Avtab) (parent : Nat) (n : Avtab.Node) (s : Avtab × Avtab) :
    Option (Avtab × Avtab) :=
  (attrTypeAt p n.key.source).bind fun sa =>
  if Ebitmap.getBit sa (parent - 1) then
    (attrTypeAt p n.key.target).bind fun ta => (bitsOf ta).bind fun ts =>
      insertTargets other parent n.key.cls n.datum.data ts s
  else some s

/-- `bounds_expand_cond_rules`, hierarchy.c:126-144. -/
def expandCond (p : OPolicy) (other : Option Avtab) (parent : Nat) :
    List Avtab.Node → Avtab × Avtab → Option (Avtab × Avtab)
  | [], s => some s
  | n :: l, s => (expandRule p other parent n s).bind (expandCond p other parent l)

/-- `avtab_map` with `bounds_expand_rule_callback`, hierarchy.c:152-164, 202. -/
def expandTe (p : OPolicy) (parent : Nat) : List Avtab.Node → Avtab → Option Avtab
  | [], g => some g
  | n :: l, g =>
    if n.key.specified &&& ALLOWED = 0#16 then expandTe p parent l g
    else (expandRule p none parent n (g, g)).bind fun s => expandTe p parent l s.1

/-- BOUNDS_AVTAB_SIZE, hierarchy.c:40. -/
def SIZE : Nat := 1024

/-- `struct bounds_cond_info`, hierarchy.c:166-171. -/
structure CondInfo where
  trueTab : Avtab
  falseTab : Avtab
  cond : Cond.Node

/-- The loop over the conditionals, hierarchy.c:206-232. The list is built in
reverse. -/
def expandConds (p : OPolicy) (parent : Nat) : List Cond.Node → Avtab × List CondInfo → Option (Avtab × List CondInfo)
  | [], s => some s
  | c :: l, s =>
    let nodeOf := stamped p.enabled p.tab.node
    (if c.trueList = [] then some init
      else (expandCond p none parent (c.trueList.map nodeOf) (alloc init SIZE, s.1)).map Prod.fst).bind fun tt =>
    (if c.falseList = [] then some (init, s.1)
      else expandCond p (some tt) parent (c.falseList.map nodeOf) (alloc init SIZE, s.1)).bind fun r =>
    expandConds p parent l (r.2, ⟨tt, r.1, c⟩ :: s.2)

/-- `bounds_expand_parent_rules`, hierarchy.c:185-245. -/
def expandParent (p : OPolicy) (parent : Nat) : Option (Avtab × List CondInfo) :=
  (expandTe p parent (nodes p.sp.te) (alloc init SIZE)).bind fun g => expandConds p parent p.conds (g, [])

/-- `bounds_not_covered`, hierarchy.c:247-260. -/
def notCovered (global : Option Avtab) (cur : Avtab) (k : Key) (data : BitVec 32) : BitVec 32 :=
  let data := match search cur k with
    | some d => data &&& ~~~ d.data
    | none => data
  match global with
  | none => data
  | some g =>
    if data = 0#32 then data
    else match search g k with
      | some d => data &&& ~~~ d.data
      | none => data

/-- A reported rule: source, target, class and permissions, hierarchy.c:262-279. -/
structure Bad where
  source : Nat
  target : Nat
  cls : Nat
  data : BitVec 32
deriving DecidableEq, Repr

/-- The target that the parent is checked with, hierarchy.c:301-309. -/
def parentTarget (p : OPolicy) (i : Nat) : Nat :=
  match p.sp.typeStruct i with
  | some d => if d.bounds ≠ 0 then d.bounds else i + 1
  | none => i + 1

/-- The loop over the targets, hierarchy.c:299-315. -/
def checkTargets (p : OPolicy) (global : Option Avtab) (cur : Avtab) (child parent cls : Nat) (data : BitVec 32) :
    List Nat → List Bad → List Bad
  | [], bad => bad
  | i :: l, bad =>
    let d := notCovered global cur ⟨parent % 2 ^ 16, parentTarget p i % 2 ^ 16, cls, ALLOWED⟩ data
    checkTargets p global cur child parent cls data l (if d ≠ 0#32 then ⟨child, i + 1, cls, d⟩ :: bad else bad)

/-- `bounds_check_rule`, hierarchy.c:281-320. -/
def checkRule (p : OPolicy) (global : Option Avtab) (cur : Avtab) (child parent : Nat) (n : Avtab.Node)
    (bad : List Bad) : Option (List Bad) :=
  (attrTypeAt p n.key.source).bind fun sa =>
  if Ebitmap.getBit sa (child - 1) then
    (attrTypeAt p n.key.target).bind fun ta => (bitsOf ta).map fun ts =>
      checkTargets p global cur child parent n.key.cls n.datum.data ts bad
  else some bad

/-- `bounds_check_cond_rules`, hierarchy.c:322-347, and `avtab_map` with
`bounds_check_rule_callback`, hierarchy.c:358-369. -/
def checkRules (p : OPolicy) (global : Option Avtab) (cur : Avtab) (child parent : Nat) :
    List Avtab.Node → List Bad → Option (List Bad)
  | [], bad => some bad
  | n :: l, bad =>
    if n.key.specified &&& ALLOWED = 0#16 then checkRules p global cur child parent l bad
    else (checkRule p global cur child parent n bad).bind (checkRules p global cur child parent l)

/-- The loop over the conditionals, hierarchy.c:389-404. -/
def checkConds (p : OPolicy) (global : Avtab) (child parent : Nat) : List CondInfo → List Bad → Option (List Bad)
  | [], bad => some bad
  | ci :: l, bad =>
    let nodeOf := stamped p.enabled p.tab.node
    (checkRules p (some global) ci.trueTab child parent (ci.cond.trueList.map nodeOf) bad).bind fun bad =>
    (checkRules p (some global) ci.falseTab child parent (ci.cond.falseList.map nodeOf) bad).bind
      (checkConds p global child parent l)

/-- `bounds_check_type`, hierarchy.c:371-432: the rules of the child that exceed
its bounds. -/
def checkType (p : OPolicy) (child parent : Nat) : Option (List Bad) :=
  (expandParent p parent).bind fun gi =>
  (checkRules p none gi.1 child parent (nodes p.sp.te) []).bind (checkConds p gi.1 child parent gi.2)

/-! ## Symbols -/

/-- `type_datum_t` (policydb.h:178-193), `role_datum_t`, `user_datum_t`: what the
checks read. `set` is the bitmap of the types of a role or the roles of a user. -/
structure Sym where
  value : Nat
  bounds : Nat
  primary : Bool
  flavor : Nat
  set : Ebitmap.Ebitmap

/-- A symbol table in the order `hashtab_map` visits it. -/
abbrev Table := List (Str × Sym)

/-- `hashtab_search`: keys are unique. -/
def Table.search (t : Table) (name : Str) : Option Sym := (t.find? (fun e => e.1 == name)).map Prod.snd

/-- `p_*_val_to_name[v - 1]` as built by `policydb_index_others`: the primary
name. -/
def Table.nameOf (t : Table) (v : Nat) : Option Str :=
  (t.find? (fun e => e.2.primary && e.2.value == v)).map Prod.fst

/-- `*_val_to_struct[v - 1]`. -/
def Table.structOf (t : Table) (v : Nat) : Option Sym :=
  (t.find? (fun e => e.2.primary && e.2.value == v)).map Prod.snd

/-- The part of a name before its last dot, `strrchr` and the lines after it,
hierarchy.c:612-621. -/
def parentName (s : Str) : Option Str :=
  match s.reverse.dropWhile (· ≠ '.') with
  | [] => none
  | _ :: r => some r.reverse

/-- The callback of `add_hierarchy_callback_template`, hierarchy.c:598-638: the
changed datum and the number of orphans. `none`: no name for the value. -/
def addBound (t : Table) (d : Sym) : Option (Sym × Nat) :=
  if d.bounds ≠ 0 then some (d, 0)
  else
    (t.nameOf d.value).bind fun name =>
    match parentName name with
    | none => some (d, 0)
    | some pn =>
      match t.search pn with
      | none => some (d, 1)
      | some pd => some ({ d with bounds := pd.value }, 0)

/-- `hashtab_map` with this callback; it changes only the member `bounds`, which
the callback does not read in other data. -/
def addBoundsLoop (t : Table) : Table → Option (Table × Nat)
  | [] => some ([], 0)
  | e :: l =>
    (addBound t e.2).bind fun r => (addBoundsLoop t l).map fun rs => ((e.1, r.1) :: rs.1, r.2 + rs.2)

/-- The policy with its symbol tables. The map `typeStruct` of `op` is replaced by
that of the table of types. -/
structure HPolicy where
  op : OPolicy
  types : Table
  roles : Table
  users : Table

/-- The type datum of the other models. -/
def Sym.typeDatum (s : Sym) : TypeDatum := ⟨s.value, s.flavor, s.bounds⟩

/-- The policy for the rules. -/
def HPolicy.pol (h : HPolicy) : OPolicy :=
  { h.op with sp := { h.op.sp with typeStruct := fun i => (h.types.structOf (i + 1)).map Sym.typeDatum } }

/-- `hierarchy_add_bounds`, hierarchy.c:644-670; the second component is false for
SEPOL_ERR. -/
def addBounds (h : HPolicy) : Option (HPolicy × Bool) :=
  (addBoundsLoop h.users h.users).bind fun u =>
  (addBoundsLoop h.roles h.roles).bind fun r =>
  (addBoundsLoop h.types h.types).map fun t =>
    ({ h with users := u.1, roles := r.1, types := t.1 }, u.2 + r.2 + t.2 == 0)

/-- `bounds_check_role_callback`, hierarchy.c:515-534, and
`bounds_check_user_callback`, hierarchy.c:558-577: whether there is a violation. -/
def exceeds (t : Table) (d : Sym) : Bool :=
  if d.bounds = 0 then false
  else match t.structOf d.bounds with
    | none => false
    | some pd => !Ebitmap.contains pd.set d.set

/-- `bounds_check_roles`, hierarchy.c:536-553, `bounds_check_users`,
hierarchy.c:579-596: true for success. -/
def checkTable (t : Table) : Bool := (t.countP (fun e => exceeds t e.2)) == 0

/-- `bounds_check_types` with its callback, hierarchy.c:469-510: the number of
reported rules. -/
def checkTypes (p : OPolicy) : Table → Option Nat
  | [] => some 0
  | e :: l =>
    (if e.2.bounds ≠ 0 then (checkType p e.2.value e.2.bounds).map List.length else some 0).bind fun n =>
    (checkTypes p l).map (n + ·)

/-- `hierarchy_check_constraints`, hierarchy.c:672-701: the policy with the added
bounds, and true for success. -/
def checkConstraints (h : HPolicy) : Option (HPolicy × Bool) :=
  (addBounds h).bind fun r =>
  if r.2 = false then some r
  else
    (checkTypes r.1.pol r.1.types).map fun n => (r.1, checkTable r.1.users && checkTable r.1.roles && n == 0)

end Verif.Bounds
