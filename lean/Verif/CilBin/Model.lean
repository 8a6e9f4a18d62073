import Verif.CilDeny.Model
import Verif.Avtab.Model

/-!
# Model of the compilation of CIL rules

Access vector rules and type rules of CIL become rules of a binary policy,
libsepol/cil/src/cil_binary.c:464-662 (types and attributes), 933-1175 (type rules) and 1303-1645
(access vector rules).

The rules are taken after `cil_post_db`, as in `CilDeny.Model`: attributes have their bitmaps of
types, class permissions are trees.  A symbol is given by its number, so that looking up its full
name in a symbol table of the policy is looking up the symbol (the tables are maps, property C24).
Allocation succeeds, messages are left out, and `none` is a return code other than `SEPOL_OK`.
-/

namespace Verif.CilBin
open Ebitmap (Ebitmap)
open CilDeny (CP MP)
open Avtab (Avtab Key Datum Node)

/-! ### Types and attributes -/

/-- The symbol of a type, `struct cil_type`, by its value, or of an attribute,
`struct cil_typeattribute`. -/
inductive Sym where
  | type (v : Nat)
  | attr (a : Nat)
deriving DecidableEq

/-- `struct cil_typeattribute`, cil_internal.h:557-563: its types, and whether it is to be an
attribute of the binary policy. -/
structure Attr where
  keep : Bool
  types : Ebitmap

/-- The parts of `struct cil_db` and of the symbol tables of classes that are used: classes and
permissions (those of the common included) with their values in the policy,
cil_binary.c:123-132 and 1303-1325.  The values of permissions are from 1 to 32. -/
structure Db where
  numTypes : Nat
  attrs : Nat → Attr
  expandSize : Nat
  disableDontaudit : Bool
  classVal : Nat → Option Nat
  permVal : Nat → Nat → Option Nat

/-- `symtab_insert`, policydb.c:1681-1760, of the declaration of a type or attribute that no other has
the name of: the number of symbols before it is its value less one. -/
def symtabInsert (tab : List Sym) (s : Sym) : Option (List Sym) :=
  if s ∈ tab then none else some (tab ++ [s])

/-- The first pass over the declarations: `cil_type_to_policydb`, cil_binary.c:464-491, and
`cil_typeattribute_to_policydb`, 567-599.  The result is the symbol table of types. -/
def declare (db : Db) : List Sym → List Sym → Option (List Sym)
  | [], tab => some tab
  | .type v :: l, tab =>
    match symtabInsert tab (.type v) with
    | none => none
    | some tab => declare db l tab
  | .attr a :: l, tab =>
    if !(db.attrs a).keep then declare db l tab
    else
      match symtabInsert tab (.attr a) with
      | none => none
      | some tab => declare db l tab

/-- `__cil_get_sepol_type_datum`, cil_binary.c:112-121: the value of a type or attribute. -/
def typeDatum : List Sym → Sym → Option Nat
  | [], _ => none
  | s :: tab, x => if s = x then some 1 else (typeDatum tab x).map (· + 1)

/-- `ebitmap_for_each_positive_bit`, ebitmap.h:80-81. -/
def bits (e : Ebitmap) : Option (List Nat) := Ebitmap.forEachPositiveBit (e.highbit + 1) e

/-- `type_attr_map` of a policy, by index; `none` is outside the array. -/
abbrev AttrMap := Nat → Option Ebitmap

/-- `type_attr_map` after `__cil_typeattr_bitmap_init`, cil_binary.c:601-630: each type is in
itself. -/
def mapInit (n : Nat) : AttrMap := fun i => if i < n then Ebitmap.setBit Ebitmap.init i true else none

/-- `ebitmap_set_bit(&pdb->type_attr_map[i], b, 1)`, cil_binary.c:659; that it may fail is ignored
there. -/
def mapSet (m : AttrMap) (i b : Nat) : AttrMap :=
  fun j => if j = i then (m j).map fun e => (Ebitmap.setBit e b true).getD e else m j

/-- The loop over the types of an attribute, cil_binary.c:655-661.  The map from attributes to types
gets the same pairs and is left out. -/
def mapTypes (tab : List Sym) (value : Nat) : List Nat → AttrMap → Option AttrMap
  | [], m => some m
  | i :: l, m =>
    match typeDatum tab (.type i) with
    | none => none
    | some t => mapTypes tab value l (mapSet m (t - 1) (value - 1))

/-- `cil_typeattribute_to_bitmap`, cil_binary.c:632-667. -/
def attrToBitmap (db : Db) (tab : List Sym) (a : Nat) (m : AttrMap) : Option AttrMap :=
  if !(db.attrs a).keep then some m
  else
    match typeDatum tab (.attr a), bits (db.attrs a).types with
    | some value, some l => mapTypes tab value l m
    | _, _ => none

/-- The second pass over the declarations. -/
def attrMap (db : Db) (tab : List Sym) : List Sym → AttrMap → Option AttrMap
  | [], m => some m
  | .type _ :: l, m => attrMap db tab l m
  | .attr a :: l, m =>
    match attrToBitmap db tab a m with
    | none => none
    | some m => attrMap db tab l m

/-! ### Rules -/

/-- The target of a rule: one of the three keywords, cil_internal.h:103-105, or a symbol. -/
inductive Target where
  | self | notself | other
  | sym (s : Sym)
deriving DecidableEq

/-- `rule_kind` of an access vector rule, cil_internal.h:618-621. -/
inductive Kind where
  | allowed | auditallow | dontaudit | neverallow
deriving DecidableEq

/-- A branch of a conditional of the policy: a `cond_node_t` and which of its lists. -/
abbrev Branch := Nat × Bool

/-- `struct cil_avrule`, cil_internal.h:623-637, without extended permissions, and the branch that
the `booleanif` statement it is in comes to. -/
structure AvRule where
  cond : Option Branch
  kind : Kind
  src : Sym
  tgt : Target
  perms : List CP

/-- `rule_kind` of a type rule, cil_internal.h:658-660. -/
inductive TKind where
  | transition | change | member
deriving DecidableEq

/-- `struct cil_type_rule`, cil_internal.h:662-672, with the classes of `cil_expand_class(obj)`; its
target is `self` or a symbol. -/
structure TypeRule where
  cond : Option Branch
  kind : TKind
  src : Sym
  tgt : Option Sym
  classes : List Nat
  result : Sym

/-- The rules of the policy: `te_avtab`, `te_cond_avtab` and the lists of rules of the conditionals.  An
entry of such a list is a pointer to a node of `te_cond_avtab`; the nodes are not changed, so that it
can be the node. -/
structure State where
  te : Avtab
  cond : Avtab
  lists : Branch → List Node

/-- Change the datum of the node that a search finds, as with the pointer returned by
`avtab_search`. -/
def updateChain (k : Key) (f : BitVec 32 → BitVec 32) : List Node → List Node
  | [] => []
  | c :: cs =>
    if Avtab.hits k c.key then ⟨c.key, { c.datum with data := f c.datum.data }⟩ :: cs
    else if Avtab.before k c.key then c :: cs
    else c :: updateChain k f cs

/-- The same in the table. -/
def update (h : Avtab) (k : Key) (f : BitVec 32 → BitVec 32) : Avtab :=
  match h.htable with
  | none => h
  | some tb =>
    { h with htable := some (Avtab.setBucket tb (Avtab.hash k h.mask) (updateChain k f (tb (Avtab.hash k h.mask)))) }

/-- `__cil_cond_insert_rule`, cil_binary.c:933-966. -/
def condInsertRule (st : State) (k : Key) (d : Datum) (b : Branch) : Option State :=
  match Avtab.insertNonunique st.cond k d with
  | none => none
  | some cond =>
    some { st with cond := cond, lists := fun b' => if b' = b then Avtab.mkNode k d :: st.lists b else st.lists b' }

/-- The key of a rule; its fields are `uint16_t`, avtab.h:50-71. -/
def key (src tgt cls : Nat) (specified : BitVec 16) : Key := ⟨src % 2 ^ 16, tgt % 2 ^ 16, cls % 2 ^ 16, specified⟩

/-! ### Access vector rules -/

/-- `__perm_str_to_datum`, cil_binary.c:1303-1325. -/
def permToDatum (db : Db) (c p : Nat) (data : BitVec 32) : Option (BitVec 32) :=
  match db.permVal c p with
  | none => none
  | some v => some (data ||| 1#32 <<< (v - 1))

/-- The loop of `__cil_perms_to_datum`, cil_binary.c:1327-1351. -/
def permsToDatum (db : Db) (c : Nat) : List Nat → BitVec 32 → Option (BitVec 32)
  | [], data => some data
  | p :: ps, data =>
    match permToDatum db c p data with
    | none => none
    | some data => permsToDatum db c ps data

/-- The kind of rule of the table, cil_binary.c:1364-1378; `none` is the error. -/
def Kind.spec : Kind → Option (BitVec 16)
  | .allowed => some Avtab.ALLOWED
  | .auditallow => some Avtab.AUDITALLOW
  | .dontaudit => some Avtab.AUDITDENY
  | .neverallow => none

/-- `__cil_insert_avrule`, cil_binary.c:1353-1396. -/
def insertAvrule (st : State) (kind : Kind) (src tgt obj : Nat) (data : BitVec 32) (cond : Option Branch) : Option State :=
  match kind.spec with
  | none => none
  | some sp =>
    match cond with
    | none =>
      match Avtab.search st.te (key src tgt obj sp) with
      | none =>
        match Avtab.insert st.te (key src tgt obj sp) ⟨data, none⟩ with
        | (te, .ok) => some { st with te := te }
        | _ => none
      | some _ =>
        let f : BitVec 32 → BitVec 32 := if kind = .dontaudit then fun d => d &&& data else fun d => d ||| data
        some { st with te := update st.te (key src tgt obj sp) f }
    | some b => condInsertRule st (key src tgt obj sp) ⟨data, none⟩ b

/-- `__cil_avrule_expand_helper`, cil_binary.c:1398-1436. -/
def expandHelper (db : Db) (tab : List Sym) (kind : Kind) (src tgt : Sym) (cond : Option Branch) (c : Nat) (ps : List Nat)
    (st : State) : Option State :=
  match db.classVal c with
  | none => none
  | some cv =>
    match permsToDatum db c ps 0#32 with
    | none => none
    | some data =>
      if data = 0#32 then some st
      else
        let data := if kind = .dontaudit then ~~~ data else data
        match typeDatum tab src, typeDatum tab tgt with
        | some sv, some tv => insertAvrule st kind sv tv cv data cond
        | _, _ => none

mutual
/-- `__cil_avrule_expand`, cil_binary.c:1439-1475. -/
def expand (db : Db) (tab : List Sym) (kind : Kind) (src tgt : Sym) (cond : Option Branch) :
    List CP → State → Option State
  | [], st => some st
  | x :: xs, st =>
    match expandItem db tab kind src tgt cond x st with
    | none => none
    | some st => expand db tab kind src tgt cond xs st
/-- The body of the loop, cil_binary.c:1445-1468. -/
def expandItem (db : Db) (tab : List Sym) (kind : Kind) (src tgt : Sym) (cond : Option Branch) :
    CP → State → Option State
  | .cls c ps, st => expandHelper db tab kind src tgt cond c ps st
  | .map _ ms, st => expandMap db tab kind src tgt cond ms st
  | .set _ l, st => expand db tab kind src tgt cond l st
/-- The loop over the permissions of a class map, cil_binary.c:1453-1459. -/
def expandMap (db : Db) (tab : List Sym) (kind : Kind) (src tgt : Sym) (cond : Option Branch) :
    List MP → State → Option State
  | [], st => some st
  | .mk _ l :: ms, st =>
    match expand db tab kind src tgt cond l st with
    | none => none
    | some st => expandMap db tab kind src tgt cond ms st
end

/-- `__cil_should_expand_attribute`, cil_binary.c:1478-1492. -/
def shouldExpand (db : Db) : Sym → Bool
  | .type _ => false
  | .attr a => !(db.attrs a).keep || decide (Ebitmap.cardinality (db.attrs a).types < db.expandSize)

/-- `__cil_expand_type`, cil_binary.c:210-234. -/
def expandType (db : Db) : Sym → Option Ebitmap
  | .attr a => some (Ebitmap.cpy (db.attrs a).types)
  | .type v => Ebitmap.setBit Ebitmap.init v true

/-- A loop that stops at an error. -/
def forM {α : Type} (f : α → State → Option State) : List α → State → Option State
  | [], st => some st
  | x :: l, st =>
    match f x st with
    | none => none
    | some st => forM f l st

/-- `__cil_avrule_to_avtab`, cil_binary.c:1494-1640. -/
def avruleToAvtab (db : Db) (tab : List Sym) (r : AvRule) (st : State) : Option State :=
  let go (s t : Sym) (st : State) := expand db tab r.kind s t r.cond r.perms st
  if r.kind = .dontaudit ∧ db.disableDontaudit then some st
  else
    match r.tgt with
    | .self =>
      ((expandType db r.src).bind bits).bind fun ss =>
        forM (fun s => go (.type s) (.type s)) ss st
    | .notself =>
      ((expandType db r.src).bind bits).bind fun ss =>
        forM (fun s => forM (fun t st => if s ≠ t then go (.type s) (.type t) st else some st) (List.range db.numTypes)) ss st
    | .other =>
      ((expandType db r.src).bind bits).bind fun ss =>
        forM (fun s => forM (fun t st => if s ≠ t then go (.type s) (.type t) st else some st) ss) ss st
    | .sym tgt =>
      match shouldExpand db r.src, shouldExpand db tgt with
      | false, false => go r.src tgt st
      | true, true =>
        ((expandType db r.src).bind bits).bind fun ss =>
          ((expandType db tgt).bind bits).bind fun ts =>
            forM (fun s => forM (fun t => go (.type s) (.type t)) ts) ss st
      | true, false =>
        ((expandType db r.src).bind bits).bind fun ss => forM (fun s => go (.type s) tgt) ss st
      | false, true =>
        ((expandType db tgt).bind bits).bind fun ts => forM (fun t => go r.src (.type t)) ts st

/-! ### Type rules -/

/-- The kind of rule of the table, cil_binary.c:995-1008. -/
def TKind.spec : TKind → BitVec 16
  | .transition => Avtab.TRANSITION
  | .change => Avtab.CHANGE
  | .member => Avtab.MEMBER

/-- `cil_cond_av_list_search`, cil_binary.c:968-982: whether there is such a rule. -/
def condListSearch (k : Key) : List Node → Bool
  | [] => false
  | n :: l =>
    if n.key.source = k.source ∧ n.key.target = k.target ∧ n.key.cls = k.cls ∧ n.key.specified &&& k.specified ≠ 0#16 then true
    else condListSearch k l

/-- `__cil_insert_type_rule`, cil_binary.c:984-1073. -/
def insertTypeRule (st : State) (kind : TKind) (src tgt obj res : Nat) (cond : Option Branch) : Option State :=
  let k := key src tgt obj kind.spec
  let d : Datum := ⟨BitVec.ofNat 32 res, none⟩
  match Avtab.search st.te k with
  | some e => if e.data ≠ BitVec.ofNat 32 res then none else some st
  | none =>
    match cond with
    | none =>
      match Avtab.insert st.te k d with
      | (te, .ok) => some { st with te := te }
      | _ => none
    | some b =>
      match Avtab.search st.cond k with
      | none => condInsertRule st k d b
      | some e =>
        if condListSearch k (st.lists (b.1, !b.2)) then condInsertRule st k d b
        else if e.data ≠ BitVec.ofNat 32 res then none
        else if condListSearch k (st.lists b) then some st
        else condInsertRule st k d b

/-- `__cil_type_rule_to_avtab_helper`, cil_binary.c:1075-1100. -/
def typeRuleHelper (db : Db) (kind : TKind) (sv tv rv : Nat) (cond : Option Branch) (classes : List Nat) (st : State) :
    Option State :=
  forM (fun c st => (db.classVal c).bind fun cv => insertTypeRule st kind sv tv cv rv cond) classes st

/-- `__cil_type_rule_to_avtab`, cil_binary.c:1102-1174. -/
def typeRuleToAvtab (db : Db) (tab : List Sym) (r : TypeRule) (st : State) : Option State :=
  ((expandType db r.src).bind bits).bind fun ss =>
  (typeDatum tab r.result).bind fun rv =>
  match r.tgt with
  | none =>
    forM (fun s st => (typeDatum tab (.type s)).bind fun sv => typeRuleHelper db r.kind sv sv rv r.cond r.classes st) ss st
  | some tgt =>
    ((expandType db tgt).bind bits).bind fun ts =>
    forM (fun s st => (typeDatum tab (.type s)).bind fun sv =>
      forM (fun t st => (typeDatum tab (.type t)).bind fun tv =>
        typeRuleHelper db r.kind sv tv rv r.cond r.classes st) ts st) ss st

/-! ### All rules -/

/-- A rule of the policy. -/
inductive Rule where
  | av (r : AvRule)
  | type (r : TypeRule)

/-- Type rules outside of `booleanif` are compiled in the second pass, cil_binary.c:4128-4130. -/
def Rule.second : Rule → Bool
  | .type r => r.cond.isNone
  | .av _ => false

/-- What the passes do with a rule: cil_binary.c:4129, 4174-4186 and 2119-2134.  Neverallow rules outside
of `booleanif` are checked later. -/
def ruleToPolicydb (db : Db) (tab : List Sym) : Rule → State → Option State
  | .av r, st => if r.kind = .neverallow ∧ r.cond = none then some st else avruleToAvtab db tab r st
  | .type r, st => typeRuleToAvtab db tab r st

/-- MAX_AVTAB_SIZE, avtab.h:145. -/
def maxAvtabSize : Nat := 2 * Avtab.MAX_BUCKETS

/-- Both tables are allocated by `__cil_policydb_init`, cil_binary.c:4576-4584. -/
def start : State := ⟨Avtab.alloc Avtab.init maxAvtabSize, Avtab.alloc Avtab.init maxAvtabSize, fun _ => []⟩

/-- What is built of types and rules. -/
structure Policy where
  tab : List Sym
  map : AttrMap
  rules : State

/-- The three passes of `cil_binary_create_allocated_pdb`, cil_binary.c:5340-5376, for the declarations
of types and attributes and for the rules, each in the order of the policy. -/
def compile (db : Db) (decls : List Sym) (rules : List Rule) : Option Policy :=
  (declare db decls []).bind fun tab =>
  (attrMap db tab decls (mapInit tab.length)).bind fun map =>
  (forM (ruleToPolicydb db tab) (rules.filter Rule.second) start).bind fun st =>
  (forM (ruleToPolicydb db tab) (rules.filter fun r => !r.second) st).bind fun st =>
  some ⟨tab, map, st⟩

end Verif.CilBin
