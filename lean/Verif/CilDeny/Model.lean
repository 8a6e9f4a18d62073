import Verif.Ebitmap.Model

/-!
# Model of deny rules in CIL

`cil_process_deny_rules_in_ast`, libsepol/cil/src/cil_deny.c, with the search for matching rules,
libsepol/cil/src/cil_find.c.  A deny rule removes permissions from the allow rules of a policy:
each allow rule that matches it is replaced by rules that allow the rest.

The rules are taken after `cil_post_db`: attributes have their bitmaps of types and permission
expressions are lists of permissions.  Lists of class permissions are neither `NULL` nor circular
(`__cil_verify_classperms`, cil_verify.c:1886-1929), so they are trees.  A symbol is given by its
number; equal symbols are equal pointers.  Allocation succeeds, messages are left out.
-/

namespace Verif.CilDeny
open Ebitmap (Ebitmap)

/-! ### Class permissions -/

mutual
/-- An item of a list of class permissions, `struct cil_classperms`, cil_internal.h:404-409, with a
class or with a class map, or `struct cil_classperms_set`, 399-402. -/
inductive CP where
  | cls (c : Nat) (perms : List Nat)
  | map (c : Nat) (perms : List MP)
  | set (name : Nat) (l : List CP)
/-- A permission of a class map, `struct cil_perm`, cil_internal.h:385-389, with what it is mapped
to. -/
inductive MP where
  | mk (name : Nat) (l : List CP)
end

/-- `cil_perm_match`, cil_deny.c:129-140. -/
def permMatch (p1 : Nat) : List Nat → Bool
  | [] => false
  | p :: ps => if p == p1 then true else permMatch p1 ps

mutual
/-- `cil_class_perm_match`, cil_deny.c:142-173. -/
def classPermMatch (c1 p1 : Nat) : List CP → Bool
  | [] => false
  | x :: xs => if classPermMatchItem c1 p1 x then true else classPermMatch c1 p1 xs
/-- The body of the loop, cil_deny.c:146-170. -/
def classPermMatchItem (c1 p1 : Nat) : CP → Bool
  | .cls c ps => if c == c1 then permMatch p1 ps else false
  | .map _ ms => classPermMatchMap c1 p1 ms
  | .set _ l => classPermMatch c1 p1 l
/-- The loop over the permissions of a class map, cil_deny.c:156-162. -/
def classPermMatchMap (c1 p1 : Nat) : List MP → Bool
  | [] => false
  | .mk _ l :: ms => if classPermMatch c1 p1 l then true else classPermMatchMap c1 p1 ms
end

/-- `cil_classperms_match_any`, cil_deny.c:175-186. -/
def classpermsMatchAny (c : Nat) (l2 : List CP) : List Nat → Bool
  | [] => false
  | p :: ps => if classPermMatch c p l2 then true else classpermsMatchAny c l2 ps

mutual
/-- `cil_classperms_list_match_any`, cil_deny.c:188-221. -/
def listMatchAny (l2 : List CP) : List CP → Bool
  | [] => false
  | x :: xs => if itemMatchAny l2 x then true else listMatchAny l2 xs
/-- The body of the loop, cil_deny.c:197-218. -/
def itemMatchAny (l2 : List CP) : CP → Bool
  | .cls c ps => classpermsMatchAny c l2 ps
  | .map _ ms => mapMatchAny l2 ms
  | .set _ l => listMatchAny l2 l
/-- The loop over the permissions of a class map, cil_deny.c:205-210. -/
def mapMatchAny (l2 : List CP) : List MP → Bool
  | [] => false
  | .mk _ l :: ms => if listMatchAny l2 l then true else mapMatchAny l2 ms
end

/-- `cil_classperms_match_all`, cil_deny.c:223-234. -/
def classpermsMatchAll (c : Nat) (l2 : List CP) : List Nat → Bool
  | [] => true
  | p :: ps => if !classPermMatch c p l2 then false else classpermsMatchAll c l2 ps

mutual
/-- `cil_classperms_list_match_all`, cil_deny.c:236-269. -/
def listMatchAll (l2 : List CP) : List CP → Bool
  | [] => true
  | x :: xs => if !itemMatchAll l2 x then false else listMatchAll l2 xs
/-- The body of the loop, cil_deny.c:245-266. -/
def itemMatchAll (l2 : List CP) : CP → Bool
  | .cls c ps => classpermsMatchAll c l2 ps
  | .map _ ms => mapMatchAll l2 ms
  | .set _ l => listMatchAll l2 l
/-- The loop over the permissions of a class map, cil_deny.c:253-258. -/
def mapMatchAll (l2 : List CP) : List MP → Bool
  | [] => true
  | .mk _ l :: ms => if !listMatchAll l2 l then false else mapMatchAll l2 ms
end

/-- A new entry of a list, unless it has no permissions, cil_deny.c:334-341 and 458-465. -/
def entry (c : Nat) : List Nat → List CP
  | [] => []
  | p :: ps => [.cls c (p :: ps)]

/-- A new entry for permissions of a class map, unless there are none, cil_deny.c:357-364 and
481-488. -/
def mapEntry (c : Nat) : List MP → List CP
  | [] => []
  | m :: ms => [.map c (m :: ms)]

/-- `cil_classperms_and`, cil_deny.c:320-346. -/
def classpermsAnd (c : Nat) (ps : List Nat) (l2 : List CP) : List CP :=
  if classpermsMatchAll c l2 ps then [.cls c ps] else entry c (ps.filter fun p => classPermMatch c p l2)

/-- The permissions of a class map that are kept as they are, cil_deny.c:354-366. -/
def mapAll (l2 : List CP) : List MP → List MP
  | [] => []
  | .mk n l :: ms => if listMatchAll l2 l then .mk n l :: mapAll l2 ms else mapAll l2 ms

mutual
/-- The loop of `cil_classperms_list_and`, cil_deny.c:424-436. -/
def andItems (l2 : List CP) : List CP → List CP
  | [] => []
  | x :: xs => andItem l2 x ++ andItems l2 xs
/-- One item.  `cil_classperms_map_and`, cil_deny.c:349-379; the entry with the permissions that are
kept as they are is put first rather than where the first of them was found.
`cil_classperms_set_and`, 382-401.  Both call `cil_classperms_list_and` on lists not all of which
matches, so that it comes to its loop. -/
def andItem (l2 : List CP) : CP → List CP
  | .cls c ps => classpermsAnd c ps l2
  | .map c ms => mapEntry c (mapAll l2 ms) ++ andMap l2 ms
  | .set n l => if listMatchAll l2 l then [.set n l] else andItems l2 l
/-- The other permissions of a class map, cil_deny.c:367-377. -/
def andMap (l2 : List CP) : List MP → List CP
  | [] => []
  | .mk _ l :: ms => if listMatchAll l2 l then andMap l2 ms else andItems l2 l ++ andMap l2 ms
end

/-- `cil_classperms_list_and`, cil_deny.c:404-441; an empty list is `NULL`. -/
def listAnd (l1 l2 : List CP) : List CP := if listMatchAll l2 l1 then l1 else andItems l2 l1

/-- `cil_classperms_andnot`, cil_deny.c:444-470. -/
def classpermsAndnot (c : Nat) (ps : List Nat) (l2 : List CP) : List CP :=
  if !classpermsMatchAny c l2 ps then [.cls c ps] else entry c (ps.filter fun p => !classPermMatch c p l2)

/-- The permissions of a class map that are kept as they are, cil_deny.c:478-490. -/
def mapNone (l2 : List CP) : List MP → List MP
  | [] => []
  | .mk n l :: ms => if !listMatchAny l2 l then .mk n l :: mapNone l2 ms else mapNone l2 ms

mutual
/-- The loop of `cil_classperms_list_andnot`, cil_deny.c:548-560. -/
def andnotItems (l2 : List CP) : List CP → List CP
  | [] => []
  | x :: xs => andnotItem l2 x ++ andnotItems l2 xs
/-- One item.  `cil_classperms_map_andnot`, cil_deny.c:473-503, with the order of entries simplified
as in `andItem`; `cil_classperms_set_andnot`, 506-525. -/
def andnotItem (l2 : List CP) : CP → List CP
  | .cls c ps => classpermsAndnot c ps l2
  | .map c ms => mapEntry c (mapNone l2 ms) ++ andnotMap l2 ms
  | .set n l => if !listMatchAny l2 l then [.set n l] else andnotItems l2 l
/-- The other permissions of a class map, cil_deny.c:491-501. -/
def andnotMap (l2 : List CP) : List MP → List CP
  | [] => []
  | .mk _ l :: ms => if !listMatchAny l2 l then andnotMap l2 ms else andnotItems l2 l ++ andnotMap l2 ms
end

/-- `cil_classperms_list_andnot`, cil_deny.c:528-565; an empty list is `NULL`. -/
def listAndnot (l1 l2 : List CP) : List CP := if !listMatchAny l2 l1 then l1 else andnotItems l2 l1

/-! ### Types and rules -/

/-- A symbol of `struct cil_type`, by its value, or of `struct cil_typeattribute` with the table it
is in (0 is the table of the root), a number that tells attributes apart, and its types. -/
inductive Datum where
  | type (v : Nat)
  | attr (table id : Nat) (types : Ebitmap)
deriving DecidableEq

/-- The target of a rule: one of the three keywords, cil_internal.h:103-105, or a symbol. -/
inductive Target where
  | self | notself | other
  | datum (d : Datum)
deriving DecidableEq

/-- `rule_kind`, cil_internal.h:618-621. -/
inductive Kind where
  | allowed | auditallow | dontaudit | neverallow
deriving DecidableEq

/-- `struct cil_avrule`, cil_internal.h:623-637, without extended permissions (rules with them are
nodes of another kind that neither is looked for nor changed), and the branch of the `booleanif`
statement it is in. -/
structure Rule where
  cond : Option (Nat × Bool)
  kind : Kind
  src : Datum
  tgt : Target
  perms : List CP

/-- `struct cil_deny_rule`, cil_internal.h:650-656. -/
structure Deny where
  src : Datum
  tgt : Target
  perms : List CP

/-- What can go wrong: a function returns an error, or memory is freed twice. -/
inductive Stop where
  | err | doubleFree | ub
deriving DecidableEq

/-! ### Matching rules -/

/-- `ebitmap_for_each_positive_bit`, ebitmap.h:80-81. -/
def bits (e : Ebitmap) : Except Stop (List Nat) :=
  match Ebitmap.forEachPositiveBit (e.highbit + 1) e with
  | none => .error .ub
  | some l => .ok l

/-- `ebitmap_set_bit(e, v, value)`, ebitmap.c:369-441, with its error. -/
def setBit (e : Ebitmap) (v : Nat) (value : Bool) : Except Stop Ebitmap :=
  match Ebitmap.setBit e v value with
  | none => .error .err
  | some e => .ok e

/-- `ebitmap_is_empty`, ebitmap.h:42. -/
def isEmpty (e : Ebitmap) : Bool := e.node.isEmpty

/-- `cil_type_match_any`, cil_find.c:46-80. -/
def typeMatchAny : Datum → Datum → Bool
  | .type a, .type b => a == b
  | .attr _ _ a, .type t => Ebitmap.getBit a t
  | .type t, .attr _ _ a => Ebitmap.getBit a t
  | .attr t i a, .attr t' i' b => if Datum.attr t i a = Datum.attr t' i' b then true else Ebitmap.matchAny a b

/-- `cil_type_matches`, cil_find.c:82-119. -/
def typeMatches : Datum → Datum → Except Stop Ebitmap
  | .attr _ _ a, .attr _ _ b => .ok (Ebitmap.and a b)
  | .type a, .type b => if a == b then setBit Ebitmap.init a true else .ok Ebitmap.init
  | .attr _ _ a, .type t => if Ebitmap.getBit a t then setBit Ebitmap.init t true else .ok Ebitmap.init
  | .type t, .attr _ _ a => if Ebitmap.getBit a t then setBit Ebitmap.init t true else .ok Ebitmap.init

/-- `cil_self_match_any`, cil_find.c:125-146. -/
def selfMatchAny (s1 s2 t2 : Datum) : Except Stop Bool :=
  match s1 with
  | .type _ => .ok (typeMatchAny s1 t2)
  | .attr _ _ a =>
    match typeMatches s2 t2 with
    | .error e => .error e
    | .ok map => if isEmpty map then .ok false else .ok (Ebitmap.matchAny map a)

/-- `cil_notself_match_any`, cil_find.c:152-205. -/
def notselfMatchAny (s1 s2 t2 : Datum) : Except Stop Bool :=
  match s1 with
  | .type s =>
    match t2 with
    | .type t => .ok (s != t)
    | .attr _ _ ts =>
      match bits ts with
      | .error e => .error e
      | .ok ts => .ok (ts.any fun t => t != s)
  | .attr _ _ _ =>
    match typeMatches s1 s2 with
    | .error e => .error e
    | .ok smap =>
      if isEmpty smap then .ok false
      else
        match bits smap with
        | .error e => .error e
        | .ok ss =>
          match t2 with
          | .type t => .ok (ss.any fun s => s != t)
          | .attr _ _ ts =>
            match bits ts with
            | .error e => .error e
            | .ok ts => .ok (ss.any fun s => ts.any fun t => s != t)

/-- `cil_other_match_any`, cil_find.c:211-257. -/
def otherMatchAny (s1 s2 t2 : Datum) : Except Stop Bool :=
  match s1 with
  | .type _ => .ok false
  | .attr _ _ _ =>
    match typeMatches s1 s2 with
    | .error e => .error e
    | .ok smap =>
      if isEmpty smap then .ok false
      else
        match typeMatches s1 t2 with
        | .error e => .error e
        | .ok tmap =>
          if isEmpty tmap then .ok false
          else
            match bits smap, bits tmap with
            | .ok ss, .ok ts => .ok (ss.any fun s => ts.any fun t => s != t)
            | .error e, _ => .error e
            | _, .error e => .error e

/-- `cil_notself_other_match_any`, cil_find.c:263-272. -/
def notselfOtherMatchAny : Datum → Bool
  | .type _ => false
  | .attr _ _ a => decide (Ebitmap.cardinality a > 1)

/-- `cil_classperms_match_any`, cil_find.c:274-290, of the file's own functions. -/
def findCpMatch (c1 : Nat) (ps1 : List Nat) (c2 : Nat) (ps2 : List Nat) : Bool :=
  if c1 != c2 then false else ps1.any fun p1 => ps2.any fun p2 => p1 == p2

mutual
/-- `__cil_classperms_list_match_any`, cil_find.c:292-319. -/
def findMatch2 (c1 : Nat) (ps1 : List Nat) : List CP → Bool
  | [] => false
  | x :: xs => if findMatch2Item c1 ps1 x then true else findMatch2 c1 ps1 xs
/-- The body of the loop, cil_find.c:298-316. -/
def findMatch2Item (c1 : Nat) (ps1 : List Nat) : CP → Bool
  | .cls c ps => findCpMatch c1 ps1 c ps
  | .map _ ms => findMatch2Map c1 ps1 ms
  | .set _ l => findMatch2 c1 ps1 l
/-- The loop over the permissions of a class map, cil_find.c:305-309. -/
def findMatch2Map (c1 : Nat) (ps1 : List Nat) : List MP → Bool
  | [] => false
  | .mk _ l :: ms => if findMatch2 c1 ps1 l then true else findMatch2Map c1 ps1 ms
end

mutual
/-- `cil_classperms_list_match_any`, cil_find.c:321-348. -/
def findMatch (l2 : List CP) : List CP → Bool
  | [] => false
  | x :: xs => if findMatchItem l2 x then true else findMatch l2 xs
/-- The body of the loop, cil_find.c:327-345. -/
def findMatchItem (l2 : List CP) : CP → Bool
  | .cls c ps => findMatch2 c ps l2
  | .map _ ms => findMatchMap l2 ms
  | .set _ l => findMatch l2 l
/-- The loop over the permissions of a class map, cil_find.c:334-338. -/
def findMatchMap (l2 : List CP) : List MP → Bool
  | [] => false
  | .mk _ l :: ms => if findMatch l2 l then true else findMatchMap l2 ms
end

/-- The comparison of the targets in `cil_find_matching_avrule`, cil_find.c:439-480. -/
def targetsMatch (s1 : Datum) (t1 : Target) (s2 : Datum) (t2 : Target) : Except Stop Bool :=
  match t1, t2 with
  | .self, .self => .ok true
  | .self, .notself => .ok false
  | .self, .other => .ok false
  | .self, .datum t2 => selfMatchAny s1 s2 t2
  | .notself, .self => .ok false
  | .notself, .notself => .ok true
  | .notself, .other => .ok (notselfOtherMatchAny s2)
  | .notself, .datum t2 => notselfMatchAny s1 s2 t2
  | .other, .self => .ok false
  | .other, .notself => .ok (notselfOtherMatchAny s1)
  | .other, .other => .ok true
  | .other, .datum t2 => otherMatchAny s1 s2 t2
  | .datum t1, .self => selfMatchAny s2 s1 t1
  | .datum t1, .notself => notselfMatchAny s2 s1 t1
  | .datum t1, .other => otherMatchAny s2 s1 t1
  | .datum t1, .datum t2 => .ok (typeMatchAny t1 t2)

/-- `cil_find_matching_avrule`, cil_find.c:423-503, for the deny rule as target, as
`cil_find_matching_allow_rules`, cil_deny.c:1307-1319, calls it. -/
def matchingRule (r : Rule) (d : Deny) : Except Stop Bool :=
  if r.kind ≠ .allowed then .ok false
  else if !typeMatchAny r.src d.src then .ok false
  else
    match targetsMatch r.src r.tgt d.src d.tgt with
    | .error e => .error e
    | .ok false => .ok false
    | .ok true => .ok (findMatch d.perms r.perms)

/-- `cil_find_matching_avrule_in_ast`, cil_find.c:505-545: the rules that match, as marks. -/
def findMatching (d : Deny) : List Rule → Except Stop (List (Rule × Bool))
  | [] => .ok []
  | r :: rs =>
    match matchingRule r d with
    | .error e => .error e
    | .ok b =>
      match findMatching d rs with
      | .error e => .error e
      | .ok l => .ok ((r, b) :: l)

/-! ### New attributes -/

/-- What of `struct cil_db` matters: `num_types`, `num_types_and_attrs`, the table each type is in,
the attributes of all tables in the order of the tables, the names `deny_rule_attr_N` that are in
use, as pairs of the table and `N`, and a number for the next attribute. -/
structure Db where
  numTypes : Nat
  num : Nat
  typeTable : Nat → Nat
  attrs : List Datum
  taken : List (Nat × Nat)
  nextId : Nat

/-- The table of a symbol, `symtab` of `struct cil_symtab_datum`, cil_symtab.h:38-43. -/
def Db.tableOf (db : Db) : Datum → Nat
  | .type v => db.typeTable v
  | .attr t _ _ => t

/-- `cil_check_attribute_in_symtab` mapped over a table, cil_deny.c:872-883. -/
def Db.findIn (db : Db) (table : Nat) (types : Ebitmap) : Option Datum :=
  db.attrs.foldl (fun found d =>
    match d with
    | .attr t _ a => if t = table ∧ Ebitmap.cmp types a = true then some d else found
    | .type _ => found) none

/-- `cil_check_for_previously_defined_attribute`, cil_deny.c:885-912. -/
def Db.previous (db : Db) (types : Ebitmap) (d : Datum) : Option Datum :=
  match (if db.tableOf d ≠ 0 then db.findIn (db.tableOf d) types else none) with
  | some d => some d
  | none => db.findIn 0 types

/-- `cil_create_and_insert_attribute_and_set`, cil_deny.c:809-865.  If the name is in use the new
attribute is destroyed with its bitmap, which the caller then frees again. -/
def Db.newAttr (db : Db) (types : Ebitmap) (d : Datum) : Except Stop (Db × Option Datum) :=
  let t := db.tableOf d
  if (t, db.num) ∈ db.taken then .error .doubleFree
  else
    let a := Datum.attr t db.nextId types
    .ok ({ db with num := db.num + 1, attrs := db.attrs ++ [a], taken := (t, db.num) :: db.taken,
                   nextId := db.nextId + 1 }, some a)

/-- The common part of the functions that create attributes, cil_deny.c:936-967, 995-1027 and
1055-1087; `d` is the symbol next to which a new attribute is put. -/
def Db.attrFor (db : Db) (types : Ebitmap) (d : Datum) : Except Stop (Db × Option Datum) :=
  if isEmpty types then .ok (db, none)
  else if Ebitmap.cardinality types = 1 then
    if Ebitmap.highestSetBit types < db.numTypes then .ok (db, some (.type (Ebitmap.highestSetBit types)))
    else .error .ub
  else
    match db.previous types d with
    | some a => .ok (db, some a)
    | none => db.newAttr types d

/-- `ebitmap_not`, ebitmap.c:162-207, with the number of rounds that it needs. -/
def complement (e : Ebitmap) (max : Nat) : Except Stop Ebitmap :=
  match Ebitmap.notFuel ((max + 63) / 64 + 1) e max with
  | none => .error .ub
  | some e => .ok e

/-- `cil_datum_not`, cil_deny.c:581-616. -/
def datumNot (d : Datum) (max : Nat) : Except Stop Ebitmap :=
  match d with
  | .type v =>
    match setBit Ebitmap.init v true with
    | .error e => .error e
    | .ok e => complement e max
  | .attr _ _ a => complement a max

/-- `cil_datums_and`, cil_deny.c:619-670. -/
def datumsAnd : Datum → Datum → Except Stop Ebitmap
  | .type a, .type b => if a == b then setBit Ebitmap.init a true else .ok Ebitmap.init
  | .attr _ _ a, .type t => if Ebitmap.getBit a t then setBit Ebitmap.init t true else .ok Ebitmap.init
  | .type t, .attr _ _ a => if Ebitmap.getBit a t then setBit Ebitmap.init t true else .ok Ebitmap.init
  | .attr _ _ a, .attr _ _ b => .ok (Ebitmap.and a b)

/-- `cil_datums_andnot`, cil_deny.c:673-725. -/
def datumsAndnot : Datum → Datum → Except Stop Ebitmap
  | .type a, .type b => if a != b then setBit Ebitmap.init a true else .ok Ebitmap.init
  | .attr _ _ a, .type t => setBit (Ebitmap.cpy a) t false
  | .type t, .attr _ _ a => if !Ebitmap.getBit a t then setBit Ebitmap.init t true else .ok Ebitmap.init
  | .attr _ _ a, .attr _ _ b =>
    match Ebitmap.andnotFuel ((a.highbit + 63) / 64 + 1) a b a.highbit with
    | none => .error .ub
    | some e => .ok e

/-- `cil_create_attribute_all_and_not_d`, cil_deny.c:914-968. -/
def Db.allAndNot (db : Db) : Option Datum → Except Stop (Db × Option Datum)
  | none => .error .err
  | some d =>
    match datumNot d db.numTypes with
    | .error e => .error e
    | .ok types => db.attrFor types d

/-- `cil_create_attribute_d1_and_not_d2`, cil_deny.c:970-1028. -/
def Db.andNot (db : Db) : Option Datum → Option Datum → Except Stop (Db × Option Datum)
  | d1, none => .ok (db, d1)
  | none, some _ => .ok (db, none)
  | some d1, some d2 =>
    if d1 = d2 then .ok (db, none)
    else
      match datumsAndnot d1 d2 with
      | .error e => .error e
      | .ok types => db.attrFor types d1

/-- `cil_create_attribute_d1_and_d2`, cil_deny.c:1030-1088. -/
def Db.both (db : Db) (d1 d2 : Option Datum) : Except Stop (Db × Option Datum) :=
  if d1 = d2 then .ok (db, d1)
  else
    match d1, d2 with
    | some d1, some d2 =>
      match datumsAnd d1 d2 with
      | .error e => .error e
      | .ok types => db.attrFor types d1
    | _, _ => .ok (db, none)

/-- `cil_datum_cardinality`, cil_deny.c:567-578. -/
def datumCardinality : Option Datum → Nat
  | none => 0
  | some (.type _) => 1
  | some (.attr _ _ a) => Ebitmap.cardinality a

/-! ### Replacing a rule -/

/-- `cil_create_and_add_avrule`, cil_deny.c:1106-1118: the new rule, if there is one; it is put
after the rule that is replaced, so it is in the same block. -/
def addRule (cond : Option (Nat × Bool)) (src : Option Datum) (tgt : Option Target) (perms : List CP) : List Rule :=
  match src, tgt with
  | some s, some t => [⟨cond, .allowed, s, t, perms⟩]
  | _, _ => []

/-- `cil_remove_permissions_from_special_rule`, cil_deny.c:1120-1208. -/
def removeSpecial (db : Db) (cond : Option (Nat × Bool)) (s1 : Datum) (t1 : Target) (s2 : Datum) (t2 : Target)
    (p4 : List CP) (s3 s4 : Option Datum) : Except Stop (Db × List Rule) :=
  match t1 with
  | .notself =>
    match t2 with
    | .other => do
      let (db, t) ← db.allAndNot (some s2)
      return (db, addRule cond s4 (t.map .datum) p4)
    | .datum t2 => do
      let (db, s5) ← db.andNot s4 (some t2)
      let (db, s6) ← db.both s4 (some t2)
      let (db, ta) ← db.allAndNot (some t2)
      let (db, tb) ← db.andNot ta s4
      return (db, addRule cond s6 (ta.map .datum) p4 ++ addRule cond s5 (tb.map .datum) p4 ++
        if datumCardinality s5 > 1 then addRule cond s5 (some .other) p4 else [])
    | _ => .error .ub
  | .other =>
    match t2 with
    | .notself => return (db, addRule cond s3 (s4.map .datum) p4)
    | .other => return (db, addRule cond s3 (s4.map .datum) p4 ++ addRule cond s4 (s3.map .datum) p4)
    | .datum t2 => do
      let (db, s5) ← db.andNot s4 (some t2)
      let (db, s6) ← db.both s4 (some t2)
      let (db, tc) ← db.andNot (some s1) (some t2)
      let (db, td) ← db.andNot s3 (some t2)
      return (db, addRule cond s3 (s4.map .datum) p4 ++ addRule cond s6 (tc.map .datum) p4 ++
        addRule cond s5 (td.map .datum) p4 ++
        if datumCardinality s5 > 1 then addRule cond s5 (some .other) p4 else [])
    | .self => .error .ub
  | .datum t1 => do
    let (db, s8) ← db.both s4 (some t1)
    match t2 with
    | .notself => return (db, addRule cond s8 (some .self) p4)
    | _ =>
      let (db, t) ← db.andNot (some t1) (some s2)
      return (db, addRule cond s8 (some .self) p4 ++ addRule cond s4 (t.map .datum) p4)
  | .self => .error .ub

/-- `cil_remove_permissions_from_rule`, cil_deny.c:1210-1305: the rules that replace an allow rule.
The cases marked `ub` in `removeSpecial` are not reached from here for rules that match. -/
def removeFrom (db : Db) (r : Rule) (d : Deny) : Except Stop (Db × List Rule) := do
  let p3 := listAndnot r.perms d.perms
  let new1 := if p3.isEmpty then [] else addRule r.cond (some r.src) (some r.tgt) p3
  let p4 := listAnd r.perms d.perms
  if p4.isEmpty then .error .err
  else
    let (db, s3) ← db.andNot (some r.src) (some d.src)
    let new2 := addRule r.cond s3 (some r.tgt) p4
    if (r.tgt = .self ∧ d.tgt = .self) ∨ (r.tgt = .notself ∧ d.tgt = .notself) then
      return (db, new1 ++ new2)
    else
      let (db, s4) ← db.both (some r.src) (some d.src)
      let (db, new3) ←
        match r.tgt, d.tgt with
        | .self, .datum t2 => do
          let (db, s5) ← db.andNot s4 (some t2)
          pure (db, addRule r.cond s5 (some .self) p4)
        | .datum t1, .self => do
          let (db, s7) ← db.andNot s4 (some t1)
          let (db, s8) ← db.both s4 (some t1)
          let (db, t8) ← db.andNot (some t1) s4
          pure (db, addRule r.cond s7 (some (.datum t1)) p4 ++ addRule r.cond s8 (t8.map .datum) p4 ++
            if datumCardinality s8 > 1 then addRule r.cond s8 (some .other) p4 else [])
        | .datum t1, .datum t2 => do
          let (db, t3) ← db.andNot (some t1) (some t2)
          pure (db, addRule r.cond s4 (t3.map .datum) p4)
        | t1, t2 => removeSpecial db r.cond r.src t1 d.src t2 p4 s3 s4
      return (db, new1 ++ new2 ++ new3)

/-- The loop of `cil_process_deny_rule`, cil_deny.c:1334-1342. -/
def replaceAll (d : Deny) (db : Db) : List (Rule × Bool) → Except Stop (Db × List Rule)
  | [] => .ok (db, [])
  | (r, false) :: rs =>
    match replaceAll d db rs with
    | .error e => .error e
    | .ok (db, l) => .ok (db, r :: l)
  | (r, true) :: rs =>
    match removeFrom db r d with
    | .error e => .error e
    | .ok (db, new) =>
      match replaceAll d db rs with
      | .error e => .error e
      | .ok (db, l) => .ok (db, new ++ l)

/-- `cil_process_deny_rule`, cil_deny.c:1321-1347. -/
def processDeny (db : Db) (rules : List Rule) (d : Deny) : Except Stop (Db × List Rule) :=
  match findMatching d rules with
  | .error e => .error e
  | .ok l => replaceAll d db l

/-- `cil_process_deny_rules`, cil_deny.c:1349-1365. -/
def processDenies (db : Db) (rules : List Rule) : List Deny → Except Stop (Db × List Rule)
  | [] => .ok (db, rules)
  | d :: ds =>
    match processDeny db rules d with
    | .error e => .error e
    | .ok (db, rules) => processDenies db rules ds

end Verif.CilDeny
