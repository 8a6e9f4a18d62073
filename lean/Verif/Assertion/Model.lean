import Verif.Optimize.Model

/-!
# Model of the assertion (neverallow) checker, libsepol/src/assertion.c

`none` is undefined behaviour: an index outside the type or attribute map.

Simplifications: allocation succeeds; messages are not modelled, only how many are reported; list members are not NULL; extended
permission rules have a permission block.
-/

namespace Verif.Assertion
open Verif.Avtab Verif.Policy Verif.Optimize

/-! policydb.h:276-290 -/
def NEVERALLOW : BitVec 32 := 0x80#32
def XPERMS_NEVERALLOW : BitVec 32 := 0x800#32
def RULE_SELF : BitVec 32 := 1#32
def RULE_NOTSELF : BitVec 32 := 2#32

/-- `avrule_t`, policydb.h:292-325: the members the checker reads.  `perms` is the list of `class_perm_node_t`. -/
structure Avrule where
  specified : BitVec 32
  flags : BitVec 32
  stypes : Ebitmap.Ebitmap
  ttypes : Ebitmap.Ebitmap
  perms : List (Nat × BitVec 32)
  xperms : XPerms

/-- `match_any_class_permissions`, assertion.c:74-82. -/
def matchAnyClassPermissions : List (Nat × BitVec 32) → Nat → BitVec 32 → Bool
  | [], _, _ => false
  | cp :: l, cls, data => if cp.1 = cls ∧ cp.2 &&& data ≠ 0#32 then true else matchAnyClassPermissions l cls data

/-- `extended_permissions_and`, assertion.c:84-92. -/
def extendedPermissionsAnd (p1 p2 : List (BitVec 32)) : Bool :=
  (List.range 8).any (fun i => p1.getD i 0#32 &&& p2.getD i 0#32 != 0#32)

/-- `check_extended_permissions`, assertion.c:94-117. -/
def checkExtendedPermissions (na al : XPerms) : Bool :=
  if na.specified = FUNCTION ∧ al.specified = FUNCTION then
    if na.driver = al.driver then extendedPermissionsAnd na.perms al.perms else false
  else if na.specified = FUNCTION ∧ al.specified = DRIVER then xpermTest na.driver.toNat al.perms
  else if na.specified = DRIVER ∧ al.specified = FUNCTION then xpermTest al.driver.toNat na.perms
  else if na.specified = DRIVER ∧ al.specified = DRIVER then extendedPermissionsAnd na.perms al.perms
  else if na.specified = NLMSG ∧ al.specified = NLMSG then
    if na.driver = al.driver then extendedPermissionsAnd na.perms al.perms else false
  else false

/-- `match_node_key`, assertion.c:155-160. -/
def matchNodeKey (n k : Key) : Bool := n.source == k.source && n.target == k.target && n.cls == k.cls

/-- The test of the kind of extended permissions, assertion.c:485-488. -/
def knownKind (x : XPerms) : Bool := x.specified == FUNCTION || x.specified == DRIVER || x.specified == NLMSG

/-- The extended permissions of a rule. -/
def xpermsOf (n : Avtab.Node) : XPerms := n.datum.xperms.getD XPerms.zero

/-- `&p->attr_type_map[k - 1]`. -/
def attrTypeAt (p : OPolicy) (k : Nat) : Option Ebitmap.Ebitmap :=
  if k = 0 ∨ p.sp.pol.nTypes < k then none else some (p.attrType (k - 1))

/-- `ebitmap_for_each_positive_bit`. -/
def bitsOf (e : Ebitmap.Ebitmap) : Option (List Nat) := Ebitmap.forEachPositiveBit (e.highbit + 1) e

/-- `ebitmap_is_empty`, ebitmap.h:41. -/
def isEmpty (e : Ebitmap.Ebitmap) : Bool := e.node.isEmpty

/-- The state of the search for extended permissions; `hit` is the early `return true`. -/
structure Found where
  hit : Bool
  xperm : Bool
  conflict : Bool
deriving DecidableEq, Repr

/-- Unconditional rules, assertion.c:480-492. -/
def teScan (na : Avrule) : List Avtab.Node → Bool → Bool × Bool
  | [], f => (false, f)
  | n :: l, f =>
    if knownKind (xpermsOf n) = false then teScan na l f
    else if checkExtendedPermissions na.xperms (xpermsOf n) then (true, true)
    else teScan na l true

/-- What one branch of a conditional contains. -/
structure Branch where
  hit : Bool
  base : Bool
  xperm : Bool
deriving DecidableEq, Repr

/-- One branch of a conditional, assertion.c:498-523 and 525-550. -/
def branchScan (na : Avrule) (k : Key) : List Avtab.Node → Bool → Bool → Branch
  | [], b, x => ⟨false, b, x⟩
  | n :: l, b, x =>
    if matchNodeKey n.key k = false then branchScan na k l b x
    else if n.key.specified &&& ALLOWED ≠ 0#16 ∧ matchAnyClassPermissions na.perms n.key.cls n.datum.data then branchScan na k l true x
    else if n.key.specified &&& XPERMS_ALLOWED = 0#16 then branchScan na k l b x
    else if knownKind (xpermsOf n) = false then branchScan na k l b x
    else if checkExtendedPermissions na.xperms (xpermsOf n) then ⟨true, b, true⟩
    else branchScan na k l b true

/-- The test after both branches, assertion.c:552-555. -/
def combine (conditional tb tx fb fx : Bool) (s : Found) : Found :=
  if tx && fx then { s with xperm := true }
  else if conditional && ((tb && !tx) || (fb && !fx)) then { s with conflict := true }
  else s

/-- Conditional rules, assertion.c:494-556. -/
def condScan (na : Avrule) (k : Key) (conditional : Bool) (nodeOf : Nat → Avtab.Node) : List Cond.Node → Found → Found
  | [], s => s
  | c :: l, s =>
    let t := branchScan na k (c.trueList.map nodeOf) false false
    if t.hit then { s with hit := true }
    else
      let f := branchScan na k (c.falseList.map nodeOf) false false
      if f.hit then { s with hit := true }
      else condScan na k conditional nodeOf l (combine conditional t.base t.xperm f.base f.xperm s)

/-- The key searched for a pair of attributes, assertion.c:473-479. -/
def tmpKey (k : Key) (i j : Nat) : Key := ⟨(i + 1) % 2 ^ 16, (j + 1) % 2 ^ 16, k.cls, XPERMS_ALLOWED⟩

/-- The loops over the attributes of source and target, assertion.c:476-558. -/
def pairScan (p : OPolicy) (na : Avrule) (k : Key) (conditional : Bool) : List (Nat × Nat) → Found → Found
  | [], s => s
  | (i, j) :: l, s =>
    let t := teScan na (enumerate p.sp.te (tmpKey k i j)) s.xperm
    if t.1 then { s with hit := true }
    else
      let s' := condScan na (tmpKey k i j) conditional (stamped p.enabled p.tab.node) p.conds { s with xperm := t.2 }
      if s'.hit then s' else pairScan p na k conditional l s'

/-- All pairs of two lists, in the order of a double loop. -/
def pairsOf (a b : List Nat) : List (Nat × Nat) := a.flatMap (fun i => b.map (fun j => (i, j)))

/-- `check_assertion_extended_permissions_avtab`, assertion.c:458-561. -/
def checkXpermsAvtab (p : OPolicy) (na : Avrule) (stype ttype : Nat) (k : Key) (conditional : Bool) : Option Bool :=
  (p.sp.typeAttr stype).bind fun sa => (p.sp.typeAttr ttype).bind fun ta =>
  (bitsOf sa).bind fun ss => (bitsOf ta).bind fun ts =>
  let s := pairScan p na k conditional (pairsOf ss ts) ⟨false, false, false⟩
  some (s.hit || ((!conditional && !s.xperm) || s.conflict))

/-- The target types of the rule among the types of the key's target, assertion.c:364-390 and 604-630. -/
def targetMatches (na : Avrule) (src tgt : Ebitmap.Ebitmap) : Ebitmap.Ebitmap :=
  if na.flags &&& RULE_NOTSELF ≠ 0#32 then
    if isEmpty na.ttypes then Ebitmap.cpy tgt else Ebitmap.and na.ttypes tgt
  else
    let m := Ebitmap.and na.ttypes tgt
    if na.flags &&& RULE_SELF ≠ 0#32 then
      let self := Ebitmap.and src tgt
      if isEmpty self = false then Ebitmap.union m self else m
    else m

/-- The pairs left by the two `continue` statements, assertion.c:404-407 and 639-642. -/
def considered (na : Avrule) (i j : Nat) : Bool :=
  !((na.flags &&& RULE_SELF != 0#32) && i != j) && !((na.flags &&& RULE_NOTSELF != 0#32) && i == j)

/-- The loops of `check_assertion_extended_permissions`, assertion.c:637-648. -/
def xpermPairs (p : OPolicy) (na : Avrule) (k : Key) (conditional : Bool) : List (Nat × Nat) → Option Bool
  | [] => some false
  | (i, j) :: l =>
    if considered na i j = false then xpermPairs p na k conditional l
    else (checkXpermsAvtab p na i j k conditional).bind fun r => if r then some true else xpermPairs p na k conditional l

/-- `check_assertion_extended_permissions`, assertion.c:579-658. -/
def checkXperms (p : OPolicy) (na : Avrule) (k : Key) (conditional : Bool) : Option Bool :=
  (attrTypeAt p k.source).bind fun sm =>
  let src := Ebitmap.and na.stypes sm
  if isEmpty src then some false
  else
    (attrTypeAt p k.target).bind fun tm =>
    let tgt := targetMatches na src tm
    if isEmpty tgt then some false
    else (bitsOf src).bind fun ss => (bitsOf tgt).bind fun ts => xpermPairs p na k conditional (pairsOf ss ts)

/-- `check_assertion_notself_match`, assertion.c:660-713. -/
def notselfMatch (p : OPolicy) (na : Avrule) (k : Key) : Option Bool :=
  (attrTypeAt p k.source).bind fun sm => (attrTypeAt p k.target).bind fun tm =>
  let src := Ebitmap.and na.stypes sm
  let tgt := if isEmpty na.ttypes then Ebitmap.cpy tm else Ebitmap.and na.ttypes tm
  let ns := Ebitmap.cardinality src
  let nt := Ebitmap.cardinality tgt
  if ns = 0 ∨ nt = 0 then some false
  else if ns = 1 ∧ nt = 1 ∧ Ebitmap.cardinality (Ebitmap.and src tgt) = 1 then some false
  else some true

/-- `check_assertion_self_match`, assertion.c:715-739. -/
def selfMatch (p : OPolicy) (na : Avrule) (k : Key) : Option Bool :=
  (attrTypeAt p k.source).bind fun sm => (attrTypeAt p k.target).bind fun tm =>
  some (Ebitmap.matchAny (Ebitmap.and na.stypes sm) tm)

/-- The test of the target, assertion.c:757-776. -/
def targetTest (p : OPolicy) (na : Avrule) (k : Key) : Option Bool :=
  if na.flags &&& RULE_NOTSELF ≠ 0#32 then notselfMatch p na k
  else (attrTypeAt p k.target).bind fun tm =>
    if Ebitmap.matchAny na.ttypes tm then some true
    else if na.flags = RULE_SELF then selfMatch p na k
    else some false

/-- `check_assertion_avtab_match`, assertion.c:741-792. -/
def avtabMatch (p : OPolicy) (na : Avrule) (conditional : Bool) (n : Avtab.Node) : Option Bool :=
  if n.key.specified &&& ALLOWED = 0#16 then some false
  else if matchAnyClassPermissions na.perms n.key.cls n.datum.data = false then some false
  else (attrTypeAt p n.key.source).bind fun sm =>
    if Ebitmap.matchAny na.stypes sm = false then some false
    else (targetTest p na n.key).bind fun r =>
      if r = false then some false
      else if na.specified = XPERMS_NEVERALLOW then checkXperms p na n.key conditional
      else some true

/-- `avtab_map` with a callback that returns 0 or 1, avtab.c:335-356. -/
def mapAny (f : Avtab.Node → Option Bool) : List Avtab.Node → Option Bool
  | [] => some false
  | n :: l => (f n).bind fun r => if r then some true else mapAny f l

/-- The conditional table as stored. -/
def condNodes (p : OPolicy) : List Avtab.Node := Avtab.nodes (p.tab.avtab p.enabled)

/-- `check_assertion`, assertion.c:794-813. -/
def checkAssertion (p : OPolicy) (na : Avrule) : Option Bool :=
  (mapAny (avtabMatch p na false) (Avtab.nodes p.sp.te)).bind fun r =>
  if r then some true else mapAny (avtabMatch p na true) (condNodes p)

/-! ## Reporting -/

/-- Unconditional rules, assertion.c:187-214: the number of reports, and whether rules were found. -/
def teCount (na : Avrule) : List Avtab.Node → Nat → Bool → Nat × Bool
  | [], e, f => (e, f)
  | n :: l, e, f =>
    if knownKind (xpermsOf n) = false then teCount na l e f
    else teCount na l (if checkExtendedPermissions na.xperms (xpermsOf n) then e + 1 else e) true

/-- What one branch contains, and the number of reports. -/
structure BranchCount where
  errors : Nat
  base : Bool
  xperm : Bool
deriving DecidableEq, Repr

/-- One branch of a conditional, assertion.c:220-260 and 262-302. -/
def branchCount (na : Avrule) (k : Key) : List Avtab.Node → BranchCount → BranchCount
  | [], s => s
  | n :: l, s =>
    if matchNodeKey n.key k = false then branchCount na k l s
    else if matchAnyClassPermissions na.perms n.key.cls n.datum.data then branchCount na k l { s with base := true }
    else if n.key.specified &&& XPERMS_ALLOWED = 0#16 then branchCount na k l s
    else if knownKind (xpermsOf n) = false then branchCount na k l s
    else branchCount na k l
      ⟨if checkExtendedPermissions na.xperms (xpermsOf n) then s.errors + 1 else s.errors, s.base, true⟩

/-- Conditional rules, assertion.c:216-308. -/
def condCount (na : Avrule) (k : Key) (conditional : Bool) (nodeOf : Nat → Avtab.Node) : List Cond.Node → Nat → Found → Nat × Found
  | [], e, s => (e, s)
  | c :: l, e, s =>
    let t := branchCount na k (c.trueList.map nodeOf) ⟨e, false, false⟩
    let f := branchCount na k (c.falseList.map nodeOf) ⟨t.errors, false, false⟩
    condCount na k conditional nodeOf l f.errors (combine conditional t.base t.xperm f.base f.xperm s)

/-- The loops over the attributes, assertion.c:183-310. -/
def pairCount (p : OPolicy) (na : Avrule) (k : Key) (conditional : Bool) : List (Nat × Nat) → Nat → Found → Nat × Found
  | [], e, s => (e, s)
  | (i, j) :: l, e, s =>
    let t := teCount na (enumerate p.sp.te (tmpKey k i j)) e s.xperm
    let r := condCount na (tmpKey k i j) conditional (stamped p.enabled p.tab.node) p.conds t.1 { s with xperm := t.2 }
    pairCount p na k conditional l r.1 r.2

/-- `report_assertion_extended_permissions`, assertion.c:163-329: the number of reports. -/
def reportXperms (p : OPolicy) (na : Avrule) (stype ttype : Nat) (k : Key) (conditional : Bool) : Option Nat :=
  (p.sp.typeAttr stype).bind fun sa => (p.sp.typeAttr ttype).bind fun ta =>
  (bitsOf sa).bind fun ss => (bitsOf ta).bind fun ts =>
  let r := pairCount p na k conditional (pairsOf ss ts) 0 ⟨false, false, false⟩
  some (if (!r.2.xperm && !conditional) || r.2.conflict then r.1 + 1 else r.1)

/-- The inner loops of `report_assertion_avtab_matches`, assertion.c:402-417. -/
def reportPairs (p : OPolicy) (na : Avrule) (k : Key) (conditional : Bool) : List (Nat × Nat) → Nat → Option Nat
  | [], e => some e
  | (i, j) :: l, e =>
    if considered na i j = false then reportPairs p na k conditional l e
    else if na.specified = XPERMS_NEVERALLOW then
      (reportXperms p na i j k conditional).bind fun n => reportPairs p na k conditional l (e + n)
    else reportPairs p na k conditional l (e + 1)

/-- The loop over the classes and permissions of the rule, assertion.c:395-418. -/
def reportPerms (p : OPolicy) (na : Avrule) (n : Avtab.Node) (conditional : Bool) (prs : List (Nat × Nat)) :
    List (Nat × BitVec 32) → Nat → Option Nat
  | [], e => some e
  | cp :: l, e =>
    if cp.1 ≠ n.key.cls ∨ cp.2 &&& n.datum.data = 0#32 then reportPerms p na n conditional prs l e
    else (reportPairs p na n.key conditional prs e).bind fun e' => reportPerms p na n conditional prs l e'

/-- `report_assertion_avtab_matches`, assertion.c:331-426. -/
def reportMatches (p : OPolicy) (na : Avrule) (conditional : Bool) (n : Avtab.Node) (e : Nat) : Option Nat :=
  if n.key.specified &&& ALLOWED = 0#16 then some e
  else if matchAnyClassPermissions na.perms n.key.cls n.datum.data = false then some e
  else (attrTypeAt p n.key.source).bind fun sm =>
    let src := Ebitmap.and na.stypes sm
    if isEmpty src then some e
    else (attrTypeAt p n.key.target).bind fun tm =>
      let tgt := targetMatches na src tm
      if isEmpty tgt then some e
      else (bitsOf src).bind fun ss => (bitsOf tgt).bind fun ts => reportPerms p na n conditional (pairsOf ss ts) na.perms e

/-- `avtab_map` with a callback that counts. -/
def mapCount (f : Avtab.Node → Nat → Option Nat) : List Avtab.Node → Nat → Option Nat
  | [], e => some e
  | n :: l, e => (f n e).bind fun e' => mapCount f l e'

/-- `report_assertion_failures`, assertion.c:428-452: the number of violations reported (`args.errors`). -/
def reportFailures (p : OPolicy) (na : Avrule) : Option Nat :=
  (mapCount (reportMatches p na false) (Avtab.nodes p.sp.te) 0).bind fun e =>
  mapCount (reportMatches p na true) (condNodes p) e

/-- The loop of `check_assertions`, assertion.c:822-838: `none` inside is the early `return -1`.  The count of a rule is converted
to `int` (assertion.c:448). -/
def assertionsLoop (p : OPolicy) : List Avrule → Nat → Option (Option Nat)
  | [], e => some (some e)
  | a :: l, e =>
    if a.specified &&& (NEVERALLOW ||| XPERMS_NEVERALLOW) = 0#32 then assertionsLoop p l e
    else (checkAssertion p a).bind fun r =>
      if r then
        (reportFailures p a).bind fun n =>
        let rc := Ebitmap.toInt32 (n % 2 ^ 32)
        if rc < 0 then some none else assertionsLoop p l ((e + rc.toNat) % 2 ^ 64)
      else assertionsLoop p l e

/-- `check_assertions`, assertion.c:815-844: 0 or -1. -/
def checkAssertions (p : OPolicy) (l : List Avrule) : Option Int :=
  (assertionsLoop p l 0).bind fun r =>
  match r with
  | none => some (-1)
  | some e => some (if e ≠ 0 then -1 else 0)

end Verif.Assertion
