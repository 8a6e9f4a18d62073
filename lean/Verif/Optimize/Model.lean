import Verif.Services.Av
import Verif.Cond.Model

/-!
# Model of policy optimisation, libsepol/src/optimize.c

`none` is undefined behaviour: an index outside the type map or a NULL type datum.

Simplifications: allocation succeeds; the vector of a type (`struct type_vec`) is a list.
-/

namespace Verif.Optimize
open Verif.Avtab Verif.Policy

/-- `x - 1` on `uint32_t`. -/
abbrev pred32 (x : Nat) : Nat := Services.pred32 x

/-- The conditional table: like `avtab_t`, but the nodes have an identity (their address), because the rule lists of the
conditionals point to them.  `node` gives key and datum; the AVTAB_ENABLED flag of the key is kept apart (`enabled` below). -/
structure CondTab where
  htable : Nat → List Nat
  nel : Nat
  nslot : Nat
  mask : Nat
  node : Nat → Avtab.Node

/-- The parts of `policydb_t` read or written by the optimiser (the field `cond` of `sp` is not used). -/
structure OPolicy where
  sp : Services.SPolicy
  /-- `attr_type_map` by index -/
  attrType : Nat → Ebitmap.Ebitmap
  tab : CondTab
  conds : List Cond.Node
  enabled : Nat → Bool

/-- The `specified` member of a conditional rule as stored. -/
def specOf (en : Nat → Bool) (node : Nat → Avtab.Node) (id : Nat) : BitVec 16 :=
  if en id then (node id).key.specified ||| ENABLED else (node id).key.specified

/-- A conditional rule as stored. -/
def stamped (en : Nat → Bool) (node : Nat → Avtab.Node) (id : Nat) : Avtab.Node :=
  ⟨{ (node id).key with specified := specOf en node id }, (node id).datum⟩

/-- The conditional table as the security server sees it. -/
def CondTab.avtab (t : CondTab) (en : Nat → Bool) : Avtab.Avtab :=
  ⟨some (fun i => (t.htable i).map (stamped en t.node)), t.nel, t.nslot, t.mask⟩

/-- `p->type_val_to_struct[i] && flavor == TYPE_ATTRIB`. -/
def isAttr (p : Services.SPolicy) (i : Nat) : Bool :=
  match p.typeStruct i with
  | some d => d.flavor == TYPE_ATTRIB
  | none => false

/-- One entry of `build_type_map`, optimize.c:105-133. -/
def typeMap (p : Services.SPolicy) (attrType : Nat → Ebitmap.Ebitmap) (i : Nat) : Option (List Nat) :=
  if p.pol.nTypes ≤ i then none
  else match p.typeStruct i with
    | none => some []
    | some d =>
      if d.flavor ≠ TYPE_ATTRIB then (p.typeAttr i).bind (fun m => Ebitmap.forEachPositiveBit (m.highbit + 1) m)
      else some ((List.range p.pol.nTypes).filter (fun k => isAttr p k && Ebitmap.contains (attrType k) (attrType i)))

/-- The loop of `type_vec_contains`, optimize.c:81-91. -/
def vecSearch (v : List Nat) (x : Nat) : Nat → Nat → Nat → Bool
  | 0, _, _ => false
  | fuel + 1, s, e =>
    if s = e then false
    else
      let mid := (s + e) / 2
      if v.getD mid 0 = x then true
      else if v.getD mid 0 < x then vecSearch v x fuel (mid + 1) e
      else vecSearch v x fuel s mid

/-- `type_vec_contains`, optimize.c:77-93: the interval shrinks in every round. -/
def vecContains (v : List Nat) (x : Nat) : Bool := vecSearch v x (v.length + 1) 0 v.length

/-- `xperm_test`, policydb.h:254. -/
def xpermTest (x : Nat) (p : List (BitVec 32)) : Bool := (p.getD (x / 32) 0#32).getLsbD (x % 32)

/-- `process_xperms`, optimize.c:151-162. -/
def processXperms (p1 p2 : List (BitVec 32)) : List (BitVec 32) × Bool :=
  let l := List.zipWith (fun a b => a &&& ~~~ b) p1 p2
  (l, l.all (fun w => w == 0#32))

/-! avtab.h:75-77 -/
def FUNCTION : BitVec 8 := 1#8
def DRIVER : BitVec 8 := 2#8
def NLMSG : BitVec 8 := 3#8

/-- The extended permission part of `process_avtab_datum`, optimize.c:174-199. -/
def processX (x1 x2 : XPerms) : XPerms × Bool :=
  if x1.specified = FUNCTION then
    if x2.specified = FUNCTION then
      if x1.driver ≠ x2.driver then (x1, false)
      else ({ x1 with perms := (processXperms x1.perms x2.perms).1 }, (processXperms x1.perms x2.perms).2)
    else if x2.specified = DRIVER then (x1, xpermTest x1.driver.toNat x2.perms)
    else (x1, false)
  else if x1.specified = DRIVER then
    if x2.specified = FUNCTION then (x1, false)
    else if x2.specified = DRIVER then
      ({ x1 with perms := (processXperms x1.perms x2.perms).1 }, (processXperms x1.perms x2.perms).2)
    else (x1, false)
  else if x1.specified = NLMSG ∧ x2.specified = NLMSG then
    if x1.driver ≠ x2.driver then (x1, false)
    else ({ x1 with perms := (processXperms x1.perms x2.perms).1 }, (processXperms x1.perms x2.perms).2)
  else (x1, false)

/-- `process_avtab_datum`, optimize.c:164-201.  An extended permission rule always has a permission block (avtab.c:105-120), so
the NULL pointer is not distinguished from an empty block. -/
def processDatum (specified : BitVec 16) (d1 d2 : Datum) : Datum × Bool :=
  if specified &&& AUDITDENY ≠ 0#16 then
    ({ d1 with data := d1.data ||| ~~~ d2.data }, (d1.data ||| ~~~ d2.data) == BitVec.allOnes 32)
  else if specified &&& AV ≠ 0#16 then
    ({ d1 with data := d1.data &&& ~~~ d2.data }, (d1.data &&& ~~~ d2.data) == 0#32)
  else if specified &&& XPERMS ≠ 0#16 then
    ({ d1 with xperms := some (processX (d1.xperms.getD XPerms.zero) (d2.xperms.getD XPerms.zero)).1 },
     (processX (d1.xperms.getD XPerms.zero) (d2.xperms.getD XPerms.zero)).2)
  else (d1, false)

/-- The double loop of `is_avrule_redundant`, optimize.c:224-245; `find d` searches the table in which the entry itself
currently has the datum `d`. -/
def redundantLoop (find : Datum → Key → Option Datum) (notCond : Bool) (k : Key) : List (Nat × Nat) → Datum → Datum × Bool
  | [], d => (d, false)
  | (st, tt) :: l, d =>
    if notCond = true ∧ pred32 k.source = st ∧ pred32 k.target = tt then redundantLoop find notCond k l d
    else match find d ⟨(st + 1) % 2 ^ 16, (tt + 1) % 2 ^ 16, k.cls, k.specified⟩ with
      | none => redundantLoop find notCond k l d
      | some d2 =>
        if (processDatum k.specified d d2).2 then ((processDatum k.specified d d2).1, true)
        else redundantLoop find notCond k l (processDatum k.specified d d2).1

/-- `is_avrule_redundant`, optimize.c:204-246: the changed datum and the result. -/
def avruleRedundant (find : Datum → Key → Option Datum) (tm : Nat → Option (List Nat)) (notCond : Bool) (k : Key) (d : Datum) :
    Option (Datum × Bool) :=
  if k.specified &&& (AV ||| XPERMS) = 0#16 then some (d, false)
  else
    (tm (pred32 k.source)).bind fun ss =>
    (tm (pred32 k.target)).bind fun ts =>
    some (redundantLoop find notCond k (ss.flatMap (fun s => ts.map (fun t => (s, t)))) d)

/-- The table with one chain replaced. -/
def withChain (h : Avtab.Avtab) (tb : Nat → List Avtab.Node) (i : Nat) (l : List Avtab.Node) : Avtab.Avtab :=
  { h with htable := some (setBucket tb i l) }

/-- The walk through one chain, optimize.c:307-324; `pre` is the part already passed. -/
def walkChain (tm : Nat → Option (List Nat)) (h : Avtab.Avtab) (tb : Nat → List Avtab.Node) (i : Nat) (pre : List Avtab.Node) :
    List Avtab.Node → Option (List Avtab.Node)
  | [] => some pre
  | e :: rest =>
    (avruleRedundant (fun d => search (withChain h tb i (pre ++ ⟨e.key, d⟩ :: rest))) tm true e.key e.datum).bind fun r =>
    if r.2 then walkChain tm h tb i pre rest else walkChain tm h tb i (pre ++ [⟨e.key, r.1⟩]) rest

/-- The loop over the slots, optimize.c:306-325; `nel` goes down by the number of removed nodes. -/
def walkSlots (tm : Nat → Option (List Nat)) : List Nat → Avtab.Avtab → Option Avtab.Avtab
  | [], h => some h
  | i :: l, h =>
    match h.htable with
    | none => none
    | some tb =>
      (walkChain tm h tb i [] (tb i)).bind fun c =>
      walkSlots tm l { h with htable := some (setBucket tb i c), nel := h.nel - ((tb i).length - c.length) }

/-- `optimize_avtab`, optimize.c:300-326. -/
def optimizeAvtab (tm : Nat → Option (List Nat)) (h : Avtab.Avtab) : Option Avtab.Avtab := walkSlots tm (List.range h.nslot) h

/-- Replace the datum of one conditional rule. -/
def setDatum (node : Nat → Avtab.Node) (id : Nat) (d : Datum) : Nat → Avtab.Node :=
  fun i => if i = id then ⟨(node i).key, d⟩ else node i

/-- `is_avrule_with_attr`, optimize.c:248-259. -/
def avruleWithAttr (p : Services.SPolicy) (k : Key) : Option Bool :=
  (p.typeStruct (pred32 k.source)).bind fun s =>
  if s.flavor = TYPE_ATTRIB then some true
  else (p.typeStruct (pred32 k.target)).bind fun t => some (t.flavor == TYPE_ATTRIB)

/-- The loop of `is_cond_rule_redundant`, optimize.c:276-297. -/
def condRedundantLoop (tm : Nat → Option (List Nat)) (en : Nat → Bool) (id : Nat) :
    List Nat → (Nat → Avtab.Node) → Option ((Nat → Avtab.Node) × Bool)
  | [], node => some (node, false)
  | id2 :: l, node =>
    if specOf en node id ≠ specOf en node id2 ∨ (node id).key.cls ≠ (node id2).key.cls then condRedundantLoop tm en id l node
    else if pred32 (node id).key.source = pred32 (node id2).key.source ∧ pred32 (node id).key.target = pred32 (node id2).key.target then
      condRedundantLoop tm en id l node
    else
      (tm (pred32 (node id).key.source)).bind fun ss =>
      if vecContains ss (pred32 (node id2).key.source) = false then condRedundantLoop tm en id l node
      else
        (tm (pred32 (node id).key.target)).bind fun ts =>
        if vecContains ts (pred32 (node id2).key.target) = false then condRedundantLoop tm en id l node
        else
          let r := processDatum (specOf en node id) (node id).datum (node id2).datum
          if r.2 then some (setDatum node id r.1, true) else condRedundantLoop tm en id l (setDatum node id r.1)

/-- `is_cond_rule_redundant`, optimize.c:262-298. -/
def condRuleRedundant (tm : Nat → Option (List Nat)) (en : Nat → Bool) (id : Nat) (l : List Nat) (node : Nat → Avtab.Node) :
    Option ((Nat → Avtab.Node) × Bool) :=
  if specOf en node id &&& (AV ||| XPERMS) = 0#16 then some (node, false) else condRedundantLoop tm en id l node

/-- The two tests of one rule, optimize.c:366-367. -/
def condTest (te : Avtab.Avtab) (tm : Nat → Option (List Nat)) (en : Nat → Bool) (id : Nat) (cover : List Nat)
    (node : Nat → Avtab.Node) : Option ((Nat → Avtab.Node) × Bool) :=
  (avruleRedundant (fun _ => search te) tm false { (node id).key with specified := specOf en node id } (node id).datum).bind fun r =>
  if r.2 then some (setDatum node id r.1, true) else condRuleRedundant tm en id cover (setDatum node id r.1)

/-- The state of the second half of `optimize_cond_av_list`: kept rules, deleted rules, rules of the table. -/
structure CondState where
  kept : List Nat
  del : List Nat
  node : Nat → Avtab.Node

/-- Second half of `optimize_cond_av_list`, optimize.c:357-375, on the rules that cannot cover others; `pcov` is behind them. -/
def condWalk1 (te : Avtab.Avtab) (tm : Nat → Option (List Nat)) (en : Nat → Bool) (pcov : List Nat) :
    List Nat → CondState → Option CondState
  | [], s => some s
  | id :: l, s =>
    (condTest te tm en id pcov s.node).bind fun r =>
    condWalk1 te tm en pcov l (if r.2 then ⟨s.kept, id :: s.del, r.1⟩ else ⟨s.kept ++ [id], s.del, r.1⟩)

/-- The same loop on the rules of `pcov`: `*pcov_cur` are those kept of `pcov` (`kp`), the current one and the rest. -/
def condWalk2 (te : Avtab.Avtab) (tm : Nat → Option (List Nat)) (en : Nat → Bool) :
    List Nat → List Nat → CondState → Option CondState
  | _, [], s => some s
  | kp, id :: l, s =>
    (condTest te tm en id (kp ++ id :: l) s.node).bind fun r =>
    if r.2 then condWalk2 te tm en kp l ⟨s.kept, id :: s.del, r.1⟩
    else condWalk2 te tm en (kp ++ [id]) l ⟨s.kept ++ [id], s.del, r.1⟩

/-- First half of `optimize_cond_av_list`, optimize.c:340-354: the rules without attributes in order, and `pcov`. -/
def splitCov (p : Services.SPolicy) (node : Nat → Avtab.Node) : List Nat → List Nat → Option (List Nat × List Nat)
  | [], pcov => some ([], pcov)
  | id :: l, pcov =>
    (avruleWithAttr p (node id).key).bind fun a =>
    if a then splitCov p node l (id :: pcov)
    else (splitCov p node l pcov).map (fun r => (id :: r.1, r.2))

/-- `optimize_cond_av_list`, optimize.c:328-376: new list, new deletion list, changed rules. -/
def optimizeList (p : Services.SPolicy) (te : Avtab.Avtab) (tm : Nat → Option (List Nat)) (en : Nat → Bool) (list del : List Nat)
    (node : Nat → Avtab.Node) : Option CondState :=
  (splitCov p node list []).bind fun r =>
  (condWalk1 te tm en r.2 r.1 ⟨[], del, node⟩).bind fun s =>
  condWalk2 te tm en [] r.2 s

/-- The loop over the conditionals, optimize.c:387-404. -/
def optimizeConds (p : Services.SPolicy) (te : Avtab.Avtab) (tm : Nat → Option (List Nat)) (en : Nat → Bool) :
    List Cond.Node → List Nat → (Nat → Avtab.Node) → Option (List Cond.Node × List Nat × (Nat → Avtab.Node))
  | [], del, node => some ([], del, node)
  | c :: l, del, node =>
    (optimizeList p te tm en c.trueList del node).bind fun s1 =>
    (optimizeList p te tm en c.falseList s1.del s1.node).bind fun s2 =>
    (optimizeConds p te tm en l s2.del s2.node).map fun r =>
      (if s1.kept = [] ∧ s2.kept = [] then r.1 else { c with trueList := s1.kept, falseList := s2.kept } :: r.1, r.2)

/-- One chain of the final sweep, optimize.c:413-441: what stays and what is left of `del`. -/
def sweepChain : List Nat → List Nat → List Nat × List Nat
  | [], del => ([], del)
  | id :: l, del =>
    if id ∈ del then sweepChain l (del.erase id)
    else ((id :: (sweepChain l del).1), (sweepChain l del).2)

/-- The final sweep, optimize.c:412-442. -/
def sweepSlots : List Nat → List Nat → CondTab → CondTab
  | [], _, t => t
  | i :: l, del, t =>
    let r := sweepChain (t.htable i) del
    sweepSlots l r.2 { t with
      htable := fun j => if j = i then r.1 else t.htable j, nel := t.nel - ((t.htable i).length - r.1.length) }

/-- `policydb_optimize`, optimize.c:445-472, after the checks of policy kind and version. -/
def optimize (p : OPolicy) : Option OPolicy :=
  let tm := typeMap p.sp p.attrType
  (optimizeAvtab tm p.sp.te).bind fun te =>
  (optimizeConds p.sp te tm p.enabled p.conds [] p.tab.node).bind fun r =>
  some { p with
    sp := { p.sp with te := te }
    conds := r.1
    tab := if r.2.1 = [] then { p.tab with node := r.2.2 }
      else sweepSlots (List.range p.tab.nslot) r.2.1 { p.tab with node := r.2.2 } }

/-- The policy as the security server sees it under boolean values `σ`: `evaluate_conds`, then access decisions. -/
def withBools (p : OPolicy) (σ : Cond.State) : Services.SPolicy :=
  { p.sp with cond := p.tab.avtab (Cond.evaluateConds σ p.conds p.enabled).2 }

end Verif.Optimize
