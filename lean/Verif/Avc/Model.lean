import Verif.Prelude

/-!
# Model of libselinux/src/avc.c (the userspace access vector cache)

Nodes are named by the order in which `avc_init_internal` allocated them; a pointer to a
cache entry is the name of its node, NULL is `none`.  A security identifier is the value of
its pointer, 0 is NULL (`SECSID_WILD`); a class is a number.  Permission vectors are 32-bit
vectors.  Sequence numbers are only compared and copied, so they are naturals.

The answers of the kernel (`security_compute_av_flags_raw`, `security_compute_create_raw`)
and of the registered callbacks are inputs of the operations.  Locks, log messages, the
statistics counters and `errno` on success are not modelled.
-/

namespace Verif.Avc

/-- `security_id_t`, avc.h:21-27: the pointer value. -/
abbrev Sid := Nat
/-- `access_vector_t`, selinux.h. -/
abbrev AV := BitVec 32

/-- AVC_CACHE_SLOTS, avc.c:16. -/
@[irreducible] def nslots : Nat := 512
/-- AVC_CACHE_MAXNODES, avc.c:17. -/
def maxNodes : Nat := 410

/-- SELINUX_AVD_FLAGS_PERMISSIVE, selinux.h:149. -/
def flagPermissive : AV := 1#32

/-- `struct av_decision`, selinux.h:136-146. -/
structure Avd where
  allowed : AV
  decided : AV
  auditallow : AV
  auditdeny : AV
  seqno : Nat
  flags : AV
  deriving DecidableEq, Repr

/-- An access vector decision of all zero bytes. -/
def Avd.zero : Avd := ⟨0, 0, 0, 0, 0, 0⟩

/-- The triple that identifies a decision. -/
structure Key where
  ssid : Sid
  tsid : Sid
  tclass : Nat
  deriving DecidableEq, Repr

/-- `struct avc_entry`, avc.c:19-26. -/
structure Entry where
  ssid : Sid
  tsid : Sid
  tclass : Nat
  avd : Avd
  createSid : Sid
  used : Bool
  deriving DecidableEq, Repr

/-- `avc_clear_avc_entry`, avc.c:341-344. -/
def Entry.zero : Entry := ⟨0, 0, 0, Avd.zero, 0, false⟩

/-- `struct avc_cache` with the freelist (avc.c:33-38, 55-56) and the flags `avc_enforcing`
and `avc_setenforce` (avc_internal.c:51-52).  `slots` gives the chain of every bucket. -/
structure Cache where
  node : Nat → Entry
  slots : Nat → List Nat
  free : List Nat
  lruHint : Nat
  active : BitVec 32
  latestNotif : Nat
  enforcing : Bool
  override : Bool

/-- Assignment to one cell of a memory. -/
def upd {α : Type} (f : Nat → α) (i : Nat) (x : α) : Nat → α :=
  fun j => if j = i then x else f j

/-- `avc_hash`, avc.c:62-67.  The bits the shift drops do not reach the mask. -/
def hash (k : Key) : Nat := (k.ssid ^^^ (k.tsid <<< 2) ^^^ k.tclass) % nslots

/-- `avc_init_internal`, avc.c:145-219, with `n` nodes obtained from `avc_malloc` (at most
AVC_CACHE_MAXNODES), the mode read from the kernel or set by the option
`AVC_OPT_SETENFORCE` (`override`). -/
def init (n : Nat) (enforcing override : Bool) : Cache :=
  { node := fun _ => Entry.zero
    slots := fun _ => []
    free := (List.range (min n maxNodes)).reverse
    lruHint := 0
    active := 0
    latestNotif := 0
    enforcing := enforcing
    override := override }

/-- Setting `used` of an entry. -/
def setUsed (s : Cache) (i : Nat) : Cache :=
  { s with node := upd s.node i { s.node i with used := true } }

/-- The inner loop of `avc_reclaim_node`, avc.c:312-323: the first entry that is not `used`;
the entries passed on the way are marked unused. -/
def walk (node : Nat → Entry) : List Nat → (Nat → Entry) × Option Nat
  | [] => (node, none)
  | c :: cs =>
    if (node c).used then walk (upd node c { node c with used := false }) cs
    else (node, some c)

/-- The two outer loops of `avc_reclaim_node`, avc.c:309-327 and 332-339, as one loop over
`2 * AVC_CACHE_SLOTS` slots: the second try starts where the first one did. -/
def reclaimLoop : Nat → Cache → Nat → Cache × Option Nat
  | 0, s, _ => (s, none)
  | fuel + 1, s, h =>
    match walk s.node (s.slots h) with
    | (nd, some c) =>
      ({ s with node := nd, lruHint := h, slots := upd s.slots h ((s.slots h).erase c) }, some c)
    | (nd, none) => reclaimLoop fuel { s with node := nd } ((h + 1) % nslots)

/-- `avc_reclaim_node`, avc.c:303-339. -/
def reclaim (s : Cache) : Cache × Option Nat := reclaimLoop (2 * nslots) s s.lruHint

/-- The initialisation of a claimed node and its insertion in front of its chain,
avc.c:366-373. -/
def linkNode (s : Cache) (k : Key) (i : Nat) : Cache :=
  { s with
    node := upd s.node i { Entry.zero with used := true, ssid := k.ssid, tsid := k.tsid, tclass := k.tclass }
    slots := upd s.slots (hash k) (i :: s.slots (hash k)) }

/-- `avc_claim_node`, avc.c:346-377 (`avc_cleanup` does nothing). -/
def claim (s : Cache) (k : Key) : Cache × Option Nat :=
  match s.free with
  | i :: fr => (linkNode { s with free := fr, active := s.active + 1 } k i, some i)
  | [] =>
    match reclaim s with
    | (s1, some i) => (linkNode s1 k i, some i)
    | (s1, none) => (s1, none)

/-- The comparison of the search loop, avc.c:390-392. -/
def matchKey (e : Entry) (k : Key) : Bool :=
  e.ssid == k.ssid && e.tclass == k.tclass && e.tsid == k.tsid

/-- `avc_search_node`, avc.c:379-409. -/
def search (s : Cache) (k : Key) : Cache × Option Nat :=
  match (s.slots (hash k)).find? (fun i => matchKey (s.node i) k) with
  | some i => (setUsed s i, some i)
  | none => (s, none)

/-- `avc_lookup`, avc.c:427-449. -/
def lookup (s : Cache) (k : Key) (req : AV) : Cache × Option Nat :=
  match search s k with
  | (s1, some i) => if (s1.node i).avd.decided &&& req = req then (s1, some i) else (s1, none)
  | (s1, none) => (s1, none)

/-- Results of the API functions: 0, or -1 with the given `errno`. -/
inductive Rc where
  | ok
  | eacces
  | eagain
  | enomem
  | einval
  /-- any other failure of the kernel interface -/
  | other
  deriving DecidableEq, Repr

/-- `avc_insert`, avc.c:469-495. -/
def insert (s : Cache) (k : Key) (d : Avd) : Cache × Rc × Option Nat :=
  if d.seqno < s.latestNotif then (s, Rc.eagain, none)
  else match claim s k with
    | (s1, none) => (s1, Rc.enomem, none)
    | (s1, some i) => ({ s1 with node := upd s1.node i { s1.node i with avd := d } }, Rc.ok, some i)

/-- The answer of `security_compute_av_flags_raw`, compute_av.c:13-84: a decision, EINVAL, or
another error. -/
inductive Srv where
  | ans (d : Avd)
  | einval
  | other
  deriving DecidableEq, Repr

/-- `avd_init`, avc.c:737-744.  (The code leaves `decided` as the caller had it; here 0.) -/
def avdInit (s : Cache) : Avd := ⟨0, 0, 0, 0xffffffff#32, s.latestNotif, 0⟩

/-- What a permission check leaves behind: the cache, the return value, the decision stored
for the caller, and the entry reference. -/
structure Out where
  cache : Cache
  rc : Rc
  avd : Avd
  aeref : Option Nat

/-- The check of the caller's entry reference, avc.c:771-784. -/
def refHit (s : Cache) (k : Key) (req : AV) (aeref : Option Nat) : Option Nat :=
  match aeref with
  | some i =>
    if (s.node i).ssid = k.ssid ∧ (s.node i).tsid = k.tsid ∧ (s.node i).tclass = k.tclass ∧
        (s.node i).avd.decided &&& req = req then some i
    else none
  | none => none

/-- The evaluation of an entry, avc.c:806-820. -/
def finish (s : Cache) (req : AV) (i : Nat) : Out :=
  let avd := (s.node i).avd
  if req = 0 ∨ req &&& ~~~avd.allowed ≠ 0 then
    if s.enforcing = false ∨ avd.flags &&& flagPermissive ≠ 0 then
      ⟨{ s with node := upd s.node i { s.node i with avd := { avd with allowed := avd.allowed ||| req } } },
        Rc.ok, avd, some i⟩
    else ⟨s, Rc.eacces, avd, some i⟩
  else ⟨s, Rc.ok, avd, some i⟩

/-- `avc_has_perm_noaudit` from the lock on, avc.c:768-824; `srv` is what the kernel answers
if it is asked. -/
def hasPerm (s : Cache) (k : Key) (req : AV) (aeref : Option Nat) (srv : Srv) : Out :=
  match refHit s k req aeref with
  | some i => finish (setUsed s i) req i
  | none =>
    match lookup s k req with
    | (s1, some i) => finish s1 req i
    | (s1, none) =>
      match srv with
      | Srv.einval =>
        if s1.enforcing = false then ⟨s1, Rc.ok, avdInit s, aeref⟩
        else ⟨s1, Rc.einval, avdInit s, aeref⟩
      | Srv.other => ⟨s1, Rc.other, avdInit s, aeref⟩
      | Srv.ans d =>
        match insert s1 k d with
        | (s2, _, some i) => finish s2 req i
        | (s2, rc, none) => ⟨s2, rc, avdInit s, aeref⟩

/-- The saved result of `avc_compute_create`, avc.c:867-884: `new` is the SID of the context
the kernel computes (`none`: the kernel or the SID table failed). -/
def createSaved (s : Cache) (i : Nat) (new : Option Sid) : Cache × Option Sid :=
  if (s.node i).createSid = 0 then
    match new with
    | some c => ({ s with node := upd s.node i { s.node i with createSid := c } }, some c)
    | none => (s, none)
  else (s, some (s.node i).createSid)

/-- `avc_compute_create`, avc.c:841-889: `srv` answers the access query. -/
def computeCreate (s : Cache) (k : Key) (srv : Srv) (new : Option Sid) : Cache × Option Sid :=
  match lookup s k 0 with
  | (s1, some i) => createSaved s1 i new
  | (s1, none) =>
    match srv with
    | Srv.ans d =>
      match insert s1 k d with
      | (s2, _, some i) => createSaved s2 i new
      | (s2, _, none) => (s2, none)
    | _ => (s1, none)

/-- Clearing one node in `avc_reset`, avc.c:515-522. -/
def freeNode (s : Cache) (i : Nat) : Cache :=
  { s with node := upd s.node i Entry.zero, free := i :: s.free, active := s.active - 1 }

/-- One bucket of `avc_reset`, avc.c:513-524. -/
def resetSlot (s : Cache) (h : Nat) : Cache :=
  let s1 := (s.slots h).foldl freeNode s
  { s1 with slots := upd s1.slots h [] }

/-- `avc_reset`, avc.c:502-544, with `avc_running` set; its callbacks are not modelled here
(their return values are inputs of the functions that call it). -/
@[irreducible] def reset (s : Cache) : Cache :=
  { (List.range nslots).foldl resetSlot s with lruHint := 0 }

/-- The update of `latest_notif`, avc.c:1053-1056 and 1129-1132. -/
def notif (s : Cache) (seqno : Nat) : Cache :=
  if seqno > s.latestNotif then { s with latestNotif := seqno } else s

/-- `avc_ss_reset`, avc.c:1123-1135. -/
def ssReset (s : Cache) (seqno : Nat) : Cache := notif (reset s) seqno

/-- `avc_process_setenforce`, avc_internal.c:55-75, up to the application's callback. -/
def processSetenforce (s : Cache) (enf : Bool) : Cache :=
  if s.override then s
  else if enf then ssReset { s with enforcing := true } 0
  else { s with enforcing := false }

/-- `avc_process_policyload`, avc_internal.c:78-96, up to the application's callback. -/
def processPolicyload (s : Cache) (seqno : Nat) : Cache := ssReset s seqno

/-- The AVC_CALLBACK_* events handled by `avc_update_node`, avc.h:364-371. -/
inductive Event where
  | grant | tryRevoke | revoke
  | auditallowEnable | auditallowDisable | auditdenyEnable | auditdenyDisable
  deriving DecidableEq, Repr

/-- `avc_update_node`, avc.c:946-970. -/
def updateNode (ev : Event) (perms : AV) (e : Entry) : Entry :=
  match ev with
  | Event.grant => { e with avd := { e.avd with allowed := e.avd.allowed ||| perms } }
  | Event.tryRevoke => { e with avd := { e.avd with allowed := e.avd.allowed &&& ~~~perms } }
  | Event.revoke => { e with avd := { e.avd with allowed := e.avd.allowed &&& ~~~perms } }
  | Event.auditallowEnable => { e with avd := { e.avd with auditallow := e.avd.auditallow ||| perms } }
  | Event.auditallowDisable => { e with avd := { e.avd with auditallow := e.avd.auditallow &&& ~~~perms } }
  | Event.auditdenyEnable => { e with avd := { e.avd with auditdeny := e.avd.auditdeny ||| perms } }
  | Event.auditdenyDisable => { e with avd := { e.avd with auditdeny := e.avd.auditdeny &&& ~~~perms } }

/-- `avc_sidcmp`, avc.c:941-944. -/
def sidcmp (x y : Sid) : Bool := x == y || x == 0 || y == 0

/-- The loop body of `avc_update_cache` for wildcards, avc.c:984-990. -/
def updateMatching (ev : Event) (k : Key) (perms : AV) (node : Nat → Entry) (i : Nat) : Nat → Entry :=
  if sidcmp k.ssid (node i).ssid && sidcmp k.tsid (node i).tsid && k.tclass == (node i).tclass then
    upd node i (updateNode ev perms (node i))
  else node

/-- `avc_update_cache`, avc.c:972-1003. -/
def updateCache (s : Cache) (ev : Event) (k : Key) (perms : AV) : Cache :=
  if k.ssid = 0 ∨ k.tsid = 0 then
    let nd := (List.range nslots).foldl
      (fun nd h => (s.slots h).foldl (updateMatching ev k perms) nd) s.node
    { s with node := nd }
  else
    match search s k with
    | (s1, some i) => { s1 with node := upd s1.node i (updateNode ev perms (s1.node i)) }
    | (s1, none) => s1

/-- A registered callback (`struct avc_callback_node`, avc.c:40-52), with what it answers:
whether it fails, and the permissions it retains. -/
structure Callback where
  /-- the callback listens to this event (`c->events & event`) -/
  listens : Event → Bool
  ssid : Sid
  tsid : Sid
  tclass : Nat
  perms : AV
  fails : Bool
  retained : AV

/-- The callback loop of `avc_control`, avc.c:1029-1044: the union of what the callbacks that
apply and succeed retain. -/
def retained (cbs : List Callback) (ev : Event) (k : Key) (perms : AV) : AV :=
  cbs.foldl (fun acc c =>
    if c.listens ev && sidcmp c.ssid k.ssid && sidcmp c.tsid k.tsid && c.tclass == k.tclass &&
        (c.perms &&& perms) != 0 && !c.fails then acc ||| c.retained
    else acc) 0

/-- `avc_control`, avc.c:1010-1060: the cache afterwards and `*out_retained`. -/
def control (s : Cache) (ev : Event) (k : Key) (perms : AV) (seqno : Nat) (cbs : List Callback) :
    Cache × AV :=
  let ret := retained cbs ev k perms
  if ev = Event.tryRevoke then
    (notif (updateCache s ev k (perms &&& ~~~ret)) seqno, ret)
  else (notif (updateCache s ev k perms) seqno, ret)

/-- What `avc_audit` writes: the word `denied` or `granted`, the permissions listed, and the
field `permissive=` if it is there. -/
structure Log where
  denied : Bool
  audited : AV
  permissive : Option Bool
  deriving DecidableEq, Repr

/-- `avc_audit`, avc.c:694-734: `none` when nothing is logged; `failed` is `result != 0`. -/
def audit (req : AV) (avd : Avd) (failed : Bool) : Option Log :=
  let denied := req &&& ~~~avd.allowed
  let p : AV × AV :=
    if denied ≠ 0 then (denied, denied &&& avd.auditdeny)
    else if req = 0 ∨ failed = true then (req, req)
    else (denied, req &&& avd.auditallow)
  if p.2 = 0 then none
  else some ⟨decide (p.1 ≠ 0 ∨ req = 0), p.2, if p.1 ≠ 0 then some (!failed) else none⟩

/-- `avc_has_perm`, avc.c:827-839, from the lock on: the check and the audit message. -/
def hasPermAudit (s : Cache) (k : Key) (req : AV) (aeref : Option Nat) (srv : Srv) : Out × Option Log :=
  let o := hasPerm s k req aeref srv
  (o, audit req o.avd (decide (o.rc ≠ Rc.ok)))

end Verif.Avc
