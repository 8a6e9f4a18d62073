import Verif.Avc.Spec

/-!
# The cache together with the kernel's status page

libselinux/src/sestatus.c (`selinux_status_updated`), read by `avc_has_perm_noaudit` at every
check.  Here the page is read in one piece (that the seqlock makes this so is proved in
`Verif.Status`).  The sequence counter of the page is a natural number: the model does not
cover a reader that sleeps through exactly 2^31 updates.

The kernel's policy is numbered by the sequence number of its last load; `srv v` are its
decisions while version `v` is loaded.
-/

namespace Verif.Avc

/-- The kernel's status page, sestatus.c:22-30. -/
structure Kernel where
  enforcing : Bool
  version : Nat
  sequence : Nat
  deriving DecidableEq, Repr

/-- What the kernel does on its own. -/
inductive KOp where
  | setenforce (b : Bool)
  | load
  deriving DecidableEq, Repr

/-- Every change of the page advances its sequence number by two. -/
def Kernel.step (k : Kernel) : KOp → Kernel
  | KOp.setenforce b => { k with enforcing := b, sequence := k.sequence + 2 }
  | KOp.load => { k with version := k.version + 1, sequence := k.sequence + 2 }

/-- A process with its cache, and the kernel.  `lastSeq = none` is the odd value
`(uint32_t)-1` of `last_seqno`, sestatus.c:40-41. -/
structure World where
  kernel : Kernel
  cache : Cache
  lastSeq : Option Nat
  lastPolicyload : Nat

/-- `avc_open`, avc.c:221-236 with 145-219 and `selinux_status_open`, sestatus.c:278-324:
`opt` is the option AVC_OPT_SETENFORCE. -/
def openAvc (n : Nat) (opt : Option Bool) (k : Kernel) : World :=
  { kernel := k
    cache := init n (opt.getD k.enforcing) opt.isSome
    lastSeq := none
    lastPolicyload := k.version }

/-- Whether the callbacks run by `avc_process_setenforce` and `avc_process_policyload` (those
of the AVC for resets and those of SELINUX_CB_SETENFORCE / SELINUX_CB_POLICYLOAD) succeed. -/
structure Cbs where
  setenforce : Bool
  policyload : Bool
  deriving DecidableEq, Repr

/-- `selinux_status_updated`, sestatus.c:90-144, with the page mapped. -/
def statusUpdated (w : World) (cb : Cbs) : World :=
  let last := w.lastSeq.getD w.kernel.sequence
  if last = w.kernel.sequence then { w with lastSeq := some last }
  else
    let changed := w.cache.enforcing != w.kernel.enforcing
    let c1 := if changed then processSetenforce w.cache w.kernel.enforcing else w.cache
    if changed && !cb.setenforce then { w with cache := c1, lastSeq := some last }
    else if w.lastPolicyload = w.kernel.version then
      { w with cache := c1, lastSeq := some w.kernel.sequence }
    else
      let c2 := processPolicyload c1 w.kernel.version
      if cb.policyload then
        { w with cache := c2, lastSeq := some w.kernel.sequence, lastPolicyload := w.kernel.version }
      else { w with cache := c2, lastSeq := some last }

/-- The kernel works on while the process is between reading the page and asking. -/
def kernelSteps (w : World) (mid : List KOp) : World :=
  { w with kernel := mid.foldl Kernel.step w.kernel }

/-- `avc_has_perm_noaudit`, avc.c:746-825, of a process without threads and without a main loop
of its own (`!avc_using_threads && !avc_app_main_loop`): the status page is read first. -/
def checkPerm (srv : Nat → Key → Srv) (w : World) (k : Key) (req : AV) (aeref : Option Nat) (mid : List KOp)
    (cb : Cbs) : World × Out :=
  let w1 := kernelSteps (statusUpdated w cb) mid
  let o := hasPerm w1.cache k req aeref (srv w1.kernel.version k)
  ({ w1 with cache := o.cache }, o)

/-- One step of the process or of the kernel. -/
inductive WOp where
  | kernel (o : KOp)
  | status (cb : Cbs)
  | check (k : Key) (req : AV) (aeref : Option Nat) (mid : List KOp) (cb : Cbs)
  | create (k : Key) (new : Option Sid)
  | reset

/-- Executing one step. -/
def wstep (srv : Nat → Key → Srv) (w : World) : WOp → World
  | WOp.kernel o => kernelSteps w [o]
  | WOp.status cb => statusUpdated w cb
  | WOp.check k req aeref mid cb => (checkPerm srv w k req aeref mid cb).1
  | WOp.create k new =>
      { w with cache := (computeCreate w.cache k (srv w.kernel.version k) new).1 }
  | WOp.reset => { w with cache := reset w.cache }

/-- Executing a sequence of steps. -/
def wrun (srv : Nat → Key → Srv) (w : World) (ops : List WOp) : World := ops.foldl (wstep srv) w

/-! ### Specification -/

instance (d : Avd) : Decidable d.permissive := inferInstanceAs (Decidable (_ ≠ _))

/-- The answer of a permission check that asks the kernel directly, in the given mode. -/
def verdict (enforcing : Bool) (a : Srv) (req : AV) : Rc :=
  match a with
  | Srv.ans d =>
    if enforcing = false ∨ d.permissive then Rc.ok
    else if req ≠ 0 ∧ req &&& ~~~d.allowed = 0 then Rc.ok
    else Rc.eacces
  | Srv.einval => if enforcing = false then Rc.ok else Rc.einval
  | Srv.other => Rc.other

/-- The kernel stamps its decisions with the number of the policy in force. -/
def Stamped (srv : Nat → Key → Srv) : Prop := ∀ v k d, srv v k = Srv.ans d → d.seqno = v

/-- Security identifiers are not NULL and callbacks do not fail. -/
def WOp.Valid : WOp → Prop
  | WOp.kernel _ => True
  | WOp.status cb => cb = ⟨true, true⟩
  | WOp.check k _ _ _ cb => k.ssid ≠ 0 ∧ k.tsid ≠ 0 ∧ cb = ⟨true, true⟩
  | WOp.create k _ => k.ssid ≠ 0 ∧ k.tsid ≠ 0
  | WOp.reset => True

end Verif.Avc
