import Verif.Avc.WorldLemmas
import Verif.Avc.Sid

/-!
# Properties of the userspace access vector cache (C26-C29, C31, C53, C54)

In every theorem `n` is the number of nodes `avc_init` could allocate, `enf` the mode at start and
`ov` says whether the application fixed the mode with AVC_OPT_SETENFORCE.
-/

namespace Verif.Avc

/-! ## Concrete data for the examples -/

/-- An example triple. -/
def exKey : Key := ⟨1, 2, 1⟩
/-- An example decision: permission 0 is allowed, all are decided. -/
def exAvd : Avd := ⟨1, 0xffffffff#32, 0, 0xffffffff#32, 0, 0⟩
/-- A history: the kernel answers in permissive mode, the mode is switched, the kernel answers again. -/
def exOps : List Op :=
  [Op.check exKey 3 none (Srv.ans exAvd), Op.setenforce true, Op.check exKey 1 (some 0) (Srv.ans exAvd)]

example : ∀ o ∈ exOps, o.Valid := by
  intro o ho
  simp only [exOps, List.mem_cons, List.not_mem_nil, or_false] at ho
  rcases ho with rfl | rfl | rfl <;> simp [Op.Valid, exKey]

/-! ## C26: the cache never grants what the server denied -/

/-- For every history of checks, create queries, notifications, resets and control events, with
any kernel answers, any recycled entry reference and any number of nodes: in enforcing mode a
check succeeds only if the kernel, since the last flush, gave a decision for this very triple
that allows every requested permission (or one that was granted by a control event since), or
one for a permissive domain.  A decision is used only for permissions it decides, unless it
was obtained in this call. -/
theorem C26_no_grant (n : Nat) (enf ov : Bool) (ops : List Op) (hv : ∀ o ∈ ops, o.Valid)
    (k : Key) (req : AV) (aeref : Option Nat) (srv : Srv) (hk : k.ssid ≠ 0 ∧ k.tsid ≠ 0)
    (he : (run (init n enf ov) ops).enforcing = true)
    (hok : (hasPerm (run (init n enf ov) ops) k req aeref srv).rc = Rc.ok) :
    ∃ d, Accepted ov (ops ++ [Op.check k req aeref srv]) k d ∧
      (d.decided &&& req = req ∨ srv = Srv.ans d) ∧
      (d.permissive ∨
        (req ≠ 0 ∧ ∀ p, req.getLsbD p = true →
          d.allowed.getLsbD p = true ∨ Granted ov ops k p)) := by
  have h := inv_run n enf ov ops hv
  rcases hasPerm_cases (req := req) (aeref := aeref) (srv := srv) h hk with
    ⟨t, i, e, hi, hen, hil, hkey, hdec⟩ | ⟨t, rc, e, hi, hen, hc⟩
  · obtain ⟨d, h1, h2, h3, h4⟩ := hasPerm_entry hi hil hkey hdec
    refine ⟨d, h1, h2, ?_⟩
    by_cases hper : d.permissive
    · exact Or.inl hper
    · right
      rw [e] at hok
      obtain ⟨_, _, ⟨_, hc⟩ | ⟨hc, _⟩⟩ := finish_cases t req i
      · rw [hen, he] at hc
        rw [h3] at hc
        rcases hc with hc | hc | ⟨hr, hc⟩
        · simp at hc
        · exact absurd hc hper
        · refine ⟨hr, fun p hp => ?_⟩
          exact (h4 (hen.trans he) hper p).1 ((subset_iff _ _).1 hc p hp)
      · rw [hok] at hc; cases hc
  · rw [e] at hok
    simp only at hok
    subst hok
    rcases hc with ⟨_, _, hc⟩ | ⟨hc, _⟩ | ⟨hc, _⟩ | ⟨hc, _⟩ | ⟨hc, _⟩
    · rw [he] at hc; cases hc
    · cases hc
    · cases hc
    · cases hc
    · cases hc

/-- A check succeeds in enforcing mode after such a history. -/
example : (run (init 2 false false) exOps).enforcing = true ∧
    (hasPerm (run (init 2 false false) exOps) exKey 1 (some 0) Srv.other).rc = Rc.ok := by
  decide +kernel

/-- A check is denied only in enforcing mode, and only if the kernel gave, since the last flush, a
decision for this triple that is not for a permissive domain and does not allow one of the
requested permissions (or it was revoked by a control event since).  (A request for no
permission at all is denied, too: avc.c:811 tests `!requested`.) -/
theorem C26_denial (n : Nat) (enf ov : Bool) (ops : List Op) (hv : ∀ o ∈ ops, o.Valid)
    (k : Key) (req : AV) (aeref : Option Nat) (srv : Srv) (hk : k.ssid ≠ 0 ∧ k.tsid ≠ 0)
    (hrc : (hasPerm (run (init n enf ov) ops) k req aeref srv).rc = Rc.eacces) :
    (run (init n enf ov) ops).enforcing = true ∧
    ∃ d, Accepted ov (ops ++ [Op.check k req aeref srv]) k d ∧
      (d.decided &&& req = req ∨ srv = Srv.ans d) ∧ ¬ d.permissive ∧
      (req = 0 ∨ ∃ p, req.getLsbD p = true ∧ (d.allowed.getLsbD p = false ∨ Revoked ov ops k p)) := by
  have h := inv_run n enf ov ops hv
  rcases hasPerm_cases (req := req) (aeref := aeref) (srv := srv) h hk with
    ⟨t, i, e, hi, hen, hil, hkey, hdec⟩ | ⟨t, rc, e, hi, hen, hc⟩
  · obtain ⟨d, h1, h2, h3, h4⟩ := hasPerm_entry hi hil hkey hdec
    rw [e] at hrc
    obtain ⟨_, _, ⟨hc, _⟩ | ⟨_, he, hp, hc⟩⟩ := finish_cases t req i
    · rw [hrc] at hc; cases hc
    · have hper : ¬ d.permissive := by
        unfold Avd.permissive
        rw [← h3, hp]; simp
      refine ⟨hen ▸ he, d, h1, h2, hper, ?_⟩
      rcases hc with hc | hc
      · exact Or.inl hc
      · right
        by_contra hno
        refine hc ((subset_iff _ _).2 fun p hp => ?_)
        by_contra hna
        refine hno ⟨p, hp, ?_⟩
        cases hd : d.allowed.getLsbD p with
        | false => exact Or.inl rfl
        | true =>
          rcases (h4 he hper p).2 hd with x | x
          · exact absurd x hna
          · exact Or.inr x
  · rw [e] at hrc
    simp only at hrc
    subst hrc
    rcases hc with ⟨hc, _⟩ | ⟨hc, _⟩ | ⟨hc, _⟩ | ⟨hc, _⟩ | ⟨hc, _⟩ <;> cases hc

example : (hasPerm (run (init 2 false false) exOps) exKey 2 (some 0) Srv.other).rc = Rc.eacces := by
  decide +kernel

/-- The other results: EINVAL is the kernel's, and only in enforcing mode; other errors are the
kernel's; EAGAIN means that the answer was older than an announcement; ENOMEM can only happen to
a cache that could not allocate a single node. -/
theorem C26_errors (n : Nat) (enf ov : Bool) (ops : List Op) (hv : ∀ o ∈ ops, o.Valid)
    (k : Key) (req : AV) (aeref : Option Nat) (srv : Srv) (hk : k.ssid ≠ 0 ∧ k.tsid ≠ 0) :
    let s := run (init n enf ov) ops
    let rc := (hasPerm s k req aeref srv).rc
    (rc = Rc.einval → srv = Srv.einval ∧ s.enforcing = true) ∧
    (rc = Rc.other → srv = Srv.other) ∧
    (rc = Rc.eagain → ∃ d, srv = Srv.ans d ∧ d.seqno < announced ops) ∧
    (rc = Rc.enomem → n = 0) := by
  have h := inv_run n enf ov ops hv
  intro s rc
  have hrc : rc = (hasPerm s k req aeref srv).rc := rfl
  rcases hasPerm_cases (req := req) (aeref := aeref) (srv := srv) h hk with
    ⟨t, i, e, hi, hen, hil, hkey, hdec⟩ | ⟨t, rc', e, hi, hen, hc⟩
  · have : rc = Rc.ok ∨ rc = Rc.eacces := by
      rw [hrc, e]
      obtain ⟨_, _, ⟨hc, _⟩ | ⟨hc, _⟩⟩ := finish_cases t req i
      · exact Or.inl hc
      · exact Or.inr hc
    rcases this with x | x <;> rw [x] <;> simp
  · have e' : rc = rc' := by rw [hrc, e]
    rw [e']
    rcases hc with ⟨rfl, hc⟩ | ⟨rfl, hc⟩ | ⟨rfl, hc⟩ | ⟨rfl, hc⟩ | ⟨rfl, hc⟩
    · simp
    · exact ⟨fun _ => hc, by simp, by simp, by simp⟩
    · exact ⟨by simp, fun _ => hc, by simp, by simp⟩
    · exact ⟨by simp, by simp, fun _ => hc, by simp⟩
    · refine ⟨by simp, by simp, by simp, fun _ => ?_⟩
      unfold maxNodes at hc; omega

example : (hasPerm (run (init 2 true false) exOps) exKey 2 none Srv.einval).rc = Rc.eacces ∧
    (hasPerm (run (init 2 true false) exOps) ⟨1, 3, 1⟩ 2 none Srv.einval).rc = Rc.einval ∧
    (hasPerm (run (init 2 true false) (exOps ++ [Op.policyload 5])) exKey 2 none (Srv.ans exAvd)).rc = Rc.eagain ∧
    (hasPerm (run (init 0 true false) exOps) exKey 2 none (Srv.ans exAvd)).rc = Rc.enomem := by
  decide +kernel

/-- The cache is transparent.  Take any process that polls the status page once after `avc_open`
and then makes any calls, with any changes of the kernel's mode and policy in between, even
between the poll and the query of a check: every check returns what the kernel, asked
directly, would answer under a policy in force during the call, in the mode in force at the
call (or fixed by the application).  `srv v` is the kernel's answer under policy version `v`. -/
theorem C26_transparent (srv : Nat → Key → Srv) (hst : Stamped srv) (n : Nat) (hn : 0 < n)
    (opt : Option Bool) (k0 : Kernel) (cb : Cbs) (ops : List WOp) (hv : ∀ o ∈ ops, o.Valid)
    (k : Key) (hk : k.ssid ≠ 0 ∧ k.tsid ≠ 0) (req : AV) (aeref : Option Nat) (mid : List KOp) :
    let w := wrun srv (openAvc n opt k0) (WOp.status cb :: ops)
    ∃ v, w.kernel.version ≤ v ∧ v ≤ (mid.foldl Kernel.step w.kernel).version ∧
      (checkPerm srv w k req aeref mid ⟨true, true⟩).2.rc =
        verdict (opt.getD w.kernel.enforcing) (srv v k) req := by
  have h := winv_run hst hn opt k0 cb ops hv
  exact (h.check hst (by unfold maxNodes; omega) hk).2

/-- A kernel whose policy version 0 allows permission 0 and whose later versions allow nothing. -/
def exSrv (v : Nat) (_ : Key) : Srv :=
  Srv.ans ⟨if v = 0 then 1 else 0, 0xffffffff#32, 0, 0xffffffff#32, v, 0⟩

theorem exSrv_stamped : Stamped exSrv := by
  intro v k d h
  simp only [exSrv, Srv.ans.injEq] at h
  rw [← h]

example :
    let w := wrun exSrv (openAvc 3 none ⟨true, 0, 0⟩)
      [WOp.status ⟨true, true⟩, WOp.check exKey 1 none [] ⟨true, true⟩]
    let w' := wrun exSrv w [WOp.kernel KOp.load]
    (checkPerm exSrv w exKey 1 none [] ⟨true, true⟩).2.rc = Rc.ok ∧
    (checkPerm exSrv w exKey 1 none [KOp.load] ⟨true, true⟩).2.rc = Rc.ok ∧
    (checkPerm exSrv w' exKey 1 none [] ⟨true, true⟩).2.rc = Rc.eacces := by
  decide +kernel

/-- The kernel is not asked again: a check of permissions that are decided by the entry cached
for the triple has an outcome that does not depend on the kernel's answer. -/
theorem C26_hit (n : Nat) (enf ov : Bool) (ops : List Op) (hv : ∀ o ∈ ops, o.Valid)
    (k : Key) (req : AV) (aeref : Option Nat)
    (h1 : ∃ i ∈ linked (run (init n enf ov) ops), ((run (init n enf ov) ops).node i).key = k)
    (h2 : ∀ i ∈ linked (run (init n enf ov) ops), ((run (init n enf ov) ops).node i).key = k →
      ((run (init n enf ov) ops).node i).avd.decided &&& req = req) (srv srv' : Srv) :
    hasPerm (run (init n enf ov) ops) k req aeref srv = hasPerm (run (init n enf ov) ops) k req aeref srv' := by
  have w := (inv_run n enf ov ops hv).wf
  obtain ⟨s1, i, hl⟩ := lookup_hit (req := req) w h1 h2
  unfold hasPerm
  rw [hl]

example : (0 ∈ linked (run (init 1 true false) [Op.check exKey 1 none (Srv.ans exAvd)])) ∧
    ((run (init 1 true false) [Op.check exKey 1 none (Srv.ans exAvd)]).node 0).key = exKey ∧
    ((run (init 1 true false) [Op.check exKey 1 none (Srv.ans exAvd)]).node 0).avd.decided &&& 3 = 3 := by
  decide +kernel

/-! ### Where C26 fails -/

/-- The invariant of the counterexample below. -/
structure Missed (srv : Nat → Key → Srv) (m : Nat) (k1 : Kernel) (w : World) : Prop where
  cache : CInv srv m k1.version k1.version w.cache
  mode : w.cache.enforcing = false
  kernel : w.kernel = k1
  seen : w.lastSeq = some k1.sequence

theorem Missed.status {srv m k1 w} (h : Missed srv m k1 w) (cb : Cbs) : statusUpdated w cb = w := by
  obtain ⟨_, _, hk, hs⟩ := h
  cases w
  simp only at hk hs
  subst hk hs
  simp [statusUpdated]

/-- `selinux_status_updated` does not compare the page with anything when it is first called
(sestatus.c:118-119: it only notes the sequence number).  A process that opened the cache while
the system was permissive and makes its first check after the switch to enforcing therefore
keeps granting everything: however many checks follow, none is ever denied, although the
kernel is in enforcing mode. -/
theorem C26_first_check_refuted (srv : Nat → Key → Srv) (hst : Stamped srv) (n : Nat) (hn : 0 < n)
    (v sq : Nat) (qs : List (Key × AV × Option Nat))
    (hq : ∀ q ∈ qs, q.1.ssid ≠ 0 ∧ q.1.tsid ≠ 0) (k : Key) (hk : k.ssid ≠ 0 ∧ k.tsid ≠ 0) (req : AV)
    (aeref : Option Nat) :
    let w := wrun srv (openAvc n none ⟨false, v, sq⟩)
      (WOp.kernel (KOp.setenforce true) :: qs.map fun q => WOp.check q.1 q.2.1 q.2.2 [] ⟨true, true⟩)
    w.kernel.enforcing = true ∧
    (checkPerm srv w k req aeref [] ⟨true, true⟩).2.rc = verdict false (srv v k) req := by
  have hm : 0 < min n maxNodes := by unfold maxNodes; omega
  -- one check
  have one : ∀ (w : World) (k : Key) (req : AV) (aeref : Option Nat), k.ssid ≠ 0 ∧ k.tsid ≠ 0 →
      Missed srv (min n maxNodes) ⟨true, v, sq + 2⟩ (statusUpdated w ⟨true, true⟩) →
      Missed srv (min n maxNodes) ⟨true, v, sq + 2⟩ (checkPerm srv w k req aeref [] ⟨true, true⟩).1 ∧
      (checkPerm srv w k req aeref [] ⟨true, true⟩).2.rc = verdict false (srv v k) req := by
    intro w k req aeref hk h
    unfold checkPerm kernelSteps
    simp only [List.foldl_nil]
    have hver : (statusUpdated w ⟨true, true⟩).kernel.version = v := by rw [h.kernel]
    rw [hver]
    obtain ⟨c1, c2, _, v', l, u, e⟩ := h.cache.check (k := k) (req := req) (aeref := aeref) hst hm
      (Nat.le_refl _) hk
    dsimp only at c1 c2 l u e
    have : v' = v := by omega
    subst this
    refine ⟨⟨c1, c2.trans h.mode, h.kernel, h.seen⟩, ?_⟩
    rw [e, h.mode]
  have h0 : Missed srv (min n maxNodes) ⟨true, v, sq + 2⟩
      (statusUpdated (kernelSteps (openAvc n none ⟨false, v, sq⟩) [KOp.setenforce true]) ⟨true, true⟩) := by
    have hw := (winv_open srv n none ⟨false, v, sq⟩ ⟨true, true⟩).cache
    unfold statusUpdated openAvc at hw
    unfold kernelSteps statusUpdated openAvc
    simp only [Option.getD_none, if_true, List.foldl_cons, List.foldl_nil, Kernel.step] at hw ⊢
    exact ⟨hw, rfl, rfl, rfl⟩
  intro w
  have hw : Missed srv (min n maxNodes) ⟨true, v, sq + 2⟩ (statusUpdated w ⟨true, true⟩) := by
    show Missed _ _ _ (statusUpdated (wrun _ _ _) _)
    unfold wrun
    rw [List.foldl_cons]
    change Missed _ _ _ (statusUpdated (List.foldl (wstep srv)
      (kernelSteps (openAvc n none ⟨false, v, sq⟩) [KOp.setenforce true]) _) _)
    generalize kernelSteps (openAvc n none ⟨false, v, sq⟩) [KOp.setenforce true] = u at h0
    clear w
    induction qs generalizing u with
    | nil => exact h0
    | cons q qs ih =>
      rw [List.map_cons, List.foldl_cons]
      refine ih (fun x hx => hq x (by simp [hx])) _ ?_
      have := (one u q.1 q.2.1 q.2.2 (hq q (by simp)) h0).1
      show Missed _ _ _ (statusUpdated (checkPerm srv u q.1 q.2.1 q.2.2 [] ⟨true, true⟩).1 _)
      rw [this.status]; exact this
  refine ⟨?_, (one w k req aeref hk hw).2⟩
  have hker : (statusUpdated w ⟨true, true⟩).kernel = w.kernel := by
    unfold statusUpdated
    dsimp only
    split
    · rfl
    · split
      · rfl
      · split
        · rfl
        · split <;> rfl
  rw [← hker, hw.kernel]

/-- The kernel denies, the check succeeds. -/
example : verdict false (exSrv 1 exKey) 1 = Rc.ok ∧ verdict true (exSrv 1 exKey) 1 = Rc.eacces := by
  decide +kernel

/-- With AVC_OPT_SETENFORCE in effect and different from the kernel's mode, a failing
SELINUX_CB_SETENFORCE callback keeps policy loads from being noticed (sestatus.c:132-139): a
permission that the loaded policy denies is still granted from the cache. -/
theorem C26_callback_refuted :
    let w := wrun exSrv (openAvc 3 (some true) ⟨false, 0, 0⟩)
      [WOp.status ⟨true, true⟩, WOp.check exKey 1 none [] ⟨false, true⟩, WOp.kernel KOp.load,
       WOp.check exKey 1 none [] ⟨false, true⟩, WOp.check exKey 1 none [] ⟨false, true⟩]
    (checkPerm exSrv w exKey 1 none [] ⟨false, true⟩).2.rc = Rc.ok ∧
    verdict true (exSrv w.kernel.version exKey) 1 = Rc.eacces := by
  decide +kernel

/-! ## C27: permissive grants do not survive a switch to enforcing -/

/-- Whatever happened before in permissive mode: in enforcing mode, a permission that a check
reports in `avd->allowed` is allowed by a decision of the kernel given since the last flush (or
by a control event), or the domain is permissive.  Permissions added to a cached entry because
the system was permissive are not reported. -/
theorem C27_no_leak (n : Nat) (enf ov : Bool) (ops : List Op) (hv : ∀ o ∈ ops, o.Valid)
    (k : Key) (req : AV) (aeref : Option Nat) (srv : Srv) (hk : k.ssid ≠ 0 ∧ k.tsid ≠ 0)
    (he : (run (init n enf ov) ops).enforcing = true) (p : Nat)
    (hp : (hasPerm (run (init n enf ov) ops) k req aeref srv).avd.allowed.getLsbD p = true) :
    ∃ d, Accepted ov (ops ++ [Op.check k req aeref srv]) k d ∧
      (d.permissive ∨ d.allowed.getLsbD p = true ∨ Granted ov ops k p) := by
  have h := inv_run n enf ov ops hv
  rcases hasPerm_cases (req := req) (aeref := aeref) (srv := srv) h hk with
    ⟨t, i, e, hi, hen, hil, hkey, hdec⟩ | ⟨t, rc, e, hi, hen, hc⟩
  · obtain ⟨d, h1, h2, h3, h4⟩ := hasPerm_entry hi hil hkey hdec
    refine ⟨d, h1, ?_⟩
    by_cases hper : d.permissive
    · exact Or.inl hper
    · rw [e, (finish_cases t req i).1] at hp
      exact Or.inr ((h4 (hen.trans he) hper p).1 hp)
  · rw [e] at hp
    simp [avdInit] at hp

/-- In permissive mode the grant is remembered; after the switch it is gone. -/
example :
    let s := run (init 2 false false) (exOps.take 1)
    (hasPerm s exKey 2 none Srv.other).avd.allowed.getLsbD 1 = true ∧
    (hasPerm (run s [Op.setenforce true]) exKey 1 none (Srv.ans exAvd)).avd.allowed.getLsbD 1 = false ∧
    (hasPerm (run s [Op.setenforce true]) exKey 1 none (Srv.ans exAvd)).avd.allowed.getLsbD 0 = true := by
  decide +kernel

/-- The switch itself empties the cache, and makes every entry reference useless. -/
theorem C27_switch (n : Nat) (enf : Bool) (ops : List Op) (hv : ∀ o ∈ ops, o.Valid)
    (k : Key) (req : AV) (aeref : Option Nat) (hk : k.ssid ≠ 0 ∧ k.tsid ≠ 0) :
    let s := run (init n enf false) (ops ++ [Op.setenforce true])
    s.enforcing = true ∧ linked s = [] ∧ refHit s k req aeref = none := by
  have h := inv_run n enf false ops hv
  intro s
  have hs : s = ssReset { run (init n enf false) ops with enforcing := true } 0 := by
    show run _ _ = _
    unfold run
    rw [List.foldl_append]
    simp only [List.foldl_cons, List.foldl_nil]
    change processSetenforce (run (init n enf false) ops) true = ssReset { run (init n enf false) ops with enforcing := true } 0
    have ho := h.ovr
    unfold processSetenforce
    rw [if_neg (by rw [ho]; simp), if_pos rfl]
  have hl : linked s = [] := by
    rw [hs]
    unfold ssReset notif
    rw [if_neg (Nat.not_lt_zero _)]
    exact linked_reset _
  refine ⟨by rw [hs, ssReset_enforcing], hl, ?_⟩
  have h' := inv_run n enf false (ops ++ [Op.setenforce true]) (by
    intro o ho
    rcases List.mem_append.1 ho with x | x
    · exact hv o x
    · rw [List.mem_singleton.1 x]; trivial)
  cases hr : refHit s k req aeref with
  | none => rfl
  | some i =>
    have := (refHit_some h'.wf hk.1 hr).1
    rw [show linked (run (init n enf false) (ops ++ [Op.setenforce true])) = [] from hl] at this
    simp at this

/-! ## C28: decisions older than a policy change are not cached -/

/-- Every entry in the cache comes from a decision the kernel gave for its triple since the last
flush, whose sequence number was not smaller than any announced before; the entry keeps that
decision's sequence number. -/
theorem C28_fresh (n : Nat) (enf ov : Bool) (ops : List Op) (hv : ∀ o ∈ ops, o.Valid) (i : Nat)
    (hi : i ∈ linked (run (init n enf ov) ops)) :
    let e := (run (init n enf ov) ops).node i
    ∃ d, Accepted ov ops e.key d ∧ e.avd.seqno = d.seqno ∧ e.avd.decided = d.decided ∧
      e.avd.flags = d.flags := by
  obtain ⟨⟨d, h1, h2, h3, h4, _⟩, _⟩ := (inv_run n enf ov ops hv).good i hi
  exact ⟨d, h1, h4, h2, h3⟩

example : (linked (run (init 2 false false) exOps)).length = 1 := by decide +kernel

/-- A decision older than an announcement is refused: the check fails with EAGAIN and the cache
holds the same entries as before. -/
theorem C28_stale (n : Nat) (enf ov : Bool) (ops : List Op) (hv : ∀ o ∈ ops, o.Valid)
    (k : Key) (req : AV) (aeref : Option Nat) (d : Avd) (hk : k.ssid ≠ 0 ∧ k.tsid ≠ 0)
    (hd : d.seqno < announced ops)
    (hno : ∀ i ∈ linked (run (init n enf ov) ops), ((run (init n enf ov) ops).node i).key = k →
      ((run (init n enf ov) ops).node i).avd.decided &&& req ≠ req) :
    (hasPerm (run (init n enf ov) ops) k req aeref (Srv.ans d)).rc = Rc.eagain ∧
    linked (hasPerm (run (init n enf ov) ops) k req aeref (Srv.ans d)).cache =
      linked (run (init n enf ov) ops) := by
  have h := inv_run n enf ov ops hv
  generalize run (init n enf ov) ops = s at *
  unfold hasPerm
  cases hr : refHit s k req aeref with
  | some i =>
    obtain ⟨a, b, c⟩ := refHit_some h.wf hk.1 hr
    exact absurd c (hno i a b)
  | none =>
    dsimp only
    cases hl : lookup s k req with
    | mk s1 o =>
      cases o with
      | some i =>
        obtain ⟨_, a, b, c⟩ := lookup_some hl
        exact absurd c (hno i a b)
      | none =>
        obtain ⟨_, _, e⟩ := h.lookup hl
        dsimp only
        have : insert s1 k d = (s1, Rc.eagain, none) := by
          unfold insert
          rw [if_pos (by rw [e, h.latest]; exact hd)]
        rw [this]
        refine ⟨rfl, ?_⟩
        rcases lookup_none hl with rfl | ⟨i, _, rfl⟩
        · rfl
        · rfl

theorem linked_policyload (n : Nat) (enf ov : Bool) (ops : List Op) (hv : ∀ o ∈ ops, o.Valid) (q : Nat) :
    linked (run (init n enf ov) (ops ++ [Op.policyload q])) = [] := by
  have := ((inv_run n enf ov ops hv).flush (o := Op.policyload q) (n := q) rfl).2.2
  unfold run at this ⊢
  rw [List.foldl_append]
  exact this

example : exAvd.seqno < announced (exOps ++ [Op.policyload 5]) ∧
    linked (run (init 2 true false) (exOps ++ [Op.policyload 5])) = [] := by
  refine ⟨by decide +kernel, linked_policyload 2 true false exOps ?_ 5⟩
  intro o ho
  simp only [exOps, List.mem_cons, List.not_mem_nil, or_false] at ho
  rcases ho with rfl | rfl | rfl <;> simp [Op.Valid, exKey]

/-- The permissions the callbacks retain: those retained by a callback that listens to the event,
concerns this triple and one of the permissions, and succeeds. -/
theorem C28_retained (cbs : List Callback) (ev : Event) (k : Key) (perms : AV) (p : Nat) :
    (retained cbs ev k perms).getLsbD p = true ↔
      ∃ c ∈ cbs, c.listens ev = true ∧ (c.ssid = k.ssid ∨ c.ssid = 0 ∨ k.ssid = 0) ∧
        (c.tsid = k.tsid ∨ c.tsid = 0 ∨ k.tsid = 0) ∧ c.tclass = k.tclass ∧
        c.perms &&& perms ≠ 0 ∧ c.fails = false ∧ c.retained.getLsbD p = true := by
  unfold retained
  have hcond : ∀ c : Callback, (c.listens ev && sidcmp c.ssid k.ssid && sidcmp c.tsid k.tsid &&
      c.tclass == k.tclass && (c.perms &&& perms) != 0 && !c.fails) = true ↔
      (c.listens ev = true ∧ (c.ssid = k.ssid ∨ c.ssid = 0 ∨ k.ssid = 0) ∧
        (c.tsid = k.tsid ∨ c.tsid = 0 ∨ k.tsid = 0) ∧ c.tclass = k.tclass ∧
        c.perms &&& perms ≠ 0 ∧ c.fails = false) := by
    intro c
    simp only [sidcmp, Bool.and_eq_true, Bool.or_eq_true, beq_iff_eq, bne_iff_ne, ne_eq,
      Bool.not_eq_true', or_assoc, and_assoc]
  have gen : ∀ (l : List Callback) (acc : AV),
      (l.foldl (fun acc c =>
        if c.listens ev && sidcmp c.ssid k.ssid && sidcmp c.tsid k.tsid && c.tclass == k.tclass &&
            (c.perms &&& perms) != 0 && !c.fails then acc ||| c.retained
        else acc) acc).getLsbD p = true ↔ acc.getLsbD p = true ∨
        ∃ c ∈ l, (c.listens ev && sidcmp c.ssid k.ssid && sidcmp c.tsid k.tsid &&
          c.tclass == k.tclass && (c.perms &&& perms) != 0 && !c.fails) = true ∧
          c.retained.getLsbD p = true := by
    intro l
    induction l with
    | nil => simp
    | cons c l ih =>
      intro acc
      rw [List.foldl_cons, ih]
      simp only [List.mem_cons, exists_eq_or_imp]
      cases (c.listens ev && sidcmp c.ssid k.ssid && sidcmp c.tsid k.tsid && c.tclass == k.tclass &&
            (c.perms &&& perms) != 0 && !c.fails) with
      | true => simp [or_assoc]
      | false => simp
  rw [gen]
  have hz : (0 : AV).getLsbD p = false := by simp
  rw [hz]
  simp only [Bool.false_eq_true, false_or, hcond, and_assoc]

example : (retained [⟨fun _ => true, 0, 2, 1, 3, false, 2⟩] Event.tryRevoke exKey 2).getLsbD 1 = true := by
  decide +kernel

/-- What a control event does to a permission bit `b` of the field it concerns, when `q` says
whether the permission is named. -/
def eventBit (ev : Event) (b q : Bool) : Bool :=
  match ev with
  | Event.grant | Event.auditallowEnable | Event.auditdenyEnable => b || q
  | Event.revoke | Event.tryRevoke | Event.auditallowDisable | Event.auditdenyDisable => b && !q

/-- The field of a decision a control event concerns: 0 `allowed`, 1 `auditallow`, 2 `auditdeny`. -/
def eventField : Event → Nat
  | Event.grant | Event.revoke | Event.tryRevoke => 0
  | Event.auditallowEnable | Event.auditallowDisable => 1
  | Event.auditdenyEnable | Event.auditdenyDisable => 2

/-- The three permission vectors of a decision. -/
def Avd.field (d : Avd) : Nat → AV
  | 0 => d.allowed
  | 1 => d.auditallow
  | _ => d.auditdeny

/-- A control event (grant, revoke, try_revoke, and the audit events) changes exactly the named
permissions (for try_revoke: those that no callback retains) of the concerned field of exactly
the entries for the triples it covers.  Proved for wildcard events, and for events that name
a triple with at most one cached entry. -/
theorem C28_control_partial (n : Nat) (enf ov : Bool) (ops : List Op) (hv : ∀ o ∈ ops, o.Valid)
    (ev : Event) (k : Key) (perms : AV) (seqno : Nat) (cbs : List Callback)
    (hu : k.ssid = 0 ∨ k.tsid = 0 ∨
      ∀ i ∈ linked (run (init n enf ov) ops), ∀ j ∈ linked (run (init n enf ov) ops),
        ((run (init n enf ov) ops).node i).key = k → ((run (init n enf ov) ops).node j).key = k → i = j) :
    let s := run (init n enf ov) ops
    let s' := run (init n enf ov) (ops ++ [Op.control ev k perms seqno cbs])
    linked s' = linked s ∧ ∀ i ∈ linked s,
      (s'.node i).key = (s.node i).key ∧
      (¬ Covers k (s.node i).key → (s'.node i).avd = (s.node i).avd) ∧
      (Covers k (s.node i).key →
        (s'.node i).avd.decided = (s.node i).avd.decided ∧ (s'.node i).avd.seqno = (s.node i).avd.seqno ∧
        (s'.node i).avd.flags = (s.node i).avd.flags ∧
        ∀ f < 3, ∀ p < 32, ((s'.node i).avd.field f).getLsbD p =
          if f = eventField ev then
            eventBit ev (((s.node i).avd.field f).getLsbD p)
              (perms.getLsbD p && !(decide (ev = Event.tryRevoke) && (retained cbs ev k perms).getLsbD p))
          else ((s.node i).avd.field f).getLsbD p) := by
  have h := inv_run n enf ov ops hv
  intro s s'
  have hs' : s' = (control s ev k perms seqno cbs).1 := by
    show run _ _ = _
    unfold run
    rw [List.foldl_append]
    rfl
  obtain ⟨perms', hp', hc⟩ : ∃ perms' : AV,
      (∀ p < 32, perms'.getLsbD p =
        (perms.getLsbD p && !(decide (ev = Event.tryRevoke) && (retained cbs ev k perms).getLsbD p))) ∧
      (control s ev k perms seqno cbs).1 = notif (updateCache s ev k perms') seqno := by
    unfold control
    by_cases ht : ev = Event.tryRevoke
    · simp only [ht, if_true]
      refine ⟨_, ?_, rfl⟩
      intro p hp
      simp [BitVec.getLsbD_and, BitVec.getLsbD_not, hp]
    · simp only [ht, if_false]
      refine ⟨_, ?_, rfl⟩
      intro p hp
      simp
  have hnode : ∀ t q, (notif t q).node = t.node ∧ (notif t q).slots = t.slots := by
    intro t q
    unfold notif
    split <;> exact ⟨rfl, rfl⟩
  have hn : s'.node = (updateCache s ev k perms').node := by rw [hs', hc]; exact (hnode _ _).1
  have hl : linked s' = linked s := by
    refine linked_of_slots ?_
    rw [hs', hc, (hnode _ _).2]
    exact (updateCache_same h.wf).slots
  refine ⟨hl, fun i hi => ?_⟩
  rw [hn]
  obtain ⟨x1, x2⟩ := updateCache_exact (ev := ev) (perms := perms') h.wf hu i hi
  refine ⟨?_, x2, ?_⟩
  · obtain ⟨u, ⟨y, _⟩ | ⟨_, _, y⟩⟩ := updateCache_node (ev := ev) (k := k) (perms := perms') h.wf i
    · rw [y]; rfl
    · rw [y]; exact (updateNode_key ev perms' _).1
  · intro hcov
    rw [x1 hcov]
    refine ⟨by cases ev <;> rfl, by cases ev <;> rfl, by cases ev <;> rfl, ?_⟩
    intro f hf p hp
    rw [← hp' p hp]
    have : f = 0 ∨ f = 1 ∨ f = 2 := by omega
    rcases this with rfl | rfl | rfl <;> cases ev <;>
      simp [updateNode, Avd.field, eventField, eventBit, BitVec.getLsbD_and, BitVec.getLsbD_or,
        BitVec.getLsbD_not, hp] <;> rfl

/-- A revocation that names one cached triple, and one by wildcard. -/
example :
    let s := run (init 2 true false) [Op.check exKey 1 none (Srv.ans exAvd)]
    (∀ i ∈ linked s, ∀ j ∈ linked s, (s.node i).key = exKey → (s.node j).key = exKey → i = j) ∧
    (hasPerm (run s [Op.control Event.revoke exKey 1 0 []]) exKey 1 none Srv.other).rc = Rc.eacces ∧
    (hasPerm (run s [Op.control Event.revoke ⟨0, 2, 1⟩ 1 0 []]) exKey 1 none Srv.other).rc = Rc.eacces := by
  decide +kernel

/-- A decision that decides only part of the request is inserted beside the entry that is already
there (avc.c:790-801), and a revocation that names the triple then only finds the newer entry: a
caller that holds a reference to the older one is still granted the revoked permission. -/
theorem C28_duplicate_refuted :
    let d : Avd := ⟨1, 1, 0, 0xffffffff#32, 0, 0⟩
    let s := run (init 2 true false)
      [Op.check exKey 1 none (Srv.ans d), Op.check exKey 2 none (Srv.ans d),
       Op.control Event.revoke exKey 1 0 []]
    (hasPerm (run (init 2 true false) [Op.check exKey 1 none (Srv.ans d)]) exKey 1 none Srv.other).aeref = some 1 ∧
    (hasPerm s exKey 1 (some 1) Srv.other).rc = Rc.ok := by
  decide +kernel

/-! ## C29: capacity and count -/

/-- The cache never holds more than AVC_CACHE_MAXNODES entries (nor more than it has nodes), no
node is in it twice, and `active_nodes` is the number of entries. -/
theorem C29_capacity (n : Nat) (enf ov : Bool) (ops : List Op) (hv : ∀ o ∈ ops, o.Valid) :
    let s := run (init n enf ov) ops
    (linked s).Nodup ∧ (linked s).length ≤ min n 410 ∧ s.active.toNat = (linked s).length ∧
    (linked s).length + s.free.length = min n 410 ∧ (∀ i ∈ linked s, i ∉ s.free) := by
  have w := (inv_run n enf ov ops hv).wf
  intro s
  have hlen := w.perm.length_eq
  rw [List.length_append, List.length_range] at hlen
  have hnd := w.nodup
  rw [List.nodup_append] at hnd
  have hle : (linked s).length ≤ min n 410 := by
    show _ ≤ min n maxNodes
    have : (linked s).length + s.free.length = min n maxNodes := hlen
    omega
  refine ⟨hnd.1, hle, ?_, hlen, ?_⟩
  · have hc : s.active = BitVec.ofNat 32 (linked s).length := w.count
    rw [hc, BitVec.toNat_ofNat]
    omega
  · intro i hi hf
    exact hnd.2.2 i hi i hf rfl

/-- Three decisions in a cache of two nodes: one is evicted. -/
example :
    let s := run (init 2 true false) [Op.check ⟨1, 2, 1⟩ 1 none (Srv.ans exAvd),
      Op.check ⟨1, 3, 1⟩ 1 none (Srv.ans exAvd), Op.check ⟨1, 4, 1⟩ 1 none (Srv.ans exAvd)]
    (linked s).length = 2 ∧ s.active = 2 ∧
    (linked s).map (fun i => (s.node i).tsid) = [3, 4] := by
  decide +kernel

/-! ## C31: the SID table -/

/-- For every history of `avc_context_to_sid` calls: two successful calls return the same SID
exactly when they were given the same context; `avc_sid_to_context` gives the context back; a call
fails only when memory runs out or 2^32-2 SIDs have been given out. -/
theorem C31_bijection (ops : List (Ctx × Bool)) :
    let r := SidTab.init.run ops
    r.2.length = ops.length ∧
    (∀ (i j : Nat) (c c' : Ctx) (m m' : Bool) (x y : Nat), ops[i]? = some (c, m) → ops[j]? = some (c', m') →
      r.2[i]? = some (some x) → r.2[j]? = some (some y) → (x = y ↔ c = c')) ∧
    (∀ (i : Nat) (c : Ctx) (m : Bool) (x : Nat), ops[i]? = some (c, m) → r.2[i]? = some (some x) →
      x ≠ 0 ∧ x < 2 ^ 32 ∧ r.1.sidToContext x = some c) ∧
    (∀ (i : Nat) (c : Ctx) (m : Bool), ops[i]? = some (c, m) → r.2[i]? = some none →
      m = false ∨ 2 ^ 32 - 2 ≤ i) := by
  intro r
  obtain ⟨M, r1, l, a, b, _⟩ := sidRepr_init.run ops
  simp only [List.nil_append, List.length_nil, Nat.zero_add] at r1 a b
  have hnel := SidRepr.nel_le ops
  refine ⟨l, ?_, ?_, b⟩
  · intro i j c c' m m' x y h1 h2 h3 h4
    obtain ⟨p, hp, rfl⟩ := a i c m x h1 h3
    obtain ⟨q, hq, rfl⟩ := a j c' m' y h2 h4
    constructor
    · intro e
      have : p = q := by omega
      subst this
      rw [hp] at hq
      simpa using hq
    · rintro rfl
      rw [idx_unique r1.nodup hp hq]
  · intro i c m x h1 h2
    obtain ⟨p, hp, rfl⟩ := a i c m x h1 h2
    refine ⟨by omega, ?_, r1.sidToContext hp⟩
    have := (List.getElem?_eq_some_iff.1 hp).1
    rw [← r1.nel] at this
    omega

example : (SidTab.init.run [([1, 2], true), ([3], true), ([1, 2], false), ([4], false)]).2 =
    [some 1, some 2, some 1, none] := by decide +kernel

/-! ## C53: the context of new objects -/

/-- `avc_compute_create` returns a SID only if the kernel computed that context for this very
triple since the last flush. -/
theorem C53_create (n : Nat) (enf ov : Bool) (ops : List Op) (hv : ∀ o ∈ ops, o.Valid)
    (k : Key) (srv : Srv) (new : Option Sid) (hk : k.ssid ≠ 0 ∧ k.tsid ≠ 0) (c : Sid)
    (hc : (computeCreate (run (init n enf ov) ops) k srv new).2 = some c) :
    Since ov (ops ++ [Op.create k srv new]) (Op.creates k c) :=
  (computeCreate_spec (inv_run n enf ov ops hv) hk).2.2 c hc

example : (computeCreate (run (init 2 true false) [Op.create exKey (Srv.ans exAvd) (some 7)]) exKey Srv.other none).2 =
    some 7 ∧
    (computeCreate (run (init 2 true false) [Op.create exKey (Srv.ans exAvd) (some 7), Op.policyload 0])
      exKey (Srv.ans exAvd) (some 8)).2 = some 8 := by
  decide +kernel

/-! ## C54: what is audited -/

/-- Some requested permission is not allowed. -/
def SomeDenied (req : AV) (d : Avd) : Prop := ∃ p, req.getLsbD p = true ∧ d.allowed.getLsbD p = false

/-- The permissions an audit message lists: if some requested permission is not allowed, those of
them the policy wants audited; otherwise, if the check failed, all that were requested;
otherwise those the policy wants audited when allowed. -/
def Audited (req : AV) (d : Avd) (failed : Bool) (p : Nat) : Prop :=
  req.getLsbD p = true ∧
    ((SomeDenied req d ∧ d.allowed.getLsbD p = false ∧ d.auditdeny.getLsbD p = true) ∨
     (¬ SomeDenied req d ∧ failed = true) ∨
     (¬ SomeDenied req d ∧ failed = false ∧ d.auditallow.getLsbD p = true))

theorem someDenied_iff (req : AV) (d : Avd) : SomeDenied req d ↔ req &&& ~~~d.allowed ≠ 0 := by
  unfold SomeDenied
  rw [Ne, subset_iff]
  constructor
  · rintro ⟨p, h1, h2⟩ h
    rw [h p h1] at h2; cases h2
  · intro h
    by_contra hn
    refine h fun p hp => ?_
    by_contra hq
    exact hn ⟨p, hp, by simpa using hq⟩

theorem zero_iff (a : AV) : a = 0 ↔ ∀ p, ¬ a.getLsbD p = true := by
  constructor
  · rintro rfl p; simp
  · intro h
    apply BitVec.eq_of_getLsbD_eq
    intro p _
    have := h p
    simpa using this

/-- Nothing is written exactly when no permission is to be audited; otherwise the message lists
exactly the audited permissions, says `denied` exactly when the check failed or some requested
permission is not allowed, and then tells in the field `permissive` whether the check
succeeded nevertheless. -/
theorem C54_audit (req : AV) (d : Avd) (failed : Bool) :
    (audit req d failed = none ↔ ∀ p, ¬ Audited req d failed p) ∧
    ∀ l, audit req d failed = some l →
      (∀ p, l.audited.getLsbD p = true ↔ Audited req d failed p) ∧
      (l.denied = true ↔ failed = true ∨ SomeDenied req d) ∧
      (l.denied = true → l.permissive = some (!failed)) ∧ (l.denied = false → l.permissive = none) := by
  have hbit : ∀ p, (req &&& ~~~d.allowed).getLsbD p = true ↔
      req.getLsbD p = true ∧ d.allowed.getLsbD p = false := by
    intro p
    rw [BitVec.getLsbD_and, BitVec.getLsbD_not]
    by_cases hp : p < 32
    · simp [hp]
    · simp [BitVec.getLsbD_of_ge req p (by omega)]
  unfold audit
  dsimp only
  by_cases h1 : req &&& ~~~d.allowed ≠ 0
  · have hsd := (someDenied_iff req d).2 h1
    rw [if_pos h1]
    have ha : ∀ p, (req &&& ~~~d.allowed &&& d.auditdeny).getLsbD p = true ↔ Audited req d failed p := by
      intro p
      unfold Audited
      rw [BitVec.getLsbD_and, Bool.and_eq_true, hbit]
      tauto
    dsimp only
    constructor
    · by_cases hz : req &&& ~~~d.allowed &&& d.auditdeny = 0
      · rw [if_pos hz]
        simp only [true_iff]
        intro p hp
        exact (zero_iff _).1 hz p ((ha p).2 hp)
      · rw [if_neg hz]
        simp only [reduceCtorEq, false_iff]
        intro hn
        exact hz ((zero_iff _).2 fun p hp => hn p ((ha p).1 hp))
    · intro l hl
      split at hl
      · cases hl
      · cases hl
        refine ⟨ha, ?_, ?_, ?_⟩
        · simp only [hsd, or_true, iff_true]
          exact decide_eq_true (Or.inl h1)
        · intro _; rfl
        · intro hd
          exact absurd (Or.inl h1) (of_decide_eq_false hd)
  · have hsd : ¬ SomeDenied req d := fun h => h1 ((someDenied_iff req d).1 h)
    rw [if_neg h1]
    by_cases h2 : req = 0 ∨ failed = true
    · rw [if_pos h2]
      dsimp only
      have ha : ∀ p, req.getLsbD p = true ↔ Audited req d failed p := by
        intro p
        unfold Audited
        constructor
        · intro h
          rcases h2 with h2 | h2
          · rw [h2] at h; simp at h
          · exact ⟨h, Or.inr (Or.inl ⟨hsd, h2⟩)⟩
        · exact fun h => h.1
      constructor
      · by_cases hz : req = 0
        · rw [if_pos hz]
          simp only [true_iff]
          intro p hp
          exact (zero_iff _).1 hz p ((ha p).2 hp)
        · rw [if_neg hz]
          simp only [reduceCtorEq, false_iff]
          intro hn
          exact hz ((zero_iff _).2 fun p hp => hn p ((ha p).1 hp))
      · intro l hl
        split at hl
        · cases hl
        · rename_i hz
          cases hl
          have hf := h2.resolve_left hz
          refine ⟨ha, ?_, ?_, ?_⟩
          · simp only [hf, true_or, iff_true]
            exact decide_eq_true (Or.inl hz)
          · intro _; rfl
          · intro hd
            exact absurd (Or.inl hz) (of_decide_eq_false hd)
    · rw [if_neg h2]
      dsimp only
      have hf : failed = false := by
        cases failed with
        | false => rfl
        | true => exact absurd (Or.inr rfl) h2
      have hr : req ≠ 0 := fun h => h2 (Or.inl h)
      have h1' : req &&& ~~~d.allowed = 0 := by simpa using h1
      have ha : ∀ p, (req &&& d.auditallow).getLsbD p = true ↔ Audited req d failed p := by
        intro p
        unfold Audited
        rw [BitVec.getLsbD_and, Bool.and_eq_true, hf]
        simp [hsd]
      constructor
      · by_cases hz : req &&& d.auditallow = 0
        · rw [if_pos hz]
          simp only [true_iff]
          intro p hp
          exact (zero_iff _).1 hz p ((ha p).2 hp)
        · rw [if_neg hz]
          simp only [reduceCtorEq, false_iff]
          intro hn
          exact hz ((zero_iff _).2 fun p hp => hn p ((ha p).1 hp))
      · intro l hl
        split at hl
        · cases hl
        · cases hl
          refine ⟨ha, ?_, ?_, ?_⟩
          · have hno : ¬ (req &&& ~~~d.allowed ≠ 0 ∨ req = 0) := fun h => h.elim h1 hr
            simp only [hf, hsd, Bool.false_eq_true, or_self, iff_false]
            rw [decide_eq_false hno]; simp
          · intro hd
            exact absurd (of_decide_eq_true hd) (fun h => h.elim h1 hr)
          · intro _; rfl

example : audit 3 exAvd true = some ⟨true, 2, some false⟩ ∧ audit 1 exAvd false = none := by decide +kernel

/-- A check that fails and writes nothing was either a request for no permission, or one whose
denied permissions the policy says not to audit; errors of the kernel are always reported. -/
theorem C54_failure (n : Nat) (enf ov : Bool) (ops : List Op) (hv : ∀ o ∈ ops, o.Valid)
    (k : Key) (req : AV) (aeref : Option Nat) (srv : Srv) (hk : k.ssid ≠ 0 ∧ k.tsid ≠ 0)
    (hf : (hasPermAudit (run (init n enf ov) ops) k req aeref srv).1.rc ≠ Rc.ok)
    (hl : (hasPermAudit (run (init n enf ov) ops) k req aeref srv).2 = none) :
    req = 0 ∨
    (hasPermAudit (run (init n enf ov) ops) k req aeref srv).1.rc = Rc.eacces ∧
      ∀ p, req.getLsbD p = true →
        (hasPermAudit (run (init n enf ov) ops) k req aeref srv).1.avd.allowed.getLsbD p = false →
        (hasPermAudit (run (init n enf ov) ops) k req aeref srv).1.avd.auditdeny.getLsbD p = false := by
  by_cases hr : req = 0
  · exact Or.inl hr
  · right
    have h := inv_run n enf ov ops hv
    unfold hasPermAudit at hl hf ⊢
    dsimp only at hl hf ⊢
    rw [decide_eq_true hf] at hl
    have hno := (C54_audit _ _ _).1.1 hl
    obtain ⟨q, hq⟩ : ∃ q, req.getLsbD q = true := by
      by_contra hn
      exact hr ((zero_iff _).2 fun p hp => hn ⟨p, hp⟩)
    have hsd : SomeDenied req (hasPerm (run (init n enf ov) ops) k req aeref srv).avd := by
      by_contra hs
      exact hno q ⟨hq, Or.inr (Or.inl ⟨hs, rfl⟩)⟩
    refine ⟨?_, ?_⟩
    · rcases hasPerm_cases (req := req) (aeref := aeref) (srv := srv) h hk with
        ⟨t, i, e, hi, hen, hil, hkey, hdec⟩ | ⟨t, rc, e, hi, hen, hc⟩
      · rw [e] at hf ⊢
        obtain ⟨_, _, ⟨hc, _⟩ | ⟨hc, _⟩⟩ := finish_cases t req i
        · exact absurd hc hf
        · exact hc
      · exfalso
        rw [e] at hno
        refine hno q ⟨hq, Or.inl ⟨⟨q, hq, by simp [avdInit]⟩, by simp [avdInit], ?_⟩⟩
        have hlt : q < 32 := BitVec.lt_of_getLsbD hq
        show (0xffffffff#32).getLsbD q = true
        have : (0xffffffff#32) = BitVec.allOnes 32 := by decide
        rw [this, BitVec.getLsbD_allOnes]
        simpa using hlt
    · intro p hp ha
      cases hd : (hasPerm (run (init n enf ov) ops) k req aeref srv).avd.auditdeny.getLsbD p with
      | false => rfl
      | true => exact absurd ⟨hp, Or.inl ⟨hsd, ha, hd⟩⟩ (hno p)

/-- A denial the policy says not to audit; a failure of the kernel; a request for nothing. -/
example :
    (hasPermAudit (run (init 2 true false) []) exKey 2 none (Srv.ans ⟨1, 3, 0, 0, 0, 0⟩)).2 = none ∧
    (hasPermAudit (run (init 2 true false) []) exKey 2 none Srv.other).2 = some ⟨true, 2, some false⟩ ∧
    (hasPermAudit (run (init 2 true false) []) exKey 0 none (Srv.ans exAvd)).1.rc = Rc.eacces ∧
    (hasPermAudit (run (init 2 true false) []) exKey 0 none (Srv.ans exAvd)).2 = none := by
  decide +kernel

end Verif.Avc
