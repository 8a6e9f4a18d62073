import Verif.Avc.Lemmas3
import Verif.Avc.World

/-! # Lemmas about the cache and the status page -/

namespace Verif.Avc

/-- An entry agrees with the policy it was computed from; `lo` and `hi` bound its version. -/
structure Fresh (srv : Nat → Key → Srv) (lo hi : Nat) (enf : Bool) (e : Entry) : Prop where
  low : lo ≤ e.avd.seqno
  high : e.avd.seqno ≤ hi
  src : ∃ d, srv e.avd.seqno e.key = Srv.ans d ∧ e.avd.decided = d.decided ∧ e.avd.flags = d.flags ∧
    (enf = true → ¬ d.permissive → e.avd.allowed = d.allowed)

theorem Fresh.used {srv lo hi enf e} (h : Fresh srv lo hi enf e) (u : Bool) :
    Fresh srv lo hi enf { e with used := u } := ⟨h.low, h.high, h.src⟩

theorem Fresh.create {srv lo hi enf e} (h : Fresh srv lo hi enf e) (c : Sid) :
    Fresh srv lo hi enf { e with createSid := c } := ⟨h.low, h.high, h.src⟩

theorem Fresh.mono {srv lo hi hi' enf e} (h : Fresh srv lo hi enf e) (hh : hi ≤ hi') :
    Fresh srv lo hi' enf e := ⟨h.low, Nat.le_trans h.high hh, h.src⟩

/-- The part of the invariant about the cache. -/
structure CInv (srv : Nat → Key → Srv) (m : Nat) (lo hi : Nat) (s : Cache) : Prop where
  wf : WF m s
  notif : s.latestNotif ≤ hi
  fresh : ∀ i ∈ linked s, Fresh srv lo hi s.enforcing (s.node i)

theorem CInv.mono {srv m lo hi hi' s} (h : CInv srv m lo hi s) (hh : hi ≤ hi') : CInv srv m lo hi' s :=
  ⟨h.wf, Nat.le_trans h.notif hh, fun i hm => (h.fresh i hm).mono hh⟩

theorem CInv.setUsed {srv m lo hi s i} (h : CInv srv m lo hi s) (hi' : i ∈ linked s) :
    CInv srv m lo hi (setUsed s i) := by
  refine ⟨h.wf.same (setUsed_same hi'), h.notif, ?_⟩
  intro j hj
  by_cases e : j = i
  · subst e
    simp only [Verif.Avc.setUsed, upd_same]
    exact (h.fresh j hj).used true
  · simp only [Verif.Avc.setUsed, upd_ne _ _ e]
    exact h.fresh j hj

theorem CInv.marked {srv m lo hi s s'} (h : CInv srv m lo hi s) (hm : Marked s s') :
    CInv srv m lo hi s' := by
  have hen : s'.enforcing = s.enforcing := by rw [hm.rest]
  refine ⟨h.wf.same hm.same, by rw [hm.rest]; exact h.notif, ?_⟩
  intro i hi
  rw [linked_of_slots hm.slots] at hi
  obtain ⟨u, hu⟩ := hm.node i
  rw [hu, hen]
  exact (h.fresh i hi).used u

theorem CInv.lookup {srv m lo hi s s1 k req o} (h : CInv srv m lo hi s)
    (hl : lookup s k req = (s1, o)) :
    CInv srv m lo hi s1 ∧ s1.enforcing = s.enforcing ∧ s1.override = s.override := by
  cases o with
  | none =>
    rcases lookup_none hl with rfl | ⟨i, hi, rfl⟩
    · exact ⟨h, rfl, rfl⟩
    · exact ⟨h.setUsed hi, rfl, rfl⟩
  | some i =>
    obtain ⟨rfl, hi, _, _⟩ := lookup_some hl
    exact ⟨h.setUsed hi, rfl, rfl⟩

theorem CInv.insert {srv m lo hi s s1 k d rc i} (h : CInv srv m lo hi s)
    (hk : k.ssid ≠ 0 ∧ k.tsid ≠ 0) (hs : srv d.seqno k = Srv.ans d) (h1 : lo ≤ d.seqno)
    (h2 : d.seqno ≤ hi) (hin : insert s k d = (s1, rc, some i)) :
    CInv srv m lo hi s1 ∧ s1.enforcing = s.enforcing ∧ s1.override = s.override ∧ i ∈ linked s1 ∧
      s1.node i = ⟨k.ssid, k.tsid, k.tclass, d, 0, true⟩ := by
  obtain ⟨w1, _, _, hil, hn, hoth, hmem, _, e1, e2, e3⟩ := insert_some h.wf hk hin
  refine ⟨⟨w1, by rw [e1]; exact h.notif, ?_⟩, e2, e3, hil, hn⟩
  intro j hj
  by_cases e : j = i
  · subst e
    rw [hn]
    exact ⟨h1, h2, d, hs, rfl, rfl, fun _ _ => rfl⟩
  · obtain ⟨u, hu⟩ := hoth j e
    rw [hu, e2]
    exact (h.fresh j ((hmem j e).1 hj)).used u

theorem CInv.finish {srv m lo hi s req i} (h : CInv srv m lo hi s) (hm : i ∈ linked s) :
    CInv srv m lo hi (finish s req i).cache ∧ (finish s req i).cache.enforcing = s.enforcing ∧
    (finish s req i).cache.override = s.override := by
  unfold Verif.Avc.finish
  dsimp only
  split
  · split
    · rename_i _ hc
      refine ⟨⟨h.wf.same (sameShape_upd hm rfl), h.notif, ?_⟩, rfl, rfl⟩
      intro j hj
      by_cases e : j = i
      · subst e
        simp only [upd_same]
        obtain ⟨a, b, d, h1, h2, h3, h4⟩ := h.fresh j hj
        refine ⟨a, b, d, h1, h2, h3, ?_⟩
        intro he hp
        exfalso
        rcases hc with hc | hc
        · rw [hc] at he; cases he
        · rw [h3] at hc; exact hp hc
      · simp only [upd_ne _ _ e]
        exact h.fresh j hj
    · exact ⟨h, rfl, rfl⟩
  · exact ⟨h, rfl, rfl⟩

/-- The result of evaluating an entry that agrees with the decision `d`. -/
theorem finish_rc {s : Cache} {req : AV} {i : Nat} {d : Avd} (hf : (s.node i).avd.flags = d.flags)
    (ha : s.enforcing = true → ¬ d.permissive → (s.node i).avd.allowed = d.allowed) :
    (finish s req i).rc = verdict s.enforcing (Srv.ans d) req := by
  unfold finish verdict
  dsimp only
  rw [hf]
  by_cases hp : s.enforcing = false ∨ d.permissive
  · rw [if_pos hp]
    have hp' : s.enforcing = false ∨ d.flags &&& flagPermissive ≠ 0 := hp
    by_cases hc : req = 0 ∨ req &&& ~~~(s.node i).avd.allowed ≠ 0
    · rw [if_pos hc, if_pos hp']
    · rw [if_neg hc]
  · rw [if_neg hp]
    have hp' : ¬ (s.enforcing = false ∨ d.flags &&& flagPermissive ≠ 0) := hp
    have he : s.enforcing = true := by
      cases h : s.enforcing with
      | true => rfl
      | false => exact absurd (Or.inl h) hp
    rw [ha he (fun x => hp (Or.inr x))]
    by_cases hc : req = 0 ∨ req &&& ~~~d.allowed ≠ 0
    · rw [if_pos hc, if_neg hp', if_neg]
      rintro ⟨h1, h2⟩
      rcases hc with hc | hc
      · exact h1 hc
      · exact hc h2
    · rw [if_neg hc, if_pos]
      constructor
      · exact fun e => hc (Or.inl e)
      · by_contra e; exact hc (Or.inr e)

/-- A check whose cache is at most as old as `lo` answers like the policy of some version
between `lo` and the present one, `hi`. -/
theorem CInv.check {srv m lo hi s k req aeref} (hst : Stamped srv) (hm : 0 < m)
    (h : CInv srv m lo hi s) (hlh : lo ≤ hi) (hk : k.ssid ≠ 0 ∧ k.tsid ≠ 0) :
    CInv srv m lo hi (hasPerm s k req aeref (srv hi k)).cache ∧
    (hasPerm s k req aeref (srv hi k)).cache.enforcing = s.enforcing ∧
    (hasPerm s k req aeref (srv hi k)).cache.override = s.override ∧
    ∃ v, lo ≤ v ∧ v ≤ hi ∧ (hasPerm s k req aeref (srv hi k)).rc = verdict s.enforcing (srv v k) req := by
  have key : ∀ (t : Cache) (i : Nat), CInv srv m lo hi t → i ∈ linked t → (t.node i).key = k →
      CInv srv m lo hi (Verif.Avc.finish t req i).cache ∧
      (Verif.Avc.finish t req i).cache.enforcing = t.enforcing ∧
      (Verif.Avc.finish t req i).cache.override = t.override ∧
      ∃ v, lo ≤ v ∧ v ≤ hi ∧ (Verif.Avc.finish t req i).rc = verdict t.enforcing (srv v k) req := by
    intro t i ht hi' hkey
    obtain ⟨f1, f2, f3⟩ := ht.finish (req := req) hi'
    obtain ⟨a, b, d, h1, h2, h3, h4⟩ := ht.fresh i hi'
    refine ⟨f1, f2, f3, (t.node i).avd.seqno, a, b, ?_⟩
    rw [hkey] at h1
    rw [h1]
    exact finish_rc h3 h4
  unfold hasPerm
  cases hr : refHit s k req aeref with
  | some i =>
    obtain ⟨h1, h2, h3⟩ := refHit_some h.wf hk.1 hr
    exact key (Verif.Avc.setUsed s i) i (h.setUsed h1) h1 (by simpa [Verif.Avc.setUsed, Entry.key] using h2)
  | none =>
    dsimp only
    cases hl : Verif.Avc.lookup s k req with
    | mk s1 o =>
      obtain ⟨i1, e1, o1⟩ := h.lookup hl
      rw [← e1, ← o1]
      cases o with
      | some i =>
        obtain ⟨rfl, h1, h2, h3⟩ := lookup_some hl
        exact key (Verif.Avc.setUsed s i) i i1 h1 (by simpa [Verif.Avc.setUsed, Entry.key] using h2)
      | none =>
        dsimp only
        cases hv : srv hi k with
        | einval =>
          dsimp only
          by_cases he : s1.enforcing = false
          · rw [if_pos he]
            exact ⟨i1, rfl, rfl, hi, hlh, Nat.le_refl _, by rw [hv]; simp [verdict, he]⟩
          · rw [if_neg he]
            exact ⟨i1, rfl, rfl, hi, hlh, Nat.le_refl _, by rw [hv]; simp [verdict, he]⟩
        | other => exact ⟨i1, rfl, rfl, hi, hlh, Nat.le_refl _, by rw [hv]; rfl⟩
        | ans d =>
          dsimp only
          have hsq := hst hi k d hv
          cases hin : Verif.Avc.insert s1 k d with
          | mk s2 p =>
            obtain ⟨rc, oi⟩ := p
            cases oi with
            | some i =>
              obtain ⟨i2, e2, o2, hil, hn⟩ := i1.insert hk (by rw [hsq]; exact hv)
                (by rw [hsq]; exact hlh) (by rw [hsq]; exact Nat.le_refl _) hin
              rw [← e2, ← o2]
              exact key s2 i i2 hil (by rw [hn]; cases k; rfl)
            | none =>
              exfalso
              obtain ⟨_, hc⟩ := insert_none i1.wf hin
              rcases hc with ⟨_, b⟩ | ⟨_, b⟩
              · have := i1.notif
                omega
              · omega

theorem CInv.create {srv m lo hi s k new} (hst : Stamped srv)
    (h : CInv srv m lo hi s) (hlh : lo ≤ hi) (hk : k.ssid ≠ 0 ∧ k.tsid ≠ 0) :
    CInv srv m lo hi (computeCreate s k (srv hi k) new).1 ∧
    (computeCreate s k (srv hi k) new).1.enforcing = s.enforcing ∧
    (computeCreate s k (srv hi k) new).1.override = s.override := by
  have key : ∀ (t : Cache) (i : Nat), CInv srv m lo hi t → i ∈ linked t →
      CInv srv m lo hi (createSaved t i new).1 ∧ (createSaved t i new).1.enforcing = t.enforcing ∧
      (createSaved t i new).1.override = t.override := by
    intro t i ht hi'
    unfold createSaved
    split
    · cases new with
      | none => exact ⟨ht, rfl, rfl⟩
      | some c =>
        refine ⟨⟨ht.wf.same (sameShape_upd hi' rfl), ht.notif, ?_⟩, rfl, rfl⟩
        intro j hj
        by_cases e : j = i
        · subst e
          simp only [upd_same]
          exact (ht.fresh j hj).create c
        · simp only [upd_ne _ _ e]
          exact ht.fresh j hj
    · exact ⟨ht, rfl, rfl⟩
  unfold computeCreate
  cases hl : Verif.Avc.lookup s k 0 with
  | mk s1 o =>
    obtain ⟨i1, e1, o1⟩ := h.lookup hl
    rw [← e1, ← o1]
    cases o with
    | some i =>
      obtain ⟨rfl, h1, h2, h3⟩ := lookup_some hl
      exact key (Verif.Avc.setUsed s i) i i1 h1
    | none =>
      dsimp only
      cases hv : srv hi k with
      | einval => exact ⟨i1, rfl, rfl⟩
      | other => exact ⟨i1, rfl, rfl⟩
      | ans d =>
        dsimp only
        have hsq := hst hi k d hv
        cases hin : Verif.Avc.insert s1 k d with
        | mk s2 p =>
          obtain ⟨rc, oi⟩ := p
          cases oi with
          | some i =>
            obtain ⟨i2, e2, o2, hil, hn⟩ := i1.insert hk (by rw [hsq]; exact hv)
              (by rw [hsq]; exact hlh) (by rw [hsq]; exact Nat.le_refl _) hin
            rw [← e2, ← o2]
            exact key s2 i i2 hil
          | none =>
            obtain ⟨hm, _⟩ := insert_none i1.wf hin
            exact ⟨i1.marked hm, by rw [hm.rest], by rw [hm.rest]⟩

theorem CInv.ssReset {srv m lo hi s} (h : WF m s) (hn : s.latestNotif ≤ hi) (n : Nat) (hn' : n ≤ hi) :
    CInv srv m lo hi (ssReset s n) ∧ (Verif.Avc.ssReset s n).override = s.override ∧
    (Verif.Avc.ssReset s n).enforcing = s.enforcing := by
  obtain ⟨w, hz⟩ := h.reset
  have hl := linked_reset s
  have e1 : (reset s).latestNotif = s.latestNotif := by rw [reset_eq]
  have e2 : (reset s).override = s.override := by rw [reset_eq]
  have e3 : (reset s).enforcing = s.enforcing := by rw [reset_eq]
  unfold Verif.Avc.ssReset Verif.Avc.notif
  split
  · refine ⟨⟨⟨w.perm, w.unlinked, w.bucket, w.nonnull, w.count, w.hint⟩, hn', ?_⟩, e2, e3⟩
    intro i hi
    have : i ∈ linked (reset s) := hi
    rw [hl] at this; simp at this
  · refine ⟨⟨w, by rw [e1]; exact hn, ?_⟩, e2, e3⟩
    intro i hi; rw [hl] at hi; simp at hi

/-- The invariant after the first look at the status page. -/
structure WInv (srv : Nat → Key → Srv) (m : Nat) (opt : Option Bool) (w : World) : Prop where
  cache : CInv srv m w.lastPolicyload w.kernel.version w.cache
  ovr : w.cache.override = opt.isSome
  fixed : ∀ b, opt = some b → w.cache.enforcing = b
  last : w.lastPolicyload ≤ w.kernel.version
  seq : ∃ q, w.lastSeq = some q ∧ q ≤ w.kernel.sequence ∧
    (q = w.kernel.sequence → w.lastPolicyload = w.kernel.version ∧
      (opt = none → w.cache.enforcing = w.kernel.enforcing))

theorem kernel_mono (mid : List KOp) (k : Kernel) :
    k.version ≤ (mid.foldl Kernel.step k).version ∧ k.sequence ≤ (mid.foldl Kernel.step k).sequence ∧
    (mid.foldl Kernel.step k = k ∨ k.sequence < (mid.foldl Kernel.step k).sequence) := by
  induction mid generalizing k with
  | nil => exact ⟨Nat.le_refl _, Nat.le_refl _, Or.inl rfl⟩
  | cons o mid ih =>
    rw [List.foldl_cons]
    obtain ⟨h1, h2, _⟩ := ih (k.step o)
    have h3 : k.version ≤ (k.step o).version ∧ k.sequence + 2 = (k.step o).sequence := by
      cases o with
      | setenforce b => exact ⟨Nat.le_refl _, rfl⟩
      | load => exact ⟨Nat.le_succ _, rfl⟩
    exact ⟨by omega, by omega, Or.inr (by omega)⟩

theorem WInv.kernelSteps {srv m opt w} (h : WInv srv m opt w) (mid : List KOp) :
    WInv srv m opt (kernelSteps w mid) := by
  obtain ⟨h1, h2, h3⟩ := kernel_mono mid w.kernel
  obtain ⟨q, e1, e2, e3⟩ := h.seq
  refine ⟨h.cache.mono h1, h.ovr, h.fixed, Nat.le_trans h.last h1, q, e1, Nat.le_trans e2 h2, ?_⟩
  intro hq
  unfold Verif.Avc.kernelSteps at hq ⊢
  dsimp only at hq ⊢
  rcases h3 with h3 | h3
  · rw [h3] at hq ⊢; exact e3 hq
  · omega

/-- Looking at the page when it has been looked at before. -/
theorem WInv.status {srv m opt w} (h : WInv srv m opt w) :
    WInv srv m opt (statusUpdated w ⟨true, true⟩) ∧
    (statusUpdated w ⟨true, true⟩).kernel = w.kernel ∧
    (statusUpdated w ⟨true, true⟩).lastPolicyload = w.kernel.version ∧
    (statusUpdated w ⟨true, true⟩).cache.enforcing = opt.getD w.kernel.enforcing := by
  obtain ⟨q, e1, e2, e3⟩ := h.seq
  have hmode : ∀ c : Cache, (∀ b, opt = some b → c.enforcing = b) → (opt = none → c.enforcing = w.kernel.enforcing) →
      c.enforcing = opt.getD w.kernel.enforcing := by
    intro c h1 h2
    cases opt with
    | none => exact h2 rfl
    | some b => exact h1 b rfl
  unfold statusUpdated
  dsimp only
  rw [e1, Option.getD_some]
  by_cases hq : q = w.kernel.sequence
  · rw [if_pos hq]
    obtain ⟨a, b⟩ := e3 hq
    refine ⟨⟨h.cache, h.ovr, h.fixed, h.last, q, rfl, e2, e3⟩, rfl, a, hmode _ h.fixed b⟩
  · rw [if_neg hq]
    simp only [Bool.not_true, Bool.and_false, Bool.false_eq_true, if_false, if_true]
    -- the mode
    have hc1 : ∀ c1, c1 = (if (w.cache.enforcing != w.kernel.enforcing) = true then
          processSetenforce w.cache w.kernel.enforcing else w.cache) →
        CInv srv m w.lastPolicyload w.kernel.version c1 ∧ c1.override = opt.isSome ∧
        (∀ b, opt = some b → c1.enforcing = b) ∧ (opt = none → c1.enforcing = w.kernel.enforcing) := by
      intro c1 hc
      by_cases hch : (w.cache.enforcing != w.kernel.enforcing) = true
      · rw [if_pos hch] at hc
        unfold processSetenforce at hc
        by_cases ho : w.cache.override = true
        · rw [if_pos ho] at hc
          subst hc
          refine ⟨h.cache, h.ovr, h.fixed, ?_⟩
          intro hn; rw [h.ovr, hn] at ho; simp at ho
        · rw [if_neg ho] at hc
          have hn : opt = none := by
            cases opt with
            | none => rfl
            | some b => rw [h.ovr] at ho; simp at ho
          have hwm : ∀ b : Bool, WF m { w.cache with enforcing := b } := fun b =>
            ⟨h.cache.wf.perm, h.cache.wf.unlinked, h.cache.wf.bucket, h.cache.wf.nonnull,
              h.cache.wf.count, h.cache.wf.hint⟩
          cases hk : w.kernel.enforcing with
          | true =>
            rw [hk] at hc
            simp only [if_true] at hc
            obtain ⟨a, b, c⟩ := CInv.ssReset (srv := srv) (lo := w.lastPolicyload) (hi := w.kernel.version)
              (hwm true) h.cache.notif 0 (Nat.zero_le _)
            subst hc
            refine ⟨a, b.trans h.ovr, ?_, fun _ => c⟩
            intro b' hb; rw [hn] at hb; cases hb
          | false =>
            rw [hk] at hc
            simp only [Bool.false_eq_true, if_false] at hc
            subst hc
            refine ⟨⟨hwm false, h.cache.notif, ?_⟩, h.ovr, ?_, fun _ => rfl⟩
            · intro i hi
              obtain ⟨a, b, d, h1, h2, h3, _⟩ := h.cache.fresh i hi
              exact ⟨a, b, d, h1, h2, h3, fun e => by simp at e⟩
            · intro b' hb; rw [hn] at hb; cases hb
      · rw [if_neg hch] at hc
        subst hc
        refine ⟨h.cache, h.ovr, h.fixed, fun _ => ?_⟩
        simpa using hch
    obtain ⟨i1, o1, f1, g1⟩ := hc1 _ rfl
    generalize hgen : (if (w.cache.enforcing != w.kernel.enforcing) = true then
          processSetenforce w.cache w.kernel.enforcing else w.cache) = c1 at i1 o1 f1 g1 ⊢
    by_cases hv : w.lastPolicyload = w.kernel.version
    · rw [if_pos hv]
      exact ⟨⟨i1, o1, f1, h.last, w.kernel.sequence, rfl, Nat.le_refl _, fun _ => ⟨hv, g1⟩⟩, rfl, hv,
        hmode _ f1 g1⟩
    · rw [if_neg hv]
      obtain ⟨a, b, c⟩ := CInv.ssReset (srv := srv) (lo := w.kernel.version) (hi := w.kernel.version)
        i1.wf i1.notif w.kernel.version (Nat.le_refl _)
      unfold processPolicyload
      refine ⟨⟨a, b.trans o1, ?_, Nat.le_refl _, w.kernel.sequence, rfl, Nat.le_refl _, fun _ => ⟨rfl, ?_⟩⟩,
        rfl, rfl, ?_⟩
      · intro x hx; exact c.trans (f1 x hx)
      · intro hn; exact c.trans (g1 hn)
      · exact c.trans (hmode _ f1 g1)

/-- The first look at the page, directly after opening the cache. -/
theorem winv_open (srv : Nat → Key → Srv) (n : Nat) (opt : Option Bool) (k : Kernel) (cb : Cbs) :
    WInv srv (min n maxNodes) opt (statusUpdated (openAvc n opt k) cb) := by
  have hi := inv_init n (opt.getD k.enforcing) opt.isSome
  have hl : linked (init n (opt.getD k.enforcing) opt.isSome) = [] := by
    unfold linked
    rw [List.flatMap_eq_nil_iff]
    intro h _; rfl
  unfold statusUpdated openAvc
  dsimp only
  rw [if_pos (show (none : Option Nat).getD k.sequence = k.sequence from rfl)]
  refine ⟨⟨hi.wf, Nat.zero_le _, ?_⟩, rfl, ?_, Nat.le_refl _, k.sequence, rfl, Nat.le_refl _, ?_⟩
  · intro i hm
    have : i ∈ linked (init n (opt.getD k.enforcing) opt.isSome) := hm
    rw [hl] at this; simp at this
  · intro b hb; subst hb; rfl
  · intro _; refine ⟨rfl, ?_⟩; intro hn; subst hn; rfl

theorem WInv.check {srv m opt w k req aeref mid} (hst : Stamped srv) (hm : 0 < m)
    (h : WInv srv m opt w) (hk : k.ssid ≠ 0 ∧ k.tsid ≠ 0) :
    WInv srv m opt (checkPerm srv w k req aeref mid ⟨true, true⟩).1 ∧
    ∃ v, w.kernel.version ≤ v ∧ v ≤ (mid.foldl Kernel.step w.kernel).version ∧
      (checkPerm srv w k req aeref mid ⟨true, true⟩).2.rc =
        verdict (opt.getD w.kernel.enforcing) (srv v k) req := by
  obtain ⟨s1, s2, s3, s4⟩ := h.status
  have hk1 := s1.kernelSteps mid
  obtain ⟨c1, c2, c3, v, v1, v2, v3⟩ := hk1.cache.check (k := k) (req := req) (aeref := aeref) hst hm hk1.last hk
  unfold checkPerm
  dsimp only
  refine ⟨⟨c1, c3.trans hk1.ovr, fun b hb => c2.trans (hk1.fixed b hb), hk1.last, ?_⟩, v, ?_, ?_, ?_⟩
  · obtain ⟨q, e1, e2, e3⟩ := hk1.seq
    exact ⟨q, e1, e2, fun hq => ⟨(e3 hq).1, fun hn => c2.trans ((e3 hq).2 hn)⟩⟩
  · have : (Verif.Avc.kernelSteps (statusUpdated w ⟨true, true⟩) mid).lastPolicyload = w.kernel.version := s3
    rw [this] at v1; exact v1
  · have : (Verif.Avc.kernelSteps (statusUpdated w ⟨true, true⟩) mid).kernel = mid.foldl Kernel.step w.kernel := by
      unfold Verif.Avc.kernelSteps; dsimp only; rw [s2]
    rw [this] at v2; exact v2
  · rw [v3]
    have : (Verif.Avc.kernelSteps (statusUpdated w ⟨true, true⟩) mid).cache.enforcing = opt.getD w.kernel.enforcing := s4
    rw [this]

theorem WInv.step {srv m opt w} (hst : Stamped srv) (hm : 0 < m) (h : WInv srv m opt w) (o : WOp)
    (hv : o.Valid) : WInv srv m opt (wstep srv w o) := by
  cases o with
  | kernel ko => exact h.kernelSteps [ko]
  | status cb =>
    have : cb = ⟨true, true⟩ := hv
    subst this
    exact h.status.1
  | check k req aeref mid cb =>
    obtain ⟨h1, h2, rfl⟩ := hv
    exact (h.check hst hm ⟨h1, h2⟩).1
  | create k new =>
    obtain ⟨c1, c2, c3⟩ := h.cache.create (k := k) (new := new) hst h.last hv
    refine ⟨c1, c3.trans h.ovr, fun b hb => c2.trans (h.fixed b hb), h.last, ?_⟩
    obtain ⟨q, e1, e2, e3⟩ := h.seq
    exact ⟨q, e1, e2, fun hq => ⟨(e3 hq).1, fun hn => c2.trans ((e3 hq).2 hn)⟩⟩
  | reset =>
    obtain ⟨w1, hz⟩ := h.cache.wf.reset
    have hl := linked_reset w.cache
    have e1 : (reset w.cache).latestNotif = w.cache.latestNotif := by rw [reset_eq]
    have e2 : (reset w.cache).override = w.cache.override := by rw [reset_eq]
    have e3 : (reset w.cache).enforcing = w.cache.enforcing := by rw [reset_eq]
    refine ⟨⟨w1, ?_, ?_⟩, e2.trans h.ovr, fun b hb => e3.trans (h.fixed b hb), h.last, ?_⟩
    · show (reset w.cache).latestNotif ≤ _
      rw [e1]; exact h.cache.notif
    · intro i hi
      have : i ∈ linked (reset w.cache) := hi
      rw [hl] at this; simp at this
    · obtain ⟨q, x1, x2, x3⟩ := h.seq
      exact ⟨q, x1, x2, fun hq => ⟨(x3 hq).1, fun hn => e3.trans ((x3 hq).2 hn)⟩⟩

theorem winv_run {srv : Nat → Key → Srv} {n : Nat} (hst : Stamped srv) (hn : 0 < n) (opt : Option Bool)
    (k : Kernel) (cb : Cbs) (ops : List WOp) (hv : ∀ o ∈ ops, o.Valid) :
    WInv srv (min n maxNodes) opt (wrun srv (openAvc n opt k) (WOp.status cb :: ops)) := by
  have hm : 0 < min n maxNodes := by unfold maxNodes; omega
  have h0 := winv_open srv n opt k cb
  unfold wrun
  rw [List.foldl_cons]
  show WInv _ _ _ (List.foldl (wstep srv) (statusUpdated (openAvc n opt k) cb) ops)
  generalize statusUpdated (openAvc n opt k) cb = w at h0
  induction ops generalizing w with
  | nil => exact h0
  | cons o ops ih =>
    rw [List.foldl_cons]
    exact ih (fun x hx => hv x (by simp [hx])) _ (h0.step hst hm o (hv o (by simp)))

end Verif.Avc
