import Verif.Avc.Lemmas2

/-! # The contents of the cache -/

namespace Verif.Avc

theorem Since.snoc {ov ops P} {o : Op} (h : Since ov ops P) (hf : o.flushes ov = false) :
    Since ov (ops ++ [o]) P := by
  obtain ⟨pre, x, post, e, hx, hp⟩ := h
  refine ⟨pre, x, post ++ [o], by rw [e]; simp, hx, ?_⟩
  intro o' ho'
  rcases List.mem_append.1 ho' with h | h
  · exact hp o' h
  · rw [List.mem_singleton.1 h]; exact hf

theorem Since.last {ov ops} {P : Op → Prop} {o : Op} (h : P o) : Since ov (ops ++ [o]) P :=
  ⟨ops, o, [], rfl, h, by simp⟩

theorem Accepted.snoc {ov ops k d} {o : Op} (h : Accepted ov ops k d) (hf : o.flushes ov = false) :
    Accepted ov (ops ++ [o]) k d := by
  obtain ⟨pre, x, post, e, hx, ha, hp⟩ := h
  refine ⟨pre, x, post ++ [o], by rw [e]; simp, hx, ha, ?_⟩
  intro o' ho'
  rcases List.mem_append.1 ho' with h | h
  · exact hp o' h
  · rw [List.mem_singleton.1 h]; exact hf

theorem announced_snoc (ops : List Op) (o : Op) :
    announced (ops ++ [o]) = max (announced ops) o.announces := by
  simp [announced, List.foldl_append]

/-- An entry is justified by the history. -/
structure GoodE (ov : Bool) (ops : List Op) (enf : Bool) (e : Entry) : Prop where
  avd : ∃ d, Accepted ov ops e.key d ∧ e.avd.decided = d.decided ∧ e.avd.flags = d.flags ∧
    e.avd.seqno = d.seqno ∧
    (enf = true → ¬ d.permissive → ∀ p,
      (e.avd.allowed.getLsbD p = true → d.allowed.getLsbD p = true ∨ Granted ov ops e.key p) ∧
      (d.allowed.getLsbD p = true → e.avd.allowed.getLsbD p = true ∨ Revoked ov ops e.key p))
  create : e.createSid ≠ 0 → Since ov ops (Op.creates e.key e.createSid)

theorem GoodE.snoc {ov ops enf e} {o : Op} (h : GoodE ov ops enf e) (hf : o.flushes ov = false) :
    GoodE ov (ops ++ [o]) enf e := by
  obtain ⟨⟨d, h1, h2, h3, h4, h5⟩, h6⟩ := h
  refine ⟨⟨d, h1.snoc hf, h2, h3, h4, ?_⟩, fun hc => (h6 hc).snoc hf⟩
  intro he hp p
  obtain ⟨a, b⟩ := h5 he hp p
  exact ⟨fun h => (a h).imp id (fun g => g.snoc hf), fun h => (b h).imp id (fun g => g.snoc hf)⟩

theorem GoodE.used {ov ops enf e} (h : GoodE ov ops enf e) (u : Bool) :
    GoodE ov ops enf { e with used := u } := ⟨h.avd, h.create⟩

/-- The invariant of the cache along a history. -/
structure Inv (m : Nat) (ov : Bool) (ops : List Op) (s : Cache) : Prop where
  wf : WF m s
  ovr : s.override = ov
  latest : s.latestNotif = announced ops
  good : ∀ i ∈ linked s, GoodE ov ops s.enforcing (s.node i)

theorem Inv.snoc {m ov ops s} {o : Op} (h : Inv m ov ops s) (hf : o.flushes ov = false)
    (ha : o.announces = 0) : Inv m ov (ops ++ [o]) s :=
  ⟨h.wf, h.ovr, by rw [announced_snoc, ha, Nat.max_zero]; exact h.latest,
   fun i hi => (h.good i hi).snoc hf⟩

theorem Inv.setUsed {m ov ops s i} (h : Inv m ov ops s) (hi : i ∈ linked s) :
    Inv m ov ops (setUsed s i) := by
  refine ⟨h.wf.same (setUsed_same hi), h.ovr, h.latest, ?_⟩
  intro j hj
  by_cases e : j = i
  · subst e
    simp only [Verif.Avc.setUsed, upd_same]
    exact (h.good j hj).used true
  · simp only [Verif.Avc.setUsed, upd_ne _ _ e]
    exact h.good j hj

theorem Inv.marked {m ov ops s s'} (h : Inv m ov ops s) (hm : Marked s s') : Inv m ov ops s' := by
  have hen : s'.enforcing = s.enforcing := by rw [hm.rest]
  refine ⟨h.wf.same hm.same, by rw [hm.rest]; exact h.ovr, by rw [hm.rest]; exact h.latest, ?_⟩
  intro i hi
  rw [linked_of_slots hm.slots] at hi
  obtain ⟨u, hu⟩ := hm.node i
  rw [hu, hen]
  exact (h.good i hi).used u

theorem inv_init (n : Nat) (enf ov : Bool) : Inv (min n maxNodes) ov [] (init n enf ov) := by
  have hl : linked (init n enf ov) = [] := by
    unfold linked
    rw [List.flatMap_eq_nil_iff]
    intro h _; rfl
  refine ⟨⟨?_, fun i _ => rfl, ?_, ?_, ?_, ?_⟩, rfl, rfl, ?_⟩
  · rw [hl]; simp [init, List.reverse_perm]
  · intro h i _ hi; simp [init] at hi
  · intro i hi; rw [hl] at hi; simp at hi
  · rw [hl]; rfl
  · exact nslots_pos
  · intro i hi; rw [hl] at hi; simp at hi

/-- Inserting the answer of the current operation. -/
theorem Inv.insert {m ov ops s s1 k d rc i} {o : Op} (h : Inv m ov ops s)
    (hk : k.ssid ≠ 0 ∧ k.tsid ≠ 0) (hf : o.flushes ov = false) (ha : o.announces = 0)
    (ho : o.answers k d) (hi : insert s k d = (s1, rc, some i)) :
    Inv m ov (ops ++ [o]) s1 ∧ s1.enforcing = s.enforcing ∧ i ∈ linked s1 ∧
      s1.node i = ⟨k.ssid, k.tsid, k.tclass, d, 0, true⟩ ∧ announced ops ≤ d.seqno := by
  obtain ⟨w1, _, hs, hil, hn, hoth, hmem, _, e1, e2, e3⟩ := insert_some h.wf hk hi
  refine ⟨⟨w1, e3.trans h.ovr, ?_, ?_⟩, e2, hil, hn, by rw [← h.latest]; exact hs⟩
  · rw [e1, announced_snoc, ha, Nat.max_zero]; exact h.latest
  · intro j hj
    by_cases e : j = i
    · subst e
      rw [hn]
      refine ⟨⟨d, ⟨ops, o, [], rfl, ?_, ?_, by simp⟩, rfl, rfl, rfl, ?_⟩, fun hc => absurd rfl hc⟩
      · exact ho
      · rw [← h.latest]; exact hs
      · intro _ _ p; exact ⟨fun x => Or.inl x, fun x => Or.inl x⟩
    · obtain ⟨u, hu⟩ := hoth j e
      rw [hu, e2]
      exact ((h.good j ((hmem j e).1 hj)).snoc hf).used u

/-- Evaluating an entry. -/
theorem Inv.finish {m ov ops s req i} (h : Inv m ov ops s) (hi : i ∈ linked s) :
    Inv m ov ops (finish s req i).cache := by
  unfold Verif.Avc.finish
  dsimp only
  split
  · split
    · rename_i _ hc
      refine ⟨h.wf.same (sameShape_upd hi rfl), h.ovr, h.latest, ?_⟩
      intro j hj
      by_cases e : j = i
      · subst e
        simp only [upd_same]
        obtain ⟨⟨d, h1, h2, h3, h4, h5⟩, h6⟩ := h.good j hj
        refine ⟨⟨d, h1, h2, h3, h4, ?_⟩, h6⟩
        intro he hp
        exfalso
        rcases hc with hc | hc
        · rw [hc] at he; cases he
        · rw [h3] at hc; exact hp hc
      · simp only [upd_ne _ _ e]
        exact h.good j hj
    · exact h
  · exact h

theorem finish_enforcing (s : Cache) (req : AV) (i : Nat) :
    (finish s req i).cache.enforcing = s.enforcing := by
  unfold finish
  dsimp only
  split
  · split <;> rfl
  · rfl

theorem refHit_some {m : Nat} {s : Cache} {k : Key} {req : AV} {a : Option Nat} {i : Nat}
    (w : WF m s) (hk : k.ssid ≠ 0) (h : refHit s k req a = some i) :
    i ∈ linked s ∧ (s.node i).key = k ∧ (s.node i).avd.decided &&& req = req := by
  unfold refHit at h
  cases a with
  | none => simp at h
  | some j =>
    dsimp only at h
    split at h
    · rename_i hc
      simp only [Option.some.injEq] at h
      subst h
      refine ⟨?_, ?_, hc.2.2.2⟩
      · by_contra hn
        have := w.unlinked j hn
        rw [this] at hc
        exact hk hc.1.symm
      · cases k
        simp only [Entry.key, Key.mk.injEq]
        exact ⟨hc.1, hc.2.1, hc.2.2.1⟩
    · simp at h

theorem Inv.lookup {m ov ops s s1 k req o} (h : Inv m ov ops s)
    (hl : lookup s k req = (s1, o)) :
    Inv m ov ops s1 ∧ s1.enforcing = s.enforcing ∧ s1.latestNotif = s.latestNotif := by
  cases o with
  | none =>
    rcases lookup_none hl with rfl | ⟨i, hi, rfl⟩
    · exact ⟨h, rfl, rfl⟩
    · exact ⟨h.setUsed hi, rfl, rfl⟩
  | some i =>
    obtain ⟨rfl, hi, _, _⟩ := lookup_some hl
    exact ⟨h.setUsed hi, rfl, rfl⟩

/-- How a permission check proceeds. -/
theorem hasPerm_cases {m ov ops s k req aeref srv} (h : Inv m ov ops s)
    (hk : k.ssid ≠ 0 ∧ k.tsid ≠ 0) :
    (∃ t i, hasPerm s k req aeref srv = finish t req i ∧
      Inv m ov (ops ++ [Op.check k req aeref srv]) t ∧ t.enforcing = s.enforcing ∧ i ∈ linked t ∧
      (t.node i).key = k ∧
      ((t.node i).avd.decided &&& req = req ∨
        (srv = Srv.ans (t.node i).avd ∧ announced ops ≤ (t.node i).avd.seqno))) ∨
    (∃ t rc, hasPerm s k req aeref srv = ⟨t, rc, avdInit s, aeref⟩ ∧
      Inv m ov (ops ++ [Op.check k req aeref srv]) t ∧ t.enforcing = s.enforcing ∧
      ((rc = Rc.ok ∧ srv = Srv.einval ∧ s.enforcing = false) ∨
       (rc = Rc.einval ∧ srv = Srv.einval ∧ s.enforcing = true) ∨
       (rc = Rc.other ∧ srv = Srv.other) ∨
       (rc = Rc.eagain ∧ ∃ d, srv = Srv.ans d ∧ d.seqno < announced ops) ∨
       (rc = Rc.enomem ∧ m = 0))) := by
  have hsn := h.snoc (o := Op.check k req aeref srv) rfl rfl
  unfold hasPerm
  cases hr : refHit s k req aeref with
  | some i =>
    obtain ⟨h1, h2, h3⟩ := refHit_some h.wf hk.1 hr
    refine Or.inl ⟨setUsed s i, i, rfl, hsn.setUsed h1, rfl, h1, ?_, Or.inl ?_⟩
    · simpa [setUsed, Entry.key] using h2
    · simpa [setUsed] using h3
  | none =>
    dsimp only
    cases hl : lookup s k req with
    | mk s1 o =>
      obtain ⟨i1, e1, n1⟩ := hsn.lookup hl
      cases o with
      | some i =>
        obtain ⟨rfl, h1, h2, h3⟩ := lookup_some hl
        refine Or.inl ⟨setUsed s i, i, rfl, i1, rfl, h1, ?_, Or.inl ?_⟩
        · simpa [setUsed, Entry.key] using h2
        · simpa [setUsed] using h3
      | none =>
        dsimp only
        cases srv with
        | einval =>
          dsimp only
          by_cases he : s1.enforcing = false
          · rw [if_pos he]
            exact Or.inr ⟨s1, Rc.ok, rfl, i1, e1, Or.inl ⟨rfl, rfl, e1 ▸ he⟩⟩
          · rw [if_neg he]
            exact Or.inr ⟨s1, Rc.einval, rfl, i1, e1, Or.inr (Or.inl ⟨rfl, rfl, by
              rw [← e1]; simpa using he⟩)⟩
        | other => exact Or.inr ⟨s1, Rc.other, rfl, i1, e1, Or.inr (Or.inr (Or.inl ⟨rfl, rfl⟩))⟩
        | ans d =>
          dsimp only
          obtain ⟨i0, e0, n0⟩ := h.lookup hl
          cases hi : insert s1 k d with
          | mk s2 p =>
            obtain ⟨rc, oi⟩ := p
            cases oi with
            | some i =>
              obtain ⟨i2, e2, hil, hn, hsq⟩ := i0.insert (o := Op.check k req aeref (Srv.ans d)) hk rfl rfl
                ⟨rfl, rfl⟩ hi
              refine Or.inl ⟨s2, i, rfl, i2, e2.trans e1, hil, ?_, Or.inr ?_⟩
              · rw [hn]; cases k; rfl
              · rw [hn]; exact ⟨rfl, hsq⟩
            | none =>
              obtain ⟨hm, hc⟩ := insert_none i0.wf hi
              refine Or.inr ⟨s2, rc, rfl, i1.marked hm, by rw [hm.rest]; exact e1, ?_⟩
              rcases hc with ⟨a, b⟩ | ⟨a, b⟩
              · exact Or.inr (Or.inr (Or.inr (Or.inl ⟨a, d, rfl, by
                  rw [← h.latest, ← n0]; exact b⟩)))
              · exact Or.inr (Or.inr (Or.inr (Or.inr ⟨a, b⟩)))

theorem Inv.check {m ov ops s k req aeref srv} (h : Inv m ov ops s)
    (hk : k.ssid ≠ 0 ∧ k.tsid ≠ 0) :
    Inv m ov (ops ++ [Op.check k req aeref srv]) (hasPerm s k req aeref srv).cache := by
  rcases hasPerm_cases (aeref := aeref) (srv := srv) (req := req) h hk with
    ⟨t, i, e, hi, _, hil, _⟩ | ⟨t, rc, e, hi, _⟩
  · rw [e]; exact hi.finish hil
  · rw [e]; exact hi

/-- Saving the SID of a created object's context. -/
theorem Inv.saved {m ov ops s k i c} (h : Inv m ov ops s) (hi : i ∈ linked s)
    (hkey : (s.node i).key = k) (hc : Since ov ops (Op.creates k c)) :
    Inv m ov ops { s with node := upd s.node i { s.node i with createSid := c } } := by
  refine ⟨h.wf.same (sameShape_upd hi rfl), h.ovr, h.latest, ?_⟩
  intro j hj
  by_cases e : j = i
  · subst e
    simp only [upd_same]
    refine ⟨(h.good j hj).avd, fun _ => ?_⟩
    show Since ov ops (Op.creates (s.node j).key c)
    rw [hkey]; exact hc
  · simp only [upd_ne _ _ e]
    exact h.good j hj

theorem computeCreate_spec {m ov ops s k srv new} (h : Inv m ov ops s)
    (hk : k.ssid ≠ 0 ∧ k.tsid ≠ 0) :
    Inv m ov (ops ++ [Op.create k srv new]) (computeCreate s k srv new).1 ∧
    (computeCreate s k srv new).1.enforcing = s.enforcing ∧
    ∀ c, (computeCreate s k srv new).2 = some c →
      Since ov (ops ++ [Op.create k srv new]) (Op.creates k c) := by
  have hsn := h.snoc (o := Op.create k srv new) rfl rfl
  have key : ∀ (t : Cache) (i : Nat), Inv m ov (ops ++ [Op.create k srv new]) t → i ∈ linked t →
      (t.node i).key = k → ∀ r : Cache × Option Sid, r = createSaved t i new →
      Inv m ov (ops ++ [Op.create k srv new]) r.1 ∧ r.1.enforcing = t.enforcing ∧
      ∀ c, r.2 = some c → Since ov (ops ++ [Op.create k srv new]) (Op.creates k c) := by
    intro t i ht hi hkey r hr
    unfold createSaved at hr
    by_cases hc : (t.node i).createSid = 0
    · rw [if_pos hc] at hr
      cases new with
      | none =>
        subst hr
        exact ⟨ht, rfl, fun c e => by simp at e⟩
      | some c =>
        subst hr
        have hs : Since ov (ops ++ [Op.create k srv (some c)]) (Op.creates k c) :=
          Since.last ⟨rfl, rfl⟩
        refine ⟨ht.saved hi hkey hs, rfl, ?_⟩
        intro c' e
        simp only [Option.some.injEq] at e
        subst e; exact hs
    · rw [if_neg hc] at hr
      subst hr
      refine ⟨ht, rfl, ?_⟩
      intro c e
      simp only [Option.some.injEq] at e
      subst e
      have := (ht.good i hi).create hc
      rwa [hkey] at this
  unfold computeCreate
  cases hl : lookup s k 0 with
  | mk s1 o =>
    obtain ⟨i1, e1, n1⟩ := hsn.lookup hl
    cases o with
    | some i =>
      obtain ⟨rfl, h1, h2, h3⟩ := lookup_some hl
      dsimp only
      exact key (setUsed s i) i i1 h1 (by simpa [setUsed, Entry.key] using h2) _ rfl
    | none =>
      dsimp only
      cases srv with
      | einval => exact ⟨i1, e1, fun c e => by simp at e⟩
      | other => exact ⟨i1, e1, fun c e => by simp at e⟩
      | ans d =>
        dsimp only
        obtain ⟨i0, e0, n0⟩ := h.lookup hl
        cases hi : insert s1 k d with
        | mk s2 p =>
          obtain ⟨rc, oi⟩ := p
          cases oi with
          | some i =>
            obtain ⟨i2, e2, hil, hn, _⟩ := i0.insert (o := Op.create k (Srv.ans d) new) hk rfl rfl
              ⟨rfl, rfl⟩ hi
            dsimp only
            have := key s2 i i2 hil (by rw [hn]; cases k; rfl) _ rfl
            rw [e2.trans e1] at this
            exact this
          | none =>
            obtain ⟨hm, hc⟩ := insert_none i0.wf hi
            exact ⟨i1.marked hm, by rw [hm.rest]; exact e1, fun c e => by simp at e⟩

/-! ### Flushes -/

theorem Inv.flush {m ov ops s} {o : Op} {n : Nat} (h : Inv m ov ops s) (ha : o.announces = n) :
    Inv m ov (ops ++ [o]) (ssReset s n) ∧ (∀ i, (ssReset s n).node i = Entry.zero) ∧
    linked (ssReset s n) = [] := by
  obtain ⟨w, hz⟩ := h.wf.reset
  have hl := linked_reset s
  have hn : (reset s).latestNotif = announced ops := by rw [reset_eq]; exact h.latest
  have hov : (reset s).override = ov := by rw [reset_eq]; exact h.ovr
  unfold ssReset notif
  by_cases hc : n > (reset s).latestNotif
  · rw [if_pos hc]
    refine ⟨⟨⟨w.perm, w.unlinked, w.bucket, w.nonnull, w.count, w.hint⟩, hov, ?_, ?_⟩, hz, hl⟩
    · show n = _
      rw [announced_snoc, ha, ← hn]; omega
    · intro i hi
      have : i ∈ linked (reset s) := hi
      rw [hl] at this; simp at this
  · rw [if_neg hc]
    refine ⟨⟨w, hov, ?_, ?_⟩, hz, hl⟩
    · rw [announced_snoc, ha, ← hn]; omega
    · intro i hi
      rw [hl] at hi; simp at hi

theorem ssReset_enforcing (s : Cache) (n : Nat) : (ssReset s n).enforcing = s.enforcing := by
  unfold ssReset notif
  split
  · show (reset s).enforcing = _
    rw [reset_eq]
  · rw [reset_eq]

theorem Inv.reset {m ov ops s} (h : Inv m ov ops s) : Inv m ov (ops ++ [Op.reset]) (reset s) := by
  have := (h.flush (o := Op.reset) (n := 0) rfl).1
  unfold ssReset notif at this
  rwa [if_neg (Nat.not_lt_zero _)] at this

theorem Inv.withMode {m ov ops s} (h : Inv m ov ops s) (b : Bool) (hb : b = false ∨ s.enforcing = b) :
    Inv m ov ops { s with enforcing := b } := by
  refine ⟨⟨h.wf.perm, h.wf.unlinked, h.wf.bucket, h.wf.nonnull, h.wf.count, h.wf.hint⟩, h.ovr, h.latest, ?_⟩
  intro i hi
  rcases hb with rfl | hb
  · obtain ⟨⟨d, h1, h2, h3, h4, _⟩, h6⟩ := h.good i hi
    exact ⟨⟨d, h1, h2, h3, h4, fun e => by simp at e⟩, h6⟩
  · have := h.good i hi
    rwa [hb] at this

theorem Inv.setenforce {m ov ops s b} (h : Inv m ov ops s) :
    Inv m ov (ops ++ [Op.setenforce b]) (processSetenforce s b) := by
  unfold processSetenforce
  by_cases ho : s.override = true
  · rw [if_pos ho]
    have hov : ov = true := h.ovr ▸ ho
    refine h.snoc ?_ rfl
    simp [Op.flushes, hov]
  · rw [if_neg ho]
    cases b with
    | false =>
      simp only [Bool.false_eq_true, if_false]
      exact (h.snoc (o := Op.setenforce false) rfl rfl).withMode false (Or.inl rfl)
    | true =>
      simp only [if_true]
      have hr := h.wf.reset
      have key : ssReset { s with enforcing := true } 0 = { ssReset s 0 with enforcing := true } := by
        unfold ssReset notif
        rw [if_neg (Nat.not_lt_zero _), if_neg (Nat.not_lt_zero _), reset_eq, reset_eq s]
        rfl
      rw [key]
      obtain ⟨i1, z1, l1⟩ := h.flush (o := Op.setenforce true) (n := 0) rfl
      refine ⟨⟨i1.wf.perm, i1.wf.unlinked, i1.wf.bucket, i1.wf.nonnull, i1.wf.count, i1.wf.hint⟩,
        i1.ovr, i1.latest, ?_⟩
      intro i hi
      have : i ∈ linked (ssReset s 0) := hi
      rw [l1] at this; simp at this

/-! ### Control events -/

theorem updateNode_key (ev : Event) (perms : AV) (e : Entry) :
    (updateNode ev perms e).key = e.key ∧ (updateNode ev perms e).ssid = e.ssid ∧
    (updateNode ev perms e).tsid = e.tsid ∧ (updateNode ev perms e).tclass = e.tclass ∧
    (updateNode ev perms e).createSid = e.createSid ∧ (updateNode ev perms e).used = e.used := by
  cases ev <;> exact ⟨rfl, rfl, rfl, rfl, rfl, rfl⟩

theorem updateNode_idem (ev : Event) (perms : AV) (e : Entry) :
    updateNode ev perms (updateNode ev perms e) = updateNode ev perms e := by
  cases ev <;> simp only [updateNode, BitVec.or_assoc, BitVec.or_self, BitVec.and_assoc, BitVec.and_self]

/-- Does an event for `k` match an entry (avc.c:986-988). -/
def evMatch (k : Key) (e : Entry) : Bool :=
  sidcmp k.ssid e.ssid && sidcmp k.tsid e.tsid && k.tclass == e.tclass

theorem evMatch_update (k : Key) (ev : Event) (perms : AV) (e : Entry) :
    evMatch k (updateNode ev perms e) = evMatch k e := by
  obtain ⟨_, h1, h2, h3, _⟩ := updateNode_key ev perms e
  simp [evMatch, h1, h2, h3]

theorem updateAll (ev : Event) (k : Key) (perms : AV) (l : List Nat) (nd : Nat → Entry) (j : Nat) :
    l.foldl (updateMatching ev k perms) nd j =
      if j ∈ l ∧ evMatch k (nd j) = true then updateNode ev perms (nd j) else nd j := by
  induction l generalizing nd with
  | nil => simp
  | cons a l ih =>
    rw [List.foldl_cons, ih]
    have hu : updateMatching ev k perms nd a =
        if evMatch k (nd a) = true then upd nd a (updateNode ev perms (nd a)) else nd := rfl
    rw [hu]
    by_cases hm : evMatch k (nd a) = true
    · rw [if_pos hm]
      by_cases hj : j = a
      · subst hj
        rw [upd_same, evMatch_update, updateNode_idem]
        simp [hm]
      · rw [upd_ne _ _ hj]
        simp [hj]
    · rw [if_neg hm]
      by_cases hj : j = a
      · subst hj; simp [hm]
      · simp [hj]

/-- `avc_update_cache` with a wildcard changes exactly the matching entries. -/
theorem updateCache_wild {s : Cache} {ev : Event} {k : Key} {perms : AV} (hw : k.ssid = 0 ∨ k.tsid = 0) :
    updateCache s ev k perms = { s with node := (updateCache s ev k perms).node } ∧
    ∀ j, (updateCache s ev k perms).node j =
      if j ∈ linked s ∧ evMatch k (s.node j) = true then updateNode ev perms (s.node j) else s.node j := by
  unfold updateCache
  rw [if_pos hw]
  refine ⟨rfl, fun j => ?_⟩
  dsimp only
  rw [← updateAll ev k perms _ _ j]
  unfold linked
  rw [List.foldl_flatMap]

theorem evMatch_covers {k : Key} {e : Entry} (h : evMatch k e = true) (hn : e.ssid ≠ 0 ∧ e.tsid ≠ 0) :
    Covers k e.key := by
  simp only [evMatch, sidcmp, Bool.and_eq_true, Bool.or_eq_true, beq_iff_eq] at h
  unfold Covers Entry.key
  dsimp only
  refine ⟨?_, ?_, h.2⟩
  · rcases h.1.1 with (h | h) | h
    · exact Or.inr h
    · exact Or.inl h
    · exact absurd h hn.1
  · rcases h.1.2 with (h | h) | h
    · exact Or.inr h
    · exact Or.inl h
    · exact absurd h hn.2

/-- An entry changed by a control event that covers it. -/
theorem GoodE.update {ov ops enf e ev k perms perms' seqno cbs}
    (h : GoodE ov ops enf e) (hc : Covers k e.key)
    (hp : ∀ p, perms'.getLsbD p = true → perms.getLsbD p = true) :
    GoodE ov (ops ++ [Op.control ev k perms seqno cbs]) enf (updateNode ev perms' e) := by
  have h' := h.snoc (o := Op.control ev k perms seqno cbs) rfl
  obtain ⟨⟨d, h1, h2, h3, h4, h5⟩, h6⟩ := h'
  obtain ⟨k1, _, _, _, k2, _⟩ := updateNode_key ev perms' e
  refine ⟨⟨d, by rw [k1]; exact h1, ?_, ?_, ?_, ?_⟩, ?_⟩
  · rw [← h2]; cases ev <;> rfl
  · rw [← h3]; cases ev <;> rfl
  · rw [← h4]; cases ev <;> rfl
  · intro he hpm p
    rw [k1]
    obtain ⟨a, b⟩ := h5 he hpm p
    cases ev with
    | grant =>
      refine ⟨?_, ?_⟩
      · intro hx
        simp only [updateNode, BitVec.getLsbD_or, Bool.or_eq_true] at hx
        rcases hx with hx | hx
        · exact a hx
        · exact Or.inr (Since.last ⟨hc, hp p hx⟩)
      · intro hx
        rcases b hx with y | y
        · exact Or.inl (by simp [updateNode, y])
        · exact Or.inr y
    | revoke =>
      refine ⟨?_, ?_⟩
      · intro hx
        simp only [updateNode, BitVec.getLsbD_and, Bool.and_eq_true] at hx
        exact a hx.1
      · intro hx
        rcases b hx with y | y
        · cases hq : perms'.getLsbD p with
          | true => exact Or.inr (Since.last ⟨hc, hp p hq⟩)
          | false =>
            refine Or.inl ?_
            have hlt : p < 32 := BitVec.lt_of_getLsbD y
            simp only [updateNode, BitVec.getLsbD_and, BitVec.getLsbD_not, y, hq, hlt, decide_true, Bool.not_false, Bool.and_self]
        · exact Or.inr y
    | tryRevoke =>
      refine ⟨?_, ?_⟩
      · intro hx
        simp only [updateNode, BitVec.getLsbD_and, Bool.and_eq_true] at hx
        exact a hx.1
      · intro hx
        rcases b hx with y | y
        · cases hq : perms'.getLsbD p with
          | true => exact Or.inr (Since.last ⟨hc, hp p hq⟩)
          | false =>
            refine Or.inl ?_
            have hlt : p < 32 := BitVec.lt_of_getLsbD y
            simp only [updateNode, BitVec.getLsbD_and, BitVec.getLsbD_not, y, hq, hlt, decide_true, Bool.not_false, Bool.and_self]
        · exact Or.inr y
    | auditallowEnable => exact ⟨a, b⟩
    | auditallowDisable => exact ⟨a, b⟩
    | auditdenyEnable => exact ⟨a, b⟩
    | auditdenyDisable => exact ⟨a, b⟩
  · rw [k2, k1]; exact h6

theorem updateCache_rest (s : Cache) (ev : Event) (k : Key) (perms : AV) :
    updateCache s ev k perms = { s with node := (updateCache s ev k perms).node } := by
  by_cases hw : k.ssid = 0 ∨ k.tsid = 0
  · exact (updateCache_wild hw).1
  · unfold updateCache
    rw [if_neg hw]
    cases hs : search s k with
    | mk t o =>
      cases o with
      | none => rw [(search_none hs).1]
      | some i => rw [(search_some hs).1]; rfl

/-- Every entry after `avc_update_cache`: unchanged, or changed and covered by the event. -/
theorem updateCache_node {m : Nat} {s : Cache} {ev : Event} {k : Key} {perms : AV} (w : WF m s) (j : Nat) :
    ∃ u, ((updateCache s ev k perms).node j = { s.node j with used := u } ∧ (j ∉ linked s → u = (s.node j).used)) ∨
      (j ∈ linked s ∧ Covers k (s.node j).key ∧
        (updateCache s ev k perms).node j = updateNode ev perms { s.node j with used := u }) := by
  by_cases hw : k.ssid = 0 ∨ k.tsid = 0
  · refine ⟨(s.node j).used, ?_⟩
    rw [(updateCache_wild hw).2 j]
    by_cases hc : j ∈ linked s ∧ evMatch k (s.node j) = true
    · rw [if_pos hc]
      exact Or.inr ⟨hc.1, evMatch_covers hc.2 (w.nonnull j hc.1), rfl⟩
    · rw [if_neg hc]
      exact Or.inl ⟨rfl, fun _ => rfl⟩
  · unfold updateCache
    rw [if_neg hw]
    cases hs : search s k with
    | mk t o =>
      cases o with
      | none =>
        obtain ⟨rfl, _⟩ := search_none hs
        exact ⟨(t.node j).used, Or.inl ⟨rfl, fun _ => rfl⟩⟩
      | some i =>
        obtain ⟨rfl, h1, h2⟩ := search_some hs
        dsimp only
        by_cases e : j = i
        · subst e
          refine ⟨true, Or.inr ⟨mem_linked_hash h1, ?_, ?_⟩⟩
          · rw [h2]; exact ⟨Or.inr rfl, Or.inr rfl, rfl⟩
          · simp [setUsed]
        · refine ⟨(s.node j).used, Or.inl ⟨?_, fun _ => rfl⟩⟩
          simp [setUsed, upd_ne _ _ e]

theorem updateCache_same {m : Nat} {s : Cache} {ev : Event} {k : Key} {perms : AV} (w : WF m s) :
    SameShape s (updateCache s ev k perms) := by
  have hr := updateCache_rest s ev k perms
  refine ⟨by rw [hr], by rw [hr], by rw [hr], by rw [hr], ?_, ?_⟩
  · intro i
    obtain ⟨u, ⟨h, _⟩ | ⟨_, _, h⟩⟩ := updateCache_node (ev := ev) (k := k) (perms := perms) w i
    · rw [h]; rfl
    · rw [h]; exact (updateNode_key ev perms _).1
  · intro i hi hz
    obtain ⟨u, ⟨h, hu⟩ | ⟨h, _⟩⟩ := updateCache_node (ev := ev) (k := k) (perms := perms) w i
    · rw [h, hu hi]; exact hz
    · exact absurd h hi

theorem Inv.control {m ov ops s ev k perms seqno cbs} (h : Inv m ov ops s) :
    Inv m ov (ops ++ [Op.control ev k perms seqno cbs]) (control s ev k perms seqno cbs).1 := by
  have key : ∀ perms' : AV, (∀ p, perms'.getLsbD p = true → perms.getLsbD p = true) →
      Inv m ov (ops ++ [Op.control ev k perms seqno cbs]) (notif (updateCache s ev k perms') seqno) := by
    intro perms' hp
    have hr := updateCache_rest s ev k perms'
    have hsh := updateCache_same (ev := ev) (k := k) (perms := perms') h.wf
    have hw := h.wf.same hsh
    have hg : ∀ i ∈ linked s, GoodE ov (ops ++ [Op.control ev k perms seqno cbs]) s.enforcing
        ((updateCache s ev k perms').node i) := by
      intro i hi
      obtain ⟨u, ⟨e, _⟩ | ⟨_, hc, e⟩⟩ := updateCache_node (ev := ev) (k := k) (perms := perms') h.wf i
      · rw [e]
        exact ((h.good i hi).snoc rfl).used u
      · rw [e]
        exact ((h.good i hi).used u).update hc hp
    have hn : (updateCache s ev k perms').latestNotif = announced ops := by rw [hr]; exact h.latest
    have hov : (updateCache s ev k perms').override = ov := by rw [hr]; exact h.ovr
    have hen : (updateCache s ev k perms').enforcing = s.enforcing := by rw [hr]
    have hl : linked (updateCache s ev k perms') = linked s := linked_of_slots hsh.slots
    unfold notif
    by_cases hc : seqno > (updateCache s ev k perms').latestNotif
    · rw [if_pos hc]
      refine ⟨⟨hw.perm, hw.unlinked, hw.bucket, hw.nonnull, hw.count, hw.hint⟩, hov, ?_, ?_⟩
      · show seqno = _
        rw [announced_snoc]
        show seqno = max (announced ops) seqno
        omega
      · intro i hi
        have hi' : i ∈ linked (updateCache s ev k perms') := hi
        rw [hl] at hi'
        show GoodE _ _ (updateCache s ev k perms').enforcing _
        rw [hen]; exact hg i hi'
    · rw [if_neg hc]
      refine ⟨hw, hov, ?_, ?_⟩
      · rw [announced_snoc]
        show _ = max (announced ops) seqno
        omega
      · intro i hi
        rw [hl] at hi
        rw [hen]; exact hg i hi
  unfold Verif.Avc.control
  dsimp only
  split
  · apply key
    intro p hp
    simp only [BitVec.getLsbD_and, Bool.and_eq_true] at hp
    exact hp.1
  · exact key perms (fun p hp => hp)

/-- Every operation preserves the invariant. -/
theorem Inv.step {m ov ops s} {o : Op} (h : Inv m ov ops s) (hv : o.Valid) :
    Inv m ov (ops ++ [o]) (step s o) := by
  cases o with
  | check k req aeref srv => exact h.check hv
  | create k srv new => exact (computeCreate_spec h ⟨hv.1, hv.2.1⟩).1
  | reset => exact h.reset
  | setenforce b => exact h.setenforce
  | policyload n => exact (h.flush (o := Op.policyload n) rfl).1
  | control ev k perms seqno cbs => exact h.control

theorem inv_run_from {m ov ops0 s} (h : Inv m ov ops0 s) (ops : List Op) (hv : ∀ o ∈ ops, o.Valid) :
    Inv m ov (ops0 ++ ops) (run s ops) := by
  induction ops generalizing ops0 s with
  | nil => simpa [run] using h
  | cons o ops ih =>
    have := ih (h.step (hv o (by simp))) (fun x hx => hv x (by simp [hx]))
    simpa [run] using this

theorem inv_run (n : Nat) (enf ov : Bool) (ops : List Op) (hv : ∀ o ∈ ops, o.Valid) :
    Inv (min n maxNodes) ov ops (run (init n enf ov) ops) := by
  have := inv_run_from (inv_init n enf ov) ops hv
  simpa using this

/-- A check itself neither grants nor revokes. -/
theorem Since.of_check {ov ops k req aeref srv P} (h : Since ov (ops ++ [Op.check k req aeref srv]) P)
    (hn : ¬ P (Op.check k req aeref srv)) : Since ov ops P := by
  obtain ⟨pre, o, post, e', ho, hp⟩ := h
  rcases List.eq_nil_or_concat post with rfl | ⟨post', x, rfl⟩
  · have := List.append_inj' e' rfl
    simp only [List.cons.injEq, and_true] at this
    rw [← this.2] at ho
    exact absurd ho hn
  · have e2 : ops ++ [Op.check k req aeref srv] = (pre ++ o :: post') ++ [x] := by simpa using e'
    have := List.append_inj' e2 rfl
    exact ⟨pre, o, post', this.1, ho, fun o' ho' => hp o' (by simp [ho'])⟩

/-- What the entry used by a check says about the kernel's decisions. -/
theorem hasPerm_entry {m ov ops k req aeref srv} {t : Cache} {i : Nat}
    (hi : Inv m ov (ops ++ [Op.check k req aeref srv]) t) (hil : i ∈ linked t) (hkey : (t.node i).key = k)
    (hdec : (t.node i).avd.decided &&& req = req ∨
        (srv = Srv.ans (t.node i).avd ∧ announced ops ≤ (t.node i).avd.seqno)) :
    ∃ d, Accepted ov (ops ++ [Op.check k req aeref srv]) k d ∧
      (d.decided &&& req = req ∨ srv = Srv.ans d) ∧ (t.node i).avd.flags = d.flags ∧
      (t.enforcing = true → ¬ d.permissive → ∀ p,
        ((t.node i).avd.allowed.getLsbD p = true → d.allowed.getLsbD p = true ∨ Granted ov ops k p) ∧
        (d.allowed.getLsbD p = true → (t.node i).avd.allowed.getLsbD p = true ∨ Revoked ov ops k p)) := by
  rcases hdec with hdec | ⟨hd, hsq⟩
  · obtain ⟨⟨d, h1, h2, h3, h4, h5⟩, _⟩ := hi.good i hil
    rw [hkey] at h1 h5
    refine ⟨d, h1, Or.inl (h2 ▸ hdec), h3, ?_⟩
    intro he hp p
    obtain ⟨a, b⟩ := h5 he hp p
    exact ⟨fun x => (a x).imp id (fun g => g.of_check (by simp [Op.grants])),
      fun x => (b x).imp id (fun g => g.of_check (by simp [Op.revokes]))⟩
  · refine ⟨(t.node i).avd, ⟨ops, _, [], rfl, ⟨rfl, hd⟩, hsq, by simp⟩, Or.inr hd, rfl, ?_⟩
    intro _ _ p
    exact ⟨Or.inl, Or.inl⟩

/-- The return value of the evaluation of an entry. -/
theorem finish_cases (s : Cache) (req : AV) (i : Nat) :
    (finish s req i).avd = (s.node i).avd ∧ (finish s req i).aeref = some i ∧
    ((finish s req i).rc = Rc.ok ∧
      (s.enforcing = false ∨ (s.node i).avd.flags &&& flagPermissive ≠ 0 ∨
        (req ≠ 0 ∧ req &&& ~~~(s.node i).avd.allowed = 0)) ∨
     (finish s req i).rc = Rc.eacces ∧ s.enforcing = true ∧
      (s.node i).avd.flags &&& flagPermissive = 0 ∧
      (req = 0 ∨ req &&& ~~~(s.node i).avd.allowed ≠ 0)) := by
  unfold finish
  dsimp only
  by_cases hc : req = 0 ∨ req &&& ~~~(s.node i).avd.allowed ≠ 0
  · rw [if_pos hc]
    by_cases hp : s.enforcing = false ∨ (s.node i).avd.flags &&& flagPermissive ≠ 0
    · rw [if_pos hp]
      refine ⟨rfl, rfl, Or.inl ⟨rfl, ?_⟩⟩
      rcases hp with hp | hp
      · exact Or.inl hp
      · exact Or.inr (Or.inl hp)
    · rw [if_neg hp]
      refine ⟨rfl, rfl, Or.inr ⟨rfl, ?_, ?_, hc⟩⟩
      · cases h : s.enforcing with
        | true => rfl
        | false => exact absurd (Or.inl h) hp
      · by_contra h; exact hp (Or.inr h)
  · rw [if_neg hc]
    refine ⟨rfl, rfl, Or.inl ⟨rfl, Or.inr (Or.inr ⟨?_, ?_⟩)⟩⟩
    · exact fun h => hc (Or.inl h)
    · by_contra h; exact hc (Or.inr h)

/-- Bit by bit: `req &&& ~~~a = 0`. -/
theorem subset_iff (req a : AV) :
    req &&& ~~~a = 0 ↔ ∀ p, req.getLsbD p = true → a.getLsbD p = true := by
  constructor
  · intro h p hp
    have hlt : p < 32 := BitVec.lt_of_getLsbD hp
    have := congrArg (fun v => BitVec.getLsbD v p) h
    simp only [BitVec.getLsbD_and, BitVec.getLsbD_not, hp, hlt, decide_true, Bool.true_and] at this
    cases ha : a.getLsbD p with
    | true => rfl
    | false => rw [ha] at this; simp at this
  · intro h
    apply BitVec.eq_of_getLsbD_eq
    intro p hlt
    simp only [BitVec.getLsbD_and, BitVec.getLsbD_not, hlt, decide_true, Bool.true_and]
    cases hr : req.getLsbD p with
    | false => simp
    | true => rw [h p hr]; simp

/-- A lookup finds an entry that decides the request, if every entry for the triple does. -/
theorem lookup_hit {m : Nat} {s : Cache} {k : Key} {req : AV} (w : WF m s)
    (h1 : ∃ i ∈ linked s, (s.node i).key = k)
    (h2 : ∀ i ∈ linked s, (s.node i).key = k → (s.node i).avd.decided &&& req = req) :
    ∃ s1 i, lookup s k req = (s1, some i) := by
  obtain ⟨i, hi, hk⟩ := h1
  obtain ⟨b, hb, hi'⟩ := mem_linked.1 hi
  have hbk := w.bucket b i hb hi'
  rw [hk] at hbk
  subst hbk
  unfold lookup
  cases hs : search s k with
  | mk s1 o =>
    cases o with
    | none => exact absurd hk ((search_none hs).2 i hi')
    | some j =>
      obtain ⟨rfl, a, b⟩ := search_some hs
      refine ⟨setUsed s j, j, ?_⟩
      dsimp only
      rw [if_pos]
      have := h2 j (mem_linked_hash a) b
      simpa [setUsed] using this

/-- The entries a control event changes, when it names a wildcard or there is one entry only. -/
theorem updateCache_exact {m : Nat} {s : Cache} {ev : Event} {k : Key} {perms : AV} (w : WF m s)
    (hu : k.ssid = 0 ∨ k.tsid = 0 ∨
      ∀ i ∈ linked s, ∀ j ∈ linked s, (s.node i).key = k → (s.node j).key = k → i = j)
    (j : Nat) (hj : j ∈ linked s) :
    (Covers k (s.node j).key → ((updateCache s ev k perms).node j).avd = (updateNode ev perms (s.node j)).avd) ∧
    (¬ Covers k (s.node j).key → ((updateCache s ev k perms).node j).avd = (s.node j).avd) := by
  have hev : evMatch k (s.node j) = true ↔ Covers k (s.node j).key := by
    constructor
    · intro h; exact evMatch_covers h (w.nonnull j hj)
    · rintro ⟨a, b, c⟩
      simp only [evMatch, sidcmp, Bool.and_eq_true, Bool.or_eq_true, beq_iff_eq]
      refine ⟨⟨?_, ?_⟩, c⟩
      · rcases a with a | a
        · exact Or.inl (Or.inr a)
        · exact Or.inl (Or.inl a)
      · rcases b with b | b
        · exact Or.inl (Or.inr b)
        · exact Or.inl (Or.inl b)
  by_cases hw : k.ssid = 0 ∨ k.tsid = 0
  · rw [(updateCache_wild hw).2 j]
    constructor
    · intro hc; rw [if_pos ⟨hj, hev.2 hc⟩]
    · intro hc; rw [if_neg (fun x => hc (hev.1 x.2))]
  · have hcov : Covers k (s.node j).key ↔ (s.node j).key = k := by
      constructor
      · rintro ⟨a, b, c⟩
        have a' := a.resolve_left (fun e => hw (Or.inl e))
        have b' := b.resolve_left (fun e => hw (Or.inr e))
        cases k
        simp only [Entry.key, Key.mk.injEq] at *
        exact ⟨a'.symm, b'.symm, c.symm⟩
      · intro e; rw [e]; exact ⟨Or.inr rfl, Or.inr rfl, rfl⟩
    have hu' : ∀ i ∈ linked s, ∀ j ∈ linked s, (s.node i).key = k → (s.node j).key = k → i = j := by
      rcases hu with h | h | h
      · exact absurd (Or.inl h) hw
      · exact absurd (Or.inr h) hw
      · exact h
    rw [hcov]
    unfold updateCache
    rw [if_neg hw]
    cases hs : search s k with
    | mk t o =>
      cases o with
      | none =>
        obtain ⟨rfl, hno⟩ := search_none hs
        refine ⟨?_, fun _ => rfl⟩
        intro hk
        exfalso
        obtain ⟨b, hb, hj'⟩ := mem_linked.1 hj
        have hbk := w.bucket b j hb hj'
        rw [hk] at hbk
        subst hbk
        exact hno j hj' hk
      | some i =>
        obtain ⟨rfl, h1, h2⟩ := search_some hs
        dsimp only
        constructor
        · intro hk
          have := hu' i (mem_linked_hash h1) j hj h2 hk
          subst this
          simp only [upd_same, setUsed]
          cases ev <;> rfl
        · intro hk
          have : j ≠ i := fun e => hk (e ▸ h2)
          simp [setUsed, upd_ne _ _ this]

end Verif.Avc
