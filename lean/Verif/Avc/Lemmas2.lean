import Verif.Avc.Lemmas

/-! # Claiming nodes, inserting decisions, emptying the cache -/

namespace Verif.Avc

theorem linked_upd_perm {s t : Cache} {h : Nat} {x : List Nat} (hh : h < nslots)
    (e : t.slots = upd s.slots h x) :
    ∃ R, (linked s).Perm (s.slots h ++ R) ∧ (linked t).Perm (x ++ R) := by
  obtain ⟨R, h1, h2⟩ := flatMap_upd_perm s.slots h x (List.range nslots) (by simpa using hh)
    List.nodup_range
  refine ⟨R, h1, ?_⟩
  unfold linked; rw [e]; exact h2

/-- The invariant while node `c` is neither linked nor free. -/
structure PreWF (m : Nat) (u : Cache) (c : Nat) : Prop where
  perm : ((c :: linked u) ++ u.free).Perm (List.range m)
  unlinked : ∀ i, i ∉ linked u → i ≠ c → u.node i = Entry.zero
  bucket : ∀ h i, h < nslots → i ∈ u.slots h → hash (u.node i).key = h
  nonnull : ∀ i, i ∈ linked u → (u.node i).ssid ≠ 0 ∧ (u.node i).tsid ≠ 0
  count : u.active = BitVec.ofNat 32 ((linked u).length + 1)
  hint : u.lruHint < nslots

theorem PreWF.notMem {m u c} (w : PreWF m u c) : c ∉ linked u := by
  have : ((c :: linked u) ++ u.free).Nodup := w.perm.nodup_iff.2 List.nodup_range
  intro h
  have := (List.nodup_cons.1 this).1
  exact this (by simp [h])

theorem linked_linkNode {u : Cache} {k : Key} {c : Nat} :
    (linked (linkNode u k c)).Perm (c :: linked u) := by
  obtain ⟨R, h1, h2⟩ := linked_upd_perm (s := u) (t := linkNode u k c) (hash_lt k) rfl
  refine h2.trans ?_
  simpa using h1.symm

theorem PreWF.link {m u c} (w : PreWF m u c) {k : Key} (hk : k.ssid ≠ 0 ∧ k.tsid ≠ 0) :
    WF m (linkNode u k c) := by
  have hp := linked_linkNode (u := u) (k := k) (c := c)
  have hmem : ∀ i, i ∈ linked (linkNode u k c) ↔ i = c ∨ i ∈ linked u := by
    intro i; rw [hp.mem_iff]; simp
  have hne : ∀ i, i ∈ linked u → i ≠ c := fun i hi e => w.notMem (e ▸ hi)
  refine ⟨?_, ?_, ?_, ?_, ?_, w.hint⟩
  · exact (hp.append_right _).trans w.perm
  · intro i hi
    rw [hmem] at hi
    have h1 : i ≠ c := fun e => hi (Or.inl e)
    have h2 : i ∉ linked u := fun e => hi (Or.inr e)
    show upd u.node c _ i = _
    rw [upd_ne _ _ h1]; exact w.unlinked i h2 h1
  · intro h i hh hi
    show hash (upd u.node c _ i).key = h
    have hi' : (h = hash k ∧ i = c) ∨ i ∈ u.slots h := by
      by_cases e : h = hash k
      · subst e
        have : i ∈ c :: u.slots (hash k) := by simpa [linkNode] using hi
        rcases List.mem_cons.1 this with r | r
        · exact Or.inl ⟨rfl, r⟩
        · exact Or.inr r
      · exact Or.inr (by simpa [linkNode, upd_ne _ _ e] using hi)
    rcases hi' with ⟨e, rfl⟩ | hi'
    · rw [upd_same, e]; rfl
    · rw [upd_ne _ _ (hne i (mem_linked.2 ⟨h, hh, hi'⟩))]
      exact w.bucket h i hh hi'
  · intro i hi
    rw [hmem] at hi
    show (upd u.node c _ i).ssid ≠ 0 ∧ (upd u.node c _ i).tsid ≠ 0
    rcases hi with rfl | hi
    · rw [upd_same]; exact hk
    · rw [upd_ne _ _ (hne i hi)]; exact w.nonnull i hi
  · show u.active = _
    rw [hp.length_eq, w.count, List.length_cons]

/-- What `claim` does to the rest of the cache. -/
structure Claimed (s s1 : Cache) (k : Key) (i : Nat) : Prop where
  entry : s1.node i = { Entry.zero with used := true, ssid := k.ssid, tsid := k.tsid, tclass := k.tclass }
  others : ∀ j, j ≠ i → ∃ u, s1.node j = { s.node j with used := u }
  front : s1.slots (hash k) ≠ [] ∧ (s1.slots (hash k)).head? = some i
  mem : ∀ j, j ≠ i → (j ∈ linked s1 ↔ j ∈ linked s)
  notif : s1.latestNotif = s.latestNotif
  enf : s1.enforcing = s.enforcing
  ov : s1.override = s.override

theorem Claimed.linked {s s1 k i} (c : Claimed s s1 k i) : i ∈ linked s1 := by
  refine mem_linked_hash (k := k) ?_
  exact List.mem_of_mem_head? (by rw [c.front.2]; rfl)

theorem claim_some {m : Nat} {s s1 : Cache} {k : Key} {i : Nat} (w : WF m s)
    (hk : k.ssid ≠ 0 ∧ k.tsid ≠ 0) (h : claim s k = (s1, some i)) :
    WF m s1 ∧ Claimed s s1 k i := by
  unfold claim at h
  cases hf : s.free with
  | cons a fr =>
    rw [hf] at h
    simp only [Prod.mk.injEq, Option.some.injEq] at h
    obtain ⟨rfl, rfl⟩ := h
    have hnd := w.nodup
    have hna : a ∉ linked s := by
      rw [hf] at hnd
      intro hm
      exact (List.nodup_append.1 hnd).2.2 a hm a (by simp) rfl
    have pw : PreWF m { s with free := fr, active := s.active + 1 } a := by
      refine ⟨?_, ?_, w.bucket, w.nonnull, ?_, w.hint⟩
      · have := w.perm
        rw [hf] at this
        refine List.Perm.trans ?_ this
        exact (List.perm_middle (l₁ := linked s) (l₂ := fr) (a := a)).symm
      · intro j hj _; exact w.unlinked j hj
      · show s.active + 1 = _
        rw [w.count]
        show _ = BitVec.ofNat 32 ((linked s).length + 1)
        rw [BitVec.ofNat_add]; rfl
    refine ⟨pw.link hk, ?_⟩
    refine ⟨?_, ?_, ?_, ?_, rfl, rfl, rfl⟩
    · simp [linkNode]
    · intro j hj; exact ⟨(s.node j).used, by simp [linkNode, upd_ne _ _ hj]⟩
    · simp [linkNode]
    · intro j hj
      rw [linked_linkNode.mem_iff]
      simp only [List.mem_cons, hj, false_or]; rfl
  | nil =>
    rw [hf] at h
    cases hr : reclaim s with
    | mk u o =>
      rw [hr] at h
      cases o with
      | none => simp at h
      | some c =>
        simp only [Prod.mk.injEq, Option.some.injEq] at h
        obtain ⟨rfl, rfl⟩ := h
        obtain ⟨t, b, mk, hb, hc, hu⟩ := reclaimLoop_some w.hint hr
        have hsl : u.slots = upd s.slots b ((s.slots b).erase c) := by rw [hu]
        obtain ⟨R, p1, p2⟩ := linked_upd_perm (s := s) (t := u) hb hsl
        have hlp : (linked s).Perm (c :: linked u) := by
          refine p1.trans ?_
          refine ((List.perm_cons_erase hc).append_right R).trans ?_
          exact (List.Perm.cons c p2.symm)
        have hnode : u.node = t.node := by rw [hu]
        have hfree : u.free = s.free := by rw [hu, mk.rest]
        have hact : u.active = s.active := by rw [hu, mk.rest]
        have hmem : ∀ j, j ∈ linked s ↔ j = c ∨ j ∈ linked u := by
          intro j; rw [hlp.mem_iff]; simp
        have hkey : ∀ j, (u.node j).key = (s.node j).key ∧ (u.node j).ssid = (s.node j).ssid ∧
            (u.node j).tsid = (s.node j).tsid := by
          intro j
          obtain ⟨v, hv⟩ := mk.node j
          rw [hnode, hv]; exact ⟨rfl, rfl, rfl⟩
        have pw : PreWF m u c := by
          refine ⟨?_, ?_, ?_, ?_, ?_, ?_⟩
          · rw [hfree]
            exact (hlp.symm.append_right _).trans w.perm
          · intro j hj hjc
            have : j ∉ linked s := fun e => ((hmem j).1 e).elim hjc hj
            rw [hnode, mk.unl j this]; exact w.unlinked j this
          · intro x j hx hj
            rw [(hkey j).1]
            apply w.bucket x j hx
            rw [hsl] at hj
            by_cases e : x = b
            · subst e; rw [upd_same] at hj; exact List.mem_of_mem_erase hj
            · rwa [upd_ne _ _ e] at hj
          · intro j hj
            rw [(hkey j).2.1, (hkey j).2.2]
            exact w.nonnull j ((hmem j).2 (Or.inr hj))
          · rw [hact, w.count, hlp.length_eq, List.length_cons]
          · rw [hu]; exact hb
        refine ⟨pw.link hk, ?_⟩
        refine ⟨?_, ?_, ?_, ?_, ?_, ?_, ?_⟩
        · simp [linkNode]
        · intro j hj
          obtain ⟨v, hv⟩ := mk.node j
          refine ⟨v, ?_⟩
          simp only [linkNode, upd_ne _ _ hj]
          rw [hnode, hv]
        · simp [linkNode]
        · intro j hj
          rw [linked_linkNode.mem_iff, hmem]
          simp [hj]
        · show u.latestNotif = _
          rw [hu, mk.rest]
        · show u.enforcing = _
          rw [hu, mk.rest]
        · show u.override = _
          rw [hu, mk.rest]

theorem claim_none {m : Nat} {s s1 : Cache} {k : Key} (w : WF m s) (h : claim s k = (s1, none)) :
    m = 0 ∧ Marked s s1 := by
  unfold claim at h
  cases hf : s.free with
  | cons a fr => rw [hf] at h; simp at h
  | nil =>
    rw [hf] at h
    cases hr : reclaim s with
    | mk u o =>
      rw [hr] at h
      cases o with
      | some c => simp at h
      | none =>
        simp only [Prod.mk.injEq, and_true] at h
        subst h
        refine ⟨?_, (reclaimLoop_none w.hint hr).1⟩
        have hl := reclaim_none w.hint hr
        have := w.perm.length_eq
        rw [hl, hf] at this
        simpa using this.symm

/-- What an insertion does. -/
theorem insert_some {m : Nat} {s s1 : Cache} {k : Key} {d : Avd} {rc : Rc} {i : Nat} (w : WF m s)
    (hk : k.ssid ≠ 0 ∧ k.tsid ≠ 0) (h : insert s k d = (s1, rc, some i)) :
    WF m s1 ∧ rc = Rc.ok ∧ s.latestNotif ≤ d.seqno ∧ i ∈ linked s1 ∧
    s1.node i = ⟨k.ssid, k.tsid, k.tclass, d, 0, true⟩ ∧
    (∀ j, j ≠ i → ∃ u, s1.node j = { s.node j with used := u }) ∧
    (∀ j, j ≠ i → (j ∈ linked s1 ↔ j ∈ linked s)) ∧
    (s1.slots (hash k)).head? = some i ∧
    s1.latestNotif = s.latestNotif ∧ s1.enforcing = s.enforcing ∧ s1.override = s.override := by
  unfold insert at h
  by_cases hs : d.seqno < s.latestNotif
  · rw [if_pos hs] at h; simp at h
  · rw [if_neg hs] at h
    cases hc : claim s k with
    | mk t o =>
      rw [hc] at h
      cases o with
      | none => simp at h
      | some c =>
        simp only [Prod.mk.injEq, Option.some.injEq] at h
        obtain ⟨rfl, rfl, rfl⟩ := h
        obtain ⟨wt, cl⟩ := claim_some w hk hc
        refine ⟨?_, rfl, Nat.le_of_not_lt hs, ?_, ?_, ?_, ?_, cl.front.2, cl.notif, cl.enf, cl.ov⟩
        · exact wt.same (sameShape_upd cl.linked rfl)
        · exact cl.linked
        · simp [cl.entry, Entry.zero]
        · intro j hj
          simp only [upd_ne _ _ hj]
          exact cl.others j hj
        · intro j hj; exact cl.mem j hj

theorem insert_none {m : Nat} {s s1 : Cache} {k : Key} {d : Avd} {rc : Rc} (w : WF m s)
    (h : insert s k d = (s1, rc, none)) :
    Marked s s1 ∧ ((rc = Rc.eagain ∧ d.seqno < s.latestNotif) ∨ (rc = Rc.enomem ∧ m = 0)) := by
  unfold insert at h
  by_cases hs : d.seqno < s.latestNotif
  · rw [if_pos hs] at h
    simp only [Prod.mk.injEq, and_true] at h
    obtain ⟨rfl, rfl⟩ := h
    exact ⟨Marked.refl _, Or.inl ⟨rfl, hs⟩⟩
  · rw [if_neg hs] at h
    cases hc : claim s k with
    | mk t o =>
      rw [hc] at h
      cases o with
      | some c => simp at h
      | none =>
        simp only [Prod.mk.injEq, and_true] at h
        obtain ⟨rfl, rfl⟩ := h
        obtain ⟨h1, h2⟩ := claim_none w hc
        exact ⟨h2, Or.inr ⟨rfl, h1⟩⟩

theorem Marked.same {s s' : Cache} (h : Marked s s') : SameShape s s' := by
  refine ⟨h.slots, by rw [h.rest], by rw [h.rest], by rw [h.rest], ?_, ?_⟩
  · intro i
    obtain ⟨u, hu⟩ := h.node i
    rw [hu]; rfl
  · intro i hi hz; rw [h.unl i hi, hz]

/-! ### Reset -/

theorem freeNodes (l : List Nat) (s : Cache) :
    l.foldl freeNode s = { s with
      node := fun j => if j ∈ l then Entry.zero else s.node j
      free := l.reverse ++ s.free
      active := s.active - BitVec.ofNat 32 l.length } := by
  induction l generalizing s with
  | nil => simp
  | cons a l ih =>
    rw [List.foldl_cons, ih]
    unfold freeNode
    simp only [List.reverse_cons, List.append_assoc, List.singleton_append, List.length_cons,
      Cache.mk.injEq, true_and, and_true]
    refine ⟨?_, ?_⟩
    · funext j
      by_cases h1 : j = a
      · subst h1; simp
      · simp [upd_ne _ _ h1, h1]
    · rw [BitVec.ofNat_add]
      apply BitVec.eq_of_toNat_eq
      simp only [BitVec.toNat_sub, BitVec.toNat_add, BitVec.toNat_ofNat]
      have := s.active.isLt
      have e1 : BitVec.toNat (1 : BitVec 32) = 1 := rfl
      rw [e1]
      omega

theorem resetSlot_eq (s : Cache) (h : Nat) :
    resetSlot s h = { s with
      node := fun j => if j ∈ s.slots h then Entry.zero else s.node j
      free := (s.slots h).reverse ++ s.free
      active := s.active - BitVec.ofNat 32 (s.slots h).length
      slots := upd s.slots h [] } := by
  unfold resetSlot
  rw [freeNodes]

theorem resetSlots (L : List Nat) (s : Cache) (hL : L.Nodup) :
    L.foldl resetSlot s = { s with
      node := fun j => if j ∈ L.flatMap s.slots then Entry.zero else s.node j
      free := (L.flatMap s.slots).reverse ++ s.free
      active := s.active - BitVec.ofNat 32 (L.flatMap s.slots).length
      slots := fun h => if h ∈ L then [] else s.slots h } := by
  induction L generalizing s with
  | nil => simp
  | cons a L ih =>
    obtain ⟨hna, hL⟩ := List.nodup_cons.1 hL
    rw [List.foldl_cons, ih _ hL, resetSlot_eq]
    dsimp only
    rw [flatMap_upd_notMem _ _ _ _ hna]
    simp only [List.flatMap_cons, List.reverse_append, List.append_assoc, List.length_append,
      Cache.mk.injEq, true_and, and_true]
    refine ⟨?_, ?_, ?_⟩
    · funext j
      by_cases h1 : j ∈ L.flatMap s.slots
      · rw [if_pos h1, if_pos (List.mem_append.2 (Or.inr h1))]
      · rw [if_neg h1]
        by_cases h2 : j ∈ s.slots a
        · rw [if_pos h2, if_pos (List.mem_append.2 (Or.inl h2))]
        · rw [if_neg h2, if_neg (by rw [List.mem_append]; rintro (e | e) <;> contradiction)]
    · funext h
      by_cases h1 : h = a
      · subst h1; simp [hna]
      · simp [upd_ne _ _ h1, h1]
    · apply BitVec.eq_of_toNat_eq
      simp only [BitVec.toNat_sub, BitVec.toNat_ofNat]
      have := s.active.isLt
      omega

theorem reset_eq (s : Cache) :
    reset s = { s with
      node := fun j => if j ∈ linked s then Entry.zero else s.node j
      free := (linked s).reverse ++ s.free
      active := s.active - BitVec.ofNat 32 (linked s).length
      slots := fun h => if h < nslots then [] else s.slots h
      lruHint := 0 } := by
  unfold reset
  rw [resetSlots _ _ List.nodup_range]
  simp only [List.mem_range]
  rfl

theorem linked_reset (s : Cache) : linked (reset s) = [] := by
  rw [reset_eq]
  unfold linked
  rw [List.flatMap_eq_nil_iff]
  intro h hh
  rw [List.mem_range] at hh
  simp [hh]

theorem WF.reset {m s} (w : WF m s) :
    WF m (reset s) ∧ (∀ i, (Verif.Avc.reset s).node i = Entry.zero) := by
  have hl := linked_reset s
  have hz : ∀ i, (Verif.Avc.reset s).node i = Entry.zero := by
    intro i
    rw [reset_eq]
    dsimp only
    by_cases h : i ∈ linked s
    · rw [if_pos h]
    · rw [if_neg h]; exact w.unlinked i h
  refine ⟨⟨?_, fun i _ => hz i, ?_, ?_, ?_, ?_⟩, hz⟩
  · rw [hl, reset_eq, List.nil_append]
    exact ((List.reverse_perm _).append_right _).trans w.perm
  · intro h i hh hi
    exact absurd (mem_linked.2 ⟨h, hh, hi⟩) (by rw [hl]; simp)
  · intro i hi; rw [hl] at hi; simp at hi
  · rw [hl, reset_eq]
    dsimp only
    rw [w.count, BitVec.sub_self]; rfl
  · rw [reset_eq]; exact nslots_pos

end Verif.Avc
