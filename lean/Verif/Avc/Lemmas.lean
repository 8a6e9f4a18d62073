import Verif.Avc.Spec

/-! # The shape of the cache: chains, freelist, counter -/

namespace Verif.Avc

@[simp] theorem upd_same {α : Type} (f : Nat → α) (i : Nat) (x : α) : upd f i x i = x := by
  simp [upd]

theorem upd_ne {α : Type} (f : Nat → α) {i j : Nat} (x : α) (h : j ≠ i) : upd f i x j = f j := by
  simp [upd, h]

theorem flatMap_upd_notMem (f : Nat → List Nat) (h : Nat) (x : List Nat) (L : List Nat)
    (hn : h ∉ L) : L.flatMap (upd f h x) = L.flatMap f := by
  induction L with
  | nil => rfl
  | cons a L ih =>
    have ha : a ≠ h := fun e => hn (by simp [e])
    have hL : h ∉ L := fun e => hn (by simp [e])
    simp only [List.flatMap_cons, upd_ne f x ha, ih hL]

theorem flatMap_upd_perm (f : Nat → List Nat) (h : Nat) (x : List Nat) (L : List Nat)
    (hm : h ∈ L) (hnd : L.Nodup) :
    ∃ R, (L.flatMap f).Perm (f h ++ R) ∧ (L.flatMap (upd f h x)).Perm (x ++ R) := by
  obtain ⟨a, b, rfl⟩ := List.append_of_mem hm
  have hna : h ∉ a := by
    intro ha
    exact (List.nodup_append.1 hnd).2.2 h ha h (by simp) rfl
  have hnb : h ∉ b := (List.nodup_cons.1 (List.nodup_append.1 hnd).2.1).1
  refine ⟨a.flatMap f ++ b.flatMap f, ?_, ?_⟩
  · simp only [List.flatMap_append, List.flatMap_cons]
    rw [← List.append_assoc, ← List.append_assoc]
    exact (List.perm_append_comm).append_right _
  · simp only [List.flatMap_append, List.flatMap_cons, upd_same,
      flatMap_upd_notMem f h x a hna, flatMap_upd_notMem f h x b hnb]
    rw [← List.append_assoc, ← List.append_assoc]
    exact (List.perm_append_comm).append_right _

theorem mem_linked {s : Cache} {i : Nat} : i ∈ linked s ↔ ∃ h, h < nslots ∧ i ∈ s.slots h := by
  simp [linked]

theorem nslots_pos : 0 < nslots := by unfold nslots; decide

theorem hash_lt (k : Key) : hash k < nslots := Nat.mod_lt _ nslots_pos

/-- The invariant of the data structure; `m` is the number of nodes allocated. -/
structure WF (m : Nat) (s : Cache) : Prop where
  perm : (linked s ++ s.free).Perm (List.range m)
  unlinked : ∀ i, i ∉ linked s → s.node i = Entry.zero
  bucket : ∀ h i, h < nslots → i ∈ s.slots h → hash (s.node i).key = h
  nonnull : ∀ i, i ∈ linked s → (s.node i).ssid ≠ 0 ∧ (s.node i).tsid ≠ 0
  count : s.active = BitVec.ofNat 32 (linked s).length
  hint : s.lruHint < nslots

theorem WF.nodup {m s} (w : WF m s) : (linked s ++ s.free).Nodup :=
  w.perm.nodup_iff.2 List.nodup_range

theorem linked_of_slots {s s' : Cache} (h : s'.slots = s.slots) : linked s' = linked s := by
  simp [linked, h]

/-- Operations that only change the decision, the saved SID and the `used` mark of entries that are in the cache. -/
structure SameShape (s s' : Cache) : Prop where
  slots : s'.slots = s.slots
  free : s'.free = s.free
  hint : s'.lruHint = s.lruHint
  active : s'.active = s.active
  key : ∀ i, (s'.node i).key = (s.node i).key
  unl : ∀ i, i ∉ linked s → s.node i = Entry.zero → s'.node i = Entry.zero

theorem SameShape.refl (s : Cache) : SameShape s s :=
  ⟨rfl, rfl, rfl, rfl, fun _ => rfl, fun _ _ h => h⟩

theorem SameShape.trans {a b c : Cache} (h : SameShape a b) (g : SameShape b c) : SameShape a c :=
  ⟨g.slots.trans h.slots, g.free.trans h.free, g.hint.trans h.hint, g.active.trans h.active,
   fun i => (g.key i).trans (h.key i),
   fun i hi hz => g.unl i (by rw [linked_of_slots h.slots]; exact hi) (h.unl i hi hz)⟩

theorem ssid_of_key {e e' : Entry} (h : e'.key = e.key) : e'.ssid = e.ssid ∧ e'.tsid = e.tsid := by
  simp only [Entry.key, Key.mk.injEq] at h; exact ⟨h.1, h.2.1⟩

theorem WF.same {m s s'} (w : WF m s) (h : SameShape s s') : WF m s' := by
  have hl := linked_of_slots (s := s) (s' := s') h.slots
  refine ⟨?_, ?_, ?_, ?_, ?_, ?_⟩
  · rw [hl, h.free]; exact w.perm
  · intro i hi; rw [hl] at hi; exact h.unl i hi (w.unlinked i hi)
  · intro b i hb hi
    rw [h.slots] at hi
    rw [h.key i]; exact w.bucket b i hb hi
  · intro i hi; rw [hl] at hi
    rw [(ssid_of_key (h.key i)).1, (ssid_of_key (h.key i)).2]
    exact w.nonnull i hi
  · rw [hl, h.active]; exact w.count
  · rw [h.hint]; exact w.hint

theorem sameShape_upd {s : Cache} {i : Nat} {e : Entry} (hi : i ∈ linked s)
    (hk : e.key = (s.node i).key) : SameShape s { s with node := upd s.node i e } := by
  refine ⟨rfl, rfl, rfl, rfl, ?_, ?_⟩
  · intro j
    by_cases hj : j = i
    · subst hj; simp [hk]
    · simp [upd_ne _ _ hj]
  · intro j hj hz
    have : j ≠ i := fun e => hj (e ▸ hi)
    simp [upd_ne _ _ this, hz]

theorem setUsed_same {s : Cache} {i : Nat} (hi : i ∈ linked s) : SameShape s (setUsed s i) :=
  sameShape_upd hi rfl

theorem search_some {s s1 : Cache} {k : Key} {i : Nat} (h : search s k = (s1, some i)) :
    s1 = setUsed s i ∧ i ∈ s.slots (hash k) ∧ (s.node i).key = k := by
  unfold search at h
  cases hf : (s.slots (hash k)).find? (fun i => matchKey (s.node i) k) with
  | none => rw [hf] at h; simp at h
  | some j =>
    rw [hf] at h
    simp only [Prod.mk.injEq, Option.some.injEq] at h
    obtain ⟨h1, rfl⟩ := h
    refine ⟨h1.symm, List.mem_of_find?_eq_some hf, ?_⟩
    have := List.find?_some hf
    simp only [matchKey, Bool.and_eq_true, beq_iff_eq] at this
    cases k
    simp only [Entry.key, Key.mk.injEq]
    exact ⟨this.1.1, this.2, this.1.2⟩

theorem search_none {s s1 : Cache} {k : Key} (h : search s k = (s1, none)) :
    s1 = s ∧ ∀ i ∈ s.slots (hash k), (s.node i).key ≠ k := by
  unfold search at h
  cases hf : (s.slots (hash k)).find? (fun i => matchKey (s.node i) k) with
  | some j => rw [hf] at h; simp at h
  | none =>
    rw [hf] at h
    simp only [Prod.mk.injEq, and_true] at h
    refine ⟨h.symm, ?_⟩
    intro i hi hk
    have := List.find?_eq_none.1 hf i hi
    apply this
    simp [matchKey, ← hk, Entry.key]

theorem mem_linked_hash {s : Cache} {k : Key} {i : Nat} (h : i ∈ s.slots (hash k)) : i ∈ linked s :=
  mem_linked.2 ⟨hash k, hash_lt k, h⟩

/-- What a lookup does: it marks at most one entry as used. -/
theorem lookup_some {s s1 : Cache} {k : Key} {req : AV} {i : Nat} (h : lookup s k req = (s1, some i)) :
    s1 = setUsed s i ∧ i ∈ linked s ∧ (s.node i).key = k ∧ (s.node i).avd.decided &&& req = req := by
  unfold lookup at h
  cases hs : search s k with
  | mk t o =>
    rw [hs] at h
    cases o with
    | none => simp at h
    | some j =>
      obtain ⟨e1, e2, e3⟩ := search_some hs
      dsimp only at h
      split at h
      · rename_i hd
        simp only [Prod.mk.injEq, Option.some.injEq] at h
        obtain ⟨rfl, rfl⟩ := h
        refine ⟨e1, mem_linked_hash e2, e3, ?_⟩
        rw [e1] at hd
        simpa [setUsed] using hd
      · simp at h

theorem lookup_none {s s1 : Cache} {k : Key} {req : AV} (h : lookup s k req = (s1, none)) :
    s1 = s ∨ ∃ i, i ∈ linked s ∧ s1 = setUsed s i := by
  unfold lookup at h
  cases hs : search s k with
  | mk t o =>
    rw [hs] at h
    cases o with
    | none =>
      simp only [Prod.mk.injEq, and_true] at h
      exact Or.inl (h ▸ (search_none hs).1)
    | some j =>
      obtain ⟨e1, e2, e3⟩ := search_some hs
      dsimp only at h
      split at h
      · simp at h
      · simp only [Prod.mk.injEq, and_true] at h
        exact Or.inr ⟨j, mem_linked_hash e2, h ▸ e1⟩

/-! ### Reclaiming a node -/

/-- Two memories differ in `used` marks only. -/
def SameButUsed (a b : Nat → Entry) : Prop := ∀ i, ∃ u, b i = { a i with used := u }

theorem SameButUsed.refl (a : Nat → Entry) : SameButUsed a a := fun i => ⟨(a i).used, rfl⟩

theorem SameButUsed.trans {a b c : Nat → Entry} (h : SameButUsed a b) (g : SameButUsed b c) :
    SameButUsed a c := by
  intro i
  obtain ⟨u, hu⟩ := h i
  obtain ⟨v, hv⟩ := g i
  exact ⟨v, by rw [hv, hu]⟩

theorem sameButUsed_upd (a : Nat → Entry) (i : Nat) (u : Bool) :
    SameButUsed a (upd a i { a i with used := u }) := by
  intro j
  by_cases h : j = i
  · subst h; exact ⟨u, by simp⟩
  · exact ⟨(a j).used, by simp [upd_ne _ _ h]⟩

/-- The walk: only `used` marks change, and only from true to false. -/
theorem walk_spec (l : List Nat) (nd : Nat → Entry) :
    SameButUsed nd (walk nd l).1 ∧
    (∀ i, (nd i).used = false → ((walk nd l).1 i).used = false) ∧
    (∀ i, i ∉ l → (walk nd l).1 i = nd i) ∧
    (∀ c, (walk nd l).2 = some c → c ∈ l) ∧
    ((walk nd l).2 = none → ∀ i ∈ l, ((walk nd l).1 i).used = false) := by
  induction l generalizing nd with
  | nil => simp [walk, SameButUsed.refl]
  | cons c cs ih =>
    unfold walk
    by_cases hu : (nd c).used = true
    · rw [if_pos hu]
      obtain ⟨a1, a2, a3, a4, a5⟩ := ih (upd nd c { nd c with used := false })
      have hmono : ∀ i, (nd i).used = false → ((upd nd c { nd c with used := false }) i).used = false := by
        intro i hi
        by_cases h : i = c
        · subst h; simp
        · simp [upd_ne _ _ h, hi]
      refine ⟨(sameButUsed_upd nd c false).trans a1, fun i hi => a2 i (hmono i hi), ?_, ?_, ?_⟩
      · intro i hi
        have h1 : i ≠ c := fun e => hi (by simp [e])
        have h2 : i ∉ cs := fun e => hi (by simp [e])
        rw [a3 i h2, upd_ne _ _ h1]
      · intro x hx; exact List.mem_cons_of_mem _ (a4 x hx)
      · intro hn i hi
        rcases List.mem_cons.1 hi with rfl | hi
        · exact a2 i (by simp)
        · exact a5 hn i hi
    · rw [if_neg hu]
      refine ⟨SameButUsed.refl nd, fun i hi => hi, fun i _ => rfl, ?_, ?_⟩
      · intro x hx; simp only [Option.some.injEq] at hx; simp [← hx]
      · intro h; cases h

/-- The state `s` with other `used` marks. -/
structure Marked (s s' : Cache) : Prop where
  node : SameButUsed s.node s'.node
  mono : ∀ i, (s.node i).used = false → (s'.node i).used = false
  unl : ∀ i, i ∉ linked s → s'.node i = s.node i
  rest : s' = { s with node := s'.node }

theorem Marked.refl (s : Cache) : Marked s s := ⟨SameButUsed.refl _, fun _ h => h, fun _ _ => rfl, rfl⟩

theorem Marked.slots {s s' : Cache} (h : Marked s s') : s'.slots = s.slots := by rw [h.rest]

theorem Marked.trans {a b c : Cache} (h : Marked a b) (g : Marked b c) : Marked a c := by
  refine ⟨h.node.trans g.node, fun i hi => g.mono i (h.mono i hi), ?_, ?_⟩
  · intro i hi
    rw [g.unl i (by rw [linked_of_slots h.slots]; exact hi), h.unl i hi]
  · have h1 := h.rest
    have h2 := g.rest
    rw [h1] at h2
    exact h2

theorem marked_walk {s : Cache} {h : Nat} (hh : h < nslots) (nd : Nat → Entry) (o : Option Nat)
    (hw : walk s.node (s.slots h) = (nd, o)) : Marked s { s with node := nd } := by
  obtain ⟨a1, a2, a3, _, _⟩ := walk_spec (s.slots h) s.node
  rw [hw] at a1 a2 a3
  exact ⟨a1, a2, fun i hi => a3 i (fun hm => hi (mem_linked.2 ⟨h, hh, hm⟩)), rfl⟩

/-- A reclaimed node was in the cache; nothing else is removed. -/
theorem reclaimLoop_some {fuel : Nat} : ∀ {s s1 : Cache} {h c : Nat}, h < nslots →
    reclaimLoop fuel s h = (s1, some c) →
    ∃ t h', Marked s t ∧ h' < nslots ∧ c ∈ s.slots h' ∧
      s1 = { t with lruHint := h', slots := upd s.slots h' ((s.slots h').erase c) } := by
  induction fuel with
  | zero => intro s s1 h c _ e; simp [reclaimLoop] at e
  | succ n ih =>
    intro s s1 h c hh e
    unfold reclaimLoop at e
    cases hw : walk s.node (s.slots h) with
    | mk nd o =>
      rw [hw] at e
      cases o with
      | some x =>
        simp only [Prod.mk.injEq, Option.some.injEq] at e
        obtain ⟨e1, rfl⟩ := e
        refine ⟨{ s with node := nd }, h, marked_walk hh nd _ hw, hh, ?_, e1.symm⟩
        have := (walk_spec (s.slots h) s.node).2.2.2.1 x (by rw [hw])
        exact this
      | none =>
        obtain ⟨t, h', m, b1, b2, b3⟩ := ih (Nat.mod_lt _ nslots_pos) e
        exact ⟨t, h', (marked_walk hh nd _ hw).trans m, b1, b2, b3⟩

/-- The slots visited from `h` on. -/
theorem reclaimLoop_none {fuel : Nat} : ∀ {s s1 : Cache} {h : Nat}, h < nslots →
    reclaimLoop fuel s h = (s1, none) →
    Marked s s1 ∧ ∀ j, j < fuel → ∀ i ∈ s.slots ((h + j) % nslots), (s1.node i).used = false := by
  induction fuel with
  | zero =>
    intro s s1 h _ e
    simp only [reclaimLoop, Prod.mk.injEq, and_true] at e
    subst e
    exact ⟨Marked.refl _, fun j hj => absurd hj (Nat.not_lt_zero _)⟩
  | succ n ih =>
    intro s s1 h hh e
    unfold reclaimLoop at e
    cases hw : walk s.node (s.slots h) with
    | mk nd o =>
      rw [hw] at e
      cases o with
      | some x => simp at e
      | none =>
        obtain ⟨m, b⟩ := ih (Nat.mod_lt _ nslots_pos) e
        refine ⟨(marked_walk hh nd _ hw).trans m, ?_⟩
        intro j hj i hi
        cases j with
        | zero =>
          rw [Nat.add_zero, Nat.mod_eq_of_lt hh] at hi
          have := (walk_spec (s.slots h) s.node).2.2.2.2 (by rw [hw]) i hi
          rw [hw] at this
          exact m.mono i this
        | succ j =>
          refine b j (by omega) i ?_
          show i ∈ s.slots _
          rw [show ((h + 1) % nslots + j) % nslots = (h + (j + 1)) % nslots by
            rw [Nat.mod_add_mod]; congr 1; omega]
          exact hi

theorem reclaimLoop_add (a b : Nat) : ∀ {s s1 : Cache} {h : Nat}, h < nslots →
    reclaimLoop (a + b) s h = (s1, none) →
    ∃ t, reclaimLoop a s h = (t, none) ∧ reclaimLoop b t ((h + a) % nslots) = (s1, none) := by
  induction a with
  | zero =>
    intro s s1 h hh e
    refine ⟨s, rfl, ?_⟩
    rw [Nat.add_zero, Nat.mod_eq_of_lt hh]
    rwa [Nat.zero_add] at e
  | succ n ih =>
    intro s s1 h hh e
    rw [show n + 1 + b = (n + b) + 1 by omega] at e
    unfold reclaimLoop at e
    cases hw : walk s.node (s.slots h) with
    | mk nd o =>
      rw [hw] at e
      cases o with
      | some x => simp at e
      | none =>
        obtain ⟨t, h1, h2⟩ := ih (Nat.mod_lt _ nslots_pos) e
        refine ⟨t, ?_, ?_⟩
        · unfold reclaimLoop; rw [hw]; exact h1
        rwa [show ((h + 1) % nslots + n) % nslots = (h + (n + 1)) % nslots by
            rw [Nat.mod_add_mod]; congr 1; omega] at h2

theorem walk_finds {l : List Nat} {nd : Nat → Entry} {i : Nat} (hi : i ∈ l)
    (hu : ∀ j ∈ l, (nd j).used = false) : (walk nd l).2 ≠ none := by
  cases l with
  | nil => simp at hi
  | cons c cs =>
    unfold walk
    rw [if_neg (by rw [hu c (by simp)]; simp)]
    simp

/-- With an unused entry in a slot that is visited, the scan succeeds. -/
theorem reclaimLoop_finds {fuel : Nat} : ∀ {s s1 : Cache} {h : Nat}, h < nslots →
    (∀ i ∈ linked s, (s.node i).used = false) →
    reclaimLoop fuel s h = (s1, none) →
    ∀ j, j < fuel → s.slots ((h + j) % nslots) = [] := by
  induction fuel with
  | zero => intro s s1 h _ _ _ j hj; omega
  | succ n ih =>
    intro s s1 h hh hu e j hj
    unfold reclaimLoop at e
    cases hw : walk s.node (s.slots h) with
    | mk nd o =>
      rw [hw] at e
      cases o with
      | some x => simp at e
      | none =>
        have hm := marked_walk hh nd _ hw
        cases j with
        | zero =>
          rw [Nat.add_zero, Nat.mod_eq_of_lt hh]
          by_contra hne
          obtain ⟨x, hx⟩ := List.exists_mem_of_ne_nil _ hne
          exact walk_finds hx (fun y hy => hu y (mem_linked.2 ⟨h, hh, hy⟩)) (by rw [hw])
        | succ j =>
          have := ih (Nat.mod_lt _ nslots_pos) (s := { s with node := nd })
            (fun i hi => hm.mono i (hu i hi)) e j (by omega)
          rw [show ((h + 1) % nslots + j) % nslots = (h + (j + 1)) % nslots by
            rw [Nat.mod_add_mod]; congr 1; omega] at this
          exact this

theorem slot_visited {h b : Nat} (hh : h < nslots) (hb : b < nslots) :
    ∃ j, j < nslots ∧ (h + j) % nslots = b := by
  unfold nslots at *
  by_cases hle : h ≤ b
  · exact ⟨b - h, by omega, by rw [show h + (b - h) = b by omega]; exact Nat.mod_eq_of_lt hb⟩
  · exact ⟨512 + b - h, by omega, by
      rw [show h + (512 + b - h) = b + 512 by omega, Nat.add_mod_right]; exact Nat.mod_eq_of_lt hb⟩

/-- `avc_reclaim_node` fails only on an empty cache. -/
theorem reclaim_none {s s1 : Cache} (hh : s.lruHint < nslots) (h : reclaim s = (s1, none)) :
    linked s = [] := by
  unfold reclaim at h
  rw [show 2 * nslots = nslots + nslots by omega] at h
  obtain ⟨t, h1, h2⟩ := reclaimLoop_add nslots nslots hh h
  obtain ⟨m1, v1⟩ := reclaimLoop_none hh h1
  have hun : ∀ i ∈ linked t, (t.node i).used = false := by
    intro i hi
    obtain ⟨b, hb, hi⟩ := mem_linked.1 hi
    obtain ⟨j, hj, e⟩ := slot_visited hh hb
    rw [m1.slots] at hi
    exact v1 j hj i (by rw [e]; exact hi)
  rw [Nat.add_mod_right, Nat.mod_eq_of_lt hh] at h2
  have hemp := reclaimLoop_finds hh hun h2
  rw [← linked_of_slots m1.slots]
  by_contra hne
  obtain ⟨x, hx⟩ := List.exists_mem_of_ne_nil _ hne
  obtain ⟨b, hb, hx⟩ := mem_linked.1 hx
  obtain ⟨j, hj, e⟩ := slot_visited hh hb
  have := hemp j hj
  rw [e] at this
  rw [this] at hx
  simp at hx

end Verif.Avc
