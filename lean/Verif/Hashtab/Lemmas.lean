import Verif.Hashtab.Spec

namespace Verif.Hashtab

variable {κ δ : Type} {o : Ops κ}

/-- Strictly ascending chain. -/
def Sorted (o : Ops κ) (l : List (κ × δ)) : Prop := l.Pairwise (fun a b => o.cmp a.1 b.1 < 0)

/-- Invariant of a table. -/
structure Inv (o : Ops κ) (h : Tab κ δ) : Prop where
  pos : 0 < h.size
  small : h.size < 2 ^ 32
  sorted : ∀ i, Sorted o (h.htable i)
  slot : ∀ i x, x ∈ h.htable i → i = o.hash h.size x.1
  count : h.nel = (nodes h).length
  bound : h.nel < 2 ^ 32

theorem cmp_self (ok : OpsOk o) (a : κ) : o.cmp a a = 0 := (ok.zero a a).mpr rfl

theorem mem_nodes (ok : OpsOk o) {h : Tab κ δ} (hi : Inv o h) (x : κ × δ) : x ∈ nodes h ↔ x ∈ h.htable (o.hash h.size x.1) := by
  unfold nodes
  rw [List.mem_flatMap]
  constructor
  · rintro ⟨i, _, hx⟩
    rw [← hi.slot i x hx]; exact hx
  · intro hx
    exact ⟨_, List.mem_range.mpr (ok.slot _ _ hi.pos hi.small), hx⟩

theorem sorted_nodup_keys (ok : OpsOk o) {l : List (κ × δ)} (h : Sorted o l) : (l.map (·.1)).Nodup := by
  unfold List.Nodup
  rw [List.pairwise_map]
  exact h.imp (fun {a b} hab heq => by
    rw [heq, cmp_self ok] at hab; omega)

theorem nodes_nodup_gen (ok : OpsOk o) {h : Tab κ δ} (hi : Inv o h) (l : List Nat) (hl : l.Nodup) :
    ((l.flatMap h.htable).map (·.1)).Nodup := by
  induction l with
  | nil => exact .nil
  | cons i l ih =>
    rw [List.nodup_cons] at hl
    rw [List.flatMap_cons, List.map_append, List.nodup_append]
    refine ⟨sorted_nodup_keys ok (hi.sorted i), ih hl.2, ?_⟩
    intro a ha b hb heq
    subst heq
    obtain ⟨x, hx, rfl⟩ := List.mem_map.mp ha
    obtain ⟨y, hy, hxy⟩ := List.mem_map.mp hb
    obtain ⟨j, hj, hy⟩ := List.mem_flatMap.mp hy
    have h1 := hi.slot i x hx
    have h2 := hi.slot j y hy
    rw [hxy] at h2
    rw [← h1] at h2
    subst h2
    exact hl.1 hj

theorem nodes_nodup (ok : OpsOk o) {h : Tab κ δ} (hi : Inv o h) : ((nodes h).map (·.1)).Nodup :=
  nodes_nodup_gen ok hi _ List.nodup_range

theorem searchChain_spec (ok : OpsOk o) (k : κ) : ∀ {l : List (κ × δ)}, Sorted o l → ∀ d, searchChain o k l = some d ↔ (k, d) ∈ l := by
  intro l
  induction l with
  | nil => intro _ d; simp [searchChain]
  | cons y l ih =>
    intro hs d
    unfold Sorted at hs
    rw [List.pairwise_cons] at hs
    unfold searchChain
    by_cases h1 : o.cmp k y.1 > 0
    · rw [if_pos h1, ih hs.2, List.mem_cons]
      constructor
      · exact .inr
      · rintro (h | h)
        · rw [← h, cmp_self ok] at h1; omega
        · exact h
    · rw [if_neg h1]
      by_cases h2 : o.cmp k y.1 = 0
      · rw [if_pos h2]
        have hk := (ok.zero _ _).mp h2
        subst hk
        rw [List.mem_cons]
        constructor
        · intro h; left; cases h; rfl
        · rintro (h | h)
          · rw [← h]
          · have := hs.1 _ h
            rw [cmp_self ok] at this; omega
      · rw [if_neg h2]
        simp only [reduceCtorEq, false_iff, List.mem_cons, not_or]
        constructor
        · intro h; rw [← h, cmp_self ok] at h2; exact h2 rfl
        · intro h
          have h3 := hs.1 _ h
          have h4 : o.cmp k y.1 < 0 := by omega
          have := (ok.swap y.1 k)
          dsimp only at h3
          have h5 : o.cmp k k < 0 := ok.trans _ _ _ h4 h3
          rw [cmp_self ok] at h5; omega

theorem insertChain_spec (ok : OpsOk o) (x : κ × δ) : ∀ {l : List (κ × δ)}, Sorted o l →
    (insertChain o x l = none ↔ ∃ d, (x.1, d) ∈ l) ∧
    ∀ l', insertChain o x l = some l' → Sorted o l' ∧ l'.Perm (x :: l) := by
  intro l
  induction l with
  | nil =>
    intro _
    refine ⟨by simp [insertChain], fun l' h => ?_⟩
    simp only [insertChain, Option.some.injEq] at h
    subst h
    exact ⟨by simp [Sorted], .refl _⟩
  | cons y l ih =>
    intro hs
    have hs' := hs
    unfold Sorted at hs
    rw [List.pairwise_cons] at hs
    obtain ⟨i1, i2⟩ := ih hs.2
    unfold insertChain
    by_cases h1 : o.cmp x.1 y.1 > 0
    · rw [if_pos h1]
      constructor
      · rw [Option.map_eq_none_iff, i1]
        constructor
        · rintro ⟨d, h⟩; exact ⟨d, by simp [h]⟩
        · rintro ⟨d, h⟩
          rcases List.mem_cons.mp h with h | h
          · rw [← h, cmp_self ok] at h1; omega
          · exact ⟨d, h⟩
      · intro l' h
        rw [Option.map_eq_some_iff] at h
        obtain ⟨m, hm, rfl⟩ := h
        obtain ⟨a, b⟩ := i2 m hm
        refine ⟨?_, (b.cons y).trans (.swap _ _ _)⟩
        unfold Sorted
        rw [List.pairwise_cons]
        refine ⟨fun z hz => ?_, a⟩
        rcases List.mem_cons.mp (b.mem_iff.mp hz) with rfl | hz
        · exact (ok.swap _ _).mp h1
        · exact hs.1 z hz
    · rw [if_neg h1]
      by_cases h2 : o.cmp x.1 y.1 = 0
      · rw [if_pos h2]
        have hk := (ok.zero _ _).mp h2
        refine ⟨?_, fun l' h => by cases h⟩
        simp only [true_iff]
        exact ⟨y.2, by rw [hk]; simp⟩
      · rw [if_neg h2]
        have h4 : o.cmp x.1 y.1 < 0 := by omega
        constructor
        · simp only [reduceCtorEq, false_iff]
          rintro ⟨d, h⟩
          have := (searchChain_spec ok x.1 hs' d).mpr h
          unfold searchChain at this
          rw [if_neg h1, if_neg h2] at this
          cases this
        · intro l' h
          cases h
          refine ⟨?_, .refl _⟩
          unfold Sorted
          rw [List.pairwise_cons]
          refine ⟨fun z hz => ?_, hs'⟩
          rcases List.mem_cons.mp hz with rfl | hz
          · exact h4
          · exact ok.trans _ _ _ h4 (hs.1 z hz)

theorem removeChain_spec (ok : OpsOk o) (k : κ) : ∀ {l : List (κ × δ)}, Sorted o l →
    (removeChain o k l = none ↔ ∀ d, (k, d) ∉ l) ∧
    ∀ x l', removeChain o k l = some (x, l') → x.1 = k ∧ Sorted o l' ∧ l.Perm (x :: l') := by
  intro l
  induction l with
  | nil => intro _; simp [removeChain]
  | cons y l ih =>
    intro hs
    have hs' := hs
    unfold Sorted at hs
    rw [List.pairwise_cons] at hs
    obtain ⟨i1, i2⟩ := ih hs.2
    unfold removeChain
    by_cases h1 : o.cmp k y.1 > 0
    · rw [if_pos h1]
      constructor
      · rw [Option.map_eq_none_iff, i1]
        constructor
        · intro h d hm
          rcases List.mem_cons.mp hm with hm | hm
          · rw [← hm, cmp_self ok] at h1; omega
          · exact h d hm
        · intro h d hm; exact h d (by simp [hm])
      · intro x l' h
        rw [Option.map_eq_some_iff] at h
        obtain ⟨⟨x', m⟩, hm, he⟩ := h
        simp only [Prod.mk.injEq] at he
        obtain ⟨rfl, rfl⟩ := he
        obtain ⟨a, b, c⟩ := i2 x' m hm
        refine ⟨a, ?_, (c.cons y).trans (.swap _ _ _)⟩
        unfold Sorted
        rw [List.pairwise_cons]
        exact ⟨fun z hz => hs.1 z (c.mem_iff.mpr (by simp [hz])), b⟩
    · rw [if_neg h1]
      by_cases h2 : o.cmp k y.1 = 0
      · rw [if_pos h2]
        have hk := (ok.zero _ _).mp h2
        refine ⟨?_, fun x l' h => ?_⟩
        · simp only [reduceCtorEq, false_iff, Classical.not_forall, Classical.not_not]
          exact ⟨y.2, by rw [hk]; simp⟩
        · simp only [Option.some.injEq, Prod.mk.injEq] at h
          obtain ⟨rfl, rfl⟩ := h
          exact ⟨hk.symm, hs.2, .refl _⟩
      · rw [if_neg h2]
        refine ⟨?_, fun x l' h => by cases h⟩
        simp only [true_iff]
        intro d h
        have := (searchChain_spec ok k hs' d).mpr h
        unfold searchChain at this
        rw [if_neg h1, if_neg h2] at this
        cases this

theorem growSize_spec (nel : Nat) : ∀ fuel size, 0 < size → size < 2 ^ 32 →
    0 < growSize nel fuel size ∧ growSize nel fuel size < 2 ^ 32 := by
  intro fuel
  induction fuel with
  | zero => intro size h1 h2; exact ⟨h1, h2⟩
  | succ fuel ih =>
    intro size h1 h2
    unfold growSize
    split
    · rename_i h
      exact ih _ (Nat.pos_of_ne_zero h.2) (Nat.mod_lt _ (by decide))
    · exact ⟨h1, h2⟩

theorem moveNode_spec (ok : OpsOk o) (x : κ × δ) : ∀ {l : List (κ × δ)}, Sorted o l → (∀ d, (x.1, d) ∉ l) →
    Sorted o (moveNode o x l) ∧ (moveNode o x l).Perm (x :: l) := by
  intro l
  induction l with
  | nil => intro _ _; exact ⟨by simp [Sorted, moveNode], .refl _⟩
  | cons y l ih =>
    intro hs hn
    have hs' := hs
    unfold Sorted at hs
    rw [List.pairwise_cons] at hs
    unfold moveNode
    by_cases h1 : o.cmp x.1 y.1 > 0
    · rw [if_pos h1]
      obtain ⟨a, b⟩ := ih hs.2 (fun d h => hn d (by simp [h]))
      refine ⟨?_, (b.cons y).trans (.swap _ _ _)⟩
      unfold Sorted
      rw [List.pairwise_cons]
      refine ⟨fun z hz => ?_, a⟩
      rcases List.mem_cons.mp (b.mem_iff.mp hz) with rfl | hz
      · exact (ok.swap _ _).mp h1
      · exact hs.1 z hz
    · rw [if_neg h1]
      have h2 : o.cmp x.1 y.1 ≠ 0 := fun h => hn y.2 (by rw [(ok.zero _ _).mp h]; simp)
      have h4 : o.cmp x.1 y.1 < 0 := by omega
      refine ⟨?_, .refl _⟩
      unfold Sorted
      rw [List.pairwise_cons]
      refine ⟨fun z hz => ?_, hs'⟩
      rcases List.mem_cons.mp hz with rfl | hz
      · exact h4
      · exact ok.trans _ _ _ h4 (hs.1 z hz)

/-- Updating one slot inside the array. -/
theorem flatMap_update (f : Nat → List (κ × δ)) (v : Nat) (l : List (κ × δ)) : ∀ (r : List Nat), r.Nodup → v ∈ r →
    ∀ add : List (κ × δ), l.Perm (add ++ f v) →
    (r.flatMap (fun i => if i = v then l else f i)).Perm (add ++ r.flatMap f) := by
  intro r
  induction r with
  | nil => intro _ h; cases h
  | cons i r ih =>
    intro hn hv add hp
    rw [List.nodup_cons] at hn
    rw [List.flatMap_cons, List.flatMap_cons]
    by_cases hi : i = v
    · subst hi
      rw [if_pos rfl]
      have : r.flatMap (fun j => if j = i then l else f j) = r.flatMap f := by
        simp only [List.flatMap_def]
        congr 1
        apply List.map_congr_left
        intro j hj
        rw [if_neg (fun h : j = i => hn.1 (h ▸ hj))]
      rw [this, ← List.append_assoc]
      exact hp.append_right _
    · rw [if_neg hi]
      have hv' : v ∈ r := by
        rcases List.mem_cons.mp hv with h | h
        · exact absurd h.symm hi
        · exact h
      refine ((ih hn.2 hv' add hp).append_left _).trans ?_
      rw [← List.append_assoc, ← List.append_assoc]
      exact (List.perm_append_comm).append_right _

theorem nodes_update {h : Tab κ δ} {v : Nat} (hv : v < h.size) (l : List (κ × δ)) (n : Nat) (add : List (κ × δ))
    (hp : l.Perm (add ++ h.htable v)) :
    (nodes ⟨h.size, n, fun i => if i = v then l else h.htable i⟩).Perm (add ++ nodes h) :=
  flatMap_update h.htable v l _ List.nodup_range (List.mem_range.mpr hv) add hp

theorem inv_create {size : Nat} (h : 0 < size) (h2 : size < 2 ^ 32) : Inv o (create size : Tab κ δ) where
  pos := h
  small := h2
  sorted := fun _ => .nil
  slot := fun _ _ h => by cases h
  count := by
    show 0 = ((List.range size).flatMap (fun _ => ([] : List (κ × δ)))).length
    have : (List.range size).flatMap (fun _ => ([] : List (κ × δ))) = [] := by
      rw [List.flatMap_eq_nil_iff]; intros; rfl
    rw [this]; rfl
  bound := by show 0 < 2 ^ 32; decide

/-- Moving nodes with distinct keys. -/
theorem move_spec (ok : OpsOk o) {size : Nat} (hp : 0 < size) (h2 : size < 2 ^ 32) : ∀ (l : List (κ × δ)) (t : Nat → List (κ × δ)),
    (∀ i, Sorted o (t i)) → (∀ i x, x ∈ t i → i = o.hash size x.1) → (l.map (·.1)).Nodup →
    (∀ x ∈ l, ∀ i d, (x.1, d) ∉ t i) →
    (∀ i, Sorted o (l.foldl (move o size) t i)) ∧ (∀ i x, x ∈ l.foldl (move o size) t i → i = o.hash size x.1) ∧
    ((List.range size).flatMap (l.foldl (move o size) t)).Perm (l ++ (List.range size).flatMap t) := by
  intro l
  induction l with
  | nil => intro t h1 h2 _ _; exact ⟨h1, h2, .refl _⟩
  | cons x l ih =>
    intro t hs hsl hn hd
    rw [List.map_cons, List.nodup_cons] at hn
    rw [List.foldl_cons]
    obtain ⟨m1, m2⟩ := moveNode_spec ok x (hs (o.hash size x.1)) (hd x (by simp) _)
    obtain ⟨a, b, c⟩ := ih (move o size t x)
      (by
        intro i
        unfold move
        split
        · rename_i h; subst h; exact m1
        · exact hs i)
      (by
        intro i y hy
        unfold move at hy
        split at hy
        · rename_i h
          subst h
          rcases List.mem_cons.mp (m2.mem_iff.mp hy) with rfl | hy
          · rfl
          · exact hsl _ y hy
        · exact hsl i y hy) hn.2
      (by
        intro y hy i d hm
        unfold move at hm
        split at hm
        · rename_i h
          subst h
          rcases List.mem_cons.mp (m2.mem_iff.mp hm) with he | hm
          · exact hn.1 (List.mem_map.mpr ⟨y, hy, by rw [← he]⟩)
          · exact hd y (by simp [hy]) _ d hm
        · exact hd y (by simp [hy]) i d hm)
    refine ⟨a, b, c.trans ?_⟩
    have hu := flatMap_update t (o.hash size x.1) (moveNode o x (t (o.hash size x.1))) (List.range size) List.nodup_range
      (List.mem_range.mpr (ok.slot size x.1 hp h2)) [x] m2
    have he : (fun i => if i = o.hash size x.1 then moveNode o x (t (o.hash size x.1)) else t i) = move o size t x := by
      funext i
      unfold move
      split
      · rename_i h; subst h; rfl
      · rfl
    rw [he] at hu
    refine (hu.append_left l).trans ?_
    rw [← List.append_assoc]
    exact List.Perm.append_right _ List.perm_append_comm

theorem checkResize_spec (ok : OpsOk o) (b : Bool) {h : Tab κ δ} (hi : Inv o h) :
    Inv o (checkResize o b h) ∧ (nodes (checkResize o b h)).Perm (nodes h) ∧ (checkResize o b h).nel = h.nel := by
  unfold checkResize
  dsimp only
  split
  · exact ⟨hi, .refl _, rfl⟩
  · split
    · exact ⟨hi, .refl _, rfl⟩
    · obtain ⟨g1, g2⟩ := growSize_spec h.nel 32 h.size hi.pos hi.small
      obtain ⟨a, b, c⟩ := move_spec ok g1 g2 (nodes h) (fun _ => []) (fun _ => .nil) (fun _ _ h => by cases h)
        (nodes_nodup ok hi) (fun _ _ _ _ h => by cases h)
      have hc : (nodes (⟨growSize h.nel 32 h.size, h.nel, (nodes h).foldl (move o (growSize h.nel 32 h.size)) (fun _ => [])⟩ : Tab κ δ)).Perm
          (nodes h) := by
        unfold nodes at c ⊢
        refine c.trans ?_
        have : (List.range (growSize h.nel 32 h.size)).flatMap (fun _ => ([] : List (κ × δ))) = [] := by
          rw [List.flatMap_eq_nil_iff]; intros; rfl
        rw [this, List.append_nil]
      exact ⟨⟨g1, g2, a, b, by rw [hc.length_eq]; exact hi.count, hi.bound⟩, hc, rfl⟩

/-- Everything about an insertion. -/
theorem insert_spec (ok : OpsOk o) (ok1 ok2 : Bool) (k : κ) (d : δ) {h : Tab κ δ} (hi : Inv o h) :
    Inv o (insert o ok1 ok2 k d h).1 ∧
    ((insert o ok1 ok2 k d h).2 = .ok ∧ (nodes (insert o ok1 ok2 k d h).1).Perm ((k, d) :: nodes h) ∧ (∀ d', (k, d') ∉ nodes h) ∧
        h.nel ≠ 2 ^ 32 - 1 ∧ ok2 = true ∨
     (insert o ok1 ok2 k d h).2 = .exist ∧ (nodes (insert o ok1 ok2 k d h).1).Perm (nodes h) ∧ (∃ d', (k, d') ∈ nodes h) ∧
        h.nel ≠ 2 ^ 32 - 1 ∨
     (insert o ok1 ok2 k d h).2 = .nomem ∧ (nodes (insert o ok1 ok2 k d h).1).Perm (nodes h) ∧
        (h.nel = 2 ^ 32 - 1 ∨ (ok2 = false ∧ ∀ d', (k, d') ∉ nodes h))) := by
  unfold insert
  by_cases hfull : h.nel = 2 ^ 32 - 1
  · rw [if_pos hfull]
    exact ⟨hi, .inr (.inr ⟨rfl, .refl _, .inl hfull⟩)⟩
  · rw [if_neg hfull]
    dsimp only
    obtain ⟨ci, cp, cn⟩ := checkResize_spec ok ok1 hi
    generalize checkResize o ok1 h = g at ci cp cn
    have hv : o.hash g.size k < g.size := ok.slot _ _ ci.pos ci.small
    obtain ⟨i1, i2⟩ := insertChain_spec ok (k, d) (ci.sorted (o.hash g.size k))
    have hmem : ∀ d', (k, d') ∈ nodes h ↔ (k, d') ∈ g.htable (o.hash g.size k) := fun d' => by
      rw [← cp.mem_iff, mem_nodes ok ci]
    cases hc : insertChain o (k, d) (g.htable (o.hash g.size k)) with
    | none =>
      obtain ⟨d', hd⟩ := i1.mp hc
      exact ⟨ci, .inr (.inl ⟨rfl, cp, ⟨d', (hmem d').mpr hd⟩, hfull⟩)⟩
    | some l =>
      obtain ⟨l1, l2⟩ := i2 l hc
      have hno : ∀ d', (k, d') ∉ nodes h := fun d' hm => by
        have := i1.mpr ⟨d', (hmem d').mp hm⟩
        rw [hc] at this; cases this
      dsimp only
      by_cases h2 : ok2 = false
      · rw [if_pos h2]
        exact ⟨ci, .inr (.inr ⟨rfl, cp, .inr ⟨h2, hno⟩⟩)⟩
      · rw [if_neg h2]
        have hp := nodes_update hv l (g.nel + 1) [(k, d)] l2
        refine ⟨⟨ci.pos, ci.small, ?_, ?_, ?_, ?_⟩, .inl ⟨rfl, hp.trans ?_, hno, hfull, by simpa using h2⟩⟩
        · intro i
          dsimp only
          split
          · exact l1
          · exact ci.sorted i
        · intro i x hx
          dsimp only at hx ⊢
          split at hx
          · rename_i hiv
            rcases List.mem_cons.mp (l2.mem_iff.mp hx) with rfl | hx
            · exact hiv
            · rw [hiv]; exact ci.slot _ x hx
          · exact ci.slot i x hx
        · rw [hp.length_eq]
          show g.nel + 1 = _
          rw [ci.count]
          simp
        · show g.nel + 1 < 2 ^ 32
          have := hi.bound
          omega
        · exact cp.cons _

theorem remove_spec (ok : OpsOk o) (k : κ) {h : Tab κ δ} (hi : Inv o h) :
    Inv o (remove o k h).1 ∧
    ((∃ d, (remove o k h).2 = (.ok, some (k, d)) ∧ (nodes h).Perm ((k, d) :: nodes (remove o k h).1)) ∨
     ((remove o k h).2 = (.noent, none) ∧ (remove o k h).1 = h ∧ ∀ d', (k, d') ∉ nodes h)) := by
  unfold remove
  dsimp only
  have hv : o.hash h.size k < h.size := ok.slot _ _ hi.pos hi.small
  obtain ⟨i1, i2⟩ := removeChain_spec ok k (hi.sorted (o.hash h.size k))
  have hmem : ∀ d', (k, d') ∈ nodes h ↔ (k, d') ∈ h.htable (o.hash h.size k) := fun d' => by rw [mem_nodes ok hi]
  cases hc : removeChain o k (h.htable (o.hash h.size k)) with
  | none => exact ⟨hi, .inr ⟨rfl, rfl, fun d' hm => i1.mp hc d' ((hmem d').mp hm)⟩⟩
  | some r =>
    obtain ⟨⟨k', d⟩, l⟩ := r
    obtain ⟨rfl, l1, l2⟩ := i2 _ _ hc
    dsimp only at l2 ⊢
    -- the old table is the new one with the node added
    have hu := nodes_update (h := (⟨h.size, h.nel - 1, fun i => if i = o.hash h.size k' then l else h.htable i⟩ : Tab κ δ))
      (v := o.hash h.size k') hv (h.htable (o.hash h.size k')) h.nel [(k', d)] (by dsimp only; rw [if_pos rfl]; exact l2)
    have he : (⟨h.size, h.nel, fun i => if i = o.hash h.size k' then h.htable (o.hash h.size k') else
        (fun i => if i = o.hash h.size k' then l else h.htable i) i⟩ : Tab κ δ) = h := by
      cases h
      congr
      funext i
      dsimp only
      split
      · rename_i h; rw [h]
      · rfl
    dsimp only at hu he
    rw [he] at hu
    refine ⟨⟨hi.pos, hi.small, ?_, ?_, ?_, ?_⟩, .inl ⟨d, rfl, hu⟩⟩
    · intro i
      dsimp only
      split
      · exact l1
      · exact hi.sorted i
    · intro i x hx
      dsimp only at hx ⊢
      split at hx
      · rename_i hiv
        rw [hiv]; exact hi.slot _ x (l2.mem_iff.mpr (by simp [hx]))
      · exact hi.slot i x hx
    · have := hu.length_eq
      have hc := hi.count
      show h.nel - 1 = _
      simp only [List.singleton_append, List.length_cons] at this
      omega
    · have := hi.bound
      show h.nel - 1 < 2 ^ 32
      omega

end Verif.Hashtab
