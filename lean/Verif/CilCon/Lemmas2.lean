import Verif.CilCon.Lemmas

/-! # Lemmas on the removal of duplicates -/

namespace Verif.CilCon

/-- Rules that compare equal are allowed to occur together. -/
def Free {α : Type} (cmp : α → α → Int) (E : α → α → Prop) (multiple : Bool) (l : List α) : Prop :=
  l.Pairwise fun a b => cmp a b = 0 → multiple = true ∧ E a b

/-- The contexts of rules that compare equal can be compared. -/
def Known {α : Type} (cmp : α → α → Int) (con : α → α → Option Int) (E : α → α → Prop) (multiple : Bool)
    (l : List α) : Prop :=
  l.Pairwise fun a b => cmp a b = 0 → multiple = true → ∃ r, con a b = some r ∧ (r = 0 ↔ E a b)

theorem cmp_eq_trans {α : Type} {cmp : α → α → Int} (hc : IsCmp cmp) {a b c : α} (h1 : cmp a b = 0) (h2 : cmp b c = 0) :
    cmp a c = 0 := by
  have a1 := hc.trans a b c (by omega) (by omega)
  have a2 := hc.trans c b a (by rw [hc.swap]; omega) (by rw [hc.swap]; omega)
  rw [hc.swap] at a2; omega

theorem processLoop_spec {α : Type} {cmp : α → α → Int} {con : α → α → Option Int} {E : α → α → Prop}
    {multiple : Bool} (hc : IsCmp cmp) (ht : ∀ a b c, E a b → E b c → E a c) {xs : List α} :
    ∀ {done : List α} {cur : α} {conflicting ok : Bool}, (cur :: xs).Pairwise (fun a b => cmp a b ≤ 0) →
    Known cmp con E multiple (cur :: xs) → (conflicting = true → ok = false) →
    ∃ ok' rest, processLoop cmp con multiple done cur conflicting ok xs = some (ok', done ++ rest) ∧
      rest.Pairwise (fun a b => cmp a b < 0) ∧ (∀ r ∈ rest, r ∈ cur :: xs) ∧
      (∀ r ∈ cur :: xs, ∃ k ∈ rest, cmp k r = 0) ∧
      (ok' = true ↔ ok = true ∧ Free cmp E multiple (cur :: xs)) := by
  induction xs with
  | nil =>
    intro done cur conflicting ok _ _ _
    refine ⟨ok, [cur], rfl, by simp, by simp, ?_, ?_⟩
    · intro r hr
      simp at hr; subst hr
      exact ⟨r, by simp, hc.refl _⟩
    · simp [Free]
  | cons x xs ih =>
    intro done cur conflicting ok hs hk hok
    rw [processLoop]
    have hs' := List.pairwise_cons.1 hs
    have hk' := List.pairwise_cons.1 hk
    have hx := List.pairwise_cons.1 hs'.2
    by_cases hne : cmp cur x ≠ 0
    · rw [if_pos hne]
      obtain ⟨ok', rest, h1, h2, h3, h4, h5⟩ := ih (done := done ++ [cur]) (cur := x) (conflicting := false) (ok := ok)
        hs'.2 hk'.2 (by simp)
      have hlt : ∀ y ∈ x :: xs, cmp cur y < 0 := by
        have h0 : cmp cur x < 0 := by have := hs'.1 x (by simp); omega
        intro y hy
        rcases List.mem_cons.1 hy with rfl | hy
        · exact h0
        · exact hc.congr h0 (hx.1 y hy)
      refine ⟨ok', cur :: rest, by rw [h1]; simp, ?_, ?_, ?_, ?_⟩
      · exact List.pairwise_cons.2 ⟨fun r hr => hlt r (h3 r hr), h2⟩
      · intro r hr
        rcases List.mem_cons.1 hr with rfl | hr
        · simp
        · exact List.mem_cons_of_mem _ (h3 r hr)
      · intro r hr
        rcases List.mem_cons.1 hr with rfl | hr
        · exact ⟨r, by simp, hc.refl _⟩
        · obtain ⟨k, hk1, hk2⟩ := h4 r hr
          exact ⟨k, by simp [hk1], hk2⟩
      · rw [h5]
        constructor
        · rintro ⟨a, b⟩
          refine ⟨a, List.pairwise_cons.2 ⟨fun y hy h0 => ?_, b⟩⟩
          have := hlt y hy; omega
        · rintro ⟨a, b⟩
          exact ⟨a, (List.pairwise_cons.1 b).2⟩
    · rw [if_neg hne]
      simp only [ne_eq, Decidable.not_not] at hne
      have heq : ∀ y ∈ x :: xs, cmp cur y = 0 ↔ cmp x y = 0 := by
        intro y _
        constructor
        · intro h
          exact cmp_eq_trans hc (by rw [hc.swap]; omega) h
        · exact fun h => cmp_eq_trans hc hne h
      -- the rules without `x`
      have hs2 : (cur :: xs).Pairwise (fun a b => cmp a b ≤ 0) :=
        List.pairwise_cons.2 ⟨fun y hy => hs'.1 y (by simp [hy]), hx.2⟩
      have hk2 : Known cmp con E multiple (cur :: xs) :=
        List.pairwise_cons.2 ⟨fun y hy => hk'.1 y (by simp [hy]), (List.pairwise_cons.1 hk'.2).2⟩
      have conflict : ¬ (multiple = true ∧ E cur x) →
          ∃ ok' rest, processLoop cmp con multiple done cur true false xs = some (ok', done ++ rest) ∧
          rest.Pairwise (fun a b => cmp a b < 0) ∧ (∀ r ∈ rest, r ∈ cur :: x :: xs) ∧
          (∀ r ∈ cur :: x :: xs, ∃ k ∈ rest, cmp k r = 0) ∧
          (ok' = true ↔ ok = true ∧ Free cmp E multiple (cur :: x :: xs)) := by
        intro hno
        obtain ⟨ok', rest, h1, h2, h3, h4, h5⟩ := ih (done := done) (cur := cur) (conflicting := true) (ok := false)
          hs2 hk2 (by simp)
        refine ⟨ok', rest, h1, h2, ?_, ?_, ?_⟩
        · intro r hr
          rcases List.mem_cons.1 (h3 r hr) with rfl | h
          · simp
          · simp [h]
        · intro r hr
          rcases List.mem_cons.1 hr with rfl | hr
          · exact h4 r (by simp)
          · rcases List.mem_cons.1 hr with rfl | hr
            · obtain ⟨k, hk1, hk2⟩ := h4 cur (by simp)
              exact ⟨k, hk1, cmp_eq_trans hc hk2 hne⟩
            · exact h4 r (by simp [hr])
        · rw [h5]
          constructor
          · rintro ⟨h, -⟩; cases h
          · rintro ⟨-, h⟩
            exact absurd ((List.pairwise_cons.1 h).1 x (by simp) hne) hno
      rcases multiple with _ | _
      · simp only [Bool.not_false, if_true]
        exact conflict (by simp)
      · simp only [Bool.not_true, Bool.false_eq_true, if_false]
        obtain ⟨r, hr1, hr2⟩ := hk'.1 x (by simp) hne rfl
        rw [hr1]
        simp only
        by_cases hr : r ≠ 0
        · rw [if_pos hr]
          exact conflict (fun h => hr (hr2.2 h.2))
        · rw [if_neg hr]
          have hE : E cur x := hr2.1 (by simpa using hr)
          rcases hcf : conflicting with _ | _
          · simp only [Bool.false_eq_true, if_false]
            obtain ⟨ok', rest, h1, h2, h3, h4, h5⟩ := ih (done := done) (cur := x) (conflicting := false) (ok := ok)
              hs'.2 hk'.2 (by simp)
            refine ⟨ok', rest, h1, h2, fun r hr => List.mem_cons_of_mem _ (h3 r hr), ?_, ?_⟩
            · intro r hr
              rcases List.mem_cons.1 hr with rfl | hr
              · obtain ⟨k, hk1, hk2⟩ := h4 x (by simp)
                exact ⟨k, hk1, cmp_eq_trans hc hk2 (by rw [hc.swap]; omega)⟩
              · exact h4 r hr
            · rw [h5]
              constructor
              · rintro ⟨a, b⟩
                refine ⟨a, List.pairwise_cons.2 ⟨fun y hy h0 => ⟨rfl, ?_⟩, b⟩⟩
                rcases List.mem_cons.1 hy with rfl | hy'
                · exact hE
                · exact ht _ _ _ hE ((List.pairwise_cons.1 b).1 y hy' ((heq y hy).1 h0)).2
              · rintro ⟨a, b⟩
                exact ⟨a, (List.pairwise_cons.1 b).2⟩
          · have hokf := hok hcf
            simp only [if_true]
            obtain ⟨ok', rest, h1, h2, h3, h4, h5⟩ := ih (done := done) (cur := cur) (conflicting := true) (ok := ok)
              hs2 hk2 (fun _ => hokf)
            refine ⟨ok', rest, h1, h2, ?_, ?_, ?_⟩
            · intro r hr
              rcases List.mem_cons.1 (h3 r hr) with rfl | h
              · simp
              · simp [h]
            · intro r hr
              rcases List.mem_cons.1 hr with rfl | hr
              · exact h4 r (by simp)
              · rcases List.mem_cons.1 hr with rfl | hr
                · obtain ⟨k, hk1, hk2⟩ := h4 cur (by simp)
                  exact ⟨k, hk1, cmp_eq_trans hc hk2 hne⟩
                · exact h4 r (by simp [hr])
            · rw [h5, hokf]; simp

theorem process_spec {α : Type} {cmp : α → α → Int} {con : α → α → Option Int} {E : α → α → Prop}
    {multiple : Bool} (hc : IsCmp cmp) (ht : ∀ a b c, E a b → E b c → E a c) {l : List α}
    (hs : l.Pairwise fun a b => cmp a b ≤ 0) (hk : Known cmp con E multiple l) :
    ∃ ok kept, process cmp con multiple l = some (ok, kept) ∧ kept.Pairwise (fun a b => cmp a b < 0) ∧
      (∀ r ∈ kept, r ∈ l) ∧ (∀ r ∈ l, ∃ k ∈ kept, cmp k r = 0) ∧ (ok = true ↔ Free cmp E multiple l) := by
  rcases l with _ | ⟨x, xs⟩
  · exact ⟨true, [], rfl, by simp, by simp, by simp, by simp [Free]⟩
  · obtain ⟨ok, rest, h1, h2, h3, h4, h5⟩ := processLoop_spec (done := []) (conflicting := false) (ok := true) hc ht hs hk (by simp)
    exact ⟨ok, rest, by simpa [process] using h1, h2, h3, h4, by simpa using h5⟩

theorem almost_trans {α β : Type} {t : Table α β} (hl : ∀ a b, (t.contexts a).length = (t.contexts b).length) (a b c : α)
    (h1 : AlmostSameContexts t a b) (h2 : AlmostSameContexts t b c) : AlmostSameContexts t a c := by
  unfold AlmostSameContexts at *
  have h3 := hl a b
  have h4 := hl b c
  generalize t.contexts a = x at *
  generalize t.contexts b = y at *
  generalize t.contexts c = z at *
  clear hl a b c
  induction x generalizing y z with
  | nil => simp
  | cons p x ih =>
    rcases y with _ | ⟨q, y⟩
    · cases h3
    · rcases z with _ | ⟨r, z⟩
      · cases h4
      · simp only [List.zip_cons_cons, List.mem_cons, forall_eq_or_imp] at h1 h2 ⊢
        exact ⟨h1.1.trans h2.1, ih y h1.2 (by simpa using h3) z h2.2 (by simpa using h4)⟩

theorem almost_symm {α β : Type} {t : Table α β} (a b : α) (h : AlmostSameContexts t a b) : AlmostSameContexts t b a := by
  unfold AlmostSameContexts at *
  generalize t.contexts a = x at *
  generalize t.contexts b = y at *
  induction x generalizing y with
  | nil => simp
  | cons p x ih =>
    rcases y with _ | ⟨q, y⟩
    · simp
    · simp only [List.zip_cons_cons, List.mem_cons, forall_eq_or_imp] at h ⊢
      exact ⟨h.1.symm, ih y h.2⟩

/-- The first rule of a sorted list that has a property is the least of those that have it. -/
theorem find_least {α : Type} {cmp : α → α → Int} (hc : IsCmp cmp) {l : List α} (hs : l.Pairwise fun a b => cmp a b < 0)
    {p : α → Bool} {r : α} (h : l.find? p = some r) : ∀ k ∈ l, p k = true → cmp r k ≤ 0 := by
  induction l with
  | nil => cases h
  | cons x xs ih =>
    intro k hk hp
    rw [List.find?_cons] at h
    split at h
    · cases h
      rcases List.mem_cons.1 hk with rfl | hk
      · rw [hc.refl]; omega
      · have := (List.pairwise_cons.1 hs).1 k hk; omega
    · rename_i hx
      rcases List.mem_cons.1 hk with rfl | hk
      · rw [hp] at hx; cases hx
      · exact ih (List.pairwise_cons.1 hs).2 h k hk hp

/-! ### Paths -/

theorem isSpecial_meta {c : Nat} (h : isMeta c = true) : isSpecial (false, c) = true := by
  simpa [isSpecial, isMeta] using h

theorem fcFill_chars (s : Str) (d : FcData) : fcFill d s =
    ⟨d.isMeta || (chars s).any isSpecial,
     d.stemLen + (if d.isMeta then 0 else ((chars s).takeWhile fun c => !isSpecial c).length),
     d.strLen + (chars s).length⟩ := by
  induction s using chars.induct generalizing d with
  | case1 => rw [fcFill]; simp [chars]
  | case2 c =>
    rw [fcFill, fcFill]
    by_cases hm : isMeta c = true
    · have hc : c ≠ 92 := by rintro rfl; simp [isMeta] at hm
      have hs : isSpecial (c == 92, c) = true := by
        simp only [isSpecial, beq_eq_false_iff_ne.2 hc, Bool.not_false, Bool.true_and]; exact hm
      simp [hm, chars, hs]
    · have hs : isSpecial (c == 92, c) = false := by
        by_cases hc : c = 92
        · simp [isSpecial, hc]
        · simp only [isSpecial, beq_eq_false_iff_ne.2 hc, Bool.not_false, Bool.true_and]
          simpa [isMeta] using hm
      by_cases hc : c = 92
      · subst hc
        rw [if_neg hm, if_pos rfl]
        have hs : isSpecial (true, 92) = false := by simp [isSpecial]
        rcases d with ⟨_ | _, _, _⟩ <;> simp [chars, hs, FcData.plain]
      · rw [if_neg hm, if_neg hc]
        rw [fcFill]
        rcases d with ⟨_ | _, _, _⟩ <;> simp [chars, hs, FcData.plain]
  | case3 d' cs ih =>
    rw [fcFill, if_neg (by decide), if_pos rfl]
    rw [ih, chars, if_pos rfl]
    have hs : isSpecial (true, d') = false := by simp [isSpecial]
    rcases d with ⟨_ | _, _, _⟩ <;> simp [hs, FcData.plain] <;> omega
  | case4 c d' cs hc ih =>
    have hch : chars (c :: d' :: cs) = (false, c) :: chars (d' :: cs) := by rw [chars, if_neg hc]
    rw [fcFill, hch]
    have hs : isSpecial (false, c) = isMeta c := by simp [isSpecial, isMeta]
    by_cases hm : isMeta c = true
    · rw [if_pos hm, ih]
      simp [isSpecial_meta hm]; omega
    · rw [if_neg hm, if_neg hc, ih]
      have hs : isSpecial (false, c) = false := by rw [hs]; simpa using hm
      rcases d with ⟨_ | _, _, _⟩ <;> simp [hs, FcData.plain] <;> omega

theorem isPattern_iff (s : Str) : IsPattern s ↔ (chars s).any isSpecial = true := by
  simp [IsPattern, List.any_eq_true]

theorem filecon_lessSpecific {a b : Filecon} (h : fileconCompare a b ≤ 0) : LessSpecific a.path b.path := by
  unfold fileconCompare at h
  simp only [fcFill_chars, Bool.false_or, Nat.zero_add, Bool.false_eq_true, if_false] at h
  unfold LessSpecific
  rw [isPattern_iff, isPattern_iff]
  unfold stemLength
  generalize (chars a.path).any isSpecial = ma at *
  generalize (chars b.path).any isSpecial = mb at *
  generalize (List.takeWhile (fun c => !isSpecial c) (chars a.path)).length = sa at *
  generalize (List.takeWhile (fun c => !isSpecial c) (chars b.path)).length = sb at *
  generalize (chars a.path).length = la at *
  generalize (chars b.path).length = lb at *
  cases ma <;> cases mb <;> simp at h ⊢
  all_goals
    split at h
    · omega
    · split at h
      · omega
      · split at h
        · omega
        · split at h
          · omega
          · omega

end Verif.CilCon
