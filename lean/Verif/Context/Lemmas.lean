import Verif.Context.Model
import Verif.Context.Spec

namespace Verif.Context

/-- A component met by the scan when `c` colons have been seen. -/
def OkPart (c : Nat) (u : Bytes) : Prop := NoCtrl u ∧ (c < 3 → 32 ∉ u)

theorem scan_part (c : Nat) (u v : Bytes) (hu : 58 ∉ u) :
    (OkPart c u → scan c (u ++ 58 :: v) = scan (c + 1) v) ∧
    (¬ OkPart c u → scan c (u ++ 58 :: v) = none) := by
  induction u with
  | nil => simp [OkPart, NoCtrl, scan, colon]
  | cons b u ih =>
    have hb : b ≠ 58 := fun h => hu (by simp [h])
    have hu' : 58 ∉ u := fun h => hu (by simp [h])
    have ih := ih hu'
    constructor
    · intro ⟨⟨h1, h2, h3⟩, h4⟩
      simp only [List.mem_cons, not_or] at h1 h2 h3 h4
      have := ih.1 ⟨⟨h1.2, h2.2, h3.2⟩, fun h => (h4 h).2⟩
      simp only [List.cons_append, scan, colon, nl, tab, cr, space]
      rw [if_neg hb, if_neg (by intro h; rcases h with h | h | h <;> simp_all)]
      split
      · rename_i h; rw [if_neg (fun hc => (h4 hc).1 h.symm)]; exact this
      · exact this
    · intro hn
      simp only [List.cons_append, scan, colon, nl, tab, cr, space]
      rw [if_neg hb]
      split
      · rfl
      · rename_i hc
        split
        · rename_i hsp
          split
          · rfl
          · rename_i hlt
            refine ih.2 fun h => hn ⟨⟨?_, ?_, ?_⟩, fun h => absurd h hlt⟩ <;>
              simp only [List.mem_cons, not_or] <;> refine ⟨by intro e; simp_all, ?_⟩
            exacts [h.1.1, h.1.2.1, h.1.2.2]
        · rename_i hsp
          refine ih.2 fun h => hn ⟨⟨?_, ?_, ?_⟩, fun hl => ?_⟩ <;>
            simp only [List.mem_cons, not_or] <;> refine ⟨by intro e; simp_all, ?_⟩
          exacts [h.1.1, h.1.2.1, h.1.2.2, h.2 hl]

theorem scan_last (c : Nat) (u : Bytes) (hu : 58 ∉ u) :
    (OkPart c u → scan c u = some c) ∧ (¬ OkPart c u → scan c u = none) := by
  induction u with
  | nil => simp [OkPart, NoCtrl, scan]
  | cons b u ih =>
    have hb : b ≠ 58 := fun h => hu (by simp [h])
    have hu' : 58 ∉ u := fun h => hu (by simp [h])
    have ih := ih hu'
    constructor
    · intro ⟨⟨h1, h2, h3⟩, h4⟩
      simp only [List.mem_cons, not_or] at h1 h2 h3 h4
      have := ih.1 ⟨⟨h1.2, h2.2, h3.2⟩, fun h => (h4 h).2⟩
      simp only [scan, colon, nl, tab, cr, space]
      rw [if_neg hb, if_neg (by intro h; rcases h with h | h | h <;> simp_all)]
      split
      · rename_i h; rw [if_neg (fun hc => (h4 hc).1 h.symm)]; exact this
      · exact this
    · intro hn
      simp only [scan, colon, nl, tab, cr, space]
      rw [if_neg hb]
      split
      · rfl
      · rename_i hc
        split
        · rename_i hsp
          split
          · rfl
          · rename_i hlt
            refine ih.2 fun h => hn ⟨⟨?_, ?_, ?_⟩, fun h => absurd h hlt⟩ <;>
              simp only [List.mem_cons, not_or] <;> refine ⟨by intro e; simp_all, ?_⟩
            exacts [h.1.1, h.1.2.1, h.1.2.2]
        · rename_i hsp
          refine ih.2 fun h => hn ⟨⟨?_, ?_, ?_⟩, fun hl => ?_⟩ <;>
            simp only [List.mem_cons, not_or] <;> refine ⟨by intro e; simp_all, ?_⟩
          exacts [h.1.1, h.1.2.1, h.1.2.2, h.2 hl]

theorem scan_range (c : Nat) (g : Bytes) (hc : 3 ≤ c) :
    (NoCtrl g → scan c g = some (c + g.count 58)) ∧ (¬ NoCtrl g → scan c g = none) := by
  induction g generalizing c with
  | nil => simp [NoCtrl, scan]
  | cons b g ih =>
    constructor
    · intro ⟨h1, h2, h3⟩
      simp only [List.mem_cons, not_or] at h1 h2 h3
      simp only [scan, colon, nl, tab, cr, space]
      split
      · rename_i hb
        rw [(ih (c + 1) (by omega)).1 ⟨h1.2, h2.2, h3.2⟩, hb, List.count_cons_self]
        simp; omega
      · rename_i hb
        rw [if_neg (by intro h; rcases h with h | h | h <;> simp_all)]
        rw [if_neg (show ¬ c < 3 by omega), ite_self, (ih c hc).1 ⟨h1.2, h2.2, h3.2⟩,
          List.count_cons_of_ne hb]
    · intro hn
      simp only [scan, colon, nl, tab, cr, space]
      split
      · rename_i hb
        refine (ih (c + 1) (by omega)).2 fun h => hn ⟨?_, ?_, ?_⟩ <;>
          simp only [List.mem_cons, not_or] <;> refine ⟨by intro e; simp_all, ?_⟩
        exacts [h.1, h.2.1, h.2.2]
      · split
        · rfl
        · rw [if_neg (show ¬ c < 3 by omega), ite_self]
          have : scan c g = none := by
            refine (ih c hc).2 fun h => hn ⟨?_, ?_, ?_⟩ <;>
              simp only [List.mem_cons, not_or] <;> refine ⟨by intro e; simp_all, ?_⟩
            exacts [h.1, h.2.1, h.2.2]
          exact this

theorem cut (s : Bytes) : 58 ∉ s ∨ ∃ u v, 58 ∉ u ∧ s = u ++ 58 :: v := by
  induction s with
  | nil => exact Or.inl (by simp)
  | cons b s ih =>
    by_cases hb : b = 58
    · exact Or.inr ⟨[], s, by simp, by simp [hb]⟩
    · rcases ih with h | ⟨u, v, hu, rfl⟩
      · exact Or.inl (by simp [h, Ne.symm hb])
      · exact Or.inr ⟨b :: u, v, by simp [hu, Ne.symm hb], by simp⟩

theorem takeWhile_part (u v : Bytes) (hu : 58 ∉ u) :
    (u ++ 58 :: v).takeWhile (· ≠ colon) = u := by
  induction u with
  | nil => simp [colon]
  | cons b u ih =>
    have hb : b ≠ 58 := fun h => hu (by simp [h])
    have hu' : 58 ∉ u := fun h => hu (by simp [h])
    have := ih hu'
    simp only [List.cons_append, List.takeWhile_cons, colon] at this ⊢
    rw [if_pos (by simpa using hb), this]

theorem takeWhile_last (u : Bytes) (hu : 58 ∉ u) : u.takeWhile (· ≠ colon) = u := by
  induction u with
  | nil => rfl
  | cons b u ih =>
    have hb : b ≠ 58 := fun h => hu (by simp [h])
    have hu' : 58 ∉ u := fun h => hu (by simp [h])
    have := ih hu'
    simp only [List.takeWhile_cons, colon] at this ⊢
    rw [if_pos (by simpa using hb), this]

theorem tokens_part (mem : Nat → Bool) (i : Nat) (u v : Bytes) (h : Handle) (hu : 58 ∉ u)
    (hi : i < 3) (hm : mem i = true) :
    tokens mem i (u ++ 58 :: v) h = tokens mem (i + 1) v (h.set i (some u)) := by
  have hp : piece i (u ++ 58 :: v) = u := by rw [piece, if_pos hi, takeWhile_part u v hu]
  rw [tokens, if_neg (by simp), if_pos (by omega), if_pos hm, hp]
  congr 1
  rw [show u.length + 1 = (u ++ [58]).length by simp,
    show u ++ 58 :: v = (u ++ [58]) ++ v by simp, List.drop_left]

theorem tokens_last (mem : Nat → Bool) (i : Nat) (u : Bytes) (h : Handle)
    (hu : i < 3 → 58 ∉ u) (hi : i < 4) (hm : mem i = true) (hl : h[i]? = some none) :
    tokens mem i u h = .ok (h.set i (orNull u)) := by
  by_cases he : u = []
  · subst he
    have hlen : i < h.length := by
      rcases Nat.lt_or_ge i h.length with h' | h'
      · exact h'
      · rw [List.getElem?_eq_none h'] at hl; cases hl
    rw [tokens, if_pos rfl, orNull, if_pos rfl]
    rw [List.getElem?_eq_getElem hlen] at hl
    congr 1
    rw [← Option.some.inj hl, List.set_getElem_self]
  · have hp : piece i u = u := by
      rw [piece]; split
      · rename_i h3; exact takeWhile_last u (hu h3)
      · rfl
    rw [tokens, if_neg he, if_pos hi, if_pos hm, hp, List.drop_eq_nil_of_le (by omega), tokens,
      if_pos rfl, orNull, if_neg he]

/-- The handle made from the components of a string. -/
def handleOf (u r t : Bytes) : Option Bytes → Handle
  | none => [some u, some r, orNull t, none]
  | some g => [some u, some r, some t, orNull g]

theorem scan_splits {s u r t : Bytes} {g : Option Bytes} (h : Splits s u r t g) :
    (∃ n, scan 0 s = some n ∧ 2 ≤ n ∧ n ≤ 5) ↔
      NoCtrl s ∧ 32 ∉ u ∧ 32 ∉ r ∧ 32 ∉ t ∧ (∀ x, g = some x → x.count 58 ≤ 2) := by
  obtain ⟨hu, hr, ht, rfl⟩ := h
  cases g with
  | none =>
    have e : u ++ [58] ++ r ++ [58] ++ t ++ [] = u ++ 58 :: (r ++ 58 :: t) := by simp
    dsimp only
    rw [e]
    have hN : NoCtrl (u ++ 58 :: (r ++ 58 :: t)) ↔ NoCtrl u ∧ NoCtrl r ∧ NoCtrl t := by
      simp [NoCtrl]; constructor
      · rintro ⟨⟨a, b, c⟩, ⟨d, e, f⟩, g, h, i⟩; exact ⟨⟨a, d, g⟩, ⟨b, e, h⟩, c, f, i⟩
      · rintro ⟨⟨a, d, g⟩, ⟨b, e, h⟩, c, f, i⟩; exact ⟨⟨a, b, c⟩, ⟨d, e, f⟩, g, h, i⟩
    rw [hN]
    by_cases h1 : OkPart 0 u
    · rw [(scan_part 0 u _ hu).1 h1]
      by_cases h2 : OkPart 1 r
      · rw [(scan_part 1 r _ hr).1 h2]
        by_cases h3 : OkPart 2 t
        · rw [(scan_last 2 t ht).1 h3]
          exact ⟨fun _ => ⟨⟨h1.1, h2.1, h3.1⟩, h1.2 (by omega), h2.2 (by omega),
            h3.2 (by omega), by intro x hx; cases hx⟩, fun _ => ⟨2, rfl, by omega, by omega⟩⟩
        · rw [(scan_last 2 t ht).2 h3]
          exact ⟨fun ⟨n, h, _⟩ => (by cases h),
            fun h => absurd ⟨h.1.2.2, fun _ => h.2.2.2.1⟩ h3⟩
      · rw [(scan_part 1 r _ hr).2 h2]
        exact ⟨fun ⟨n, h, _⟩ => (by cases h),
          fun h => absurd ⟨h.1.2.1, fun _ => h.2.2.1⟩ h2⟩
    · rw [(scan_part 0 u _ hu).2 h1]
      exact ⟨fun ⟨n, h, _⟩ => (by cases h),
        fun h => absurd ⟨h.1.1, fun _ => h.2.1⟩ h1⟩
  | some g =>
    have e : u ++ [58] ++ r ++ [58] ++ t ++ 58 :: g = u ++ 58 :: (r ++ 58 :: (t ++ 58 :: g)) := by
      simp
    dsimp only
    rw [e]
    have hN : NoCtrl (u ++ 58 :: (r ++ 58 :: (t ++ 58 :: g))) ↔
        NoCtrl u ∧ NoCtrl r ∧ NoCtrl t ∧ NoCtrl g := by
      simp [NoCtrl]; constructor
      · rintro ⟨⟨a, b, c, x⟩, ⟨d, e, f, y⟩, g, h, i, z⟩
        exact ⟨⟨a, d, g⟩, ⟨b, e, h⟩, ⟨c, f, i⟩, x, y, z⟩
      · rintro ⟨⟨a, d, g⟩, ⟨b, e, h⟩, ⟨c, f, i⟩, x, y, z⟩
        exact ⟨⟨a, b, c, x⟩, ⟨d, e, f, y⟩, g, h, i, z⟩
    rw [hN]
    by_cases h1 : OkPart 0 u
    · rw [(scan_part 0 u _ hu).1 h1]
      by_cases h2 : OkPart 1 r
      · rw [(scan_part 1 r _ hr).1 h2]
        by_cases h3 : OkPart 2 t
        · rw [(scan_part 2 t _ ht).1 h3]
          by_cases h4 : NoCtrl g
          · rw [(scan_range 3 g (by omega)).1 h4]
            constructor
            · rintro ⟨n, h, _, h5⟩
              cases h
              exact ⟨⟨h1.1, h2.1, h3.1, h4⟩, h1.2 (by omega), h2.2 (by omega),
                h3.2 (by omega), by intro x hx; cases hx; omega⟩
            · intro h
              have := h.2.2.2.2 g rfl
              exact ⟨_, rfl, by omega, by omega⟩
          · rw [(scan_range 3 g (by omega)).2 h4]
            exact ⟨fun ⟨n, h, _⟩ => (by cases h), fun h => absurd h.1.2.2.2 h4⟩
        · rw [(scan_part 2 t _ ht).2 h3]
          exact ⟨fun ⟨n, h, _⟩ => (by cases h),
            fun h => absurd ⟨h.1.2.2.1, fun _ => h.2.2.2.1⟩ h3⟩
      · rw [(scan_part 1 r _ hr).2 h2]
        exact ⟨fun ⟨n, h, _⟩ => (by cases h),
          fun h => absurd ⟨h.1.2.1, fun _ => h.2.2.1⟩ h2⟩
    · rw [(scan_part 0 u _ hu).2 h1]
      exact ⟨fun ⟨n, h, _⟩ => (by cases h),
        fun h => absurd ⟨h.1.1, fun _ => h.2.1⟩ h1⟩

theorem tokens_splits {s u r t : Bytes} {g : Option Bytes} (h : Splits s u r t g)
    (mem : Nat → Bool) (hm : ∀ i, mem i = true) :
    tokens mem 0 s empty = .ok (handleOf u r t g) := by
  obtain ⟨hu, hr, ht, rfl⟩ := h
  cases g with
  | none =>
    have e : u ++ [58] ++ r ++ [58] ++ t ++ [] = u ++ 58 :: (r ++ 58 :: t) := by simp
    dsimp only
    rw [e, tokens_part mem 0 u _ _ hu (by omega) (hm 0),
      tokens_part mem 1 r _ _ hr (by omega) (hm 1),
      tokens_last mem 2 t _ (fun _ => ht) (by omega) (hm 2) (by simp [empty])]
    simp [empty, handleOf]
  | some g =>
    have e : u ++ [58] ++ r ++ [58] ++ t ++ 58 :: g = u ++ 58 :: (r ++ 58 :: (t ++ 58 :: g)) := by
      simp
    dsimp only
    rw [e, tokens_part mem 0 u _ _ hu (by omega) (hm 0),
      tokens_part mem 1 r _ _ hr (by omega) (hm 1),
      tokens_part mem 2 t _ _ ht (by omega) (hm 2),
      tokens_last mem 3 g _ (fun h => absurd h (by omega)) (by omega) (hm 3) (by simp [empty])]
    simp [empty, handleOf]

/-- A string with two colons splits. -/
theorem splits_of_scan {s : Bytes} {n : Nat} (h : scan 0 s = some n) (h2 : 2 ≤ n) :
    ∃ u r t g, Splits s u r t g := by
  rcases cut s with hs | ⟨u, v, hu, rfl⟩
  · by_cases h1 : OkPart 0 s
    · rw [(scan_last 0 s hs).1 h1] at h; cases h; omega
    · rw [(scan_last 0 s hs).2 h1] at h; cases h
  · by_cases h1 : OkPart 0 u
    · rw [(scan_part 0 u _ hu).1 h1] at h
      rcases cut v with hv | ⟨r, w, hr, rfl⟩
      · by_cases h1 : OkPart 1 v
        · rw [(scan_last 1 v hv).1 h1] at h; cases h; omega
        · rw [(scan_last 1 v hv).2 h1] at h; cases h
      · rcases cut w with hw | ⟨t, g, ht, rfl⟩
        · exact ⟨u, r, w, none, hu, hr, hw, by simp⟩
        · exact ⟨u, r, t, some g, hu, hr, ht, by simp⟩
    · rw [(scan_part 0 u _ hu).2 h1] at h; cases h

/-- Whatever allocations fail, the loop writes inside the array. -/
theorem tokens_mono (mem : Nat → Bool) (i : Nat) (tok : Bytes) (h h' : Handle)
    (e : tokens (fun _ => true) i tok h = .ok h') :
    tokens mem i tok h = .ok h' ∨ tokens mem i tok h = .err := by
  fun_induction tokens mem i tok h with
  | case1 i h => rw [tokens, if_pos rfl] at e; exact Or.inl e
  | case2 i tok h h0 hi hm ih =>
    rw [tokens, if_neg h0, if_pos hi, if_pos rfl] at e
    exact ih e
  | case3 => exact Or.inr rfl
  | case4 i tok h h0 hi => rw [tokens, if_neg h0, if_neg hi] at e; cases e

theorem contextNew_ok {s : Bytes} {mem0 : Bool} {mem : Nat → Bool} {h : Handle}
    (e : contextNew mem0 mem s = .ok h) :
    ∃ u r t g, Splits s u r t g ∧ NoCtrl s ∧ 32 ∉ u ∧ 32 ∉ r ∧ 32 ∉ t ∧
      (∀ x, g = some x → x.count 58 ≤ 2) ∧ h = handleOf u r t g := by
  unfold contextNew at e
  split at e
  · cases hs : scan 0 s with
    | none => rw [hs] at e; cases e
    | some n =>
      rw [hs] at e
      dsimp only at e
      split at e
      · cases e
      · rename_i hn
        obtain ⟨u, r, t, g, hsp⟩ := splits_of_scan hs (by omega)
        obtain ⟨a, b, c, d, f⟩ := (scan_splits hsp).1 ⟨n, hs, by omega, by omega⟩
        refine ⟨u, r, t, g, hsp, a, b, c, d, f, ?_⟩
        rcases tokens_mono mem 0 s empty _ (tokens_splits hsp _ fun _ => rfl) with h1 | h1
        · rw [h1] at e; cases e; rfl
        · rw [h1] at e; cases e
  · cases e

theorem contextNew_not_ub (s : Bytes) (mem0 : Bool) (mem : Nat → Bool) :
    contextNew mem0 mem s ≠ .ub := by
  unfold contextNew
  split
  · cases hs : scan 0 s with
    | none => simp
    | some n =>
      dsimp only
      split
      · simp
      · rename_i hn
        obtain ⟨u, r, t, g, hsp⟩ := splits_of_scan hs (by omega)
        rcases tokens_mono mem 0 s empty _ (tokens_splits hsp _ fun _ => rfl) with h1 | h1
        · rw [h1]; simp
        · rw [h1]; simp
  · simp

theorem contextNew_of_valid {s u r t : Bytes} {g : Option Bytes} (hsp : Splits s u r t g)
    (h1 : NoCtrl s) (h2 : 32 ∉ u) (h3 : 32 ∉ r) (h4 : 32 ∉ t)
    (h5 : ∀ x, g = some x → x.count 58 ≤ 2) :
    contextNew true (fun _ => true) s = .ok (handleOf u r t g) := by
  obtain ⟨n, hs, h6, h7⟩ := (scan_splits hsp).2 ⟨h1, h2, h3, h4, h5⟩
  unfold contextNew
  rw [if_pos rfl, hs]
  dsimp only
  rw [if_neg (by omega), tokens_splits hsp _ fun _ => rfl]

/-! ### Writing a handle -/

theorem copyRest_length (h : Handle) : (copyRest h).length = total h := by
  induction h with
  | nil => rfl
  | cons c h ih =>
    cases c with
    | none => simpa [copyRest, total] using ih
    | some c => simp [copyRest, total, ih]; omega

theorem contextStr_some (u : Bytes) (rest : Handle) :
    contextStr true (some u :: rest) = .ok (u ++ copyRest rest) := by
  unfold contextStr
  rw [if_pos rfl]
  dsimp only
  rw [if_pos]
  rw [List.length_append, copyRest_length]
  simp only [total]; omega

/-! ### Setters -/

/-- What `set_comp` lets into component `i`. -/
def CompOk (i : Nat) (s : Bytes) : Prop :=
  NoCtrl s ∧ (i ≠ 3 → 58 ∉ s ∧ 32 ∉ s)

theorem any_badChar (i : Nat) (s : Bytes) : s.any (badChar i) = false ↔ CompOk i s := by
  rw [List.any_eq_false]
  constructor
  · intro h
    refine ⟨⟨fun hm => ?_, fun hm => ?_, fun hm => ?_⟩, fun hi => ⟨fun hm => ?_, fun hm => ?_⟩⟩ <;>
      exact absurd (h _ hm) (by simp [badChar, tab, nl, cr, colon, space, *])
  · rintro ⟨⟨h1, h2, h3⟩, h4⟩ b hb
    simp only [badChar, tab, nl, cr, colon, space, decide_eq_true_eq]
    rintro (h | h | h | ⟨h | h, hi⟩)
    · exact h1 (h ▸ hb)
    · exact h2 (h ▸ hb)
    · exact h3 (h ▸ hb)
    · exact (h4 hi).1 (h ▸ hb)
    · exact (h4 hi).2 (h ▸ hb)

/-- Index of the component a setter changes, and its argument. -/
def Op.idx : Op → Nat
  | .user _ => 0
  | .role _ => 1
  | .type _ => 2
  | .range _ => 3

def Op.arg : Op → Option Bytes
  | .user s => s
  | .role s => s
  | .type s => s
  | .range s => s

theorem setter_eq (mem : Bool) (h : Handle) (o : Op) :
    setter mem h o = setComp mem h o.idx o.arg := by cases o <;> rfl

/-- Invariant of handles: four components with allowed characters. -/
def Inv (h : Handle) : Prop :=
  h.length = 4 ∧ ∀ i s, h[i]? = some (some s) → CompOk i s

theorem inv_setComp {h : Handle} (hi : Inv h) (mem : Bool) (i : Nat) (s : Option Bytes) :
    Inv (setComp mem h i s).1 := by
  unfold setComp
  cases s with
  | none =>
    refine ⟨by simpa using hi.1, fun j x hx => ?_⟩
    rw [List.getElem?_set] at hx
    split at hx
    · split at hx <;> simp at hx
    · exact hi.2 j x hx
  | some s =>
    dsimp only
    split
    · exact hi
    · rename_i hb
      split
      · refine ⟨by simpa using hi.1, fun j x hx => ?_⟩
        rw [List.getElem?_set] at hx
        split at hx
        · rename_i hij
          split at hx
          · simp at hx; subst hx; subst hij
            exact (any_badChar _ _).1 (by simpa using hb)
          · simp at hx
        · exact hi.2 j x hx
      · exact hi

theorem inv_setters {h : Handle} (hi : Inv h) (os : List (Bool × Op)) : Inv (setters h os) := by
  induction os generalizing h with
  | nil => exact hi
  | cons o os ih =>
    obtain ⟨mem, o⟩ := o
    rw [setters, setter_eq]
    exact ih (inv_setComp hi _ _ _)

theorem noCtrl_append (a b : Bytes) : NoCtrl (a ++ b) ↔ NoCtrl a ∧ NoCtrl b := by
  simp [NoCtrl]; constructor
  · rintro ⟨⟨a, b⟩, ⟨c, d⟩, e, f⟩; exact ⟨⟨a, c, e⟩, b, d, f⟩
  · rintro ⟨⟨a, c, e⟩, b, d, f⟩; exact ⟨⟨a, b⟩, ⟨c, d⟩, e, f⟩

theorem inv_handleOf {s u r t : Bytes} {g : Option Bytes} (hsp : Splits s u r t g)
    (h1 : NoCtrl s) (h2 : 32 ∉ u) (h3 : 32 ∉ r) (h4 : 32 ∉ t) : Inv (handleOf u r t g) := by
  obtain ⟨hu, hr, ht, rfl⟩ := hsp
  simp only [noCtrl_append] at h1
  cases g with
  | none =>
    refine ⟨rfl, fun i s hs => ?_⟩
    match i with
    | 0 => simp [handleOf] at hs; subst hs; exact ⟨h1.1.1.1.1.1, fun _ => ⟨hu, h2⟩⟩
    | 1 => simp [handleOf] at hs; subst hs; exact ⟨h1.1.1.1.2, fun _ => ⟨hr, h3⟩⟩
    | 2 =>
      simp [handleOf, orNull] at hs; obtain ⟨_, rfl⟩ := hs; exact ⟨h1.1.2, fun _ => ⟨ht, h4⟩⟩
    | 3 => simp [handleOf] at hs
    | n+4 => simp [handleOf] at hs
  | some g =>
    refine ⟨rfl, fun i s hs => ?_⟩
    match i with
    | 0 => simp [handleOf] at hs; subst hs; exact ⟨h1.1.1.1.1.1, fun _ => ⟨hu, h2⟩⟩
    | 1 => simp [handleOf] at hs; subst hs; exact ⟨h1.1.1.1.2, fun _ => ⟨hr, h3⟩⟩
    | 2 => simp [handleOf] at hs; subst hs; exact ⟨h1.1.2, fun _ => ⟨ht, h4⟩⟩
    | 3 =>
      simp [handleOf, orNull] at hs; obtain ⟨_, rfl⟩ := hs
      have := h1.2
      refine ⟨⟨?_, ?_, ?_⟩, fun h => absurd rfl h⟩ <;> intro hm
      · exact this.1 (by simp [hm])
      · exact this.2.1 (by simp [hm])
      · exact this.2.2 (by simp [hm])
    | n+4 => simp [handleOf] at hs

end Verif.Context
