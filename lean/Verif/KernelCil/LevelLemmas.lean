import Verif.KernelCil.LevelSpec
import Verif.KernelCil.Lemmas
import Verif.Mls.Lemmas

/-! Lemmas about levels. -/

namespace Verif.KernelCil
open CilParse (Writes NoSymbolNext symbolChar)
open CilCond (Tree)

/-- What a run is. -/
structure Run (cats : Ebitmap.Ebitmap) (r : Nat × Nat × Nat) : Prop where
  len : r.1 + r.2.2 = r.2.1 + 1
  pos : 1 ≤ r.2.2
  all : ∀ b, r.1 ≤ b → b ≤ r.2.1 → Ebitmap.getBit cats b = true
  stop : Ebitmap.getBit cats (r.2.1 + 1) = false

theorem runs_spec (cats : Ebitmap.Ebitmap) : ∀ (L : List Nat) (lo start range : Nat), L.Pairwise (· < ·) →
    (∀ b, b ∈ L ↔ Ebitmap.getBit cats b = true ∧ lo ≤ b) →
    (range = 0 ∨ start + range = lo ∧ Ebitmap.getBit cats lo = true ∧ ∀ b, start ≤ b → b < lo → Ebitmap.getBit cats b = true) →
    (∀ r ∈ runs cats L start range, Run cats r) ∧
    ∀ b, (Ebitmap.getBit cats b = true ∧ (lo ≤ b ∨ 0 < range ∧ start ≤ b)) ↔ ∃ r ∈ runs cats L start range, r.1 ≤ b ∧ b ≤ r.2.1
  | [], lo, start, range, _, hm, h => by
    refine ⟨by simp [runs], fun b => ?_⟩
    simp only [runs, List.not_mem_nil, false_and, exists_false, iff_false]
    rintro ⟨h1, h2⟩
    rcases h with rfl | ⟨h3, h4, h5⟩
    · have := (hm b).2 ⟨h1, by omega⟩
      cases this
    · have := (hm lo).2 ⟨h4, Nat.le_refl _⟩
      cases this
  | i :: L, lo, start, range, hp, hm, h => by
    have hi := (hm i).1 (by simp)
    have hp' := List.pairwise_cons.1 hp
    have hL : ∀ b, b ∈ L ↔ Ebitmap.getBit cats b = true ∧ i + 1 ≤ b := by
      intro b
      constructor
      · intro hb
        exact ⟨((hm b).1 (by simp [hb])).1, hp'.1 b hb⟩
      · rintro ⟨h1, h2⟩
        have := (hm b).2 ⟨h1, by omega⟩
        rcases List.mem_cons.1 this with rfl | h
        · omega
        · exact h
    have hgap : ∀ b, lo ≤ b → b < i → Ebitmap.getBit cats b = false := by
      intro b h1 h2
      by_contra hb
      have hb : Ebitmap.getBit cats b = true := by simpa using hb
      have := (hm b).2 ⟨hb, h1⟩
      rcases List.mem_cons.1 this with rfl | h
      · omega
      · have := hp'.1 b h; omega
    -- the first bit of the run that `i` is in
    have hs : (if range = 0 then i else start) + (range + 1) = i + 1 ∧
        ∀ b, (if range = 0 then i else start) ≤ b → b ≤ i → Ebitmap.getBit cats b = true := by
      rcases h with rfl | ⟨h3, h4, h5⟩
      · refine ⟨by simp, fun b h1 h2 => ?_⟩
        simp only [if_true] at h1
        rw [show b = i by omega]; exact hi.1
      · have e : i = lo := by
          by_contra hne
          have := hgap lo (Nat.le_refl _) (by omega)
          rw [h4] at this; cases this
        by_cases h0 : range = 0
        · rw [if_pos h0]
          refine ⟨by omega, fun b h1 h2 => ?_⟩
          rw [show b = i by omega]; exact hi.1
        · rw [if_neg h0]
          refine ⟨by omega, fun b h1 h2 => ?_⟩
          by_cases hb : b < lo
          · exact h5 b h1 hb
          · rw [show b = i by omega]; exact hi.1
    have hcov : ∀ b, (Ebitmap.getBit cats b = true ∧ (lo ≤ b ∨ 0 < range ∧ start ≤ b)) ↔
        (Ebitmap.getBit cats b = true ∧ (i + 1 ≤ b ∨ (if range = 0 then i else start) ≤ b)) := by
      intro b
      constructor
      · rintro ⟨h1, h2⟩
        refine ⟨h1, ?_⟩
        by_cases h0 : range = 0
        · rw [if_pos h0]
          rcases h2 with h2 | ⟨h2, -⟩
          · have := hgap b h2
            by_contra hc
            rw [this (by omega)] at h1; cases h1
          · omega
        · rw [if_neg h0]
          rcases h with h | ⟨h3, h4, h5⟩
          · exact absurd h h0
          · rcases h2 with h2 | ⟨-, h2⟩ <;> omega
      · rintro ⟨h1, h2⟩
        refine ⟨h1, ?_⟩
        by_cases h0 : range = 0
        · rw [if_pos h0] at h2; left; omega
        · rw [if_neg h0] at h2
          rcases h2 with h2 | h2
          · left; omega
          · right; omega
    have hs1 := hs.1
    have hs2 := hs.2
    simp only [runs]
    generalize (if range = 0 then i else start) = st at hs1 hs2 hcov
    clear hs
    split
    · rename_i hn
      obtain ⟨h1, h2⟩ := runs_spec cats L (i + 1) st (range + 1) hp'.2 hL (.inr ⟨hs1, hn, fun b h1 h2 => hs2 b h1 (by omega)⟩)
      refine ⟨h1, fun b => ?_⟩
      rw [hcov, ← h2]
      simp
    · rename_i hn
      have hn : Ebitmap.getBit cats (i + 1) = false := by simpa using hn
      obtain ⟨h1, h2⟩ := runs_spec cats L (i + 1) st 0 hp'.2 hL (.inl rfl)
      refine ⟨?_, fun b => ?_⟩
      · intro r hr
        rcases List.mem_cons.1 hr with rfl | hr
        · exact ⟨hs1, by simp, hs2, hn⟩
        · exact h1 r hr
      · rw [hcov]
        simp only [List.mem_cons, exists_eq_or_imp]
        rw [← h2]
        constructor
        · rintro ⟨h3, h4⟩
          by_cases hb : i + 1 ≤ b
          · exact .inr ⟨h3, .inl hb⟩
          · exact .inl ⟨by omega, by omega⟩
        · rintro (⟨h3, h4⟩ | ⟨h3, h4⟩)
          · exact ⟨hs2 b h3 h4, .inr h3⟩
          · exact ⟨h3, by omega⟩

theorem bits_sorted {e : Ebitmap.Ebitmap} (h : Ebitmap.WF e) :
    ∃ l, Ebitmap.forEachPositiveBit (e.highbit + 1) e = some l ∧ l.Pairwise (· < ·) ∧ ∀ b, b ∈ l ↔ Ebitmap.getBit e b = true := by
  refine ⟨_, Ebitmap.C04_for_each_positive_bit h (Nat.le_refl _), List.pairwise_lt_range.filter _, fun b => ?_⟩
  have i := (Ebitmap.wf_iff_inv e).1 h
  simp only [List.mem_filter, List.mem_range]
  constructor
  · exact fun h => h.2
  · exact fun h => ⟨Nat.lt_trans (Ebitmap.getBit_lt_high i h) i.small, h⟩

theorem catRuns_spec {cats : Ebitmap.Ebitmap} (h : Ebitmap.WF cats) :
    ∃ rs, catRuns cats = some rs ∧ (∀ r ∈ rs, Run cats r) ∧ ∀ b, Ebitmap.getBit cats b = true ↔ ∃ r ∈ rs, r.1 ≤ b ∧ b ≤ r.2.1 := by
  obtain ⟨L, h1, h2, h3⟩ := bits_sorted h
  obtain ⟨h4, h5⟩ := runs_spec cats L 0 0 0 h2 (fun b => by rw [h3]; simp) (.inl rfl)
  refine ⟨_, by unfold catRuns; rw [h1]; rfl, h4, fun b => ?_⟩
  rw [← h5]; simp

/-- The elements that are written for a run. -/
def runItems : Nat × Nat × Nat → List CatItem
  | (start, i, range) => if range > 1 then (if range = 2 then [.one start, .one i] else [.range start i]) else [.one start]

theorem runItems_has {cats : Ebitmap.Ebitmap} {r : Nat × Nat × Nat} (h : Run cats r) (b : Nat) :
    (∃ it ∈ runItems r, it.has b) ↔ r.1 ≤ b ∧ b ≤ r.2.1 := by
  obtain ⟨s, e, n⟩ := r
  have h1 := h.len
  have h2 := h.pos
  simp only at h1 h2
  simp only [runItems]
  split
  · split
    · simp only [List.mem_cons, List.not_mem_nil, or_false, exists_eq_or_imp, exists_eq_left, CatItem.has]; omega
    · simp only [List.mem_cons, List.not_mem_nil, or_false, exists_eq_left, CatItem.has]
  · simp only [List.mem_cons, List.not_mem_nil, or_false, exists_eq_left, CatItem.has]; omega

theorem runItems_ok {cats : Ebitmap.Ebitmap} {r : Nat × Nat × Nat} (h : Run cats r) : ∀ it ∈ runItems r, it.Ok := by
  obtain ⟨s, e, n⟩ := r
  have h1 := h.len
  have h2 := h.pos
  simp only at h1 h2
  intro it hit
  simp only [runItems] at hit
  split at hit
  · split at hit
    · simp only [List.mem_cons, List.not_mem_nil, or_false] at hit
      rcases hit with rfl | rfl <;> trivial
    · simp only [List.mem_cons, List.not_mem_nil, or_false] at hit
      subst hit
      simp only [CatItem.Ok]; omega
  · simp only [List.mem_cons, List.not_mem_nil, or_false] at hit
    subst hit; trivial

theorem runItems_ne (r : Nat × Nat × Nat) : runItems r ≠ [] := by
  obtain ⟨s, e, n⟩ := r
  simp only [runItems]
  split
  · split <;> simp
  · simp

theorem items_of {cats : Ebitmap.Ebitmap} {rs : List (Nat × Nat × Nat)} (h1 : ∀ r ∈ rs, Run cats r)
    (h2 : ∀ b, Ebitmap.getBit cats b = true ↔ ∃ r ∈ rs, r.1 ≤ b ∧ b ≤ r.2.1) : ListOf (rs.flatMap runItems) cats := by
  constructor
  · intro it hit
    obtain ⟨r, hr, h⟩ := List.mem_flatMap.1 hit
    exact runItems_ok (h1 r hr) it h
  · intro n
    rw [h2]
    constructor
    · rintro ⟨r, hr, h⟩
      obtain ⟨it, h3, h4⟩ := (runItems_has (h1 r hr) n).2 h
      exact ⟨it, List.mem_flatMap.2 ⟨r, hr, h3⟩, h4⟩
    · rintro ⟨it, hit, h⟩
      obtain ⟨r, hr, h3⟩ := List.mem_flatMap.1 hit
      exact ⟨r, hr, (runItems_has (h1 r hr) n).1 ⟨it, h3, h⟩⟩

/-! ### CIL -/

theorem catsLoop_some {cat : Nat → Str} : ∀ (rs : List (Nat × Nat × Nat)) (n : Nat) {body : Str},
    catsLoop cat rs n = some body → body = rs.flatMap (runText cat)
  | [], n, body, h => by simpa [catsLoop] using h.symm
  | r :: rs, n, body, h => by
    simp only [catsLoop] at h
    obtain ⟨m, h1, h2⟩ := Option.bind_eq_some_iff.1 h
    obtain ⟨b, h3, rfl⟩ := Option.map_eq_some_iff.1 h2
    rw [catsLoop_some rs m h3]; simp

theorem catsLoop_fits {cat : Nat → Str} : ∀ (rs : List (Nat × Nat × Nat)) (n : Nat), (rs.flatMap (runText cat)).length < n →
    catsLoop cat rs n = some (rs.flatMap (runText cat))
  | [], n, _ => rfl
  | r :: rs, n, h => by
    simp only [List.flatMap_cons, List.length_append] at h
    simp only [catsLoop, put]
    rw [if_neg (by omega), Option.bind_some, catsLoop_fits rs _ (by omega)]
    simp

theorem writes_white_end {ts : List Tree} {a : Str} (h : Writes ts a) : Writes ts (a ++ [' ']) := by
  have := writes_append h (.white (c := ' ') (.inl rfl) Writes.nil) (noSymbol_space _)
  simpa using this

/-- A run is written as its elements. -/
theorem runText_writes {cats : Ebitmap.Ebitmap} {cat : Nat → Str} (hg : ∀ i, Ebitmap.getBit cats i = true → GoodName (cat i))
    {r : Nat × Nat × Nat} (h : Run cats r) : ∃ t, runText cat r = t ++ [' '] ∧ Writes ((runItems r).map (CatItem.tree cat)) t := by
  obtain ⟨s, e, n⟩ := r
  have h1 := h.len
  have h2 := h.pos
  have h3 := h.all
  simp only at h1 h2 h3
  have gs := writes_name (hg s (h3 s (Nat.le_refl _) (by omega)))
  have ge := writes_name (hg e (h3 e (by omega) (Nat.le_refl _)))
  simp only [runText, runItems]
  split
  · split
    · exact ⟨cat s ++ ' ' :: cat e, by simp, writes_space gs ge⟩
    · refine ⟨paren3 "range".toList (cat s) (cat e), ?_, writes_paren3 (writes_word "range" (by decide)) gs ge⟩
      simp only [paren3]
      rw [show "(range ".toList = '(' :: ("range".toList ++ [' ']) from rfl, show ") ".toList = [')', ' '] from rfl]
      simp
  · exact ⟨cat s, rfl, gs⟩

theorem runs_writes {cats : Ebitmap.Ebitmap} {cat : Nat → Str} (hg : ∀ i, Ebitmap.getBit cats i = true → GoodName (cat i)) :
    ∀ (rs : List (Nat × Nat × Nat)), rs ≠ [] → (∀ r ∈ rs, Run cats r) →
      ∃ t, rs.flatMap (runText cat) = t ++ [' '] ∧ Writes ((rs.flatMap runItems).map (CatItem.tree cat)) t
  | [], h, _ => absurd rfl h
  | [r], _, hr => by
    obtain ⟨t, h1, h2⟩ := runText_writes hg (hr r (by simp))
    exact ⟨t, by simpa using h1, by simpa using h2⟩
  | r :: r' :: rs, _, hr => by
    obtain ⟨t, h1, h2⟩ := runText_writes hg (hr r (by simp))
    obtain ⟨u, h3, h4⟩ := runs_writes hg (r' :: rs) (by simp) fun x hx => hr x (List.mem_cons_of_mem _ hx)
    refine ⟨t ++ ' ' :: u, ?_, ?_⟩
    · rw [List.flatMap_cons, h1, h3]; simp
    · have := writes_space h2 h4
      simpa using this

/-- What is counted for a run is enough, if the last name is not longer than the one before it. -/
theorem runLen_ge {cats : Ebitmap.Ebitmap} {cat : Nat → Str} {r : Nat × Nat × Nat} (h : Run cats r)
    (hl : ∀ i, Ebitmap.getBit cats i = true → Ebitmap.getBit cats (i + 1) = true → Ebitmap.getBit cats (i + 2) = false → (cat (i + 1)).length ≤ (cat i).length) :
    (runText cat r).length ≤ runLen cat r := by
  obtain ⟨s, e, n⟩ := r
  have h1 := h.len
  have h2 := h.pos
  have h3 := h.all
  have h4 := h.stop
  simp only at h1 h2 h3 h4
  have key : n > 1 → (cat e).length ≤ (cat (e - 1)).length := by
    intro hn
    have := hl (e - 1) (h3 _ (by omega) (by omega)) (by rw [show e - 1 + 1 = e by omega]; exact h3 e (by omega) (Nat.le_refl _))
      (by rw [show e - 1 + 2 = e + 1 by omega]; exact h4)
    rwa [show e - 1 + 1 = e by omega] at this
  simp only [runText, runLen]
  rw [show "(range  ) ".length = 10 from rfl]
  split
  · have := key (by assumption)
    split
    · rename_i hn2
      subst hn2
      simp; omega
    · rw [if_pos (by omega)]
      simp only [List.length_append, List.length_cons]
      rw [show "(range ".toList.length = 7 from rfl, show ") ".toList.length = 2 from rfl]
      omega
  · rw [if_neg (by omega), if_neg (by omega), if_pos (by omega)]; simp

theorem runLen_pos (cat : Nat → Str) {cats : Ebitmap.Ebitmap} {r : Nat × Nat × Nat} (h : Run cats r) : 0 < runLen cat r := by
  obtain ⟨s, e, n⟩ := r
  have h2 := h.pos
  simp only at h2
  simp only [runLen]
  rw [show "(range  ) ".length = 10 from rfl]
  split
  · omega
  · split
    · omega
    · rw [if_pos (by omega)]; omega

theorem catsLen_fits {cats : Ebitmap.Ebitmap} {cat : Nat → Str}
    (hl : ∀ i, Ebitmap.getBit cats i = true → Ebitmap.getBit cats (i + 1) = true → Ebitmap.getBit cats (i + 2) = false → (cat (i + 1)).length ≤ (cat i).length) :
    ∀ (rs : List (Nat × Nat × Nat)), (∀ r ∈ rs, Run cats r) → (rs.flatMap (runText cat)).length ≤ (rs.map (runLen cat)).sum
  | [], _ => by simp
  | r :: rs, h => by
    have := catsLen_fits hl rs fun x hx => h x (List.mem_cons_of_mem _ hx)
    have := runLen_ge (h r (by simp)) hl
    simp only [List.flatMap_cons, List.length_append, List.map_cons, List.sum_cons]
    omega

theorem node_nil {e : Ebitmap.Ebitmap} (h : Ebitmap.WF e) : e.node.isEmpty = true ↔ ∀ i, Ebitmap.getBit e i = false := by
  constructor
  · intro hn i
    obtain ⟨node, hb⟩ := e
    have : node = [] := by simpa using hn
    subst this
    simp [Ebitmap.getBit, Ebitmap.getBitNodes]
  · intro hn
    have : e = Ebitmap.init := Ebitmap.eq_of_getBit ((Ebitmap.wf_iff_inv _).1 h) Ebitmap.inv_init fun b => by rw [hn b]; simp [Ebitmap.getBit, Ebitmap.init, Ebitmap.getBitNodes]
    rw [this]; rfl

theorem runs_ne {cats : Ebitmap.Ebitmap} (hw : Ebitmap.WF cats) (hne : cats.node.isEmpty = false) {rs : List (Nat × Nat × Nat)}
    (h2 : ∀ b, Ebitmap.getBit cats b = true ↔ ∃ r ∈ rs, r.1 ≤ b ∧ b ≤ r.2.1) : rs ≠ [] := by
  rintro rfl
  have := (node_nil hw).2 fun i => by
    have := h2 i
    simp only [List.not_mem_nil, false_and, exists_false, iff_false] at this
    simpa using this
  rw [this] at hne; cases hne

theorem items_ne {rs : List (Nat × Nat × Nat)} (h : rs ≠ []) : rs.flatMap runItems ≠ [] := by
  cases rs with
  | nil => exact absurd rfl h
  | cons r rs =>
    intro h0
    rw [List.flatMap_cons] at h0
    exact runItems_ne r (List.append_eq_nil_iff.1 h0).1

/-- What is written for a set of categories. -/
theorem catsToStr_writes {cat : Nat → Str} {cats : Ebitmap.Ebitmap} (hw : Ebitmap.WF cats) (hne : cats.node.isEmpty = false)
    (hg : ∀ i, Ebitmap.getBit cats i = true → GoodName (cat i)) :
    ∃ items, items ≠ [] ∧ ListOf items cats ∧
      (∀ text, catsToStr cat cats = some text → Writes [.list (items.map (CatItem.tree cat))] text) ∧
      ((∀ i, Ebitmap.getBit cats i = true → Ebitmap.getBit cats (i + 1) = true → Ebitmap.getBit cats (i + 2) = false →
        (cat (i + 1)).length ≤ (cat i).length) → ∃ text, catsToStr cat cats = some text) := by
  obtain ⟨rs, h1, h2, h3⟩ := catRuns_spec hw
  have hrs := runs_ne hw hne h3
  have hlen : 0 < (rs.map (runLen cat)).sum := by
    cases rs with
    | nil => exact absurd rfl hrs
    | cons r rs =>
      have := runLen_pos cat (h2 r (by simp))
      simp only [List.map_cons, List.sum_cons]; omega
  have hl : catsLen cat rs = (rs.map (runLen cat)).sum + 2 := by unfold catsLen; simp only; rw [if_pos hlen]
  refine ⟨rs.flatMap runItems, items_ne hrs, items_of h2 h3, ?_, ?_⟩
  · intro text h
    unfold catsToStr at h
    rw [h1, Option.bind_some, if_neg (by omega)] at h
    obtain ⟨body, h4, rfl⟩ := Option.map_eq_some_iff.1 h
    obtain ⟨t, h5, h6⟩ := runs_writes hg rs hrs h2
    rw [catsLoop_some rs _ h4, h5, show '(' :: (t ++ [' ']) = ('(' :: t) ++ [' '] from rfl, List.dropLast_concat]
    exact writes_paren h6
  · intro hlens
    have := catsLen_fits hlens rs h2
    unfold catsToStr
    rw [h1, Option.bind_some, if_neg (by omega), catsLoop_fits rs _ (by omega)]
    exact ⟨_, rfl⟩

/-! ### policy.conf -/

theorem confItems_append (cat : Nat → Str) : ∀ {a b : List CatItem}, a ≠ [] → b ≠ [] →
    confItems cat (a ++ b) = confItems cat a ++ ',' :: confItems cat b
  | [], b, h, _ => absurd rfl h
  | [x], b, _, hb => by
    cases b with
    | nil => exact absurd rfl hb
    | cons y b => rfl
  | x :: y :: a, b, _, hb => by
    have := confItems_append cat (a := y :: a) (b := b) (by simp) hb
    simp only [List.cons_append] at this
    simp only [List.cons_append, confItems, this, List.append_assoc]

theorem runTextConf_items {cats : Ebitmap.Ebitmap} (cat : Nat → Str) {r : Nat × Nat × Nat} (h : Run cats r) :
    runTextConf cat true r = confItems cat (runItems r) := by
  obtain ⟨s, e, n⟩ := r
  simp only [runTextConf, runItems]
  by_cases h1 : n > 1
  · rw [if_pos h1, if_pos h1]
    by_cases h2 : n = 2
    · rw [if_pos h2, if_pos h2]; rfl
    · rw [if_neg h2, if_neg h2]; rfl
  · rw [if_neg h1, if_neg h1]; simp [confItems, CatItem.conf]

theorem runTextConf_false (cat : Nat → Str) (r : Nat × Nat × Nat) : runTextConf cat false r = ',' :: runTextConf cat true r := by
  obtain ⟨s, e, n⟩ := r
  simp [runTextConf]

theorem runTextConf_len (cat : Nat → Str) (r : Nat × Nat × Nat) : (runTextConf cat true r).length + 1 = runLenConf cat r := by
  obtain ⟨s, e, n⟩ := r
  simp only [runTextConf, runLenConf, if_true, List.nil_append, List.length_append]
  by_cases h1 : n > 1
  · rw [if_pos h1, if_pos h1]; simp; omega
  · rw [if_neg h1, if_neg h1]; simp

/-- Everything fits, and is the list with commas. -/
theorem catsLoopConf_eq {cats : Ebitmap.Ebitmap} (cat : Nat → Str) : ∀ (rs : List (Nat × Nat × Nat)), (∀ r ∈ rs, Run cats r) → ∀ (first : Bool) (n : Nat),
    rs ≠ [] → (rs.map (runLenConf cat)).sum + (if first then 0 else 1) ≤ n →
    catsLoopConf cat rs first n = some ((if first then [] else [',']) ++ confItems cat (rs.flatMap runItems))
  | [], _, _, _, h, _ => absurd rfl h
  | r :: rs, hr, first, n, _, h => by
    have h0 := runTextConf_len cat r
    simp only [List.map_cons, List.sum_cons] at h
    have ht : runTextConf cat first r = (if first then [] else [',']) ++ confItems cat (runItems r) := by
      cases first
      · rw [runTextConf_false, runTextConf_items cat (hr r (by simp))]; rfl
      · rw [runTextConf_items cat (hr r (by simp))]; rfl
    have hlen : (runTextConf cat first r).length + 1 = runLenConf cat r + (if first then 0 else 1) := by
      cases first
      · rw [runTextConf_false]; simp; omega
      · simpa using h0
    simp only [catsLoopConf, put]
    rw [if_neg (by omega), Option.bind_some]
    by_cases hrs : rs = []
    · subst hrs
      simp [catsLoopConf, ht]
    · rw [catsLoopConf_eq cat rs (fun x hx => hr x (List.mem_cons_of_mem _ hx)) false _ hrs (by simp; omega), Option.map_some, ht,
        List.flatMap_cons, confItems_append cat (runItems_ne r) (items_ne hrs)]
      simp

theorem catsToConf_eq {cat : Nat → Str} {cats : Ebitmap.Ebitmap} (hw : Ebitmap.WF cats) (hne : cats.node.isEmpty = false) :
    ∃ items, items ≠ [] ∧ ListOf items cats ∧ catsToConf cat cats = some (confItems cat items) := by
  obtain ⟨rs, h1, h2, h3⟩ := catRuns_spec hw
  have hrs := runs_ne hw hne h3
  refine ⟨rs.flatMap runItems, items_ne hrs, items_of h2 h3, ?_⟩
  unfold catsToConf
  have hpos : (rs.map (runLenConf cat)).sum ≠ 0 := by
    cases rs with
    | nil => exact absurd rfl hrs
    | cons r rs =>
      have := runTextConf_len cat r
      simp only [List.map_cons, List.sum_cons]; omega
  rw [h1, Option.bind_some, if_neg hpos, catsLoopConf_eq cat rs h2 true _ hrs (by simp)]
  simp

/-- The kernel's parser reads a list of categories as the set that it stands for. -/
theorem parse_items {p : Policy.Policy} {cat : Nat → Str} : ∀ (items : List CatItem), items ≠ [] → (∀ it ∈ items, it.Ok) →
    (∀ it ∈ items, ∀ n, it.has n → Mls.CatNamed p n ∧ p.catName n = some (cat n)) → ∀ {e : Ebitmap.Ebitmap}, Ebitmap.Inv e →
    ∃ e', Mls.parseCats p (confItems cat items) e = some (e', none, []) ∧ Mls.Adds e (fun n => ∃ it ∈ items, it.has n) e'
  | [], h, _, _, _, _ => absurd rfl h
  | it :: items, _, hok, hn, e, he => by
    -- one element and what follows
    have key : ∀ rest, (∀ c, rest.head? = some c → c = ',' ∨ c = '-') → ∃ e', Mls.Adds e it.has e' ∧
        Mls.parseCats p (it.conf cat ++ rest) e = Mls.cont p rest e' := by
      intro rest hrest
      have hrest' : ∀ c, rest.head? = some c → (c == ',' || c == '-') = true := by
        intro c hc; rcases hrest c hc with h | h <;> simp [h]
      cases it with
      | one i =>
        obtain ⟨⟨hb, n, h1, h2, h3⟩, h4⟩ := hn (.one i) (by simp) i rfl
        rw [h4] at h1; cases h1
        obtain ⟨e', ht, ha⟩ := Mls.addToken_single h2 h3 hb he
        refine ⟨e', ha, ?_⟩
        rw [Mls.parseCats_eq, CatItem.conf, Mls.scan_append (Mls.plainCat_stop h2) hrest', ht]
        rfl
      | range a b =>
        have hab : a < b := hok (.range a b) (by simp)
        obtain ⟨⟨hb, n, h1, h2, h3⟩, h4⟩ := hn (.range a b) (by simp) a ⟨Nat.le_refl _, Nat.le_of_lt hab⟩
        obtain ⟨⟨hb', n', h1', h2', h3'⟩, h4'⟩ := hn (.range a b) (by simp) b ⟨Nat.le_of_lt hab, Nat.le_refl _⟩
        rw [h4] at h1; cases h1
        rw [h4'] at h1'; cases h1'
        obtain ⟨e', ht, ha⟩ := Mls.addToken_range h2 h3 h3' hab hb' he
        refine ⟨e', ha, ?_⟩
        have hstop : ∀ c ∈ cat a ++ '.' :: cat b, (c == ',' || c == '-') = false := by
          intro c hc
          rcases List.mem_append.1 hc with h | h
          · exact Mls.plainCat_stop h2 c h
          · rcases List.mem_cons.1 h with h | h
            · subst h; decide
            · exact Mls.plainCat_stop h2' c h
        rw [Mls.parseCats_eq, CatItem.conf, Mls.scan_append hstop hrest', ht]
        rfl
    cases items with
    | nil =>
      obtain ⟨e', h1, h2⟩ := key [] (by simp)
      refine ⟨e', ?_, h1.congr fun n => by simp⟩
      rw [List.append_nil] at h2
      exact h2
    | cons it' items =>
      obtain ⟨e1, h1, h2⟩ := key (',' :: confItems cat (it' :: items)) (by simp)
      obtain ⟨e2, h3, h4⟩ := parse_items (it' :: items) (by simp) (fun x hx => hok x (List.mem_cons_of_mem _ hx))
        (fun x hx => hn x (List.mem_cons_of_mem _ hx)) h1.1
      refine ⟨e2, ?_, (h1.trans h4).congr fun n => by simp⟩
      show Mls.parseCats p (it.conf cat ++ ',' :: confItems cat (it' :: items)) e = _
      rw [h2, Mls.cont, if_pos rfl, h3]

end Verif.KernelCil
