import Verif.Validate.Spec
import Verif.Ebitmap.Props
import Verif.Prelude

/-! # Indexes, gaps and postfix forms -/

namespace Verif.Validate
open Verif.Policy Verif.Services

/-! ## Checks -/

theorem andThen_true {a b : V} : andThen a b = some true ↔ a = some true ∧ b = some true := by
  unfold andThen
  split
  · simp
  · rename_i h
    constructor
    · intro hh; exact absurd hh (by intro h2; exact h (by simpa using h2))
    · rintro ⟨h1, _⟩; exact absurd h1 (by intro h2; exact h (by simpa using h2))

theorem andThen_none {a b : V} (ha : a ≠ none) (hb : a = some true → b ≠ none) : andThen a b ≠ none := by
  unfold andThen
  split
  · rename_i h; exact hb rfl
  · exact ha

theorem every_true {α : Type} {f : α → V} {l : List α} : every f l = some true ↔ ∀ a ∈ l, f a = some true := by
  induction l with
  | nil => simp [every]
  | cons a l ih => simp [every, andThen_true, ih]

theorem every_none {α : Type} {f : α → V} {l : List α} (h : ∀ a ∈ l, f a ≠ none) : every f l ≠ none := by
  induction l with
  | nil => simp [every]
  | cons a l ih =>
    unfold every
    exact andThen_none (h a (by simp)) fun _ => ih fun b hb => h b (by simp [hb])

theorem every_some {α : Type} {f : α → Bool} {l : List α} : every (fun a => some (f a)) l = some true ↔ ∀ a ∈ l, f a = true := by
  simp [every_true]

/-! ## Indexes -/

theorem valueIsValid_iff {v n : Nat} : valueIsValid v n = true ↔ 1 ≤ v ∧ v ≤ n := by
  simp only [valueIsValid, Bool.not_eq_true', Bool.or_eq_false_iff, beq_eq_false_iff_ne, decide_eq_false_iff_not]
  omega

/-- The index holds the entries by their numbers. -/
def IndexOk {δ : Type} (val : δ → Nat) (skip : δ → Bool) (t : Symtab δ) (a : Index δ) : Prop :=
  ∀ i e, a i = some e ↔ i < t.nprim ∧ e ∈ t.entries ∧ skip e.2 = false ∧ val e.2 = i + 1

theorem indexLoop_iff {δ : Type} {val : δ → Nat} {skip : δ → Bool} {nprim : Nat} : ∀ {l : List (Str × δ)} {a : Index δ},
    (indexLoop val skip nprim l a).isSome = true ↔
      ((∀ e ∈ l, skip e.2 = false → 1 ≤ val e.2 ∧ val e.2 ≤ nprim) ∧
        (l.Pairwise fun e f => skip e.2 = false → skip f.2 = false → val e.2 ≠ val f.2) ∧
        ∀ e ∈ l, skip e.2 = false → a (val e.2 - 1) = none) := by
  intro l
  induction l with
  | nil => intro a; simp [indexLoop]
  | cons e l ih =>
    intro a
    unfold indexLoop
    by_cases hs : skip e.2 = true
    · rw [if_pos hs, ih]
      simp [hs]
    · simp only [Bool.not_eq_true] at hs
      rw [if_neg (by simp [hs])]
      by_cases hv : valueIsValid (val e.2) nprim = true
      · rw [if_neg (by simp [hv])]
        have hv' := valueIsValid_iff.1 hv
        by_cases ha : (a (val e.2 - 1)).isSome = true
        · rw [if_pos ha]
          constructor
          · intro h; simp at h
          · rintro ⟨_, _, h3⟩
            rw [h3 e (by simp) hs] at ha
            simp at ha
        · rw [if_neg ha, ih]
          have han : a (val e.2 - 1) = none := by simpa using ha
          constructor
          · rintro ⟨h1, h2, h3⟩
            refine ⟨?_, ?_, ?_⟩
            · intro f hf hfs
              rcases List.mem_cons.1 hf with rfl | hf
              · exact hv'
              · exact h1 f hf hfs
            · rw [List.pairwise_cons]
              refine ⟨fun f hf _ hfs heq => ?_, h2⟩
              have := h3 f hf hfs
              simp [heq] at this
            · intro f hf hfs
              rcases List.mem_cons.1 hf with rfl | hf
              · exact han
              · have := h3 f hf hfs
                by_cases hc : val f.2 - 1 = val e.2 - 1
                · rw [hc]; exact han
                · simpa [hc] using this
          · rintro ⟨h1, h2, h3⟩
            rw [List.pairwise_cons] at h2
            refine ⟨fun f hf => h1 f (by simp [hf]), h2.2, ?_⟩
            intro f hf hfs
            have hne := h2.1 f hf hs hfs
            have hr := h1 f (by simp [hf]) hfs
            have : val f.2 - 1 ≠ val e.2 - 1 := by omega
            simp only [this, if_false]
            exact h3 f (by simp [hf]) hfs
      · rw [if_pos (by simpa using hv)]
        constructor
        · intro h; simp at h
        · rintro ⟨h1, _⟩
          exact absurd (valueIsValid_iff.2 (h1 e (by simp) hs)) hv

theorem indexLoop_spec {δ : Type} {val : δ → Nat} {skip : δ → Bool} {nprim : Nat} : ∀ {l : List (Str × δ)} {a b : Index δ},
    indexLoop val skip nprim l a = some b →
      ∀ i e, b i = some e ↔ a i = some e ∨ (e ∈ l ∧ skip e.2 = false ∧ val e.2 = i + 1) := by
  intro l
  induction l with
  | nil => intro a b h i e; simp [indexLoop] at h; simp [h]
  | cons x l ih =>
    intro a b h i e
    unfold indexLoop at h
    by_cases hs : skip x.2 = true
    · rw [if_pos hs] at h
      rw [ih h]
      simp only [List.mem_cons]
      constructor
      · rintro (h1 | ⟨h1, h2⟩)
        · exact .inl h1
        · exact .inr ⟨.inr h1, h2⟩
      · rintro (h1 | ⟨rfl | h1, h2⟩)
        · exact .inl h1
        · rw [hs] at h2; simp at h2
        · exact .inr ⟨h1, h2⟩
    · simp only [Bool.not_eq_true] at hs
      rw [if_neg (by simp [hs])] at h
      split at h
      · cases h
      rename_i hv
      have hv' := valueIsValid_iff.1 (by simpa using hv)
      split at h
      · cases h
      rename_i ha
      have han : a (val x.2 - 1) = none := by simpa using ha
      rw [ih h]
      by_cases hc : i = val x.2 - 1
      · subst hc
        simp only [if_true, han, Option.some.injEq, List.mem_cons]
        have : val x.2 - 1 + 1 = val x.2 := by omega
        rw [this]
        constructor
        · rintro (rfl | ⟨h1, h2⟩)
          · exact .inr ⟨.inl rfl, hs, rfl⟩
          · exact .inr ⟨.inr h1, h2⟩
        · rintro (h1 | ⟨rfl | h1, h2⟩)
          · cases h1
          · exact .inl rfl
          · exact .inr ⟨h1, h2⟩
      · simp only [hc, if_false, List.mem_cons]
        constructor
        · rintro (h1 | ⟨h1, h2⟩)
          · exact .inl h1
          · exact .inr ⟨.inr h1, h2⟩
        · rintro (h1 | ⟨rfl | h1, h2⟩)
          · exact .inl h1
          · exact absurd h2.2 (by omega)
          · exact .inr ⟨h1, h2⟩

theorem indexLoop_ok {δ : Type} {val : δ → Nat} {skip : δ → Bool} {t : Symtab δ} {a : Index δ}
    (h : indexLoop val skip t.nprim t.entries (fun _ => none) = some a) : Numbered val skip t ∧ IndexOk val skip t a := by
  have h1 := indexLoop_iff.1 (show (indexLoop val skip t.nprim t.entries (fun _ => none)).isSome = true by rw [h]; rfl)
  refine ⟨⟨h1.1, h1.2.1⟩, fun i e => ?_⟩
  rw [indexLoop_spec h]
  constructor
  · rintro (h2 | ⟨h2, h3, h4⟩)
    · cases h2
    · have := h1.1 e h2 h3
      exact ⟨by omega, h2, h3, h4⟩
  · rintro ⟨_, h2⟩; exact .inr h2

theorem indexLoop_some {δ : Type} {val : δ → Nat} {skip : δ → Bool} {t : Symtab δ} (h : Numbered val skip t) :
    ∃ a, indexLoop val skip t.nprim t.entries (fun _ => none) = some a :=
  Option.isSome_iff_exists.1 (indexLoop_iff.2 ⟨h.1, h.2, fun _ _ _ => rfl⟩)

theorem indexOther_ok {δ : Type} {val : δ → Nat} {skip : δ → Bool} {t : Symtab δ} {a : Index δ} (h : indexOther val skip t = some a) :
    (t.nprim ≠ 0 → Numbered val skip t) ∧ IndexOk val skip t a := by
  unfold indexOther at h
  by_cases hn : t.nprim ≠ 0
  · rw [if_pos hn] at h
    exact ⟨fun _ => (indexLoop_ok h).1, (indexLoop_ok h).2⟩
  · rw [if_neg hn, Option.some.injEq] at h
    refine ⟨fun h2 => absurd h2 hn, fun i e => ?_⟩
    subst h
    simp only [false_iff, reduceCtorEq]
    rintro ⟨h1, _⟩
    omega

theorem indexOther_some {δ : Type} {val : δ → Nat} {skip : δ → Bool} {t : Symtab δ} (h : t.nprim ≠ 0 → Numbered val skip t) :
    ∃ a, indexOther val skip t = some a := by
  unfold indexOther
  by_cases hn : t.nprim ≠ 0
  · rw [if_pos hn]; exact indexLoop_some (h hn)
  · rw [if_neg hn]; exact ⟨_, rfl⟩

/-- An index entry is there iff the number is declared. -/
theorem IndexOk.declared {δ : Type} {val : δ → Nat} {skip : δ → Bool} {t : Symtab δ} {a : Index δ} (h : IndexOk val skip t a) {i : Nat}
    (hi : i < t.nprim) : (a i).isSome = true ↔ Declared val skip t (i + 1) := by
  rw [Option.isSome_iff_exists]
  constructor
  · rintro ⟨e, he⟩
    have := (h i e).1 he
    exact ⟨by omega, by omega, e, this.2⟩
  · rintro ⟨_, _, e, he, hs, hv⟩
    exact ⟨e, (h i e).2 ⟨hi, he, hs, hv⟩⟩

/-! ## Gaps -/

theorem createGaps_spec {δ : Type} (a : Index δ) : ∀ (n : Nat), n ≤ 2 ^ 32 - 64 →
    ∃ g, createGaps a n = some g ∧ Ebitmap.WF g ∧ ∀ b, Ebitmap.getBit g b = (decide (b < n) && (a b).isNone)
  | 0, _ => ⟨Ebitmap.init, rfl, (Ebitmap.wf_iff_inv _).2 Ebitmap.inv_init, fun b => by simp [Ebitmap.getBit, Ebitmap.init, Ebitmap.getBitNodes]⟩
  | n+1, h => by
    obtain ⟨g, h1, h2, h3⟩ := createGaps_spec a n (by omega)
    unfold createGaps
    rw [h1, Option.bind_some]
    by_cases hn : (a n).isNone = true
    · rw [if_pos hn]
      obtain ⟨g', h4, h5, h6⟩ := (Ebitmap.C01_set_bit h2 n (by omega) true).1 (by omega)
      refine ⟨g', h4, h5, fun b => ?_⟩
      rw [h6, h3]
      by_cases hb : b = n
      · subst hb; simp [hn]
      · simp only [hb, if_false]
        congr 1
        apply decide_eq_decide.2; omega
    · rw [if_neg hn]
      refine ⟨g, rfl, h2, fun b => ?_⟩
      rw [h3]
      by_cases hb : b = n
      · subst hb; simp only [Bool.not_eq_true] at hn; simp [hn]
      · congr 1
        apply decide_eq_decide.2; omega

/-- What a `validate_t` stands for. -/
structure FlavorOk (D : Nat → Prop) (f : Flavor) : Prop where
  wf : Ebitmap.WF f.gaps
  bound : ∀ v, D v → 1 ≤ v ∧ v ≤ f.nprim
  gap : ∀ b < f.nprim, (Ebitmap.getBit f.gaps b = false ↔ D (b + 1))

theorem validateInit_ok {δ : Type} {val : δ → Nat} {skip : δ → Bool} {t : Symtab δ} {a : Index δ} (h : IndexOk val skip t a)
    (hn : t.nprim ≤ 2 ^ 32 - 64) :
    ∃ f, validateInit a t.nprim = some f ∧ f.nprim = t.nprim ∧ FlavorOk (Declared val skip t) f ∧
      ∀ b < f.nprim, Ebitmap.getBit f.gaps b = (a b).isNone := by
  obtain ⟨g, h1, h2, h3⟩ := createGaps_spec a t.nprim hn
  refine ⟨⟨t.nprim, g⟩, by simp [validateInit, h1], rfl, ⟨h2, fun v hv => ⟨hv.1, hv.2.1⟩, ?_⟩, ?_⟩
  · intro b hb
    simp only at hb ⊢
    rw [h3, ← h.declared hb]
    simp [hb]
  · intro b hb
    simp only at hb ⊢
    simp [h3, hb]

theorem validateValue_iff {D : Nat → Prop} {f : Flavor} (h : FlavorOk D f) {v : Nat} : validateValue v f = true ↔ D v := by
  unfold validateValue
  by_cases hv : (v == 0 || decide (v > f.nprim)) = true
  · rw [if_pos hv]
    simp only [Bool.or_eq_true, beq_iff_eq, decide_eq_true_eq] at hv
    constructor
    · intro h; cases h
    · intro hd; have := h.bound v hd; omega
  · rw [if_neg hv]
    simp only [Bool.or_eq_true, beq_iff_eq, decide_eq_true_eq] at hv
    rw [Bool.not_eq_true', h.gap (v - 1) (by omega)]
    rw [show v - 1 + 1 = v by omega]

theorem node_nil {e : Ebitmap.Ebitmap} (h : Ebitmap.WF e) : e.node.isEmpty = true ↔ ∀ i, Ebitmap.getBit e i = false := by
  constructor
  · intro he i
    unfold Ebitmap.getBit
    rw [List.isEmpty_iff.1 he]
    simp [Ebitmap.getBitNodes]
  · intro hb
    have : e = Ebitmap.init := Ebitmap.C03_canonical h ((Ebitmap.wf_iff_inv _).2 Ebitmap.inv_init) fun b => by
      rw [hb b]; simp [Ebitmap.getBit, Ebitmap.init, Ebitmap.getBitNodes]
    rw [this]; rfl

theorem isEmpty_iff {m : Ebitmap.Ebitmap} (hm : Ebitmap.WF m) : isEmpty m = true ↔ NoMembers m := node_nil hm

theorem validateEbitmap_iff {D : Nat → Prop} {f : Flavor} (h : FlavorOk D f) {m : Ebitmap.Ebitmap} (hm : Ebitmap.WF m) :
    validateEbitmap m f = true ↔ Members m D := by
  have hmatch := (Ebitmap.C03_relations hm h.wf).2.2
  unfold validateEbitmap Members
  by_cases he : m.node.isEmpty = true
  · have hb := (node_nil hm).1 he
    have h2 : Ebitmap.matchAny m f.gaps = false := by
      rw [Bool.eq_false_iff]
      intro h2
      obtain ⟨b, h3, _⟩ := hmatch.1 h2
      rw [hb b] at h3; cases h3
    simp [he, h2, hb]
  · have hex : ∃ b, Ebitmap.getBit m b = true := by
      by_contra hc
      exact he ((node_nil hm).2 fun i => by
        rw [Bool.eq_false_iff]; exact fun h => hc ⟨i, h⟩)
    have hh := Ebitmap.C03_highest hm hex
    have hpos : m.highbit > 0 := by
      obtain ⟨b, hb⟩ := hex
      have := Ebitmap.getBit_lt_high ((Ebitmap.wf_iff_inv _).1 hm) hb
      omega
    by_cases hn : Ebitmap.highestSetBit m ≥ f.nprim
    · rw [if_pos (by simp [he, hpos, hn])]
      constructor
      · intro h; cases h
      · intro hd
        have := h.bound _ (hd _ hh.1)
        omega
    · rw [if_neg (by simp [hn])]
      by_cases hma : Ebitmap.matchAny m f.gaps = true
      · rw [if_pos hma]
        constructor
        · intro h; cases h
        · intro hd
          obtain ⟨b, h1, h2⟩ := hmatch.1 hma
          have hb := h.bound _ (hd b h1)
          have := (h.gap b (by omega)).2 (hd b h1)
          rw [h2] at this; cases this
      · rw [if_neg hma]
        simp only [true_iff]
        intro b hb
        have hlt : b < f.nprim := by have := hh.2 b hb; omega
        rw [← h.gap b hlt, Bool.eq_false_iff]
        intro h2
        exact hma (hmatch.2 ⟨b, hb, h2⟩)

theorem bitsAll_iff {m : Ebitmap.Ebitmap} (hm : Ebitmap.WF m) {f : Nat → Bool} :
    bitsAll m f = true ↔ ∀ b, Ebitmap.getBit m b = true → f b = true := by
  unfold bitsAll
  rw [Ebitmap.C04_for_each_positive_bit hm (Nat.le_refl _), Option.getD_some, List.all_eq_true]
  constructor
  · intro h b hb
    refine h b (List.mem_filter.2 ⟨List.mem_range.2 ?_, hb⟩)
    have := Ebitmap.getBit_lt_high ((Ebitmap.wf_iff_inv _).1 hm) hb
    have := hm.small
    omega
  · intro h b hb
    exact h b (List.mem_filter.1 hb).2

/-! ## Postfix forms -/

/-- The kind of an element: 0 leaf, 1 one-place operator, 2 two-place operator. -/
structure Arity {α : Type} (leaf un bin : α → Prop) (check : List α → Int → Bool) (max : Nat) : Prop where
  nil : ∀ d, check [] d = true ↔ d = 0
  other : ∀ e l d, check (e :: l) d = true → leaf e ∨ un e ∨ bin e
  leaf : ∀ e l d, leaf e → (check (e :: l) d = true ↔ d < max - 1 ∧ check l (d + 1) = true)
  un : ∀ e l d, un e → (check (e :: l) d = true ↔ 0 ≤ d ∧ check l d = true)
  bin : ∀ e l d, bin e → (check (e :: l) d = true ↔ 1 ≤ d ∧ check l (d - 1) = true)

section Postfix
variable {α : Type} {leaf un bin : α → Prop} {check : List α → Int → Bool} {mx : Nat}

theorem post_pos {l : List α} {n : Nat} (h : Post leaf un bin l n) : 1 ≤ n := by
  induction h <;> omega

theorem post_ne {n : Nat} : ¬ Post leaf un bin [] n := by
  intro h
  generalize hl : ([] : List α) = l at h
  cases h <;> simp at hl

theorem post_check (ar : Arity leaf un bin check mx) {l : List α} {n : Nat} (h : Post leaf un bin l n) :
    ∀ (rest : List α) (s : Nat), s + n ≤ mx → check (l ++ rest) ((s : Int) - 1) = check rest (s : Int) := by
  induction h with
  | @leaf e he =>
    intro rest s hs
    rw [Bool.eq_iff_iff, List.singleton_append, ar.leaf e rest _ he]
    rw [show (s : Int) - 1 + 1 = s by omega]
    constructor
    · exact fun h => h.2
    · exact fun h => ⟨by omega, h⟩
  | @un e l n he _ ih =>
    intro rest s hs
    rw [List.append_assoc, ih _ s hs, List.singleton_append, Bool.eq_iff_iff, ar.un e rest _ he]
    constructor
    · exact fun h => h.2
    · exact fun h => ⟨by omega, h⟩
  | @bin e l l' n n' he _ _ ih1 ih2 =>
    intro rest s hs
    rw [List.append_assoc, List.append_assoc, ih1 _ s (by omega)]
    have h2 := ih2 ([e] ++ rest) (s + 1) (by omega)
    rw [show ((s + 1 : Nat) : Int) - 1 = s by omega] at h2
    rw [h2, List.singleton_append, Bool.eq_iff_iff, ar.bin e rest _ he]
    rw [show ((s + 1 : Nat) : Int) - 1 = s by omega]
    constructor
    · exact fun h => h.2
    · exact fun h => ⟨by omega, h⟩

/-- The values that have been computed: the last one first. -/
inductive Forest (leaf un bin : α → Prop) (mx : Nat) : List α → Nat → Prop
  | nil : Forest leaf un bin mx [] 0
  | snoc {l l' : List α} {n k : Nat} : Forest leaf un bin mx l k → Post leaf un bin l' n → k + n ≤ mx →
      Forest leaf un bin mx (l ++ l') (k + 1)

theorem forest_check (ar : Arity leaf un bin check mx) : ∀ (rest l : List α) (k : Nat), Forest leaf un bin mx l k →
    check rest ((k : Int) - 1) = true → ∃ n ≤ mx, Post leaf un bin (l ++ rest) n := by
  intro rest
  induction rest with
  | nil =>
    intro l k hf h
    have hk := (ar.nil _).1 h
    have hk1 : k = 1 := by omega
    subst hk1
    rw [List.append_nil]
    cases hf with
    | @snoc l0 l' n k h0 hp hle =>
      cases h0 with
      | nil => exact ⟨n, by omega, by simpa using hp⟩
  | cons e rest ih =>
    intro l k hf h
    rcases ar.other e rest _ h with he | he | he
    · obtain ⟨h1, h2⟩ := (ar.leaf e rest _ he).1 h
      have := ih (l ++ [e]) (k + 1) (.snoc hf (.leaf he) (by omega)) (by rw [show ((k + 1 : Nat) : Int) - 1 = (k : Int) - 1 + 1 by omega]; exact h2)
      simpa using this
    · obtain ⟨h1, h2⟩ := (ar.un e rest _ he).1 h
      cases hf with
      | nil => omega
      | @snoc l0 l' n k h0 hp hle =>
        have := ih (l0 ++ (l' ++ [e])) (k + 1) (.snoc h0 (.un he hp) hle) h2
        simpa using this
    · obtain ⟨h1, h2⟩ := (ar.bin e rest _ he).1 h
      cases hf with
      | nil => omega
      | @snoc l0 l' n k h0 hp hle =>
        cases h0 with
        | nil => omega
        | @snoc l1 l2 n2 k h0 hp2 hle2 =>
          have := ih (l1 ++ (l2 ++ l' ++ [e])) (k + 1) (.snoc h0 (.bin he hp2 hp) (by omega))
            (by rw [show ((k + 1 : Nat) : Int) - 1 = ((k + 1 + 1 : Nat) : Int) - 1 - 1 by omega]; exact h2)
          simpa using this

/-- The check by depth accepts the postfix forms. -/
theorem check_iff (ar : Arity leaf un bin check mx) {l : List α} : check l (-1) = true ↔ ∃ n ≤ mx, Post leaf un bin l n := by
  constructor
  · intro h
    have := forest_check ar l [] 0 .nil (by simpa using h)
    simpa using this
  · rintro ⟨n, hn, h⟩
    have := post_check ar h [] 0 (by omega)
    rw [List.append_nil] at this
    rw [show (-1 : Int) = ((0 : Nat) : Int) - 1 by omega, this]
    exact (ar.nil _).2 rfl

end Postfix

end Verif.Validate
