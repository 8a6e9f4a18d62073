import Verif.Ebitmap.Lemmas2

namespace Verif.Ebitmap

/-! ## init_range -/

theorem rangeMap_getLsbD {minbit maxbit s i : Nat} (hs : s % 64 = 0) (hi : i < 64)
    (hmm : minbit ≤ maxbit) (h1 : minbit / 64 * 64 ≤ s) (h2 : s ≤ maxbit / 64 * 64) :
    (rangeMap minbit maxbit (minbit / 64 * 64) (maxbit / 64 * 64) s).getLsbD i =
      (decide (minbit ≤ s + i) && decide (s + i ≤ maxbit)) := by
  unfold rangeMap
  rw [Bool.eq_iff_iff]
  split
  · rename_i c
    rw [BitVec.getLsbD_allOnes]
    simp only [decide_eq_true_eq, Bool.and_eq_true]
    omega
  · split
    · rename_i c1 c2
      rw [BitVec.getLsbD_shiftLeft, BitVec.getLsbD_allOnes]
      simp only [Bool.and_eq_true, decide_eq_true_eq, Bool.not_eq_true', decide_eq_false_iff_not]
      omega
    · split
      · rename_i c1 c2 c3
        rw [BitVec.getLsbD_ushiftRight, BitVec.getLsbD_allOnes]
        simp only [Bool.and_eq_true, decide_eq_true_eq]
        omega
      · rename_i c1 c2 c3
        rw [BitVec.getLsbD_shiftLeft, BitVec.getLsbD_ushiftRight, BitVec.getLsbD_allOnes]
        simp only [Bool.and_eq_true, decide_eq_true_eq, Bool.not_eq_true', decide_eq_false_iff_not]
        omega

theorem rangeNodes_spec {minbit maxbit : Nat} (hmm : minbit ≤ maxbit)
    (hmax : maxbit / 64 * 64 + 64 < 2^32) :
    ∀ (k s : Nat), s % 64 = 0 → minbit / 64 * 64 ≤ s → s ≤ maxbit / 64 * 64 + 64 →
      (maxbit / 64 * 64 + 64 - s) / 64 + 1 ≤ k →
      WFN s (rangeNodes minbit maxbit (minbit / 64 * 64) (maxbit / 64 * 64) k s) ∧
      (∀ b, bits (rangeNodes minbit maxbit (minbit / 64 * 64) (maxbit / 64 * 64) k s) b =
        (decide (s ≤ b) && decide (minbit ≤ b) && decide (b ≤ maxbit))) ∧
      (s ≤ maxbit / 64 * 64 →
        lastEnd (rangeNodes minbit maxbit (minbit / 64 * 64) (maxbit / 64 * 64) k s) = maxbit / 64 * 64 + 64) := by
  intro k
  induction k with
  | zero => intro s _ _ _ h; omega
  | succ k ih =>
    intro s hs h1 h2 hk
    unfold rangeNodes
    by_cases c : s ≤ maxbit / 64 * 64
    · rw [if_pos c, Nat.mod_eq_of_lt (show s + 64 < 2^32 by omega)]
      obtain ⟨i1, i2, i3⟩ := ih (s + 64) (by omega) (by omega) (by omega) (by omega)
      have hm := fun i hi => rangeMap_getLsbD (i := i) hs hi hmm h1 c
      refine ⟨⟨Nat.le_refl _, hs, ?_, i1⟩, ?_, ?_⟩
      · intro hz
        simp only at hz
        by_cases c2 : minbit ≤ s
        · have := hm 0 (by omega)
          rw [hz] at this
          simp at this; omega
        · have := hm (minbit - s) (by omega)
          rw [hz] at this
          simp at this; omega
      · intro b
        simp only [bits, i2]
        by_cases c2 : s + 64 ≤ b
        · rw [inNode_ge (by simpa using c2)]
          rw [Bool.false_or, decide_eq_true c2, decide_eq_true (show s ≤ b by omega)]
        · by_cases c3 : s ≤ b
          · simp only [inNode, hm (b - s) (by omega), show s + (b - s) = b by omega, c2, c3]
            simp
          · rw [inNode_lt (by simp; omega)]
            simp [c2, c3]
      · intro _
        by_cases c2 : s + 64 ≤ maxbit / 64 * 64
        · have h3 := i3 c2
          have hne : rangeNodes minbit maxbit (minbit / 64 * 64) (maxbit / 64 * 64) k (s + 64) ≠ [] := by
            intro he; rw [he] at h3; simp [lastEnd] at h3
          revert h3 hne
          generalize rangeNodes minbit maxbit (minbit / 64 * 64) (maxbit / 64 * 64) k (s + 64) = l
          intro h3 hne
          cases l with
          | nil => exact absurd rfl hne
          | cons n' t' => exact h3
        · have hnil : rangeNodes minbit maxbit (minbit / 64 * 64) (maxbit / 64 * 64) k (s + 64) = [] := by
            cases k with
            | zero => rfl
            | succ k => unfold rangeNodes; rw [if_neg c2]
          rw [hnil]
          simp [lastEnd]; omega
    · rw [if_neg c]
      refine ⟨trivial, ?_, fun h => absurd h c⟩
      intro b
      simp [bits]; omega

theorem initRange_some_iff (lo hi : Nat) (_hlo : lo < 2^32) (hhi : hi < 2^32) :
    (initRange lo hi).isSome = true ↔ lo ≤ hi ∧ hi < 2^32 - 64 := by
  unfold initRange
  simp only
  split
  · simp; omega
  · split
    · simp; omega
    · simp; omega

theorem initRange_spec {lo hi : Nat} {e : Ebitmap} (hlo : lo < 2^32) (hhi : hi < 2^32)
    (h : initRange lo hi = some e) :
    Inv e ∧ ∀ b, getBit e b = (decide (lo ≤ b) && decide (b ≤ hi)) := by
  have hc := (initRange_some_iff lo hi hlo hhi).1 (by rw [h]; rfl)
  unfold initRange at h
  simp only at h
  rw [if_neg (by omega), if_neg (by omega), Nat.mod_eq_of_lt (show hi / 64 * 64 + 64 < 2^32 by omega)] at h
  cases h
  obtain ⟨h1, h2, h3⟩ := rangeNodes_spec (minbit := lo) (maxbit := hi) hc.1 (by omega)
    ((hi / 64 * 64 - lo / 64 * 64) / 64 + 2) (lo / 64 * 64) (by omega) (by omega) (by omega) (by omega)
  have hi' : Inv ⟨rangeNodes lo hi (lo / 64 * 64) (hi / 64 * 64) ((hi / 64 * 64 - lo / 64 * 64) / 64 + 2)
      (lo / 64 * 64), hi / 64 * 64 + 64⟩ :=
    ⟨h1.mono (Nat.zero_le _), (h3 (by omega)).symm, by simp only; omega⟩
  refine ⟨hi', ?_⟩
  intro b
  rw [getBit_eq hi']
  simp only [h2]
  by_cases c : lo ≤ b
  · simp [c]; omega
  · simp [c]

/-! ## Canonicity: cmp, contains, match_any -/

theorem canonical {lo1 lo2 : Nat} {l1 l2 : List Node} (h1 : WFN lo1 l1) (h2 : WFN lo2 l2)
    (h : ∀ b, bits l1 b = bits l2 b) : l1 = l2 := by
  induction l1 generalizing lo1 lo2 l2 with
  | nil =>
    cases l2 with
    | nil => rfl
    | cons n t =>
      obtain ⟨k, hk, hb⟩ := exists_bit h2.2.2.1
      have := h (n.startbit + k)
      simp [bits, inNode, hb] at this
  | cons n1 t1 ih =>
    cases l2 with
    | nil =>
      obtain ⟨k, hk, hb⟩ := exists_bit h1.2.2.1
      have := h (n1.startbit + k)
      simp [bits, inNode, hb] at this
    | cons n2 t2 =>
      have a1 : WFN n1.startbit (n1 :: t1) := ⟨Nat.le_refl _, h1.2⟩
      have a2 : WFN n2.startbit (n2 :: t2) := ⟨Nat.le_refl _, h2.2⟩
      have hs : n1.startbit = n2.startbit := by
        obtain ⟨k1, hk1, hb1⟩ := exists_bit h1.2.2.1
        obtain ⟨k2, hk2, hb2⟩ := exists_bit h2.2.2.1
        have e1 := h (n1.startbit + k1)
        have e2 := h (n2.startbit + k2)
        have m1 := h1.2.1
        have m2 := h2.2.1
        by_contra hc
        rcases Nat.lt_or_gt_of_ne hc with hlt | hgt
        · rw [bits_lt a2 (by omega)] at e1
          simp [bits, inNode, hb1] at e1
        · rw [bits_lt a1 (by omega)] at e2
          simp [bits, inNode, hb2] at e2
      have hm : n1.map = n2.map := by
        apply BitVec.eq_of_getLsbD_eq
        intro i hi
        have := h (n1.startbit + i)
        simp only [bits, inNode] at this
        rw [bits_lt h1.2.2.2 (by omega), bits_lt h2.2.2.2 (by omega)] at this
        simpa [hs] using this
      have hn : n1 = n2 := by cases n1; cases n2; simp_all
      subst hn
      congr 1
      apply ih h1.2.2.2 h2.2.2.2
      intro b
      by_cases c : b < n1.startbit + 64
      · rw [bits_lt h1.2.2.2 c, bits_lt h2.2.2.2 c]
      · have := h b
        simp only [bits] at this
        rwa [inNode_ge (by omega), Bool.false_or, Bool.false_or] at this

theorem cmpNodes_iff (l1 l2 : List Node) : cmpNodes l1 l2 = true ↔ l1 = l2 := by
  induction l1 generalizing l2 with
  | nil => cases l2 <;> simp [cmpNodes]
  | cons n1 t1 ih =>
    cases l2 with
    | nil => simp [cmpNodes]
    | cons n2 t2 =>
      simp only [cmpNodes]
      cases n1; cases n2
      split
      · rename_i c; simp at c; simp [c, ih]
      · rename_i c; simp at c; simp; intro a b; exact absurd b (c a)

theorem cmp_iff_bits {e1 e2 : Ebitmap} (h1 : Inv e1) (h2 : Inv e2) :
    cmp e1 e2 = true ↔ ∀ b, getBit e1 b = getBit e2 b := by
  constructor
  · intro h b
    unfold cmp at h
    split at h
    · cases h
    · rename_i c
      have := (cmpNodes_iff _ _).1 h
      rw [getBit_eq h1, getBit_eq h2, this]
  · intro h
    have hn : e1.node = e2.node := by
      apply canonical h1.nodes h2.nodes
      intro b; rw [← getBit_eq h1, ← getBit_eq h2, h]
    unfold cmp
    rw [if_neg (by rw [h1.high, h2.high, hn]; simp), cmpNodes_iff]
    exact hn

theorem eq_of_getBit {e1 e2 : Ebitmap} (h1 : Inv e1) (h2 : Inv e2)
    (h : ∀ b, getBit e1 b = getBit e2 b) : e1 = e2 := by
  have hn : e1.node = e2.node := by
    apply canonical h1.nodes h2.nodes
    intro b; rw [← getBit_eq h1, ← getBit_eq h2, h]
  have hh : e1.highbit = e2.highbit := by rw [h1.high, h2.high, hn]
  cases e1; cases e2; simp_all

theorem containsNodes_iff {lo1 lo2 : Nat} {l1 l2 : List Node} (h1 : WFN lo1 l1) (h2 : WFN lo2 l2) :
    containsNodes l1 l2 = true ↔ ∀ b, bits l2 b = true → bits l1 b = true := by
  fun_induction containsNodes l1 l2 generalizing lo1 lo2 with
  | case1 l1 => simp [bits]
  | case2 n2 t2 =>
    obtain ⟨k, hk, hb⟩ := exists_bit h2.2.2.1
    simp only [Bool.false_eq_true, false_iff]
    intro h
    have := h (n2.startbit + k) (by simp [bits, inNode, hb])
    simp [bits] at this
  | case3 n1 t1 n2 t2 hle hlt ih =>
    rw [ih h1.2.2.2 h2]
    have m1 := h1.2.1
    have m2 := h2.2.1
    have a2 : WFN n2.startbit (n2 :: t2) := ⟨Nat.le_refl _, h2.2⟩
    constructor
    · intro h b hb
      show (inNode n1 b || bits t1 b) = true
      rw [h b hb]; simp
    · intro h b hb
      have := h b hb
      rw [show bits (n1 :: t1) b = (inNode n1 b || bits t1 b) from rfl] at this
      by_cases c : b < n2.startbit
      · rw [bits_lt a2 c] at hb; cases hb
      · rwa [inNode_ge (by omega), Bool.false_or] at this
  | case4 n1 t1 n2 t2 hle hlt hm =>
    simp only [Bool.false_eq_true, false_iff]
    intro h
    apply hm
    apply BitVec.eq_of_getLsbD_eq
    intro i hi
    have := h (n2.startbit + i)
    simp only [bits, inNode] at this
    rw [bits_lt h1.2.2.2 (by omega), bits_lt h2.2.2.2 (by omega)] at this
    have hs : n1.startbit = n2.startbit := by omega
    simp only [hs, Bool.or_false] at this
    simp at this
    simp only [BitVec.getLsbD_and]
    cases hx : n2.map.getLsbD i
    · simp
    · simp [this hx]
  | case5 n1 t1 n2 t2 hle hlt hm ih =>
    have hs : n1.startbit = n2.startbit := by omega
    have hm' : n1.map &&& n2.map = n2.map := by simpa using hm
    rw [ih h1.2.2.2 h2.2.2.2]
    constructor
    · intro h b hb
      simp only [bits, Bool.or_eq_true] at hb ⊢
      rcases hb with hb | hb
      · left
        simp only [inNode, Bool.and_eq_true, hs] at hb ⊢
        refine ⟨hb.1, ?_⟩
        rw [← hm', BitVec.getLsbD_and] at hb
        simp at hb; exact hb.2.1
      · right; exact h b hb
    · intro h b hb
      have c : ¬ b < n2.startbit + 64 := by
        intro c; rw [bits_lt h2.2.2.2 c] at hb; cases hb
      have := h b (by simp [bits, hb])
      simp only [bits] at this
      rwa [inNode_ge (by omega), Bool.false_or] at this
  | case6 n1 t1 n2 t2 hle =>
    simp only [Bool.false_eq_true, false_iff]
    intro h
    obtain ⟨k, hk, hb⟩ := exists_bit h2.2.2.1
    have m1 := h1.2.1
    have m2 := h2.2.1
    have a1 : WFN n1.startbit (n1 :: t1) := ⟨Nat.le_refl _, h1.2⟩
    have := h (n2.startbit + k) (by simp [bits, inNode, hb])
    rw [bits_lt a1 (by omega)] at this
    cases this

theorem contains_iff_bits {e1 e2 : Ebitmap} (h1 : Inv e1) (h2 : Inv e2) :
    contains e1 e2 = true ↔ ∀ b, getBit e2 b = true → getBit e1 b = true := by
  have hc := containsNodes_iff h1.nodes h2.nodes
  constructor
  · intro h b hb
    unfold contains at h
    split at h
    · cases h
    · rw [getBit_eq h1]; rw [getBit_eq h2] at hb; exact hc.1 h b hb
  · intro h
    have h' : ∀ b, bits e2.node b = true → bits e1.node b = true := by
      intro b hb; rw [← getBit_eq h1]; rw [← getBit_eq h2] at hb; exact h b hb
    unfold contains
    rw [if_neg, hc]
    · exact h'
    · have : lastEnd e2.node ≤ e1.highbit := by
        apply lastEnd_le h2.nodes
        · rw [h1.high]; exact lastEnd_aligned h1.nodes
        · intro b hb
          apply getBit_lt_high h1
          rw [getBit_eq h1]; exact h' b hb
      rw [h2.high]; omega

theorem matchAnyNodes_iff {lo1 lo2 : Nat} {l1 l2 : List Node} (h1 : WFN lo1 l1) (h2 : WFN lo2 l2) :
    matchAnyNodes l1 l2 = true ↔ ∃ b, bits l1 b = true ∧ bits l2 b = true := by
  fun_induction matchAnyNodes l1 l2 generalizing lo1 lo2 with
  | case1 l2 => simp [bits]
  | case2 n1 t1 => simp [bits]
  | case3 n1 t1 n2 t2 hlt ih =>
    rw [ih h1.2.2.2 h2]
    have m1 := h1.2.1
    have m2 := h2.2.1
    have a2 : WFN n2.startbit (n2 :: t2) := ⟨Nat.le_refl _, h2.2⟩
    constructor
    · rintro ⟨b, hb1, hb2⟩
      exact ⟨b, by rw [show bits (n1 :: t1) b = (inNode n1 b || bits t1 b) from rfl, hb1]; simp, hb2⟩
    · rintro ⟨b, hb1, hb2⟩
      refine ⟨b, ?_, hb2⟩
      have c : ¬ b < n2.startbit := by intro c; rw [bits_lt a2 c] at hb2; cases hb2
      rw [show bits (n1 :: t1) b = (inNode n1 b || bits t1 b) from rfl, inNode_ge (by omega)] at hb1
      simpa using hb1
  | case4 n1 t1 n2 t2 hlt hgt ih =>
    rw [ih h1 h2.2.2.2]
    have m1 := h1.2.1
    have m2 := h2.2.1
    have a1 : WFN n1.startbit (n1 :: t1) := ⟨Nat.le_refl _, h1.2⟩
    constructor
    · rintro ⟨b, hb1, hb2⟩
      exact ⟨b, hb1, by rw [show bits (n2 :: t2) b = (inNode n2 b || bits t2 b) from rfl, hb2]; simp⟩
    · rintro ⟨b, hb1, hb2⟩
      refine ⟨b, hb1, ?_⟩
      have c : ¬ b < n1.startbit := by intro c; rw [bits_lt a1 c] at hb1; cases hb1
      rw [show bits (n2 :: t2) b = (inNode n2 b || bits t2 b) from rfl, inNode_ge (by omega)] at hb2
      simpa using hb2
  | case5 n1 t1 n2 t2 hlt hgt hm =>
    have hs : n1.startbit = n2.startbit := by omega
    obtain ⟨k, hk, hb⟩ := exists_bit hm
    rw [BitVec.getLsbD_and, Bool.and_eq_true] at hb
    simp only [true_iff]
    exact ⟨n1.startbit + k, by simp [bits, inNode, hb.1], by simp [bits, inNode, hb.2, hs]⟩
  | case6 n1 t1 n2 t2 hlt hgt hm ih =>
    have hs : n1.startbit = n2.startbit := by omega
    have hm' : n1.map &&& n2.map = 0#64 := by simpa using hm
    rw [ih h1.2.2.2 h2.2.2.2]
    constructor
    · rintro ⟨b, hb1, hb2⟩
      exact ⟨b, by simp [bits, hb1], by simp [bits, hb2]⟩
    · rintro ⟨b, hb1, hb2⟩
      by_cases c : b < n1.startbit + 64
      · exfalso
        simp only [bits] at hb1 hb2
        rw [bits_lt h1.2.2.2 c, Bool.or_false] at hb1
        rw [bits_lt h2.2.2.2 (by omega), Bool.or_false] at hb2
        simp only [inNode, Bool.and_eq_true, hs] at hb1 hb2
        have := congrArg (fun v => v.getLsbD (b - n2.startbit)) hm'
        simp [hb1.2, hb2.2] at this
      · refine ⟨b, ?_, ?_⟩
        · simp only [bits] at hb1; rwa [inNode_ge (by omega), Bool.false_or] at hb1
        · simp only [bits] at hb2; rwa [inNode_ge (by omega), Bool.false_or] at hb2

/-! ## Counting -/

theorem countP_inNode (n : Node) {N : Nat} (hN : n.startbit + 64 ≤ N) :
    (List.range N).countP (inNode n) = popcount n.map := by
  rw [countP_range_shift (inNode n) n.startbit 64 N hN (fun b hb => inNode_lt hb) (fun b hb => inNode_ge hb)]
  unfold popcount
  congr 1
  funext i
  simp [inNode]

theorem countP_bits {lo : Nat} {l : List Node} (h : WFN lo l) {N : Nat} (hN : lastEnd l ≤ N) :
    (List.range N).countP (bits l) = (l.map fun n => popcount n.map).sum := by
  induction l generalizing lo with
  | nil =>
    simp [bits]
  | cons n t ih =>
    have hle := le_lastEnd h
    have ht : lastEnd t ≤ N := by
      rw [lastEnd_cons_max h] at hN; omega
    have i := ih h.2.2.2 ht
    have : bits (n :: t) = fun b => inNode n b || bits t b := by funext b; rfl
    rw [this, countP_or_disjoint, countP_inNode n (by omega), i]
    · simp
    · intro b _ hc
      by_cases c : b < n.startbit + 64
      · rw [bits_lt h.2.2.2 c] at hc; simp at hc
      · rw [inNode_ge (by omega)] at hc; simp at hc

theorem foldl_mod (l : List Node) (c : Nat) (hc : c + (l.map fun n => popcount n.map).sum < 2^32) :
    l.foldl (fun count n => (count + popcount n.map) % 2^32) c = c + (l.map fun n => popcount n.map).sum := by
  induction l generalizing c with
  | nil => simp
  | cons n t ih =>
    simp only [List.foldl_cons, List.map_cons, List.sum_cons] at hc ⊢
    rw [Nat.mod_eq_of_lt (by omega), ih _ (by omega)]
    omega

theorem cardinality_spec {e : Ebitmap} (h : Inv e) :
    cardinality e = (List.range e.highbit).countP (getBit e) := by
  have hc := countP_bits h.nodes (N := e.highbit) (by rw [h.high]; exact Nat.le_refl _)
  have heq : getBit e = bits e.node := by funext b; exact getBit_eq h b
  have hle : (List.range e.highbit).countP (bits e.node) ≤ e.highbit := by
    have := List.countP_le_length (p := bits e.node) (l := List.range e.highbit)
    simpa using this
  have := h.small
  rw [heq]
  unfold cardinality
  rw [foldl_mod _ _ (by omega), hc]
  omega

theorem countP_range_extend {p : Nat → Bool} {N M : Nat} (h : N ≤ M) (hp : ∀ b, N ≤ b → p b = false) :
    (List.range M).countP p = (List.range N).countP p := by
  obtain ⟨r, rfl⟩ : ∃ r, M = N + r := ⟨M - N, by omega⟩
  rw [List.range_add, List.countP_append, List.countP_map]
  have : (List.range r).countP (p ∘ (fun x => N + x)) = 0 := by
    rw [List.countP_eq_zero]; intro a ha; simp [hp (N + a) (by omega)]
  rw [this]; rfl

theorem cardinality_spec' {e : Ebitmap} (h : Inv e) :
    cardinality e = (List.range (2^32)).countP (getBit e) := by
  rw [cardinality_spec h]
  symm
  apply countP_range_extend (Nat.le_of_lt h.small)
  intro b hb
  by_contra hc
  have := getBit_lt_high h (b := b) (by simpa using hc)
  omega

/-! ## highest set bit -/

theorem topPos_spec : ∀ (k : Nat) (m : BitVec 64) (pos : Nat), m ≠ 0#64 → (∀ i, k < i → m.getLsbD i = false) →
    pos ≤ topPos k m pos ∧ m.getLsbD (topPos k m pos - pos) = true ∧
      ∀ i, topPos k m pos - pos < i → m.getLsbD i = false := by
  intro k
  induction k with
  | zero =>
    intro m pos hm hk
    simp only [topPos]
    refine ⟨Nat.le_refl _, ?_, fun i hi => hk i (by omega)⟩
    obtain ⟨j, hj, hb⟩ := exists_bit hm
    by_cases c : j = 0
    · subst c; simpa using hb
    · rw [hk j (by omega)] at hb; cases hb
  | succ k ih =>
    intro m pos hm hk
    simp only [topPos]
    by_cases c : m >>> 1 = 0#64
    · simp only [c, ne_eq, not_true_eq_false, if_false]
      have h1 : ∀ i, 0 < i → m.getLsbD i = false := by
        intro i hi
        have := congrArg (fun v => v.getLsbD (i - 1)) c
        simp only [BitVec.getLsbD_ushiftRight, BitVec.getLsbD_zero, show 1 + (i - 1) = i by omega] at this
        exact this
      refine ⟨Nat.le_refl _, ?_, fun i hi => h1 i (by omega)⟩
      obtain ⟨j, hj, hb⟩ := exists_bit hm
      by_cases c : j = 0
      · subst c; simpa using hb
      · rw [h1 j (by omega)] at hb; cases hb
    · simp only [ne_eq, c, not_false_eq_true, if_true]
      obtain ⟨i1, i2, i3⟩ := ih (m >>> 1) (pos + 1) c (by
        intro i hi
        rw [BitVec.getLsbD_ushiftRight]; exact hk _ (by omega))
      refine ⟨by omega, ?_, ?_⟩
      · rw [BitVec.getLsbD_ushiftRight] at i2
        rwa [show topPos k (m >>> 1) (pos + 1) - pos = 1 + (topPos k (m >>> 1) (pos + 1) - (pos + 1)) by omega]
      · intro i hi
        have := i3 (i - 1) (by omega)
        rw [BitVec.getLsbD_ushiftRight] at this
        rwa [show 1 + (i - 1) = i by omega] at this

theorem bits_getLast {lo : Nat} {l : List Node} (h : WFN lo l) {n : Node} (hl : l.getLast? = some n) (b : Nat)
    (hb : n.startbit ≤ b) : bits l b = inNode n b := by
  induction l generalizing lo with
  | nil => simp at hl
  | cons m t ih =>
    cases t with
    | nil => simp at hl; subst hl; simp [bits]
    | cons m' t' =>
      rw [List.getLast?_cons_cons] at hl
      have h4 := h.2.2.2
      have := ih h4 hl
      have hle : m.startbit + 64 ≤ n.startbit := by
        have hmem := List.mem_of_getLast? hl
        exact ((WFN_iff _ _).1 h4).2.2.2 n hmem
      show (inNode m b || bits (m' :: t') b) = _
      rw [this, inNode_ge (by omega)]; simp

theorem highest_spec {e : Ebitmap} (h : Inv e) (hne : e.node ≠ []) :
    getBit e (highestSetBit e) = true ∧ ∀ b, getBit e b = true → b ≤ highestSetBit e := by
  obtain ⟨n, hn⟩ : ∃ n, e.node.getLast? = some n := by
    cases hl : e.node.getLast? with
    | none => exact absurd (List.getLast?_eq_none_iff.1 hl) hne
    | some n => exact ⟨n, rfl⟩
  have hmem := List.mem_of_getLast? hn
  have hnz := ((WFN_iff _ _).1 h.nodes).2.2.1 n hmem
  obtain ⟨t1, t2, t3⟩ := topPos_spec 64 n.map 0 hnz (fun i hi => BitVec.getLsbD_of_ge _ _ (by omega))
  have hval : highestSetBit e = n.startbit + topPos 64 n.map 0 := by simp [highestSetBit, hn]
  rw [hval]
  constructor
  · rw [getBit_eq h, bits_getLast h.nodes hn _ (by omega)]
    simpa [inNode] using t2
  · intro b hb
    by_cases c : n.startbit ≤ b
    · rw [getBit_eq h, bits_getLast h.nodes hn _ c] at hb
      simp only [inNode, Bool.and_eq_true] at hb
      by_contra hc
      rw [t3 (b - n.startbit) (by omega)] at hb
      simp at hb
    · omega

/-! ## Iteration -/

/-- What the loop visits from bit `bit` of the chain `n :: t`. -/
def visits : List Node → Nat → List (Nat × Bool)
  | [], _ => []
  | n :: t, bit =>
    (List.range' bit (n.startbit + 64 - bit)).map (fun b => (b, nodeGetBit n b)) ++
      (match t with
       | [] => []
       | n' :: _ => visits t n'.startbit)

/-- What the whole loop visits. -/
def visitsAll : List Node → List (Nat × Bool)
  | [] => []
  | n :: t => visits (n :: t) n.startbit

theorem visitsAll_cons (n : Node) (t : List Node) : visitsAll (n :: t) =
    (List.range' n.startbit 64).map (fun b => (b, nodeGetBit n b)) ++ visitsAll t := by
  simp only [visitsAll, visits]
  rw [show n.startbit + 64 - n.startbit = 64 by omega]
  cases t <;> rfl

theorem forEachLoop_spec : ∀ (fuel : Nat) (n : Node) (t : List Node) (bit lo : Nat),
    WFN lo (n :: t) → n.startbit ≤ bit → bit < n.startbit + 64 → lastEnd (n :: t) + 1 ≤ fuel + bit →
    forEachLoop (lastEnd (n :: t)) fuel (n :: t) bit = some (visits (n :: t) bit) := by
  intro fuel
  induction fuel with
  | zero =>
    intro n t bit lo hw h1 h2 hf
    have := le_lastEnd hw
    omega
  | succ fuel ih =>
    intro n t bit lo hw h1 h2 hf
    have hle := le_lastEnd hw
    unfold forEachLoop
    rw [if_pos (by omega)]
    simp only
    have hr : List.range' bit (n.startbit + 64 - bit) = bit :: List.range' (bit + 1) (n.startbit + 64 - (bit + 1)) := by
      rw [show n.startbit + 64 - bit = (n.startbit + 64 - (bit + 1)) + 1 by omega, List.range'_succ]
    by_cases hlast : bit = n.startbit + 64 - 1
    · have hz : n.startbit + 64 - (bit + 1) = 0 := by omega
      cases t with
      | nil =>
        simp only [next]
        have : forEachLoop (lastEnd [n]) fuel [n] (bit + 1) = some [] := by
          cases fuel with
          | zero => simp [lastEnd] at hf; omega
          | succ f => unfold forEachLoop; rw [if_neg (by simp [lastEnd]; omega)]
        rw [this]
        simp [visits, hr, hz]
      | cons n' t' =>
        simp only [next, if_pos hlast]
        have hw4 := hw.2.2.2
        have : lastEnd (n :: n' :: t') = lastEnd (n' :: t') := rfl
        have hge := hw4.1
        rw [this, ih n' t' n'.startbit _ hw4 (Nat.le_refl _) (by omega) (by rw [← this]; omega)]
        simp only [visits, hr, hz]
        simp
    · have hnext : next n t bit = (n :: t, bit + 1) := by
        unfold next
        cases t with
        | nil => rfl
        | cons n' t' => simp only [if_neg hlast]
      rw [hnext, ih n t (bit + 1) lo hw (by omega) (by omega) (by omega)]
      simp only [visits, hr, List.map_cons, List.cons_append]

theorem mem_visits {lo : Nat} {l : List Node} (h : WFN lo l) (x : Nat × Bool) :
    (x ∈ visitsAll l) ↔
      x.2 = bits l x.1 ∧ ∃ n ∈ l, n.startbit ≤ x.1 ∧ x.1 < n.startbit + 64 := by
  induction l generalizing lo with
  | nil => simp [visitsAll]
  | cons n t ih =>
    have i := ih h.2.2.2
    simp only [visitsAll_cons, List.mem_append, i, List.mem_map, List.mem_range'_1]
    have hng : ∀ b, n.startbit ≤ b → b < n.startbit + 64 → nodeGetBit n b = inNode n b := by
      intro b hb1 hb2
      unfold nodeGetBit
      rw [and_mapBit_ne _ _ (by omega)]
      simp [inNode, hb1]
    have htl : ∀ m ∈ t, n.startbit + 64 ≤ m.startbit := ((WFN_iff _ _).1 h.2.2.2).2.2.2
    constructor
    · rintro (⟨b, ⟨hb1, hb2⟩, rfl⟩ | ⟨hx, m, hm, hm1, hm2⟩)
      · refine ⟨?_, n, by simp, hb1, hb2⟩
        simp only [bits, hng b hb1 hb2]
        rw [bits_lt h.2.2.2 (by omega)]; simp
      · refine ⟨?_, m, by simp [hm], hm1, hm2⟩
        have := htl m hm
        simp only [bits]
        rw [inNode_ge (by omega), hx]; simp
    · rintro ⟨hx, m, hm, hm1, hm2⟩
      rw [List.mem_cons] at hm
      rcases hm with rfl | hm
      · left
        refine ⟨x.1, ⟨hm1, hm2⟩, ?_⟩
        simp only [bits] at hx
        rw [bits_lt h.2.2.2 (by omega), Bool.or_false] at hx
        rw [hng _ hm1 hm2, ← hx]
      · right
        have := htl m hm
        simp only [bits] at hx
        rw [inNode_ge (by omega), Bool.false_or] at hx
        exact ⟨hx, m, hm, hm1, hm2⟩

theorem visits_sorted {lo : Nat} {l : List Node} (h : WFN lo l) :
    (visitsAll l).Pairwise (fun a b => a.1 < b.1) := by
  induction l generalizing lo with
  | nil => simp [visitsAll]
  | cons n t ih =>
    have i := ih h.2.2.2
    rw [visitsAll_cons, List.pairwise_append]
    refine ⟨?_, i, ?_⟩
    · rw [List.pairwise_map]
      exact List.pairwise_lt_range'
    · intro a ha b hb
      obtain ⟨_, m, hm, hm1, _⟩ := (mem_visits h.2.2.2 b).1 hb
      have := ((WFN_iff _ _).1 h.2.2.2).2.2.2 m hm
      rw [List.mem_map] at ha
      obtain ⟨c, hc, rfl⟩ := ha
      rw [List.mem_range'_1] at hc
      simp only; omega

theorem forEachBit_eq {e : Ebitmap} (h : Inv e) {fuel : Nat} (hf : e.highbit + 1 ≤ fuel) :
    forEachBit fuel e = some (visitsAll e.node) := by
  unfold forEachBit length startBit
  have hh := h.high
  have hn := h.nodes
  revert hh hn
  cases e.node with
  | nil =>
    intro hh hn
    obtain ⟨f, rfl⟩ : ∃ f, fuel = f + 1 := ⟨fuel - 1, by omega⟩
    simp [forEachLoop, visitsAll]
  | cons n t =>
    intro hh hn
    simp only [reduceCtorEq, if_false]
    rw [hh]
    exact forEachLoop_spec fuel n t n.startbit 0 hn (Nat.le_refl _) (by omega) (by omega)

/-! ## read / write -/

theorem readNodes_spec : ∀ (count highbit : Nat) (l : Option Nat) (bs : Bytes) (ns : List Node) (rest : Bytes),
    highbit % 64 = 0 → 64 ≤ highbit → (∀ p, l = some p → p % 64 = 0) →
    readNodes highbit count l bs = some (ns, rest) →
    WFN (match l with | some p => p + 64 | none => 0) ns ∧ ns.length = count := by
  intro count
  induction count with
  | zero =>
    intro highbit l bs ns rest hh hh2 hl h
    simp [readNodes] at h
    obtain ⟨rfl, _⟩ := h
    exact ⟨trivial, rfl⟩
  | succ count ih =>
    intro highbit l bs ns rest hh hh2 hl h
    unfold readNodes at h
    split at h
    · cases h
    · rename_i s bs1 _
      split at h
      · cases h
      · rename_i hs
        split at h
        · cases h
        · split at h
          · cases h
          · rename_i m bs2 _
            simp only at h
            split at h
            · cases h
            · rename_i hm
              split at h
              · cases h
              · rename_i hl2
                split at h
                · cases h
                · rename_i ns' rest' hrec
                  simp only [Option.some.injEq, Prod.mk.injEq] at h
                  obtain ⟨rfl, rfl⟩ := h
                  have hs' : s % 64 = 0 := by omega
                  obtain ⟨i1, i2⟩ := ih highbit (some s) bs2 ns' rest' hh hh2
                    (by intro p hp; cases hp; exact hs') hrec
                  refine ⟨⟨?_, hs', hm, i1⟩, by simp [i2]⟩
                  cases l with
                  | none => exact Nat.zero_le _
                  | some p =>
                    have := hl p rfl
                    simp [outOfOrder] at hl2
                    simp only
                    omega

theorem read_inv {bs rest : Bytes} {e : Ebitmap} (h : read bs = some (e, rest)) : Inv e := by
  unfold read at h
  split at h
  · cases h
  · rename_i mapsize bs1 _
    split at h
    · cases h
    · rename_i highbit bs2 hhi
      have hlt := nextLE_lt hhi
      split at h
      · cases h
      · rename_i count bs3 _
        split at h
        · cases h
        · split at h
          · cases h; exact ⟨trivial, rfl, by decide⟩
          · split at h
            · cases h
            · split at h
              · cases h
              · split at h
                · cases h
                · rename_i hz ha hc _ ns bs4 hrd
                  split at h
                  · cases h
                  · rename_i hl
                    cases h
                    obtain ⟨h1, _⟩ := readNodes_spec count highbit none bs3 ns _ (by omega) (by omega) (by simp) hrd
                    exact ⟨h1, by simpa using Eq.symm (by simpa using hl), by simpa using hlt⟩

theorem readNodes_write : ∀ (l : List Node) (prev : Option Nat) (highbit lo : Nat) (rest : Bytes),
    WFN lo l → (∀ p, prev = some p → p < lo) → lastEnd l ≤ highbit → highbit < 2^32 →
    readNodes highbit l.length prev
      ((l.map fun n => leBytes 4 n.startbit ++ leBytes 8 n.map.toNat).flatten ++ rest) = some (l, rest) := by
  intro l
  induction l with
  | nil => intro prev highbit lo rest _ _ _ _; simp [readNodes]
  | cons n t ih =>
    intro prev highbit lo rest hw hp hl hh
    have hle := le_lastEnd hw
    have hend := lastEnd_cons_max hw
    have hns : n.startbit < 256 ^ 4 := by
      have : (256:Nat)^4 = 2^32 := by decide
      omega
    have hnm : n.map.toNat < 256 ^ 8 := by
      have : (256:Nat)^8 = 2^64 := by decide
      rw [this]; exact n.map.isLt
    simp only [List.length_cons, List.map_cons, List.flatten_cons, List.append_assoc]
    unfold readNodes
    rw [nextLE_leBytes 4 _ _ hns]
    simp only
    rw [if_neg (by have := hw.2.1; omega), if_neg (by omega), nextLE_leBytes 8 _ _ hnm]
    simp only [BitVec.ofNat_toNat, BitVec.setWidth_eq]
    rw [if_neg hw.2.2.1, if_neg]
    · rw [ih (some n.startbit) highbit (n.startbit + 64) rest hw.2.2.2 (by intro p hp; cases hp; omega)
        (by omega) hh]
    · cases prev with
      | none => simp [outOfOrder]
      | some p =>
        have := hp p rfl
        have := hw.1
        simp [outOfOrder]; omega

theorem length_le {lo : Nat} {l : List Node} (h : WFN lo l) : l.length * 64 + lo ≤ max lo (lastEnd l) := by
  induction l generalizing lo with
  | nil => simp; omega
  | cons n t ih =>
    have i := ih h.2.2.2
    have := le_lastEnd h
    have := lastEnd_cons_max h
    have := h.1
    simp only [List.length_cons]
    omega

theorem read_write {e : Ebitmap} (h : Inv e) (rest : Bytes) : read (write e ++ rest) = some (e, rest) := by
  have hs := h.small
  have hlen := length_le h.nodes
  have hh := h.high
  have h256 : (256:Nat)^4 = 2^32 := by decide
  unfold read write
  simp only [List.append_assoc]
  rw [nextLE_leBytes 4 64 _ (by decide)]
  simp only
  rw [nextLE_leBytes 4 _ _ (by omega)]
  simp only
  rw [nextLE_leBytes 4 _ _ (by omega)]
  simp only [ne_eq, not_true_eq_false, if_false]
  by_cases hz : e.highbit = 0
  · have hn : e.node = [] := by
      cases hnn : e.node with
      | nil => rfl
      | cons n t =>
        have hw := h.nodes
        rw [hnn] at hw hh
        have := le_lastEnd hw
        omega
    rw [if_pos hz, hn]
    cases e
    simp_all
  · have hal := lastEnd_aligned h.nodes
    have hne : e.node.length ≠ 0 := by
      intro hc
      have : e.node = [] := List.length_eq_zero_iff.1 hc
      rw [this] at hh
      exact hz hh
    rw [if_neg hz, if_neg (by rw [hh]; omega), if_neg hne,
      readNodes_write e.node none e.highbit 0 rest h.nodes (by simp) (by omega) hs]
    simp only [hh, not_true_eq_false, if_false]
    rw [← hh]

end Verif.Ebitmap
