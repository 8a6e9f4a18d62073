import Verif.Ebitmap.Lemmas
import Verif.ListLemmas

namespace Verif.Ebitmap

/-! ## not -/

theorem mask_getLsbD (k i : Nat) (hk : k < 64) :
    (mapBit k - 1#64).getLsbD i = decide (i < k) := by
  have h2 : 2 ^ k < 2 ^ 64 := Nat.pow_lt_pow_right (by decide) hk
  have h0 : 0 < 2 ^ k := Nat.pow_pos (by decide)
  have : (mapBit k - 1#64).toNat = 2 ^ k - 1 := by
    unfold mapBit
    rw [BitVec.toNat_sub, BitVec.toNat_shiftLeft]
    simp only [BitVec.toNat_ofNat, Nat.shiftLeft_eq, Nat.one_mod_two_pow (show 0 < 64 by decide), Nat.one_mul]
    rw [Nat.mod_eq_of_lt h2]
    omega
  rw [BitVec.getLsbD, this, Nat.testBit_two_pow_sub_one]

theorem notLoop_spec {maxbit : Nat} (hm : maxbit ≤ 2^32 - 64) :
    ∀ (fuel cur : Nat) (n : List Node), cur % 64 = 0 → WFN cur n →
      (maxbit + 63 - cur) / 64 + 1 ≤ fuel →
      ∃ r, notLoop maxbit fuel n cur = some r ∧ WFN cur r ∧
        ∀ b, bits r b = (decide (cur ≤ b) && decide (b < maxbit) && !bits n b) := by
  intro fuel
  induction fuel with
  | zero => intro cur n _ _ h; omega
  | succ fuel ih =>
    intro cur n hc hw hf
    by_cases hlt : cur < maxbit
    · have hmod : (cur + 64) % 2^32 = cur + 64 := Nat.mod_eq_of_lt (by omega)
      -- the pieces computed by one iteration
      have key : ∀ (n' : List Node) (map0 : BitVec 64), WFN (cur + 64) n' →
          (∀ i, i < 64 → map0.getLsbD i = !bits n (cur + i)) →
          (∀ b, cur + 64 ≤ b → bits n' b = bits n b) →
          ∃ r, (match notLoop maxbit fuel n' ((cur + 64) % 2^32) with
                | none => none
                | some rest =>
                  some (if (if maxbit - cur < 64 then map0 &&& (mapBit (maxbit - cur) - 1#64) else map0) ≠ 0#64
                    then ⟨cur, if maxbit - cur < 64 then map0 &&& (mapBit (maxbit - cur) - 1#64) else map0⟩ :: rest
                    else rest)) = some r ∧ WFN cur r ∧
            ∀ b, bits r b = (decide (cur ≤ b) && decide (b < maxbit) && !bits n b) := by
        intro n' map0 hw' hmap hn'
        obtain ⟨rest, hr, hwr, hbr⟩ := ih (cur + 64) n' (by omega) hw' (by omega)
        rw [hmod, hr]
        generalize hmm : (if maxbit - cur < 64 then map0 &&& (mapBit (maxbit - cur) - 1#64) else map0) = map
        have hmapbit : ∀ i, i < 64 → map.getLsbD i = (decide (cur + i < maxbit) && !bits n (cur + i)) := by
          intro i hi
          rw [← hmm]
          split
          · rename_i hl
            rw [BitVec.getLsbD_and, hmap i hi, mask_getLsbD _ _ hl]
            have : decide (i < maxbit - cur) = decide (cur + i < maxbit) := by
              rw [decide_eq_decide]; omega
            rw [this, Bool.and_comm]
          · rw [hmap i hi, decide_eq_true (by omega)]; simp
        by_cases hz : map = 0#64
        · refine ⟨rest, by simp [hz], hwr.mono (by omega), ?_⟩
          intro b
          rw [hbr b]
          by_cases c : cur + 64 ≤ b
          · simp only [c, decide_true, Bool.true_and, hn' b c, decide_eq_true (show cur ≤ b by omega)]
          · by_cases c2 : cur ≤ b
            · have := hmapbit (b - cur) (by omega)
              rw [hz] at this
              simp only [BitVec.getLsbD_zero, show cur + (b - cur) = b by omega] at this
              simp only [c, c2, decide_false, decide_true, Bool.false_and, Bool.true_and]
              exact this
            · simp [c, c2]
        · refine ⟨⟨cur, map⟩ :: rest, by simp [hz], ⟨Nat.le_refl _, hc, hz, hwr⟩, ?_⟩
          intro b
          simp only [bits, hbr b]
          by_cases c : cur + 64 ≤ b
          · rw [inNode_ge (by simpa using c)]
            simp only [c, decide_true, Bool.true_and, hn' b c, decide_eq_true (show cur ≤ b by omega), Bool.false_or]
          · by_cases c2 : cur ≤ b
            · have := hmapbit (b - cur) (by omega)
              simp only [show cur + (b - cur) = b by omega] at this
              simp only [inNode, this, c, c2, decide_false, decide_true, Bool.false_and, Bool.true_and, Bool.or_false]
            · rw [inNode_lt (by simp; omega)]; simp [c, c2]
      unfold notLoop
      rw [if_pos hlt]
      cases n with
      | nil =>
        exact key [] (BitVec.allOnes 64) trivial (fun i hi => by rw [BitVec.getLsbD_allOnes]; simp [bits, hi]) (fun b _ => rfl)
      | cons m t =>
        by_cases hm' : m.startbit = cur
        · simp only [hm', decide_true, if_true, List.tail_cons]
          apply key t (~~~ m.map) (by rw [← hm']; exact hw.2.2.2)
          · intro i hi
            rw [BitVec.getLsbD_not]
            simp only [bits, inNode, hm', hi, decide_true, Bool.true_and]
            rw [bits_lt hw.2.2.2 (by omega)]
            simp
          · intro b hb
            simp only [bits]
            rw [inNode_ge (by omega)]; simp
        · have h1 := hw.1
          have h2 := hw.2.1
          simp only [hm', decide_false, if_false, Bool.false_eq_true]
          apply key (m :: t) (BitVec.allOnes 64) ⟨by omega, hw.2⟩
          · intro i hi
            rw [bits_lt (lo := m.startbit) (l := m :: t) ⟨Nat.le_refl _, hw.2⟩ (by omega), BitVec.getLsbD_allOnes]
            simp [hi]
          · intro b hb; rfl
    · refine ⟨[], by simp [notLoop, hlt], trivial, ?_⟩
      intro b
      by_cases c : cur ≤ b
      · simp [bits, c]; omega
      · simp [bits, c]

theorem notLoop_diverges {maxbit : Nat} (hm : 2^32 - 64 < maxbit) (fuel : Nat) :
    ∀ (n : List Node) (cur : Nat), cur % 64 = 0 → cur < 2^32 → notLoop maxbit fuel n cur = none := by
  induction fuel with
  | zero => intros; rfl
  | succ fuel ih =>
    intro n cur hc hlt
    unfold notLoop
    rw [if_pos (by omega)]
    simp only [ih _ ((cur + 64) % 2^32) (by omega) (by omega)]

theorem inv_of_nodes {l : List Node} (hw : WFN 0 l) {H : Nat} (hH : H % 64 = 0) (hs : H < 2^32)
    (hb : ∀ b, bits l b = true → b < H) : Inv ⟨l, endOf l⟩ := by
  have := lastEnd_le hw hH hb
  refine ⟨hw, ?_, ?_⟩
  · show endOf l = lastEnd l
    rw [endOf_eq, Nat.mod_eq_of_lt (by omega)]
  · show endOf l < _
    rw [endOf_eq, Nat.mod_eq_of_lt (by omega)]; omega

theorem notFuel_spec {e : Ebitmap} (h : Inv e) {maxbit fuel : Nat} (hm : maxbit ≤ 2^32 - 64)
    (hf : (maxbit + 63) / 64 + 1 ≤ fuel) :
    ∃ e', notFuel fuel e maxbit = some e' ∧ Inv e' ∧
      ∀ b, getBit e' b = (decide (b < maxbit) && !getBit e b) := by
  obtain ⟨r, h1, h2, h3⟩ := notLoop_spec hm fuel 0 e.node rfl h.nodes hf
  have hi : Inv ⟨r, endOf r⟩ := by
    apply inv_of_nodes h2 (H := (maxbit + 63) / 64 * 64) (by omega) (by omega)
    intro b hb
    rw [h3] at hb
    simp at hb
    omega
  refine ⟨⟨r, endOf r⟩, by simp [notFuel, h1], hi, ?_⟩
  intro b
  rw [getBit_eq hi, getBit_eq h]
  show bits r b = _
  rw [h3]; simp

theorem notFuel_diverges (e : Ebitmap) {maxbit : Nat} (hm : 2^32 - 64 < maxbit) (fuel : Nat) :
    notFuel fuel e maxbit = none := by
  unfold notFuel
  rw [notLoop_diverges hm fuel e.node 0 rfl (by decide)]

/-- More fuel does not change a finished run. -/
theorem notLoop_mono {maxbit : Nat} : ∀ (fuel : Nat) (n : List Node) (cur : Nat) (r : List Node),
    notLoop maxbit fuel n cur = some r → ∀ fuel', fuel ≤ fuel' → notLoop maxbit fuel' n cur = some r := by
  intro fuel
  induction fuel with
  | zero => intro n cur r h; simp [notLoop] at h
  | succ fuel ih =>
    intro n cur r h fuel' hf
    obtain ⟨f', rfl⟩ : ∃ f', fuel' = f' + 1 := ⟨fuel' - 1, by omega⟩
    unfold notLoop at h ⊢
    split
    · rename_i hc
      rw [if_pos hc] at h
      simp only at h ⊢
      split at h
      · cases h
      · rename_i rest hrest
        rw [ih _ _ _ hrest f' (by omega)]
        exact h
    · rename_i hc
      rw [if_neg hc] at h
      exact h

theorem notFuel_inv {e e' : Ebitmap} (h : Inv e) {maxbit fuel : Nat} (_hm : maxbit < 2^32)
    (hr : notFuel fuel e maxbit = some e') :
    Inv e' ∧ ∀ b, getBit e' b = (decide (b < maxbit) && !getBit e b) := by
  by_cases c : maxbit ≤ 2^32 - 64
  · obtain ⟨e'', h1, h2, h3⟩ := notFuel_spec h c (fuel := max fuel ((maxbit + 63) / 64 + 1)) (by omega)
    have : notFuel (max fuel ((maxbit + 63) / 64 + 1)) e maxbit = some e' := by
      unfold notFuel at hr ⊢
      split at hr
      · cases hr
      · rename_i l hl
        rw [notLoop_mono _ _ _ _ hl _ (by omega)]
        exact hr
    rw [this] at h1
    cases h1
    exact ⟨h2, h3⟩
  · rw [notFuel_diverges e (by omega)] at hr
    cases hr

/-! ## set_bit -/

/-- End of the chain, given the previously visited node. -/
def lastEndP (prev : Option Nat) (l : List Node) : Nat :=
  if l = [] then (match prev with | some p => p + 64 | none => 0) else lastEnd l

theorem setBitNodes_spec (bit : Nat) (value : Bool) (hb : bit / 64 * 64 + 64 < 2^32) :
    ∀ (l : List Node) (prev : Option Nat) (lo hb0 : Nat),
      WFN lo l → lo % 64 = 0 → lo ≤ bit → (∀ p, prev = some p → p + 64 < 2^32) →
      hb0 = lastEndP prev l →
      WFN lo (setBitNodes bit value (bit / 64 * 64) (bit / 64 * 64 + 64) prev l hb0).1 ∧
      (∀ b, bits (setBitNodes bit value (bit / 64 * 64) (bit / 64 * 64 + 64) prev l hb0).1 b =
        if b = bit then value else bits l b) ∧
      (setBitNodes bit value (bit / 64 * 64) (bit / 64 * 64 + 64) prev l hb0).2 =
        lastEndP prev (setBitNodes bit value (bit / 64 * 64) (bit / 64 * 64 + 64) prev l hb0).1 := by
  have hmb : ∀ i, (mapBit (bit - bit / 64 * 64)).getLsbD i = decide (i = bit - bit / 64 * 64) :=
    fun i => mapBit_getLsbD _ i (by omega)
  have hmbz : mapBit (bit - bit / 64 * 64) ≠ 0#64 := by
    intro h
    have := hmb (bit - bit / 64 * 64)
    rw [h] at this; simp at this
  have hnew : ∀ b, inNode ⟨bit / 64 * 64, mapBit (bit - bit / 64 * 64)⟩ b = decide (b = bit) := by
    intro b
    simp only [inNode, hmb]
    by_cases c : b = bit
    · subst c; simp; omega
    · simp [c]; omega
  intro l
  induction l with
  | nil =>
    intro prev lo hb0 hw hlo hle hp hh
    cases value with
    | true =>
      simp only [setBitNodes, if_true]
      refine ⟨⟨by show lo ≤ bit / 64 * 64; omega, by simp, hmbz, trivial⟩, ?_, by simp [lastEndP, lastEnd]⟩
      intro b
      simp only [bits, hnew, Bool.or_false]
      by_cases c : b = bit <;> simp [c]
    | false =>
      simp only [setBitNodes, Bool.false_eq_true, if_false]
      exact ⟨trivial, fun b => by simp [bits], hh⟩
  | cons n t ih =>
    intro prev lo hb0 hw hlo hle hp hh
    obtain ⟨w1, w2, w3, w4⟩ := hw
    simp only [setBitNodes]
    by_cases c1 : n.startbit ≤ bit
    · rw [if_pos c1]
      by_cases c2 : n.startbit + 64 > bit
      · rw [if_pos c2]
        have hs : bit / 64 * 64 = n.startbit := by omega
        have hk : bit - n.startbit < 64 := by omega
        have htail : ∀ b, b < n.startbit + 64 → bits t b = false := fun b h => bits_lt w4 h
        cases value with
        | true =>
          simp only [if_true]
          refine ⟨⟨w1, w2, ?_, w4⟩, ?_, ?_⟩
          · obtain ⟨k, _, hbk⟩ := exists_bit w3
            intro hc
            have := congrArg (fun v => v.getLsbD k) hc
            simp [hbk] at this
          · intro b
            simp only [bits, inNode, BitVec.getLsbD_or, mapBit_getLsbD _ _ hk]
            by_cases c : b = bit
            · subst c; simp [c1]
            · by_cases c3 : n.startbit ≤ b
              · have : ¬ (b - n.startbit = bit - n.startbit) := by omega
                simp [c, this]
              · simp [c3, c]
          · rw [hh]; simp only [lastEndP, reduceCtorEq, if_false]
            cases t <;> rfl
        | false =>
          simp only [Bool.false_eq_true, if_false]
          have hbm : ∀ b, inNode ⟨n.startbit, n.map &&& ~~~ mapBit (bit - n.startbit)⟩ b =
              (inNode n b && !decide (b = bit)) := by
            intro b
            simp only [inNode, BitVec.getLsbD_and, BitVec.getLsbD_not, mapBit_getLsbD _ _ hk]
            by_cases c3 : n.startbit ≤ b
            · by_cases c4 : b - n.startbit < 64
              · have : decide (b - n.startbit = bit - n.startbit) = decide (b = bit) := by
                  rw [decide_eq_decide]; omega
                simp [c3, c4, this]
              · simp [c3, BitVec.getLsbD_of_ge n.map (b - n.startbit) (by omega)]
            · simp [c3]
          by_cases hz : n.map &&& ~~~ mapBit (bit - n.startbit) = 0#64
          · rw [if_pos hz]
            refine ⟨w4.mono (by omega), ?_, ?_⟩
            · intro b
              have h0 := hbm b
              rw [hz] at h0
              simp only [inNode, BitVec.getLsbD_zero, Bool.and_false] at h0
              by_cases c : b = bit
              · subst c; simp only [if_true]; exact htail b (by omega)
              · simp only [c, if_false, bits]
                have : inNode n b = false := by
                  simp only [c, decide_false, Bool.not_false, Bool.and_true] at h0
                  simpa [inNode] using h0
                rw [this]; simp
            · by_cases ht : t = []
              · subst ht
                simp only [if_true, lastEndP]
                cases prev with
                | none => rfl
                | some p => exact Nat.mod_eq_of_lt (hp p rfl)
              · simp only [ht, if_false, lastEndP]
                rw [hh]
                cases t with
                | nil => exact absurd rfl ht
                | cons n' t' => simp [lastEndP, lastEnd]
          · rw [if_neg hz]
            refine ⟨⟨w1, w2, hz, w4⟩, ?_, ?_⟩
            · intro b
              simp only [bits, hbm]
              by_cases c : b = bit
              · subst c; simp [htail b (by omega)]
              · simp [c]
            · rw [hh]; simp only [lastEndP, reduceCtorEq, if_false]
              cases t <;> rfl
      · rw [if_neg c2]
        have hnl := le_lastEnd (lo := lo) (n := n) (t := t) ⟨w1, w2, w3, w4⟩
        have hh' : hb0 = lastEndP (some n.startbit) t := by
          rw [hh]
          cases t with
          | nil => simp [lastEndP, lastEnd]
          | cons n' t' => simp [lastEndP, lastEnd]
        obtain ⟨i1, i2, i3⟩ := ih (some n.startbit) (n.startbit + 64) hb0 w4 (by omega) (by omega)
          (by intro p hpe; cases hpe; omega) hh'
        refine ⟨⟨w1, w2, w3, i1⟩, ?_, ?_⟩
        · intro b
          simp only [bits, i2]
          by_cases c : b = bit
          · subst c; rw [inNode_ge (by omega)]; simp
          · simp [c]
        · rw [i3]
          generalize (setBitNodes bit value (bit / 64 * 64) (bit / 64 * 64 + 64) (some n.startbit) t hb0).1 = l'
          cases l' with
          | nil => simp [lastEndP, lastEnd]
          | cons n' t' => simp [lastEndP, lastEnd]
    · rw [if_neg c1]
      cases value with
      | true =>
        simp only [if_true]
        refine ⟨⟨by show lo ≤ bit / 64 * 64; omega, by simp, hmbz, by show bit / 64 * 64 + 64 ≤ _; omega, w2, w3, w4⟩, ?_, ?_⟩
        · intro b
          simp only [bits, hnew]
          by_cases c : b = bit <;> simp [c]
        · rw [hh]; simp [lastEndP, lastEnd]
      | false =>
        simp only [Bool.false_eq_true, if_false]
        refine ⟨⟨w1, w2, w3, w4⟩, ?_, hh⟩
        intro b
        by_cases c : b = bit
        · subst c
          rw [bits_lt (lo := n.startbit) (l := n :: t) ⟨Nat.le_refl _, w2, w3, w4⟩ (by omega)]; simp
        · simp [c]

theorem setBit_ok {e : Ebitmap} (h : Inv e) {bit : Nat} (v : Bool) (hb : bit < 2^32 - 64) :
    ∃ e', setBit e bit v = some e' ∧ Inv e' ∧
      ∀ b, getBit e' b = if b = bit then v else getBit e b := by
  have hmod : (bit / 64 * 64 + 64) % 2^32 = bit / 64 * 64 + 64 := Nat.mod_eq_of_lt (by omega)
  have hh : e.highbit = lastEndP none e.node := by
    rw [h.high]; unfold lastEndP
    split
    · rename_i hn; rw [hn]; rfl
    · rfl
  obtain ⟨h1, h2, h3⟩ := setBitNodes_spec bit v (by omega) e.node none 0 e.highbit h.nodes rfl
    (Nat.zero_le _) (by simp) hh
  unfold setBit
  simp only [hmod]
  rw [if_neg (by omega)]
  refine ⟨_, rfl, ?_, ?_⟩
  · have hle : lastEnd (setBitNodes bit v (bit / 64 * 64) (bit / 64 * 64 + 64) none e.node e.highbit).1 ≤
        max e.highbit (bit / 64 * 64 + 64) := by
      apply lastEnd_le h1
      · have := lastEnd_aligned h.nodes
        rw [h.high]; omega
      · intro b hb'
        rw [h2] at hb'
        by_cases c : b = bit
        · subst c; omega
        · rw [if_neg c, ← getBit_eq h] at hb'
          have := getBit_lt_high h hb'
          omega
    have hle2 : (setBitNodes bit v (bit / 64 * 64) (bit / 64 * 64 + 64) none e.node e.highbit).2 =
        lastEnd (setBitNodes bit v (bit / 64 * 64) (bit / 64 * 64 + 64) none e.node e.highbit).1 := by
      rw [h3]; unfold lastEndP
      split
      · rename_i hn; rw [hn]; rfl
      · rfl
    have := h.small
    exact ⟨h1, hle2, by simp only; rw [hle2]; omega⟩
  · intro b
    rw [getBit_eq h]
    have hle2 : (setBitNodes bit v (bit / 64 * 64) (bit / 64 * 64 + 64) none e.node e.highbit).2 =
        lastEnd (setBitNodes bit v (bit / 64 * 64) (bit / 64 * 64 + 64) none e.node e.highbit).1 := by
      rw [h3]; unfold lastEndP
      split
      · rename_i hn; rw [hn]; rfl
      · rfl
    rw [← h2 b]
    unfold getBit
    split
    · rename_i hc
      simp only at hc
      rw [bits_ge_lastEnd h1 (by rw [← hle2]; omega)]
    · exact getBitNodes_eq h1 b

theorem setBit_none {e : Ebitmap} {bit : Nat} (v : Bool) (hb : 2^32 - 64 ≤ bit) (hb2 : bit < 2^32) :
    setBit e bit v = none := by
  unfold setBit
  have : (bit / 64 * 64 + 64) % 2^32 = 0 := by omega
  simp [this]

end Verif.Ebitmap
