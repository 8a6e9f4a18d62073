import Verif.ObjStmt.Spec
import Verif.Services.GenfsLemmas
import Verif.Mls.Lemmas2

namespace Verif.ObjStmt
open Verif.Policy Verif.Mls Verif.Services

/-! ## Lists -/

theorem addLast_eq {α : Type} (clash : α → Bool) (n : α) (l : List α) :
    addLast clash n l = if l.any clash then none else some (l ++ [n]) := by
  induction l with
  | nil => rfl
  | cons c l ih =>
    unfold addLast
    cases hc : clash c
    · simp only [Bool.false_eq_true, if_false, ih, List.any_cons, hc, Bool.false_or]
      split <;> simp
    · simp [hc]

theorem addLast_some {α : Type} {clash : α → Bool} {n : α} {l l' : List α} :
    addLast clash n l = some l' ↔ l' = l ++ [n] ∧ ∀ c ∈ l, clash c = false := by
  rw [addLast_eq]
  constructor
  · intro h
    split at h
    · cases h
    · rename_i hn
      cases h
      exact ⟨rfl, fun c hc => by
        cases hcl : clash c
        · rfl
        · exact absurd (List.any_eq_true.mpr ⟨c, hc, hcl⟩) hn⟩
  · rintro ⟨rfl, h⟩
    rw [if_neg]
    intro ha
    obtain ⟨c, hc, hcl⟩ := List.any_eq_true.mp ha
    rw [h c hc] at hcl; cases hcl

theorem addFirst_some {α : Type} {clash : α → Bool} {n : α} {l l' : List α} :
    addFirst clash n l = some l' ↔ l' = n :: l ∧ ∀ c ∈ l, clash c = false := by
  unfold addFirst
  constructor
  · intro h
    split at h
    · cases h
    · rename_i hn
      cases h
      exact ⟨rfl, fun c hc => by
        cases hcl : clash c
        · rfl
        · exact absurd (List.any_eq_true.mpr ⟨c, hc, hcl⟩) hn⟩
  · rintro ⟨rfl, h⟩
    rw [if_neg]
    intro ha
    obtain ⟨c, hc, hcl⟩ := List.any_eq_true.mp ha
    rw [h c hc] at hcl; cases hcl

/-- Insertion into a list sorted by the number `v`. -/
theorem insertNode_spec {α : Type} (v : α → Nat) {same larger : α → Bool} {n : α}
    (hs : ∀ c, same c = true → v c = v n) (hl : ∀ c, larger c = true ↔ v c < v n) :
    ∀ l : List α, l.Pairwise (fun a b => v b ≤ v a) →
      ((∃ l', insertNode same larger n l = some l') ↔ ∀ c ∈ l, same c = false) ∧
      ∀ l', insertNode same larger n l = some l' → l'.Pairwise (fun a b => v b ≤ v a) ∧ l'.Perm (n :: l) := by
  intro l
  induction l with
  | nil =>
    intro _
    refine ⟨by simp [insertNode], fun l' h => ?_⟩
    simp only [insertNode, Option.some.injEq] at h
    subst h
    exact ⟨by simp, .refl _⟩
  | cons c l ih =>
    intro hp
    obtain ⟨p1, p2⟩ := List.pairwise_cons.mp hp
    obtain ⟨i1, i2⟩ := ih p2
    cases hsc : same c with
    | true => exact ⟨by simp [insertNode, hsc], by simp [insertNode, hsc]⟩
    | false =>
      cases hlc : larger c with
      | true =>
        have hlt := (hl c).mp hlc
        refine ⟨?_, ?_⟩
        · simp only [insertNode, hsc, hlc, Bool.false_eq_true, if_false, if_true, Option.some.injEq, exists_eq', true_iff,
            List.mem_cons, forall_eq_or_imp, true_and]
          intro d hd
          cases hsd : same d with
          | false => rfl
          | true => have := hs d hsd; have := p1 d hd; omega
        · intro l' h
          simp only [insertNode, hsc, hlc, Bool.false_eq_true, if_false, if_true, Option.some.injEq] at h
          subst h
          refine ⟨List.pairwise_cons.mpr ⟨fun d hd => ?_, hp⟩, .refl _⟩
          rcases List.mem_cons.mp hd with rfl | hd
          · omega
          · have := p1 d hd; omega
      | false =>
        have hge : v n ≤ v c := by
          apply Nat.le_of_not_lt; intro h; rw [(hl c).mpr h] at hlc; cases hlc
        refine ⟨?_, ?_⟩
        · simp only [insertNode, hsc, hlc, Bool.false_eq_true, if_false, Option.map_eq_some_iff, List.mem_cons,
            forall_eq_or_imp, true_and, ← i1]
          constructor
          · rintro ⟨_, a, h, _⟩; exact ⟨a, h⟩
          · rintro ⟨a, h⟩; exact ⟨_, a, h, rfl⟩
        · intro l' h
          simp only [insertNode, hsc, hlc, Bool.false_eq_true, if_false, Option.map_eq_some_iff] at h
          obtain ⟨a, ha, rfl⟩ := h
          obtain ⟨j1, j2⟩ := i2 a ha
          refine ⟨List.pairwise_cons.mpr ⟨fun d hd => ?_, j1⟩, (j2.cons c).trans (.swap _ _ _)⟩
          rcases List.mem_cons.mp (j2.mem_iff.mp hd) with rfl | hd
          · exact hge
          · exact p1 d hd

/-! ## Bits and bytes -/

theorem bswap_bit (x : BitVec 32) (i : Nat) (h : i < 32) :
    (bswap x).getLsbD i = x.getLsbD (8 * (3 - i / 8) + i % 8) := by
  unfold bswap
  simp only [BitVec.getLsbD_append, BitVec.getLsbD_extractLsb']
  have : i / 8 = 0 ∨ i / 8 = 1 ∨ i / 8 = 2 ∨ i / 8 = 3 := by omega
  have hd : i = 8 * (i / 8) + i % 8 := by omega
  have hm : i % 8 < 8 := Nat.mod_lt _ (by decide)
  rcases this with h | h | h | h
  · rw [h] at hd ⊢
    have : i < 8 := by omega
    simp only [this, decide_true, Bool.true_and, if_true]
    congr 1; omega
  · rw [h] at hd ⊢
    have h1 : ¬ i < 8 := by omega
    have h2 : i - 8 < 8 := by omega
    simp only [h1, h2, decide_true, Bool.true_and, if_true, if_false]
    congr 1; omega
  · rw [h] at hd ⊢
    have h1 : ¬ i < 8 := by omega
    have h2 : ¬ i - 8 < 8 := by omega
    have h3 : i - 8 - 8 < 8 := by omega
    simp only [h1, h2, h3, decide_true, Bool.true_and, if_true, if_false]
    congr 1; omega
  · rw [h] at hd ⊢
    have h1 : ¬ i < 8 := by omega
    have h2 : ¬ i - 8 < 8 := by omega
    have h3 : ¬ i - 8 - 8 < 8 := by omega
    have h4 : i - 8 - 8 - 8 < 8 := by omega
    simp only [h1, h2, h3, h4, decide_true, Bool.true_and, if_false]
    congr 1; omega

theorem bswap_bswap (x : BitVec 32) : bswap (bswap x) = x := by
  apply BitVec.eq_of_getLsbD_eq
  intro i hi
  rw [bswap_bit _ i hi, bswap_bit _ _ (by omega)]
  congr 1; omega

theorem bswap_and (x y : BitVec 32) : bswap (x &&& y) = bswap x &&& bswap y := by
  apply BitVec.eq_of_getLsbD_eq
  intro i hi
  rw [BitVec.getLsbD_and, bswap_bit _ i hi, bswap_bit _ i hi, bswap_bit _ i hi, BitVec.getLsbD_and]

variable (cfg : Cfg)

@[simp] theorem stored_stored (x : BitVec 32) : stored cfg (stored cfg x) = x := by
  unfold stored; split
  · exact bswap_bswap x
  · rfl

theorem stored_and (x y : BitVec 32) : stored cfg (x &&& y) = stored cfg x &&& stored cfg y := by
  unfold stored; split
  · exact bswap_and x y
  · rfl

theorem stored_inj {x y : BitVec 32} : stored cfg x = stored cfg y ↔ x = y :=
  ⟨fun h => by rw [← stored_stored cfg x, h, stored_stored], fun h => by rw [h]⟩

theorem stored_zero : stored cfg 0 = 0 := by
  unfold stored; split
  · decide
  · rfl

theorem stored_ones : stored cfg (~~~0#32) = ~~~0#32 := by
  unfold stored; split
  · decide
  · rfl

theorem maskBits_bit : ∀ k : Fin 33, ∀ i : Fin 32, k.val ≠ 0 → (maskBits k.val).getMsbD i.val = decide (i.val < k.val) := by
  decide +kernel

/-- The mask of a prefix length. -/
def mask4 (k : Nat) : BitVec 32 := if k = 0 then 0 else maskBits k

theorem mask4_bit {k i : Nat} (hk : k ≤ 32) (hi : i < 32) : (mask4 k).getMsbD i = decide (i < k) := by
  unfold mask4
  split
  · rename_i h; subst h; simp
  · rename_i h; exact maskBits_bit ⟨k, by omega⟩ ⟨i, hi⟩ h

theorem mask4_stored (k : Nat) : (if k = 0 then 0 else stored cfg (maskBits k)) = stored cfg (mask4 k) := by
  unfold mask4
  split
  · exact (stored_zero cfg).symm
  · rfl

theorem mask4_32 : mask4 32 = ~~~0#32 := by decide

theorem maskWord_eq (k : Nat) : maskWord cfg k = stored cfg (mask4 (min k 32)) := by
  unfold maskWord
  split
  · rename_i h; subst h; exact (stored_zero cfg).symm
  · split
    · rename_i h; rw [Nat.min_eq_right h, mask4_32, stored_ones]
    · rename_i h1 h
      rw [Nat.min_eq_left (by omega)]
      unfold mask4; rw [if_neg h1]

theorem bitsLeft_eq (k : Nat) : bitsLeft k = k - 32 := by unfold bitsLeft; split <;> omega

/-- The mask of a prefix length, IPv6. -/
def mask6 (k : Nat) : Words :=
  ⟨mask4 (min k 32), mask4 (min (k - 32) 32), mask4 (min (k - 64) 32), mask4 (min (k - 96) 32)⟩

theorem maskWords_eq (k : Nat) : maskWords cfg k = stored6 cfg (mask6 k) := by
  unfold maskWords stored6 mask6
  simp only [maskWord_eq, bitsLeft_eq, Nat.sub_sub]

theorem mask6_bit {k i : Nat} (hk : k ≤ 128) (hi : i < 128) : bit6 (mask6 k) i = decide (i < k) := by
  unfold bit6 mask6
  dsimp only
  split
  · rw [mask4_bit (by omega) (by omega)]; congr 1; simp only [eq_iff_iff]; omega
  · split
    · rw [mask4_bit (by omega) (by omega)]; congr 1; simp only [eq_iff_iff]; omega
    · split
      · rw [mask4_bit (by omega) (by omega)]; congr 1; simp only [eq_iff_iff]; omega
      · rw [mask4_bit (by omega) (by omega)]; congr 1; simp only [eq_iff_iff]; omega

theorem ext4 {x y : BitVec 32} : x = y ↔ ∀ i < 32, x.getMsbD i = y.getMsbD i := by
  constructor
  · rintro rfl _ _; rfl
  · intro h
    apply BitVec.eq_of_getMsbD_eq
    intro i hi; exact h i hi

theorem ext6 {x y : Words} : x = y ↔ ∀ i < 128, bit6 x i = bit6 y i := by
  constructor
  · rintro rfl _ _; rfl
  · intro h
    obtain ⟨x0, x1, x2, x3⟩ := x
    obtain ⟨y0, y1, y2, y3⟩ := y
    rw [Words.mk.injEq]
    refine ⟨ext4.mpr fun i hi => ?_, ext4.mpr fun i hi => ?_, ext4.mpr fun i hi => ?_, ext4.mpr fun i hi => ?_⟩
    · have := h i (by omega)
      simpa [bit6, hi] using this
    · have := h (i + 32) (by omega)
      have h1 : ¬ i + 32 < 32 := by omega
      have h2 : i + 32 < 64 := by omega
      simpa [bit6, h1, h2] using this
    · have := h (i + 64) (by omega)
      have h1 : ¬ i + 64 < 32 := by omega
      have h2 : ¬ i + 64 < 64 := by omega
      have h3 : i + 64 < 96 := by omega
      simpa [bit6, h1, h2, h3] using this
    · have := h (i + 96) (by omega)
      have h1 : ¬ i + 96 < 32 := by omega
      have h2 : ¬ i + 96 < 64 := by omega
      have h3 : ¬ i + 96 < 96 := by omega
      simpa [bit6, h1, h2, h3] using this

theorem stored6_stored6 (x : Words) : stored6 cfg (stored6 cfg x) = x := by simp [stored6]

theorem stored6_inj {x y : Words} : stored6 cfg x = stored6 cfg y ↔ x = y :=
  ⟨fun h => by rw [← stored6_stored6 cfg x, h, stored6_stored6], fun h => by rw [h]⟩

theorem stored6_and (x y : Words) : stored6 cfg (applyMask x y) = applyMask (stored6 cfg x) (stored6 cfg y) := by
  simp [stored6, applyMask, stored_and]

theorem and6_bit (x y : Words) {i : Nat} (h : i < 128) : bit6 (applyMask x y) i = (bit6 x i && bit6 y i) := by
  unfold bit6 applyMask
  dsimp only
  split
  · rw [BitVec.getMsbD_and]
  · split
    · rw [BitVec.getMsbD_and]
    · split <;> rw [BitVec.getMsbD_and]

/-! ## Order of masks -/

theorem stored_lt {m m' : BitVec 32} (h : m = m &&& m') (hne : m ≠ m') : (stored cfg m).toNat < (stored cfg m').toNat := by
  have h1 : stored cfg m = stored cfg m &&& stored cfg m' := by rw [← stored_and, ← h]
  have h2 : (stored cfg m).toNat ≤ (stored cfg m').toNat := by
    rw [h1, BitVec.toNat_and]; exact Nat.and_le_right
  have h3 : (stored cfg m).toNat ≠ (stored cfg m').toNat := fun e => hne ((stored_inj cfg).mp (BitVec.eq_of_toNat_eq e))
  omega

/-- The number that `memcmp` compares. -/
def val6 (w : Words) : Nat :=
  (((stored cfg w.w0).toNat * 2 ^ 32 + (stored cfg w.w1).toNat) * 2 ^ 32 + (stored cfg w.w2).toNat) * 2 ^ 32 +
    (stored cfg w.w3).toNat

def cmpn (x y : Nat) : Int := if x < y then -1 else if y < x then 1 else 0

theorem cmpn_lt {x y : Nat} (h : x < y) : cmpn x y = -1 := if_pos h
theorem cmpn_gt {x y : Nat} (h : y < x) : cmpn x y = 1 := by unfold cmpn; rw [if_neg (by omega), if_pos h]
theorem cmpn_self (x : Nat) : cmpn x x = 0 := by simp [cmpn]

theorem lexn {p0 p1 p2 p3 q0 q1 q2 q3 : Nat} (h1 : p1 < 2 ^ 32) (h2 : p2 < 2 ^ 32) (h3 : p3 < 2 ^ 32)
    (k1 : q1 < 2 ^ 32) (k2 : q2 < 2 ^ 32) (k3 : q3 < 2 ^ 32) {r : Int}
    (hr : r = if cmpn p0 q0 ≠ 0 then cmpn p0 q0 else if cmpn p1 q1 ≠ 0 then cmpn p1 q1
      else if cmpn p2 q2 ≠ 0 then cmpn p2 q2 else cmpn p3 q3) :
    (r = 0 ↔ p0 = q0 ∧ p1 = q1 ∧ p2 = q2 ∧ p3 = q3) ∧
    (r > 0 ↔ ((q0 * 2 ^ 32 + q1) * 2 ^ 32 + q2) * 2 ^ 32 + q3 < ((p0 * 2 ^ 32 + p1) * 2 ^ 32 + p2) * 2 ^ 32 + p3) := by
  rcases Nat.lt_trichotomy p0 q0 with h | h | h
  · rw [cmpn_lt h, if_pos (by decide)] at hr; omega
  · subst h
    rw [cmpn_self, if_neg (by decide)] at hr
    rcases Nat.lt_trichotomy p1 q1 with h | h | h
    · rw [cmpn_lt h, if_pos (by decide)] at hr; omega
    · subst h
      rw [cmpn_self, if_neg (by decide)] at hr
      rcases Nat.lt_trichotomy p2 q2 with h | h | h
      · rw [cmpn_lt h, if_pos (by decide)] at hr; omega
      · subst h
        rw [cmpn_self, if_neg (by decide)] at hr
        rcases Nat.lt_trichotomy p3 q3 with h | h | h
        · rw [cmpn_lt h] at hr; omega
        · subst h; rw [cmpn_self] at hr; omega
        · rw [cmpn_gt h] at hr; omega
      · rw [cmpn_gt h, if_pos (by decide)] at hr; omega
    · rw [cmpn_gt h, if_pos (by decide)] at hr; omega
  · rw [cmpn_gt h, if_pos (by decide)] at hr; omega

theorem memcmp6_spec (a b : Words) :
    (memcmp6 cfg a b = 0 ↔ a = b) ∧ (memcmp6 cfg a b > 0 ↔ val6 cfg b < val6 cfg a) := by
  have hb : ∀ x : BitVec 32, (stored cfg x).toNat < 2 ^ 32 := fun x => (stored cfg x).isLt
  have he : ∀ x y : BitVec 32, x = y ↔ (stored cfg x).toNat = (stored cfg y).toNat := fun x y =>
    ⟨fun h => by rw [h], fun e => (stored_inj cfg).mp (BitVec.eq_of_toNat_eq e)⟩
  have h := lexn (p0 := (stored cfg a.w0).toNat) (q0 := (stored cfg b.w0).toNat) (hb a.w1) (hb a.w2) (hb a.w3) (hb b.w1)
    (hb b.w2) (hb b.w3) (r := memcmp6 cfg a b) rfl
  obtain ⟨a0, a1, a2, a3⟩ := a
  obtain ⟨b0, b1, b2, b3⟩ := b
  rw [Words.mk.injEq, he, he, he, he]
  exact h

theorem val6_lt {m m' : Words} (h : m = applyMask m m') (hne : m ≠ m') :
    val6 cfg m < val6 cfg m' := by
  have hle : ∀ x y : BitVec 32, x = x &&& y → (stored cfg x).toNat ≤ (stored cfg y).toNat := by
    intro x y hxy
    by_cases e : x = y
    · rw [e]; exact Nat.le_refl _
    · exact Nat.le_of_lt (stored_lt cfg hxy e)
  obtain ⟨a0, a1, a2, a3⟩ := m
  obtain ⟨b0, b1, b2, b3⟩ := m'
  simp only [applyMask, Words.mk.injEq] at h
  obtain ⟨h0, h1, h2, h3⟩ := h
  have l0 := hle _ _ h0; have l1 := hle _ _ h1; have l2 := hle _ _ h2; have l3 := hle _ _ h3
  have hb : ∀ x : BitVec 32, (stored cfg x).toNat < 2 ^ 32 := fun x => (stored cfg x).isLt
  have := hb a1; have := hb a2; have := hb a3
  have := hb b1; have := hb b2; have := hb b3
  unfold val6
  dsimp only
  by_cases e0 : a0 = b0
  · by_cases e1 : a1 = b1
    · by_cases e2 : a2 = b2
      · by_cases e3 : a3 = b3
        · exact absurd (by rw [e0, e1, e2, e3]) hne
        · have := stored_lt cfg h3 e3; omega
      · have := stored_lt cfg h2 e2; omega
    · have := stored_lt cfg h1 e1; omega
  · have := stored_lt cfg h0 e0; omega

end Verif.ObjStmt
