import Verif.Xperm.Spec
import Verif.CilX.Lemmas
import Verif.Prelude

namespace Verif.Xperm
open Avtab (XPerms)
open CilX (XKind Lists setRange setRange_ok modify_xbit zeros_xbit)
open Optimize (xbit)

/-- A number is in one of the ranges. -/
def In (l : List Range) (x : Nat) : Prop := ∃ r ∈ l, r.low ≤ x ∧ x ≤ r.high

theorem in_nil {x : Nat} : ¬ In [] x := by simp [In]

theorem in_cons {r : Range} {l : List Range} {x : Nat} : In (r :: l) x ↔ (r.low ≤ x ∧ x ≤ r.high) ∨ In l x := by simp [In]

theorem in_append {l m : List Range} {x : Nat} : In (l ++ m) x ↔ In l x ∨ In m x := by
  simp only [In, List.mem_append]
  constructor
  · rintro ⟨r, h | h, hx⟩
    · exact Or.inl ⟨r, h, hx⟩
    · exact Or.inr ⟨r, h, hx⟩
  · rintro (⟨r, h, hx⟩ | ⟨r, h, hx⟩)
    · exact ⟨r, Or.inl h, hx⟩
    · exact ⟨r, Or.inr h, hx⟩

/-- A range that ascends. -/
def Ok (r : Range) : Prop := r.low ≤ r.high ∧ r.high ≤ 65535

/-! ## Reading -/

/-- The range of an item. -/
def Item.rangeOf : Item → Range
  | .one n => ⟨n, n⟩
  | .range m n => ⟨m, n⟩

theorem readLoop_ok : ∀ {is : List Item} {om : Bool} {acc : List Range} (tl : Bool), (∀ i ∈ is, i.Fits ∧ i.Ascends) →
    readLoop (is.flatMap Item.toks ++ (if tl then [.tilde] else [])) om acc = some (om || tl, acc.reverse ++ is.map Item.rangeOf)
  | [], om, acc, tl, _ => by cases tl <;> simp [readLoop]
  | i :: is, om, acc, tl, h => by
    have hi := h i (by simp)
    have h' := fun j hj => h j (List.mem_cons_of_mem _ hj)
    rw [List.flatMap_cons, List.append_assoc]
    cases i with
    | one n =>
      have hn : n % 2 ^ 16 = n := Nat.mod_eq_of_lt (by have := hi.1; unfold Item.Fits at this; omega)
      show readLoop (.num n :: (is.flatMap Item.toks ++ (if tl then [.tilde] else []))) om acc = _
      rw [readLoop, hn, readLoop_ok tl h']
      simp [Item.rangeOf]
    | range m n =>
      have hf := hi.1
      have ha := hi.2
      unfold Item.Fits at hf
      unfold Item.Ascends at ha
      have hm : m % 2 ^ 16 = m := Nat.mod_eq_of_lt (by omega)
      have hn : n % 2 ^ 16 = n := Nat.mod_eq_of_lt (by omega)
      show readLoop (.num m :: .dash :: .num n :: (is.flatMap Item.toks ++ (if tl then [.tilde] else []))) om acc = _
      rw [readLoop, readLoop, hm, hn, if_neg (by simpa using ha), readLoop_ok tl h']
      simp [Item.rangeOf]

theorem readLoop_none : ∀ {is : List Item} {om : Bool} {acc : List Range} (tl : Bool), (∀ i ∈ is, i.Fits) → (∃ i ∈ is, ¬ i.Ascends) →
    readLoop (is.flatMap Item.toks ++ (if tl then [.tilde] else [])) om acc = none
  | [], _, _, _, _, h => by simp at h
  | i :: is, om, acc, tl, h, hd => by
    have hi := h i (by simp)
    have h' := fun j hj => h j (List.mem_cons_of_mem _ hj)
    rw [List.flatMap_cons, List.append_assoc]
    cases i with
    | one n =>
      show readLoop (.num n :: (is.flatMap Item.toks ++ (if tl then [.tilde] else []))) om acc = _
      rw [readLoop]
      refine readLoop_none tl h' ?_
      obtain ⟨j, hj, hn⟩ := hd
      rcases List.mem_cons.1 hj with rfl | hj
      · exact absurd trivial hn
      · exact ⟨j, hj, hn⟩
    | range m n =>
      unfold Item.Fits at hi
      have hm : m % 2 ^ 16 = m := Nat.mod_eq_of_lt (by omega)
      have hn : n % 2 ^ 16 = n := Nat.mod_eq_of_lt (by omega)
      show readLoop (.num m :: .dash :: .num n :: (is.flatMap Item.toks ++ (if tl then [.tilde] else []))) om acc = _
      rw [readLoop, readLoop, hm, hn]
      by_cases hlt : n < m
      · rw [if_pos hlt]
      · rw [if_neg hlt]
        refine readLoop_none tl h' ?_
        obtain ⟨j, hj, hn'⟩ := hd
        rcases List.mem_cons.1 hj with rfl | hj
        · exact absurd (Nat.le_of_not_lt hlt) hn'
        · exact ⟨j, hj, hn'⟩

theorem in_items {is : List Item} {x : Nat} : In (is.map Item.rangeOf) x ↔ Named is x := by
  unfold In Named
  constructor
  · rintro ⟨r, hr, hx⟩
    obtain ⟨i, hi, rfl⟩ := List.mem_map.1 hr
    refine ⟨i, hi, ?_⟩
    cases i with
    | one n => exact Nat.le_antisymm hx.2 hx.1
    | range m n => exact hx
  · rintro ⟨i, hi, hx⟩
    refine ⟨_, List.mem_map_of_mem hi, ?_⟩
    cases i with
    | one n => exact ⟨Nat.le_of_eq hx.symm, Nat.le_of_eq hx⟩
    | range m n => exact hx

theorem ok_items {is : List Item} (h : ∀ i ∈ is, i.Fits ∧ i.Ascends) : ∀ r ∈ is.map Item.rangeOf, Ok r := by
  intro r hr
  obtain ⟨i, hi, rfl⟩ := List.mem_map.1 hr
  have := h i hi
  cases i with
  | one n => exact ⟨Nat.le_refl _, this.1⟩
  | range m n => exact ⟨this.2, this.1.2⟩

/-! ## Sorting -/

/-- Insertion after what is not greater. -/
def ins (s : Range) : List Range → List Range
  | [] => [s]
  | r :: l => if s.low < r.low then s :: r :: l else r :: ins s l

theorem insLoop_eq (s : Range) : ∀ (rest pre : List Range) (r2 : Range), r2.low ≤ s.low → insLoop s pre (r2 :: rest) = pre ++ r2 :: ins s rest
  | [], pre, r2, h => by simp [insLoop, ins, Nat.not_lt.2 h]
  | r3 :: rest, pre, r2, h => by
    unfold insLoop
    rw [if_neg (Nat.not_lt.2 h)]
    simp only
    by_cases h3 : s.low < r3.low
    · rw [if_pos h3]
      unfold ins
      rw [if_pos h3]
    · rw [if_neg h3, insLoop_eq s rest _ r3 (Nat.le_of_not_lt h3)]
      conv => rhs; unfold ins
      rw [if_neg h3]
      simp

theorem insLoop_ins (s : Range) (l : List Range) : (if l = [] then [s] else insLoop s [] l) = ins s l := by
  cases l with
  | nil => rfl
  | cons r2 rest =>
    rw [if_neg (by simp)]
    by_cases h : s.low < r2.low
    · unfold insLoop ins
      rw [if_pos h, if_pos h]
    · rw [insLoop_eq s rest [] r2 (Nat.le_of_not_lt h)]
      conv => rhs; unfold ins
      rw [if_neg h]
      rfl

theorem ins_perm (s : Range) : ∀ l, (ins s l).Perm (s :: l)
  | [] => List.Perm.refl _
  | r :: l => by
    unfold ins
    split
    · exact List.Perm.refl _
    · exact ((ins_perm s l).cons r).trans (List.Perm.swap s r l)

theorem ins_sorted (s : Range) : ∀ {l : List Range}, l.Pairwise (fun a b => a.low ≤ b.low) → (ins s l).Pairwise (fun a b => a.low ≤ b.low)
  | [], _ => by simp [ins]
  | r :: l, h => by
    have h' := List.pairwise_cons.1 h
    unfold ins
    split
    · rename_i hlt
      refine List.pairwise_cons.2 ⟨fun a ha => ?_, h⟩
      rcases List.mem_cons.1 ha with rfl | ha
      · exact Nat.le_of_lt hlt
      · exact Nat.le_trans (Nat.le_of_lt hlt) (h'.1 a ha)
    · rename_i hlt
      refine List.pairwise_cons.2 ⟨fun a ha => ?_, ins_sorted s h'.2⟩
      rcases List.mem_cons.1 ((ins_perm s l).mem_iff.1 ha) with rfl | ha
      · exact Nat.le_of_not_lt hlt
      · exact h'.1 a ha

theorem sort_spec (l : List Range) : (sort l).Perm l ∧ (sort l).Pairwise fun a b => a.low ≤ b.low := by
  suffices H : ∀ (l acc : List Range), acc.Pairwise (fun a b => a.low ≤ b.low) →
      let r := l.foldl (fun acc s => if acc = [] then [s] else insLoop s [] acc) acc
      r.Perm (acc ++ l) ∧ r.Pairwise fun a b => a.low ≤ b.low from by
    have := H l [] List.Pairwise.nil
    rwa [List.nil_append] at this
  intro l
  induction l with
  | nil => intro acc h; exact ⟨by simp, h⟩
  | cons s l ih =>
    intro acc h
    rw [List.foldl_cons, insLoop_ins]
    obtain ⟨h1, h2⟩ := ih (ins s acc) (ins_sorted s h)
    refine ⟨h1.trans ?_, h2⟩
    refine (List.Perm.append_right l (ins_perm s acc)).trans ?_
    rw [List.cons_append]
    exact List.perm_middle.symm

theorem in_perm {l m : List Range} (h : l.Perm m) {x : Nat} : In l x ↔ In m x := by
  unfold In
  constructor
  · rintro ⟨r, hr, hx⟩; exact ⟨r, h.mem_iff.1 hr, hx⟩
  · rintro ⟨r, hr, hx⟩; exact ⟨r, h.mem_iff.2 hr, hx⟩

/-! ## Merging -/

/-- Ranges in order that do not touch. -/
def Apart (l : List Range) : Prop := l.Pairwise fun a b => a.high + 1 < b.low

theorem merge_spec : ∀ (k : Nat) (l : List Range), l.length = k → l.Pairwise (fun a b => a.low ≤ b.low) → (∀ r ∈ l, Ok r) →
    Apart (merge l) ∧ (∀ r ∈ merge l, Ok r) ∧ (∀ x, In (merge l) x ↔ In l x) ∧ ((merge l = []) ↔ l = []) ∧
    ∀ b, (∀ r ∈ l, b ≤ r.low) → ∀ r ∈ merge l, b ≤ r.low := by
  intro k
  induction k using Nat.strongRecOn with
  | ind k ih =>
    intro l hk hs ho
    match l, hk with
    | [], _ => rw [merge]; exact ⟨List.Pairwise.nil, ho, fun _ => Iff.rfl, Iff.rfl, fun b h => h⟩
    | [r], _ => rw [merge]; exact ⟨List.pairwise_singleton _ _, ho, fun _ => Iff.rfl, Iff.rfl, fun b h => h⟩
    | r :: n :: rest, hk =>
      rw [merge]
      have hs' := List.pairwise_cons.1 hs
      have hsn := List.pairwise_cons.1 hs'.2
      have hr := ho r (by simp)
      have hn := ho n (by simp)
      have hrn := hs'.1 n (by simp)
      unfold Ok at hr hn
      by_cases hc : r.high + 1 ≥ n.low
      · rw [if_pos hc]
        obtain ⟨g1, g2, g3, g4, g5⟩ := ih (rest.length + 1) (by rw [← hk]; simp) (⟨r.low, if r.high < n.high then n.high else r.high⟩ :: rest) rfl
          (List.pairwise_cons.2 ⟨fun a ha => hs'.1 a (by simp [ha]), hsn.2⟩) (by
            intro a ha
            rcases List.mem_cons.1 ha with rfl | ha
            · unfold Ok
              dsimp only
              split <;> omega
            · exact ho a (by simp [ha]))
        refine ⟨g1, g2, fun x => ?_, by rw [g4]; simp, fun b hb => g5 b fun a ha => ?_⟩
        · rw [g3, in_cons, in_cons, in_cons]
          dsimp only
          constructor
          · rintro (h | h)
            · by_cases hx : x ≤ r.high
              · exact Or.inl ⟨h.1, hx⟩
              · right; left
                split at h
                · omega
                · omega
            · exact Or.inr (Or.inr h)
          · rintro (h | h | h)
            · left; split <;> omega
            · left; split <;> omega
            · exact Or.inr h
        · rcases List.mem_cons.1 ha with rfl | ha
          · exact hb r (by simp)
          · exact hb a (by simp [ha])
      · rw [if_neg hc]
        obtain ⟨g1, g2, g3, g4, g5⟩ := ih (rest.length + 1) (by rw [← hk]; simp) (n :: rest) rfl hs'.2 fun a ha => ho a (List.mem_cons_of_mem _ ha)
        refine ⟨List.pairwise_cons.2 ⟨fun a ha => ?_, g1⟩, ?_, fun x => ?_, by simp, fun b hb a ha => ?_⟩
        · have := g5 n.low (fun b hb => by
            rcases List.mem_cons.1 hb with rfl | hb
            · exact Nat.le_refl _
            · exact hsn.1 b hb) a ha
          omega
        · intro a ha
          rcases List.mem_cons.1 ha with rfl | ha
          · exact hr
          · exact g2 a ha
        · rw [in_cons, in_cons, g3]
        · rcases List.mem_cons.1 ha with rfl | ha
          · exact hb a (by simp)
          · exact g5 b (fun c hc => hb c (List.mem_cons_of_mem _ hc)) a ha

/-! ## Leaving out -/

theorem omitLoop_spec : ∀ {rest : List Range} {low : Nat} {r : Range}, Apart (r :: rest) → (∀ q ∈ r :: rest, Ok q ∧ q.high < 65535) → low < r.low →
    (∀ q ∈ omitLoop low (r :: rest), Ok q) ∧ ∀ x, In (omitLoop low (r :: rest)) x ↔ low ≤ x ∧ x ≤ 65535 ∧ ¬ In (r :: rest) x
  | [], low, r, ha, ho, hl => by
    obtain ⟨⟨h1, h2⟩, h3⟩ := ho r (by simp)
    have e1 : (r.low + 65535) % 2 ^ 16 = r.low - 1 := by omega
    have e2 : (r.high + 1) % 2 ^ 16 = r.high + 1 := by omega
    unfold omitLoop
    simp only [e1, e2]
    refine ⟨?_, fun x => ?_⟩
    · simp only [List.mem_cons, List.not_mem_nil, or_false]
      rintro q (rfl | rfl)
      · unfold Ok; dsimp only; omega
      · unfold Ok; dsimp only; omega
    · simp only [in_cons, in_nil, or_false]
      omega
  | r' :: rest, low, r, ha, ho, hl => by
    obtain ⟨⟨h1, h2⟩, h3⟩ := ho r (by simp)
    have ha' := List.pairwise_cons.1 ha
    have e1 : (r.low + 65535) % 2 ^ 16 = r.low - 1 := by omega
    have e2 : (r.high + 1) % 2 ^ 16 = r.high + 1 := by omega
    obtain ⟨g1, g2⟩ := omitLoop_spec (low := r.high + 1) ha'.2 (fun q hq => ho q (List.mem_cons_of_mem _ hq)) (ha'.1 r' (by simp))
    rw [omitLoop]
    simp only [e1, e2]
    refine ⟨?_, fun x => ?_⟩
    · intro q hq
      rcases List.mem_cons.1 hq with rfl | hq
      · unfold Ok; dsimp only; omega
      · exact g1 q hq
    · rw [in_cons, g2, in_cons (r := r)]
      have hbig : In (r' :: rest) x → r.high + 1 < x := by
        rintro ⟨q, hq, hx⟩
        have := ha'.1 q hq
        omega
      dsimp only
      constructor
      · rintro (h | h)
        · refine ⟨h.1, by omega, ?_⟩
          rintro (h' | h')
          · omega
          · have := hbig h'; omega
        · refine ⟨by omega, h.2.1, ?_⟩
          rintro (h' | h')
          · omega
          · exact h.2.2 h'
      · rintro ⟨k1, k2, k3⟩
        rw [not_or] at k3
        by_cases hx : x ≤ r.high
        · left; omega
        · exact Or.inr ⟨by omega, k2, k3.2⟩

theorem omitRanges_spec {l : List Range} (hne : l ≠ []) (ha : Apart l) (ho : ∀ q ∈ l, Ok q) (h1 : ¬ In l 65535)
    (h0 : In l 0 → ∃ x y, x < y ∧ ¬ In l x ∧ In l y) :
    (∀ q ∈ omitRanges l, Ok q) ∧ ∀ x, In (omitRanges l) x ↔ x ≤ 65535 ∧ ¬ In l x := by
  have ho' : ∀ q ∈ l, Ok q ∧ q.high < 65535 := fun q hq => by
    have hq' := ho q hq
    refine ⟨hq', ?_⟩
    unfold Ok at hq'
    by_contra hc
    exact h1 ⟨q, hq, by omega, by omega⟩
  cases l with
  | nil => exact absurd rfl hne
  | cons r rest =>
    unfold omitRanges
    by_cases hr : r.low = 0
    · simp only [hr, if_true]
      obtain ⟨⟨k1, k2⟩, k3⟩ := ho' r (by simp)
      have e2 : (r.high + 1) % 2 ^ 16 = r.high + 1 := by omega
      rw [e2]
      have ha' := List.pairwise_cons.1 ha
      cases rest with
      | nil =>
        exfalso
        obtain ⟨x, y, hxy, hx, hy⟩ := h0 ⟨r, by simp, by omega, by omega⟩
        simp only [in_cons, in_nil, or_false] at hx hy
        omega
      | cons r' rest =>
        obtain ⟨g1, g2⟩ := omitLoop_spec (low := r.high + 1) ha'.2 (fun q hq => ho' q (List.mem_cons_of_mem _ hq)) (ha'.1 r' (by simp))
        refine ⟨g1, fun x => ?_⟩
        rw [g2, in_cons (r := r)]
        have hbig : In (r' :: rest) x → r.high + 1 < x := by
          rintro ⟨q, hq, hx⟩
          have := ha'.1 q hq
          omega
        constructor
        · rintro ⟨j1, j2, j3⟩
          refine ⟨j2, ?_⟩
          rintro (h' | h')
          · omega
          · exact j3 h'
        · rintro ⟨j1, j2⟩
          rw [not_or] at j2
          exact ⟨by omega, j1, j2.2⟩
    · simp only [hr, if_false]
      obtain ⟨g1, g2⟩ := omitLoop_spec (low := 0) ha ho' (by omega)
      refine ⟨g1, fun x => ?_⟩
      rw [g2]
      constructor
      · rintro ⟨-, h⟩; exact h
      · intro h; exact ⟨by omega, h⟩

/-! ## Blocks -/

theorem xtest_iff {x : Nat} {ps : List (BitVec 32)} : xtest x ps = true ↔ xbit ps x := Iff.rfl

theorem one_bit : ∀ a < 32, ∀ j < 32, (1#32 <<< a).getLsbD j = decide (j = a) := by decide +kernel

theorem xset_spec {x : Nat} (hx : x < 256) {ps : List (BitVec 32)} (hl : ps.length = 8) :
    (xset x ps).length = 8 ∧ ∀ n, xbit (xset x ps) n ↔ xbit ps n ∨ n = x := by
  refine ⟨by simp [xset, hl], fun n => ?_⟩
  unfold xset
  rw [modify_xbit (by omega), one_bit _ (Nat.mod_lt _ (by decide)) _ (Nat.mod_lt _ (by decide))]
  simp only [decide_eq_true_eq]
  constructor
  · rintro (h | ⟨h1, h2⟩)
    · exact Or.inl h
    · right
      have := Nat.div_add_mod n 32
      have := Nat.div_add_mod x 32
      omega
  · rintro (h | rfl)
    · exact Or.inl h
    · exact Or.inr ⟨rfl, rfl⟩

/-- A fold that sets bits for each range. -/
theorem fold_bits {f : List (BitVec 32) → Range → List (BitVec 32)} {P : Range → Nat → Prop} {l : List Range}
    (hf : ∀ r ∈ l, ∀ ps, ps.length = 8 → (f ps r).length = 8 ∧ ∀ n, xbit (f ps r) n ↔ xbit ps n ∨ P r n) :
    (l.foldl f zeros).length = 8 ∧ ∀ n, xbit (l.foldl f zeros) n ↔ ∃ r ∈ l, P r n := by
  suffices H : ∀ (l : List Range) (ps : List (BitVec 32)), (∀ r ∈ l, ∀ ps, ps.length = 8 → (f ps r).length = 8 ∧ ∀ n, xbit (f ps r) n ↔ xbit ps n ∨ P r n) →
      ps.length = 8 → (l.foldl f ps).length = 8 ∧ ∀ n, xbit (l.foldl f ps) n ↔ xbit ps n ∨ ∃ r ∈ l, P r n from by
    obtain ⟨h1, h2⟩ := H l zeros hf rfl
    refine ⟨h1, fun n => ?_⟩
    rw [h2]
    exact or_iff_right (zeros_xbit n)
  intro l
  induction l with
  | nil => intro ps _ hl; exact ⟨hl, fun n => by simp⟩
  | cons r l ih =>
    intro ps hf hl
    obtain ⟨k1, k2⟩ := hf r (by simp) ps hl
    obtain ⟨h1, h2⟩ := ih (f ps r) (fun q hq => hf q (List.mem_cons_of_mem _ hq)) k1
    refine ⟨h1, fun n => ?_⟩
    rw [List.foldl_cons, h2, k2]
    simp only [List.mem_cons, exists_eq_or_imp]
    exact or_assoc

theorem used_iff {ps : List (BitVec 32)} : used ps = true ↔ ∃ n, xbit ps n := by
  unfold used xbit
  rw [List.any_eq_true]
  constructor
  · rintro ⟨w, hw, hne⟩
    have hne' : w ≠ 0#32 := by simpa using hne
    have : ∃ j, w.getLsbD j = true := by
      by_contra hno
      apply hne'
      apply BitVec.eq_of_getLsbD_eq
      intro j hj
      cases hb : w.getLsbD j with
      | false => simp
      | true => exact absurd ⟨j, hb⟩ hno
    obtain ⟨j, hj⟩ := this
    have hj32 : j < 32 := BitVec.lt_of_getLsbD hj
    obtain ⟨i, hi, rfl⟩ := List.mem_iff_getElem.1 hw
    refine ⟨i * 32 + j, ?_⟩
    have e1 : (i * 32 + j) / 32 = i := by omega
    have e2 : (i * 32 + j) % 32 = j := by omega
    rw [e1, e2, List.getD_eq_getElem?_getD, List.getElem?_eq_getElem hi]
    exact hj
  · rintro ⟨n, hn⟩
    rw [List.getD_eq_getElem?_getD] at hn
    cases hg : ps[n / 32]? with
    | none => rw [hg] at hn; simp at hn
    | some w =>
      rw [hg] at hn
      refine ⟨w, List.mem_of_getElem? hg, ?_⟩
      simp only [bne_iff_ne, ne_eq]
      rintro rfl
      simp at hn

theorem completeBits_spec {l : List Range} (ho : ∀ q ∈ l, Ok q) :
    ∀ d, xbit (completeBits l) d ↔ ∃ r ∈ l, r.low ≤ 256 * d ∧ 256 * d + 255 ≤ r.high := by
  have := fold_bits (l := l) (P := fun r d => r.low ≤ 256 * d ∧ 256 * d + 255 ≤ r.high)
    (f := fun ps r =>
      let high := (r.high + 1) / 256
      let low := if r.low % 256 ≠ 0 then r.low / 256 + 1 else r.low / 256
      if high > low then setRange low (high - 1) ps else ps) ?_
  · exact this.2
  · intro r hr ps hl
    obtain ⟨h1, h2⟩ := ho r hr
    dsimp only
    obtain ⟨low, hlow⟩ : ∃ low, low = if r.low % 256 ≠ 0 then r.low / 256 + 1 else r.low / 256 := ⟨_, rfl⟩
    rw [← hlow]
    have hlow' : ∀ d, low ≤ d ↔ r.low ≤ 256 * d := fun d => by
      rw [hlow]
      split <;> omega
    split
    · rename_i hgt
      obtain ⟨k1, k2⟩ := setRange_ok (low := low) (high := (r.high + 1) / 256 - 1) (by omega) (by omega) hl
      refine ⟨k1, fun n => ?_⟩
      rw [k2, hlow']
      refine or_congr Iff.rfl (and_congr Iff.rfl ?_)
      omega
    · rename_i hgt
      refine ⟨hl, fun n => ⟨Or.inl, ?_⟩⟩
      rintro (h | h)
      · exact h
      · have := (hlow' n).2 h.1
        omega

theorem partialBits_none {l : List Range} (ho : ∀ q ∈ l, Ok q) :
    ∀ d, xbit (partialBits l none) d ↔ ∃ r ∈ l, d = r.low / 256 ∨ d = r.high / 256 := by
  refine (fold_bits (l := l) (P := fun r d => d = r.low / 256 ∨ d = r.high / 256) ?_).2
  intro r hr ps hl
  obtain ⟨h1, h2⟩ := ho r hr
  dsimp only
  obtain ⟨k1, k2⟩ := xset_spec (x := r.low / 256) (by omega) hl
  obtain ⟨k3, k4⟩ := xset_spec (x := r.high / 256) (by omega) k1
  exact ⟨k3, fun n => by rw [k4, k2]; exact or_assoc⟩

theorem partialBits_some {l : List Range} (ho : ∀ q ∈ l, Ok q) (c : List (BitVec 32)) :
    ∀ d, xbit (partialBits l (some c)) d ↔ ¬ xbit c d ∧ ∃ r ∈ l, d = r.low / 256 ∨ d = r.high / 256 := by
  intro d
  have := (fold_bits (l := l) (f := fun ps r =>
    (let low := r.low / 256
    let high := r.high / 256
    let ps := if xtest low c = false then xset low ps else ps
    if xtest high c = false then xset high ps else ps)) (P := fun r d => ¬ xbit c d ∧ (d = r.low / 256 ∨ d = r.high / 256)) ?_).2 d
  · refine this.trans ?_
    constructor
    · rintro ⟨r, hr, h1, h2⟩; exact ⟨h1, r, hr, h2⟩
    · rintro ⟨h1, r, hr, h2⟩; exact ⟨r, hr, h1, h2⟩
  · intro r hr ps hl
    obtain ⟨h1, h2⟩ := ho r hr
    dsimp only
    have step : ∀ x < 256, ∀ ps : List (BitVec 32), ps.length = 8 → (if xtest x c = false then xset x ps else ps).length = 8 ∧
        ∀ n, xbit (if xtest x c = false then xset x ps else ps) n ↔ xbit ps n ∨ (¬ xbit c n ∧ n = x) := by
      intro x hx ps hl
      by_cases hc : xtest x c = false
      · rw [if_pos hc]
        obtain ⟨k1, k2⟩ := xset_spec hx hl
        refine ⟨k1, fun n => ?_⟩
        rw [k2]
        refine or_congr Iff.rfl ⟨?_, fun h => h.2⟩
        rintro rfl
        refine ⟨fun h => ?_, rfl⟩
        rw [xtest_iff.2 h] at hc
        cases hc
      · rw [if_neg hc]
        refine ⟨hl, fun n => ⟨Or.inl, ?_⟩⟩
        rintro (h | ⟨h, rfl⟩)
        · exact h
        · exfalso
          apply h
          apply xtest_iff.1
          simpa using hc
    obtain ⟨k1, k2⟩ := step (r.low / 256) (by omega) ps hl
    obtain ⟨k3, k4⟩ := step (r.high / 256) (by omega) _ k1
    refine ⟨k3, fun n => ?_⟩
    rw [k4, k2]
    constructor
    · rintro ((h | h) | h)
      · exact Or.inl h
      · exact Or.inr ⟨h.1, Or.inl h.2⟩
      · exact Or.inr ⟨h.1, Or.inr h.2⟩
    · rintro (h | ⟨h, h' | h'⟩)
      · exact Or.inl (Or.inl h)
      · exact Or.inl (Or.inr ⟨h, h'⟩)
      · exact Or.inr ⟨h, h'⟩

theorem funcBits_spec {l : List Range} (ho : ∀ q ∈ l, Ok q) (d : Nat) :
    ∀ f, f < 256 → (xbit (funcBits l d) f ↔ ∃ r ∈ l, (d = r.low / 256 ∨ d = r.high / 256) ∧ r.low ≤ 256 * d + f ∧ 256 * d + f ≤ r.high) := by
  have key := (fold_bits (l := l) (f := fun ps r =>
    if d ≠ r.low / 256 ∧ d ≠ r.high / 256 then ps
    else
      let p :=
        if d = r.low / 256 then (r.low, if r.high > d * 256 + 255 then d * 256 + 255 else r.high)
        else (if r.low < d * 256 then d * 256 else r.low, r.high)
      setRange (p.1 % 256) (p.2 % 256) ps)
      (P := fun r f => f < 256 ∧ (d = r.low / 256 ∨ d = r.high / 256) ∧ r.low ≤ 256 * d + f ∧ 256 * d + f ≤ r.high) ?_).2
  · intro f hf
    refine (key f).trans ?_
    simp only [hf, true_and]
  · intro r hr ps hl
    obtain ⟨h1, h2⟩ := ho r hr
    dsimp only
    by_cases hd : d ≠ r.low / 256 ∧ d ≠ r.high / 256
    · rw [if_pos hd]
      refine ⟨hl, fun n => ⟨Or.inl, ?_⟩⟩
      rintro (h | ⟨-, h, -⟩)
      · exact h
      · rcases h with h | h
        · exact absurd h hd.1
        · exact absurd h hd.2
    · rw [if_neg hd]
      have hd' : d = r.low / 256 ∨ d = r.high / 256 := by
        by_contra hc
        rw [not_or] at hc
        exact hd hc
      obtain ⟨p, hp⟩ : ∃ p : Nat × Nat, p = if d = r.low / 256 then (r.low, if r.high > d * 256 + 255 then d * 256 + 255 else r.high)
        else (if r.low < d * 256 then d * 256 else r.low, r.high) := ⟨_, rfl⟩
      rw [← hp]
      have hq : p.1 ≤ p.2 ∧ p.1 / 256 = d ∧ p.2 / 256 = d ∧ ∀ x, x / 256 = d → ((p.1 ≤ x ∧ x ≤ p.2) ↔ (r.low ≤ x ∧ x ≤ r.high)) := by
        by_cases he : d = r.low / 256
        · rw [if_pos he] at hp
          by_cases hh : r.high > d * 256 + 255
          · rw [if_pos hh] at hp
            rw [hp]
            dsimp only
            refine ⟨by omega, by omega, by omega, fun x hx => by omega⟩
          · rw [if_neg hh] at hp
            rw [hp]
            dsimp only
            refine ⟨by omega, by omega, by omega, fun x hx => by omega⟩
        · rw [if_neg he] at hp
          have he2 : d = r.high / 256 := hd'.resolve_left he
          by_cases hh : r.low < d * 256
          · rw [if_pos hh] at hp
            rw [hp]
            dsimp only
            refine ⟨by omega, by omega, by omega, fun x hx => by omega⟩
          · rw [if_neg hh] at hp
            rw [hp]
            dsimp only
            refine ⟨by omega, by omega, by omega, fun x hx => by omega⟩
      obtain ⟨q1, q2, q3, q4⟩ := hq
      obtain ⟨k1, k2⟩ := setRange_ok (low := p.1 % 256) (high := p.2 % 256) (by omega) (by omega) hl
      refine ⟨k1, fun n => ?_⟩
      rw [k2]
      refine or_congr Iff.rfl ?_
      constructor
      · intro h
        have hn : n < 256 := by omega
        refine ⟨hn, hd', ?_⟩
        exact (q4 (256 * d + n) (by omega)).1 (by omega)
      · rintro ⟨hn, -, h⟩
        have := (q4 (256 * d + n) (by omega)).2 h
        omega

theorem funcBlocks_spec {l : List Range} (ho : ∀ q ∈ l, Ok q) (spec : BitVec 8) (ps : List (BitVec 32)) {x : Nat} (hx : x < 65536) :
    (∃ b ∈ funcBlocks spec l ps, b.specified = spec ∧ b.driver.toNat = x / 256 ∧ xbit b.perms (x % 256)) ↔
      xbit ps (x / 256) ∧ ∃ r ∈ l, (x / 256 = r.low / 256 ∨ x / 256 = r.high / 256) ∧ r.low ≤ x ∧ x ≤ r.high := by
  have hb := funcBits_spec ho (x / 256) (x % 256) (Nat.mod_lt _ (by decide))
  have hxe : 256 * (x / 256) + x % 256 = x := Nat.div_add_mod x 256
  rw [hxe] at hb
  rw [← hb]
  unfold funcBlocks
  constructor
  · rintro ⟨b, hm, h1, h2, h3⟩
    obtain ⟨d, hd, hbd⟩ := List.mem_filterMap.1 hm
    obtain ⟨hd1, hd2⟩ := List.mem_filter.1 hd
    split at hbd
    · cases hbd
      have hd256 := List.mem_range.1 hd1
      have : (BitVec.ofNat 8 d).toNat = d := by
        rw [BitVec.toNat_ofNat]
        omega
      simp only [this] at h2
      subst h2
      exact ⟨xtest_iff.1 hd2, h3⟩
    · cases hbd
  · rintro ⟨h1, h2⟩
    refine ⟨⟨spec, BitVec.ofNat 8 (x / 256), funcBits l (x / 256)⟩, List.mem_filterMap.2 ⟨x / 256, List.mem_filter.2 ⟨List.mem_range.2 (by omega), xtest_iff.2 h1⟩, ?_⟩,
      rfl, ?_, h2⟩
    · rw [if_pos (used_iff.2 ⟨_, h2⟩)]
    · rw [BitVec.toNat_ofNat]
      omega

theorem funcBlocks_spec' {l : List Range} (spec : BitVec 8) (ps : List (BitVec 32)) : ∀ b ∈ funcBlocks spec l ps, b.specified = spec := by
  intro b hb
  unfold funcBlocks at hb
  obtain ⟨d, -, hbd⟩ := List.mem_filterMap.1 hb
  split at hbd
  · cases hbd; rfl
  · cases hbd

end Verif.Xperm
