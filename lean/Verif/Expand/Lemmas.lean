import Verif.Expand.Spec
import Verif.Ebitmap.Props
import Mathlib.Data.Nat.Bitwise

/-!
# The expansion of a set of types
-/

namespace Verif.Expand
open Services (TypeSet)
open Ebitmap (Ebitmap getBit setBit union init WF)

theorem Res.bind_ok {α β : Type} {r : Res α} {f : α → Res β} {b : β} :
    r.bind f = .ok b ↔ ∃ a, r = .ok a ∧ f a = .ok b := by
  cases r <;> simp [Res.bind]

/-- A loop whose every step keeps an invariant and adds `N a` to a property. -/
theorem forM_eff {α σ : Type} {f : σ → α → Res σ} {Inv : σ → Prop} {Q : σ → Prop} {N : α → Prop} :
    ∀ {l : List α} {s s' : σ}, (∀ s a s', a ∈ l → Inv s → f s a = .ok s' → Inv s' ∧ (Q s' ↔ Q s ∨ N a)) →
      Inv s → forM f s l = .ok s' → Inv s' ∧ (Q s' ↔ Q s ∨ ∃ a ∈ l, N a)
  | [], s, s', _, hi, h => by
    simp only [forM, Res.ok.injEq] at h
    subst h
    exact ⟨hi, by simp⟩
  | a :: l, s, s', hs, hi, h => by
    simp only [forM] at h
    obtain ⟨s1, h1, h2⟩ := Res.bind_ok.1 h
    obtain ⟨i1, q1⟩ := hs s a s1 (by simp) hi h1
    obtain ⟨i2, q2⟩ := forM_eff (fun s a s' ha => hs s a s' (by simp [ha])) i1 h2
    refine ⟨i2, ?_⟩
    rw [q2, q1, or_assoc]
    simp only [List.mem_cons, exists_eq_or_imp]

/-- A loop whose steps do not fail. -/
theorem forM_total {α σ : Type} {f : σ → α → Res σ} {Inv : σ → Prop} :
    ∀ {l : List α} {s : σ}, (∀ s a, a ∈ l → Inv s → ∃ s', f s a = .ok s' ∧ Inv s') →
      Inv s → ∃ s', forM f s l = .ok s' ∧ Inv s'
  | [], s, _, hi => ⟨s, rfl, hi⟩
  | a :: l, s, hs, hi => by
    obtain ⟨s1, h1, i1⟩ := hs s a (by simp) hi
    obtain ⟨s2, h2, i2⟩ := forM_total (l := l) (fun s a ha => hs s a (by simp [ha])) i1
    exact ⟨s2, by simp only [forM, h1, Res.bind]; exact h2, i2⟩

theorem mem_bits {e : Ebitmap} (h : WF e) (i : Nat) : i ∈ bits e ↔ getBit e i = true := by
  unfold bits
  rw [Ebitmap.C04_for_each_positive_bit h (Nat.le_refl _), Option.getD_some, List.mem_filter, List.mem_range]
  constructor
  · exact And.right
  · intro hi
    have hw := (Ebitmap.wf_iff_inv e).1 h
    exact ⟨Nat.lt_trans (Ebitmap.getBit_lt_high hw hi) hw.small, hi⟩

theorem wf_init : WF init := (Ebitmap.wf_iff_inv _).2 Ebitmap.inv_init

theorem getBit_init (b : Nat) : getBit init b = false := by
  simp [getBit, init, Ebitmap.getBitNodes]

theorem set1_ok {e : Ebitmap} (h : WF e) {i : Nat} (hi : i < 2 ^ 16) (v : Bool) :
    ∃ e', set1 e i v = .ok e' ∧ WF e' ∧ ∀ b, getBit e' b = if b = i then v else getBit e b := by
  obtain ⟨e', h1, h2, h3⟩ := (Ebitmap.C01_set_bit h i (by omega) v).1 (by omega)
  exact ⟨e', by simp [set1, h1], h2, h3⟩

/-- A bitmap and the set that it stands for. -/
def Bits (e : Ebitmap) (S : Nat → Prop) : Prop := WF e ∧ ∀ b, getBit e b = true ↔ S b

theorem bits_init : Bits init fun _ => False := ⟨wf_init, by simp [getBit_init]⟩

theorem bits_set {e : Ebitmap} {S : Nat → Prop} (h : Bits e S) {i : Nat} (hi : i < 2 ^ 16) :
    ∃ e', set1 e i true = .ok e' ∧ Bits e' (fun b => S b ∨ b = i) := by
  obtain ⟨e', h1, h2, h3⟩ := set1_ok h.1 hi true
  refine ⟨e', h1, h2, fun b => ?_⟩
  rw [h3]
  by_cases hb : b = i
  · simp [hb]
  · simp only [hb, if_false, h.2, or_false]

theorem bits_clear {e : Ebitmap} {S : Nat → Prop} (h : Bits e S) {i : Nat} (hi : i < 2 ^ 16) :
    ∃ e', set1 e i false = .ok e' ∧ Bits e' (fun b => S b ∧ b ≠ i) := by
  obtain ⟨e', h1, h2, h3⟩ := set1_ok h.1 hi false
  refine ⟨e', h1, h2, fun b => ?_⟩
  rw [h3]
  by_cases hb : b = i
  · simp [hb]
  · simp only [hb, if_false, h.2, ne_eq, not_false_eq_true, and_true]

theorem bits_union {e f : Ebitmap} {S : Nat → Prop} (h : Bits e S) (hf : WF f) :
    Bits (union e f) (fun b => S b ∨ getBit f b = true) := by
  obtain ⟨h1, h2⟩ := (Ebitmap.C02_or_and_xor h.1 hf).2.1
  exact ⟨h1, fun b => by rw [h2, Bool.or_eq_true, h.2]⟩

theorem bits_congr {e : Ebitmap} {S T : Nat → Prop} (h : Bits e S) (hst : ∀ b, S b ↔ T b) : Bits e T :=
  ⟨h.1, fun b => (h.2 b).trans (hst b)⟩

/-- A loop over a list that adds to a bitmap. -/
theorem forM_bits {f : Ebitmap → Nat → Res Ebitmap} {N : Nat → Nat → Prop} :
    ∀ {l : List Nat} {e : Ebitmap} {S : Nat → Prop}, Bits e S →
      (∀ i ∈ l, ∀ e S, Bits e S → ∃ e', f e i = .ok e' ∧ Bits e' (fun b => S b ∨ N i b)) →
      ∃ e', forM f e l = .ok e' ∧ Bits e' (fun b => S b ∨ ∃ i ∈ l, N i b)
  | [], e, S, h, _ => ⟨e, rfl, bits_congr h (by simp)⟩
  | i :: l, e, S, h, hf => by
    obtain ⟨e1, h1, b1⟩ := hf i (by simp) e S h
    obtain ⟨e2, h2, b2⟩ := forM_bits (l := l) b1 (fun j hj => hf j (by simp [hj]))
    refine ⟨e2, by simp only [forM, h1, Res.bind]; exact h2, bits_congr b2 fun b => ?_⟩
    rw [or_assoc]
    simp only [List.mem_cons, exists_eq_or_imp]

theorem isType_lt {p : Types} (hp : TypesOk p) {x : Nat} (h : IsType p x) : x < p.nprim := by
  obtain ⟨t, h1, _⟩ := h
  exact (hp.used x).2 ⟨t, h1⟩

theorem isAttr_iff (p : Types) (i : Nat) : isAttr p i = true ↔ ∃ t, p.types i = some t ∧ t.isAttr = true := by
  unfold isAttr
  cases h : p.types i with
  | none => simp
  | some t => simp

/-- `map_ebitmap`. -/
theorem mapEbitmap_ok {p : Types} (hp : TypesOk p) {map : List Nat} (hm : MapOk p map) {e : Ebitmap} (he : WF e)
    (hl : ∀ i, getBit e i = true → i < map.length) :
    ∃ e', mapEbitmap map e = .ok e' ∧ Bits e' (Named map e) := by
  have := forM_bits (f := fun dst i => match map[i]? with
    | none => .ub
    | some 0 => .ok dst
    | some (v + 1) => set1 dst v true) (N := fun i v => map[i]? = some (v + 1)) (l := bits e) bits_init (by
      intro i hi e1 S hb
      have hil := hl i ((mem_bits he i).1 hi)
      obtain ⟨v, hv⟩ : ∃ v, map[i]? = some v := ⟨map[i], List.getElem?_eq_getElem hil⟩
      have hvn := hm v (List.mem_of_getElem? hv)
      simp only [hv]
      cases v with
      | zero => exact ⟨e1, rfl, bits_congr hb (by simp)⟩
      | succ v =>
        obtain ⟨e', h1, h2⟩ := bits_set hb (i := v) (by have := hp.few; omega)
        refine ⟨e', h1, bits_congr h2 fun b => ?_⟩
        simp only [Option.some.injEq, Nat.add_right_cancel_iff]
        exact or_congr_right eq_comm)
  obtain ⟨e', h1, h2⟩ := this
  refine ⟨e', h1, bits_congr h2 fun b => ?_⟩
  simp only [false_or, Named]
  exact exists_congr fun i => and_congr_left fun _ => mem_bits he i

/-- What a number of a set adds: the types of an attribute that is expanded, otherwise itself. -/
def Adds (p : Types) (expand : Bool) (i b : Nat) : Prop :=
  (∃ t, p.types i = some t ∧ t.isAttr = true ∧ (expand || t.expandTrue) = true ∧ getBit t.types b = true) ∨
  (b = i ∧ ¬ ∃ t, p.types i = some t ∧ t.isAttr = true ∧ (expand || t.expandTrue) = true)

theorem posStep_ok {p : Types} (hp : TypesOk p) (expand : Bool) {i : Nat} (hi : i < p.nprim) {e : Ebitmap} {S : Nat → Prop}
    (h : Bits e S) : ∃ e', posStep p expand e i = .ok e' ∧ Bits e' (fun b => S b ∨ Adds p expand i b) := by
  obtain ⟨t, ht⟩ := (hp.used i).1 hi
  have hn : ¬ i ≥ p.nprim := by omega
  simp only [posStep, hn, if_false, ht]
  by_cases ha : (t.isAttr && (expand || t.expandTrue)) = true
  · simp only [ha, if_true]
    rw [Bool.and_eq_true] at ha
    refine ⟨_, rfl, bits_congr (bits_union h (hp.flat i t ht ha.1).1) fun b => ?_⟩
    simp only [Adds, ht, Option.some.injEq, exists_eq_left', ha.1, ha.2, true_and, not_true_eq_false, and_false, or_false]
  · simp only [ha, if_false, Bool.false_eq_true]
    obtain ⟨e', h1, h2⟩ := bits_set h (i := i) (by have := hp.few; omega)
    refine ⟨e', h1, bits_congr h2 fun b => ?_⟩
    rw [Bool.and_eq_true] at ha
    simp only [Adds, ht, Option.some.injEq, exists_eq_left', ha, not_false_eq_true, and_true]
    constructor
    · rintro (h | h)
      · exact .inl h
      · exact .inr (.inr h)
    · rintro (h | h | h)
      · exact .inl h
      · exact absurd ⟨h.1, h.2.1⟩ ha
      · exact .inr h

theorem negStep_ok {p : Types} (hp : TypesOk p) {i : Nat} (hi : i < p.nprim) {e : Ebitmap} {S : Nat → Prop}
    (h : Bits e S) : ∃ e', negStep p e i = .ok e' ∧ Bits e' (fun b => S b ∨ Adds p true i b) := by
  obtain ⟨t, ht⟩ := (hp.used i).1 hi
  have hn : ¬ i ≥ p.nprim := by omega
  obtain ⟨e', h1, h2⟩ := posStep_ok hp true hi h
  refine ⟨e', ?_, h2⟩
  simp only [posStep, negStep, hn, if_false, ht, Bool.true_or, Bool.and_true] at h1 ⊢
  exact h1

/-- When attributes are expanded, the numbers are exactly the types that are meant. -/
theorem adds_true {p : Types} (hp : TypesOk p) {i b : Nat} (hi : i < p.nprim) :
    Adds p true i b ↔ IsType p b ∧ Stands p i b := by
  obtain ⟨t, ht⟩ := (hp.used i).1 hi
  simp only [Adds, Stands, ht, Option.some.injEq, exists_eq_left', Bool.true_or, and_true, true_and]
  cases ha : t.isAttr with
  | true =>
    simp only [true_and, not_true_eq_false, and_false, or_false]
    constructor
    · intro hb; exact ⟨(hp.flat i t ht ha).2 b hb, .inr hb⟩
    · rintro ⟨hb, rfl | h⟩
      · obtain ⟨t', h1, h2⟩ := hb
        rw [ht] at h1; cases h1; rw [ha] at h2; cases h2
      · exact h
  | false =>
    simp only [Bool.false_eq_true, false_and, not_false_eq_true, and_true, false_or, or_false]
    constructor
    · rintro rfl; exact ⟨⟨t, ht, ha⟩, rfl⟩
    · rintro ⟨_, rfl⟩; rfl

/-- With or without expansion the same types are meant. -/
theorem adds_stands {p : Types} (hp : TypesOk p) (expand : Bool) {i x : Nat} (hi : i < p.nprim) (hx : IsType p x) :
    (∃ b, Adds p expand i b ∧ Stands p b x) ↔ Stands p i x := by
  obtain ⟨t, ht⟩ := (hp.used i).1 hi
  obtain ⟨tx, htx, hax⟩ := hx
  constructor
  · rintro ⟨b, hb | ⟨rfl, _⟩, hs⟩
    · obtain ⟨t', h1, h2, _, h4⟩ := hb
      obtain ⟨tb, htb, hab⟩ := (hp.flat i t' h1 h2).2 b h4
      rcases hs with rfl | ⟨t2, h5, h6, _⟩
      · exact .inr ⟨t', h1, h2, h4⟩
      · rw [htb] at h5; cases h5; rw [hab] at h6; cases h6
    · exact hs
  · intro hs
    by_cases he : ∃ t, p.types i = some t ∧ t.isAttr = true ∧ (expand || t.expandTrue) = true
    · obtain ⟨t', h1, h2, h3⟩ := he
      rcases hs with rfl | ⟨t2, h5, h6, h7⟩
      · rw [htx] at h1; cases h1; rw [hax] at h2; cases h2
      · rw [h1] at h5; cases h5
        exact ⟨x, .inl ⟨t', h1, h2, h3, h7⟩, .inl rfl⟩
    · exact ⟨i, .inr ⟨rfl, he⟩, hs⟩

theorem stands_type {p : Types} {v x : Nat} (hv : IsType p v) : Stands p v x ↔ v = x := by
  constructor
  · rintro (h | ⟨t, h1, h2, _⟩)
    · exact h
    · obtain ⟨t', h3, h4⟩ := hv
      rw [h3] at h1; cases h1; rw [h4] at h2; cases h2
  · exact .inl

theorem notAttr_iff {p : Types} (hp : TypesOk p) {i : Nat} (hi : i < p.nprim) : isAttr p i = false ↔ IsType p i := by
  obtain ⟨t, ht⟩ := (hp.used i).1 hi
  simp [isAttr, IsType, ht]

theorem flag_iff (f : Nat) : (flag f TYPE_STAR = f.testBit 0) ∧ (flag f TYPE_COMP = f.testBit 1) := by
  have h1 : f &&& 1 = f % 2 := Nat.and_one_is_mod f
  constructor
  · simp only [flag, TYPE_STAR, h1, Nat.testBit_zero]
    rcases Nat.mod_two_eq_zero_or_one f with h | h <;> simp [h]
  · simp only [flag, TYPE_COMP]
    have : f &&& 2 = 2 * ((f / 2) % 2) := by
      have e := Nat.and_two_pow f 1
      rw [show (2 : Nat) ^ 1 = 2 from rfl] at e
      rw [e, Nat.testBit_succ, Nat.testBit_zero]
      rcases Nat.mod_two_eq_zero_or_one (f / 2) with h | h <;> simp [h]
    rw [this, Nat.testBit_succ, Nat.testBit_zero]
    rcases Nat.mod_two_eq_zero_or_one (f / 2) with h | h <;> simp [h]

theorem node_ne_nil {e : Ebitmap} (h : WF e) {b : Nat} (hb : getBit e b = true) : e.node ≠ [] := by
  intro hn
  have := (Ebitmap.wf_iff_inv e).1 h
  rw [Ebitmap.getBit_eq this, hn] at hb
  simp [Ebitmap.bits] at hb

/-- The loop for `~`, from a set of types. -/
theorem compLoop_ok {p : Types} (hp : TypesOk p) {S : Nat → Prop} : ∀ (n : Nat) {e : Ebitmap}, n ≤ p.nprim → Bits e S → (∀ b, S b → IsType p b) →
      ∃ e', forM (compStep p) e (List.range n) = .ok e' ∧
        Bits e' (fun b => if b < n then (IsType p b ∧ ¬ S b) else S b)
  | 0, e, _, h, _ => ⟨e, rfl, bits_congr h (by simp)⟩
  | n + 1, e, hn, h, hS => by
    obtain ⟨e1, h1, b1⟩ := compLoop_ok hp n (by omega) h hS
    have happ : ∀ (l : List Nat) (a : Nat) (s : Ebitmap), forM (compStep p) s (l ++ [a]) =
        (forM (compStep p) s l).bind fun s' => compStep p s' a := by
      intro l
      induction l with
      | nil => intro a s; simp only [List.nil_append, forM, Res.bind]; cases compStep p s a <;> rfl
      | cons c l ih => intro a s; simp only [List.cons_append, forM]; cases compStep p s c <;> simp [Res.bind, ih]
    rw [List.range_succ, happ, h1]
    simp only [Res.bind, compStep]
    have hbn : getBit e1 n = true ↔ S n := by rw [b1.2]; simp
    by_cases ha : isAttr p n = true
    · have hnt : ¬ IsType p n := fun hc => by
        rw [(notAttr_iff hp (by omega)).2 hc] at ha; cases ha
      have hg : getBit e1 n = false := by
        cases hg : getBit e1 n with
        | false => rfl
        | true => exact absurd (hS n (hbn.1 hg)) hnt
      simp only [ha, if_true, hg, Bool.false_eq_true, if_false]
      refine ⟨e1, rfl, bits_congr b1 fun b => ?_⟩
      by_cases hb : b < n
      · simp [hb, Nat.lt_succ_of_lt hb]
      · by_cases hbe : b = n
        · subst hbe
          simp only [Nat.lt_irrefl, if_false, Nat.lt_succ_self, if_true]
          exact ⟨fun h => absurd (hS _ h) hnt, fun h => absurd h.1 hnt⟩
        · have : ¬ b < n + 1 := by omega
          simp [hb, this]
    · have ha' : isAttr p n = false := by simpa using ha
      have ht := (notAttr_iff hp (by omega)).1 ha'
      simp only [ha', Bool.false_eq_true, if_false]
      have hlt : n < 2 ^ 16 := by have := hp.few; omega
      cases hg : getBit e1 n with
      | true =>
        simp only [if_true]
        obtain ⟨e2, h2, b2⟩ := bits_clear b1 hlt
        refine ⟨e2, h2, bits_congr b2 fun b => ?_⟩
        by_cases hb : b < n
        · have : b ≠ n := by omega
          simp [hb, Nat.lt_succ_of_lt hb, this]
        · by_cases hbe : b = n
          · subst hbe; simp [hbn.1 hg]
          · have : ¬ b < n + 1 := by omega
            simp [hb, this, hbe]
      | false =>
        simp only [Bool.false_eq_true, if_false]
        obtain ⟨e2, h2, b2⟩ := bits_set b1 hlt
        refine ⟨e2, h2, bits_congr b2 fun b => ?_⟩
        by_cases hb : b < n
        · have : b ≠ n := by omega
          simp [hb, Nat.lt_succ_of_lt hb, this]
        · by_cases hbe : b = n
          · subst hbe
            have : ¬ S b := fun hc => by rw [hbn.2 hc] at hg; cases hg
            simp [ht, this]
          · have : ¬ b < n + 1 := by omega
            simp [hb, this, hbe]

/-- `type_set_expand` for a set of the policy. -/
theorem typeSetExpand_ok {p : Types} (hp : TypesOk p) {s : TypeSet} {P N : Nat → Prop} (always : Bool)
    (h1 : Bits s.types P) (h2 : Bits s.negset N) (hP : ∀ v, P v → v < p.nprim) (hN : ∀ v, N v → v < p.nprim) :
    ∃ e, typeSetExpand p s always = .ok e ∧ WF e ∧ (∀ v, getBit e v = true → v < p.nprim) ∧
      (always = true → ∀ v, getBit e v = true → IsType p v) ∧
      ∀ x, IsType p x → ((∃ v, getBit e v = true ∧ Stands p v x) ↔
        if s.flags.testBit 0 then ¬ ∃ v, N v ∧ Stands p v x
        else if s.flags.testBit 1 then ¬ ((∃ v, P v ∧ Stands p v x) ∧ ¬ ∃ v, N v ∧ Stands p v x)
        else (∃ v, P v ∧ Stands p v x) ∧ ¬ ∃ v, N v ∧ Stands p v x) := by
  unfold typeSetExpand
  simp only [(flag_iff s.flags).1, (flag_iff s.flags).2]
  generalize hexp : (always || s.negset.node != [] || s.flags != 0) = expand
  obtain ⟨e1, g1, b1⟩ := forM_bits (f := posStep p expand) (N := Adds p expand) (l := bits s.types) bits_init
    (fun i hi e S hb => posStep_ok hp expand (hP i ((h1.2 i).1 ((mem_bits h1.1 i).1 hi))) hb)
  obtain ⟨e2, g2, b2⟩ := forM_bits (f := negStep p) (N := Adds p true) (l := bits s.negset) bits_init
    (fun i hi e S hb => negStep_ok hp (hN i ((h2.2 i).1 ((mem_bits h2.1 i).1 hi))) hb)
  have b1' : Bits e1 fun b => ∃ i, P i ∧ Adds p expand i b := bits_congr b1 fun b => by
    simp only [false_or]; exact exists_congr fun i => and_congr_left fun _ => by rw [mem_bits h1.1, h1.2]
  have b2' : Bits e2 fun b => IsType p b ∧ ∃ i, N i ∧ Stands p i b := bits_congr b2 fun b => by
    simp only [false_or]
    constructor
    · rintro ⟨i, hi, ha⟩
      have hi' := (h2.2 i).1 ((mem_bits h2.1 i).1 hi)
      obtain ⟨a1, a2⟩ := (adds_true hp (hN i hi')).1 ha
      exact ⟨a1, i, hi', a2⟩
    · rintro ⟨a1, i, hi, a2⟩
      exact ⟨i, (mem_bits h2.1 i).2 ((h2.2 i).2 hi), (adds_true hp (hN i hi)).2 ⟨a1, a2⟩⟩
  rw [g1, g2]
  simp only [Res.bind]
  have hneg : ∀ {b}, IsType p b → (getBit e2 b = true ↔ ∃ i, N i ∧ Stands p i b) := fun hb => by
    rw [b2'.2]; exact ⟨And.right, fun h => ⟨hb, h⟩⟩
  cases hs : s.flags.testBit 0 with
  | true =>
    simp only [if_true]
    obtain ⟨e, g, b⟩ := forM_bits (f := starStep p e2) (N := fun i b => b = i ∧ IsType p i ∧ ¬ getBit e2 i = true)
      (l := List.range p.nprim) bits_init (by
        intro i hi e S hb
        have hi' := List.mem_range.1 hi
        unfold starStep
        cases hg : getBit e2 i with
        | true => exact ⟨e, by simp, bits_congr hb (by simp)⟩
        | false =>
          simp only [Bool.false_eq_true, if_false]
          cases ha : isAttr p i with
          | true =>
            refine ⟨e, by simp, bits_congr hb fun b => ?_⟩
            have : ¬ IsType p i := fun hc => by rw [(notAttr_iff hp hi').2 hc] at ha; cases ha
            simp [this]
          | false =>
            simp only [Bool.false_eq_true, if_false]
            obtain ⟨e', k1, k2⟩ := bits_set hb (i := i) (by have := hp.few; omega)
            refine ⟨e', k1, bits_congr k2 fun b => ?_⟩
            simp [(notAttr_iff hp hi').1 ha])
    have hb : ∀ v, getBit e v = true ↔ IsType p v ∧ ¬ ∃ i, N i ∧ Stands p i v := fun v => by
      rw [b.2]
      simp only [false_or]
      constructor
      · rintro ⟨i, _, rfl, k1, k2⟩
        exact ⟨k1, fun hc => k2 ((hneg k1).2 hc)⟩
      · rintro ⟨k1, k2⟩
        exact ⟨v, List.mem_range.2 (isType_lt hp k1), rfl, k1, fun hc => k2 ((hneg k1).1 hc)⟩
    refine ⟨e, g, b.1, fun v hv => isType_lt hp ((hb v).1 hv).1, fun _ v hv => ((hb v).1 hv).1, fun x hx => ?_⟩
    constructor
    · rintro ⟨v, hv, hs⟩
      obtain ⟨k1, k2⟩ := (hb v).1 hv
      rw [stands_type k1] at hs
      subst hs
      exact k2
    · intro h
      exact ⟨x, (hb x).2 ⟨hx, h⟩, .inl rfl⟩
  | false =>
    simp only [Bool.false_eq_true, if_false]
    obtain ⟨e, g, b⟩ := forM_bits (f := minusStep e2) (N := fun i b => b = i ∧ ¬ getBit e2 i = true)
      (l := bits e1) bits_init (by
        intro i hi e S hb
        have hi' := (b1'.2 i).1 ((mem_bits b1'.1 i).1 hi)
        have hlt : i < p.nprim := by
          obtain ⟨j, hj, ha | ⟨rfl, _⟩⟩ := hi'
          · obtain ⟨t, k1, k2, _, k4⟩ := ha
            exact isType_lt hp ((hp.flat j t k1 k2).2 i k4)
          · exact hP _ hj
        unfold minusStep
        cases hg : getBit e2 i with
        | true => exact ⟨e, by simp, bits_congr hb (by simp)⟩
        | false =>
          simp only [Bool.false_eq_true, if_false]
          obtain ⟨e', k1, k2⟩ := bits_set hb (i := i) (by have := hp.few; omega)
          exact ⟨e', k1, bits_congr k2 (by simp)⟩)
    have hb : ∀ v, getBit e v = true ↔ (∃ i, P i ∧ Adds p expand i v) ∧ ¬ getBit e2 v = true := fun v => by
      rw [b.2]
      simp only [false_or]
      constructor
      · rintro ⟨i, hi, rfl, k2⟩
        exact ⟨(b1'.2 _).1 ((mem_bits b1'.1 _).1 hi), k2⟩
      · rintro ⟨k1, k2⟩
        exact ⟨v, (mem_bits b1'.1 v).2 ((b1'.2 v).2 k1), rfl, k2⟩
    have hlt : ∀ v, getBit e v = true → v < p.nprim := fun v hv => by
      obtain ⟨j, hj, ha | ⟨rfl, _⟩⟩ := ((hb v).1 hv).1
      · obtain ⟨t, k1, k2, _, k4⟩ := ha
        exact isType_lt hp ((hp.flat j t k1 k2).2 v k4)
      · exact hP _ hj
    have htype : expand = true → ∀ v, getBit e v = true ↔
        IsType p v ∧ (∃ i, P i ∧ Stands p i v) ∧ ¬ ∃ i, N i ∧ Stands p i v := fun he v => by
      rw [hb]
      subst he
      constructor
      · rintro ⟨⟨i, k1, k2⟩, k3⟩
        obtain ⟨a1, a2⟩ := (adds_true hp (hP i k1)).1 k2
        exact ⟨a1, ⟨i, k1, a2⟩, fun hc => k3 ((hneg a1).2 hc)⟩
      · rintro ⟨a1, ⟨i, k1, a2⟩, k3⟩
        exact ⟨⟨i, k1, (adds_true hp (hP i k1)).2 ⟨a1, a2⟩⟩, fun hc => k3 ((hneg a1).1 hc)⟩
    rw [g]
    simp only [Res.bind]
    cases hc : s.flags.testBit 1 with
    | true =>
      have he : expand = true := by
        rw [← hexp]
        have : (s.flags != 0) = true := by
          rw [bne_iff_ne]; rintro h0; rw [h0] at hc; simp at hc
        simp [this]
      simp only [if_true]
      obtain ⟨e', g', b'⟩ := compLoop_ok hp p.nprim (Nat.le_refl _) (S := fun v => getBit e v = true) ⟨b.1, fun _ => Iff.rfl⟩
        (fun v hv => ((htype he v).1 hv).1)
      have hb' : ∀ v, getBit e' v = true ↔ IsType p v ∧ ¬ getBit e v = true := fun v => by
        rw [b'.2]
        by_cases hv : v < p.nprim
        · simp [hv]
        · simp only [hv, if_false]
          exact ⟨fun h => absurd (hlt v h) hv, fun h => absurd (isType_lt hp h.1) hv⟩
      refine ⟨e', g', b'.1, fun v hv => isType_lt hp ((hb' v).1 hv).1, fun _ v hv => ((hb' v).1 hv).1, fun x hx => ?_⟩
      constructor
      · rintro ⟨v, hv, hs⟩
        obtain ⟨k1, k2⟩ := (hb' v).1 hv
        rw [stands_type k1] at hs
        subst hs
        exact fun h => k2 ((htype he v).2 ⟨hx, h⟩)
      · intro h
        exact ⟨x, (hb' x).2 ⟨hx, fun hc => h ((htype he x).1 hc).2⟩, .inl rfl⟩
    | false =>
      simp only [Bool.false_eq_true, if_false]
      refine ⟨e, rfl, b.1, hlt, fun ha v hv => ((htype (by rw [← hexp, ha]; simp) v).1 hv).1, fun x hx => ?_⟩
      by_cases he : expand = true
      · constructor
        · rintro ⟨v, hv, hs⟩
          obtain ⟨k1, k2⟩ := (htype he v).1 hv
          rw [stands_type k1] at hs
          subst hs
          exact k2
        · intro h
          exact ⟨x, (htype he x).2 ⟨hx, h⟩, .inl rfl⟩
      · have hno : ∀ v, ¬ N v := fun v hv => by
          apply he
          rw [← hexp]
          have := node_ne_nil h2.1 ((h2.2 v).2 hv)
          simp [this]
        have hno2 : ∀ v, ¬ getBit e2 v = true := fun v hv => by
          obtain ⟨_, i, hi, _⟩ := (b2'.2 v).1 hv
          exact hno i hi
        constructor
        · rintro ⟨v, hv, hs⟩
          obtain ⟨⟨i, hi, ha⟩, _⟩ := (hb v).1 hv
          exact ⟨⟨i, hi, (adds_stands hp expand (hP i hi) hx).1 ⟨v, ha, hs⟩⟩, fun ⟨i, hi, _⟩ => hno i hi⟩
        · rintro ⟨⟨i, hi, hs⟩, _⟩
          obtain ⟨v, ha, hv⟩ := (adds_stands hp expand (hP i hi) hx).2 hs
          exact ⟨v, (hb v).2 ⟨⟨i, hi, ha⟩, hno2 v⟩, hv⟩

/-- `expand_convert_type_set`. -/
theorem convertTypeSet_ok {p : Types} (hp : TypesOk p) {map : List Nat} (hm : MapOk p map) {s : TypeSet} (hs : SetOk map s)
    (always : Bool) : ∃ e, convertTypeSet p map s always = .ok e ∧ WF e ∧ (∀ v, getBit e v = true → v < p.nprim) ∧
      (always = true → ∀ v, getBit e v = true → IsType p v) ∧
      ∀ x, IsType p x → ((∃ v, getBit e v = true ∧ Stands p v x) ↔ InSet p map s x) := by
  obtain ⟨e1, g1, b1⟩ := mapEbitmap_ok hp hm hs.1.1 hs.1.2
  obtain ⟨e2, g2, b2⟩ := mapEbitmap_ok hp hm hs.2.1 hs.2.2
  have hlt : ∀ e v, Named map e v → v < p.nprim := by
    rintro e v ⟨i, _, hi⟩
    have := hm _ (List.mem_of_getElem? hi)
    omega
  obtain ⟨e, g, h⟩ := typeSetExpand_ok hp (s := ⟨e1, e2, s.flags⟩) always b1 b2 (hlt _) (hlt _)
  refine ⟨e, ?_, h⟩
  simp only [convertTypeSet, g1, g2, Res.bind]
  exact g

end Verif.Expand
