import Verif.Mapping.Spec
import Mathlib.Data.List.Nodup

namespace Verif.Mapping

theorem bit_getLsbD {i : Nat} (j : Nat) (hi : i < 32) :
    (bit i).getLsbD j = decide (i = j) := by
  unfold bit
  rw [BitVec.getLsbD_shiftLeft, BitVec.getLsbD_one]
  by_cases h : i = j
  · subst h; simp [hi]
  · by_cases h1 : j < i
    · simp [h1, h]
    · have : ¬ j - i = 0 := by omega
      simp [h, this]

theorem bit_ne_zero {i : Nat} (hi : i < 32) : bit i ≠ 0 := by
  intro h
  have := bit_getLsbD i hi
  rw [h] at this
  simp at this

theorem ne_zero_iff (x : BitVec 32) : x ≠ 0 ↔ ∃ b, b < 32 ∧ x.getLsbD b = true := by
  constructor
  · intro h
    by_contra hc
    apply h
    apply BitVec.eq_of_getLsbD_eq
    intro b hb
    cases hx : x.getLsbD b with
    | false => simp
    | true => exact absurd ⟨b, hb, hx⟩ hc
  · rintro ⟨b, hb, h⟩ rfl
    simp at h

theorem and_bit {i : Nat} (x : BitVec 32) (hi : i < 32) : x &&& bit i ≠ 0 ↔ x.getLsbD i = true := by
  rw [ne_zero_iff]
  constructor
  · rintro ⟨b, hb, h⟩
    rw [BitVec.getLsbD_and, bit_getLsbD b hi] at h
    simp at h
    rw [h.2]; exact h.1
  · intro h
    exact ⟨i, hi, by rw [BitVec.getLsbD_and, bit_getLsbD i hi, h]; simp⟩

theorem bit_and {i : Nat} (x : BitVec 32) (hi : i < 32) : bit i &&& x ≠ 0 ↔ x.getLsbD i = true := by
  rw [BitVec.and_comm]; exact and_bit x hi

theorem bit_inj {i j : Nat} (hi : i < 32) (hj : j < 32) (h : bit i = bit j) : i = j := by
  have := bit_getLsbD j hi
  rw [h, bit_getLsbD j hj] at this
  simpa using this.symm

/-! ### The loops -/

theorem unmapLoop_bit (ps : List (BitVec 32)) (i : Nat) (t k : BitVec 32) (b : Nat)
    (hl : i + ps.length ≤ 32) :
    (unmapLoop ps i t k).getLsbD b = true ↔
      k.getLsbD b = true ∨ ∃ j p, ps[j]? = some p ∧ t.getLsbD (i + j) = true ∧ p.getLsbD b = true := by
  induction ps generalizing i t k with
  | nil => simp [unmapLoop]
  | cons p ps ih =>
    simp only [List.length_cons] at hl
    unfold unmapLoop
    split
    · rename_i h
      rw [and_bit _ (by omega)] at h
      rw [ih (i + 1) _ _ (by omega), BitVec.getLsbD_or, Bool.or_eq_true]
      constructor
      · rintro ((h1 | h1) | ⟨j, q, h1, h2, h3⟩)
        · exact Or.inl h1
        · exact Or.inr ⟨0, p, rfl, h, h1⟩
        · refine Or.inr ⟨j + 1, q, h1, ?_, h3⟩
          rw [BitVec.getLsbD_and] at h2
          simp only [Bool.and_eq_true] at h2
          rw [show i + (j + 1) = i + 1 + j by omega]
          exact h2.1
      · rintro (h1 | ⟨j, q, h1, h2, h3⟩)
        · exact Or.inl (Or.inl h1)
        · cases j with
          | zero => simp at h1; subst h1; exact Or.inl (Or.inr h3)
          | succ j =>
            have hj : j < ps.length := by
              simp only [List.getElem?_cons_succ] at h1
              exact (List.getElem?_eq_some_iff.1 h1).1
            refine Or.inr ⟨j, q, h1, ?_, h3⟩
            rw [BitVec.getLsbD_and, BitVec.getLsbD_not, bit_getLsbD _ (by omega)]
            rw [show i + (j + 1) = i + 1 + j by omega] at h2
            rw [h2]
            simp; omega
    · rename_i h
      rw [and_bit _ (by omega)] at h
      rw [ih (i + 1) _ _ (by omega)]
      constructor
      · rintro (h1 | ⟨j, q, h1, h2, h3⟩)
        · exact Or.inl h1
        · exact Or.inr ⟨j + 1, q, h1, by rw [show i + (j + 1) = i + 1 + j by omega]; exact h2, h3⟩
      · rintro (h1 | ⟨j, q, h1, h2, h3⟩)
        · exact Or.inl h1
        · cases j with
          | zero => exact absurd h2 h
          | succ j =>
            exact Or.inr ⟨j, q, h1, by rw [show i + 1 + j = i + (j + 1) by omega]; exact h2, h3⟩

theorem bitLoop_bit (f : BitVec 32 → Bool) (ps : List (BitVec 32)) (i : Nat) (r : BitVec 32)
    (b : Nat) (hl : i + ps.length ≤ 32) :
    (bitLoop f ps i r).getLsbD b = true ↔
      r.getLsbD b = true ∨ ∃ j p, ps[j]? = some p ∧ b = i + j ∧ f p = true := by
  induction ps generalizing i r with
  | nil => simp [bitLoop]
  | cons p ps ih =>
    simp only [List.length_cons] at hl
    unfold bitLoop
    rw [ih (i + 1) _ (by omega)]
    have hs : (if f p then r ||| bit i else r).getLsbD b = true ↔
        r.getLsbD b = true ∨ (b = i ∧ f p = true) := by
      cases hf : f p
      · simp
      · simp only [if_true, BitVec.getLsbD_or, Bool.or_eq_true, bit_getLsbD b (show i < 32 by omega),
          decide_eq_true_eq, and_true]
        rw [eq_comm (a := i)]
    rw [hs]
    constructor
    · rintro ((h | ⟨h, h'⟩) | ⟨j, q, h1, h2, h3⟩)
      · exact Or.inl h
      · exact Or.inr ⟨0, p, rfl, h, h'⟩
      · exact Or.inr ⟨j + 1, q, h1, by omega, h3⟩
    · rintro (h | ⟨j, q, h1, h2, h3⟩)
      · exact Or.inl (Or.inl h)
      · cases j with
        | zero => simp at h1; subst h1; exact Or.inl (Or.inr ⟨h2, h3⟩)
        | succ j => exact Or.inr ⟨j, q, h1, by omega, h3⟩

theorem restLoop_bit (k : Nat) (r : BitVec 32) (b : Nat) (hk : k ≤ 32) (hb : b < 32) :
    (restLoop k r).getLsbD b = true ↔ r.getLsbD b = true ∨ 32 - k ≤ b := by
  induction k generalizing r with
  | zero => simp [restLoop]; omega
  | succ k ih =>
    rw [restLoop, ih _ (by omega), BitVec.getLsbD_or, Bool.or_eq_true,
      bit_getLsbD b (by omega), decide_eq_true_eq]
    constructor
    · rintro ((h | h) | h)
      · exact Or.inl h
      · exact Or.inr (by omega)
      · exact Or.inr (by omega)
    · rintro (h | h)
      · exact Or.inl (Or.inl h)
      · by_cases e : 32 - (k + 1) = b
        · exact Or.inl (Or.inr e)
        · exact Or.inr (by omega)

/-- `map_perm` of one kernel permission: the first application permission with that value. -/
theorem mapPermLoop_none (ps : List (BitVec 32)) (i : Nat) (t : BitVec 32) :
    mapPermLoop ps i 0 t = t := by
  induction ps generalizing i with
  | nil => rfl
  | cons p ps ih =>
    unfold mapPermLoop
    rw [if_neg (by simp), ih]

theorem mapPermLoop_bit (ps : List (BitVec 32)) (i b : Nat) (hb : b < 32)
    (hp : ∀ p ∈ ps, p = 0 ∨ ∃ c, c < 32 ∧ p = bit c) :
    mapPermLoop ps i (bit b) 0 =
      match ps.findIdx? (fun p => p = bit b) with
      | some j => bit (i + j)
      | none => 0 := by
  induction ps generalizing i with
  | nil => rfl
  | cons p ps ih =>
    unfold mapPermLoop
    rw [List.findIdx?_cons]
    by_cases h : p = bit b
    · subst h
      rw [if_pos (by rw [bit_and _ hb, bit_getLsbD b hb]; simp)]
      rw [show bit b &&& ~~~(bit b) = 0 by simp, mapPermLoop_none]
      simp
    · rw [if_neg]
      · rw [ih (i + 1) (fun p hm => hp p (List.mem_cons_of_mem _ hm))]
        simp only [h, decide_false, Bool.false_eq_true, if_false]
        cases hf : ps.findIdx? (fun p => p = bit b) with
        | none => simp
        | some j => simp; rw [show i + 1 + j = i + (j + 1) by omega]
      · rcases hp p (List.mem_cons_self ..) with rfl | ⟨c, hc, rfl⟩
        · simp
        · rw [bit_and _ hb, bit_getLsbD b hc]
          simp
          rintro rfl; exact h rfl

theorem mapClassLoop_some {k : BitVec 16} {es : List Entry} {i j : Nat}
    (h : mapClassLoop k es i = some j) :
    ∃ n e, j = i + n ∧ es[n]? = some e ∧ e.value = k ∧
      ∀ m e', m < n → es[m]? = some e' → e'.value ≠ k := by
  induction es generalizing i with
  | nil => cases h
  | cons e es ih =>
    unfold mapClassLoop at h
    split at h
    · rename_i he
      cases h
      exact ⟨0, e, rfl, rfl, he, fun m e' hm => absurd hm (by omega)⟩
    · rename_i he
      obtain ⟨n, e', h1, h2, h3, h4⟩ := ih h
      refine ⟨n + 1, e', by omega, h2, h3, ?_⟩
      intro m e'' hm hx
      cases m with
      | zero => simp at hx; subst hx; exact he
      | succ m => exact h4 m e'' (by omega) hx

theorem mapClassLoop_none {k : BitVec 16} {es : List Entry} {i : Nat}
    (h : mapClassLoop k es i = none) : ∀ e ∈ es, e.value ≠ k := by
  induction es generalizing i with
  | nil => simp
  | cons e es ih =>
    unfold mapClassLoop at h
    split at h
    · cases h
    · rename_i he
      intro x hx
      rcases List.mem_cons.1 hx with rfl | hx
      · exact he
      · exact ih h x hx

/-! ### Names -/

theorem inj_of_nodup {α β : Type} {f : α → β} {l : List α} (h : (l.map f).Nodup) {a b : α}
    (ha : a ∈ l) (hb : b ∈ l) (e : f a = f b) : a = b := by
  induction l with
  | nil => cases ha
  | cons x l ih =>
    rw [List.map_cons, List.nodup_cons] at h
    rcases List.mem_cons.1 ha with ha1 | ha1
    · subst ha1
      rcases List.mem_cons.1 hb with hb1 | hb1
      · exact hb1.symm
      · exact absurd (List.mem_map.2 ⟨b, hb1, e.symm⟩) h.1
    · rcases List.mem_cons.1 hb with hb1 | hb1
      · subst hb1
        exact absurd (List.mem_map.2 ⟨a, ha1, e⟩) h.1
      · exact ih h.2 ha1 hb1

theorem find_name {kernel : List KClass} (ok : KernelOk kernel) {c : KClass} (hc : c ∈ kernel) :
    kernel.find? (fun n => n.name = c.name) = some c := by
  cases h : kernel.find? (fun n => n.name = c.name) with
  | none =>
    rw [List.find?_eq_none] at h
    exact absurd (by simp) (h c hc)
  | some n =>
    have h1 := List.find?_some h
    have h2 := List.mem_of_find?_eq_some h
    simp at h1
    rw [inj_of_nodup ok.names h2 hc h1]

/-- The result of a class lookup, with no mapping installed. -/
theorem stringToClass_raw {kernel : List KClass} (ok : KernelOk kernel) {l : Lib}
    (co : Coherent kernel l) (s : String) :
    ∃ n v, (stringToClass kernel l s).1 = { l with cache := n } ∧
      Coherent kernel (stringToClass kernel l s).1 ∧
      (stringToClass kernel l s).2 = v ∧
      (∀ x ∈ l.cache, x ∈ n) ∧
      ((∃ c ∈ kernel, c.name = s ∧ v = mapClass l.map c.value ∧ c ∈ n) ∨
        ((∀ c ∈ kernel, c.name ≠ s) ∧ v = 0)) := by
  unfold stringToClass
  cases h : l.cache.find? (fun n => n.name = s) with
  | some n =>
    have h1 := List.find?_some h
    have h2 := List.mem_of_find?_eq_some h
    simp at h1
    exact ⟨l.cache, _, rfl, co, rfl, fun x hx => hx, Or.inl ⟨n, co n h2, h1, rfl, h2⟩⟩
  | none =>
    cases hk : kernel.find? (fun n => n.name = s) with
    | some n =>
      have h1 := List.find?_some hk
      have h2 := List.mem_of_find?_eq_some hk
      simp at h1
      refine ⟨n :: l.cache, _, rfl, ?_, rfl, fun x hx => List.mem_cons_of_mem _ hx,
        Or.inl ⟨n, h2, h1, rfl, List.mem_cons_self ..⟩⟩
      intro x hx
      rcases List.mem_cons.1 hx with rfl | hx
      · exact h2
      · exact co x hx
    | none =>
      rw [List.find?_eq_none] at hk
      refine ⟨l.cache, 0, rfl, co, rfl, fun x hx => hx, Or.inr ⟨?_, rfl⟩⟩
      intro c hc e
      exact hk c hc (by simpa using e)

theorem cacheByValue_eq {kernel : List KClass} (ok : KernelOk kernel) {l : Lib}
    (co : Coherent kernel l) {c : KClass} (hc : c ∈ l.cache) :
    cacheByValue l c.value = some c := by
  unfold cacheByValue
  cases h : l.cache.find? (fun n => c.value = n.value) with
  | none =>
    rw [List.find?_eq_none] at h
    exact absurd (by simp) (h c hc)
  | some n =>
    have h1 := List.find?_some h
    have h2 := List.mem_of_find?_eq_some h
    simp at h1
    rw [inj_of_nodup ok.values (co _ h2) (co _ hc) h1.symm]

/-- The kernel's value of a permission name, 0 for an unknown one. -/
def pv (c : KClass) (s : String) : BitVec 32 :=
  match c.perms.findIdx? (fun p => p = s) with
  | some b => bit b
  | none => 0

theorem pv_known {c : KClass} (hn : c.perms.Nodup) {b : Nat} {s : String}
    (h : c.perms[b]? = some s) : pv c s = bit b := by
  unfold pv
  have : c.perms.findIdx? (fun p => p = s) = some b := by
    rw [List.findIdx?_eq_some_iff_getElem]
    obtain ⟨hb, hx⟩ := List.getElem?_eq_some_iff.1 h
    refine ⟨hb, by simp [hx], ?_⟩
    intro j hj
    simp
    intro e
    have := (List.Nodup.getElem_inj_iff hn (hi := by omega) (hj := hb)).1 (e.trans hx.symm)
    omega
  rw [this]

theorem pv_unknown {c : KClass} {s : String} (h : s ∉ c.perms) : pv c s = 0 := by
  unfold pv
  have : c.perms.findIdx? (fun p => p = s) = none := by
    rw [List.findIdx?_eq_none_iff]
    intro x hx
    simp
    rintro rfl; exact h hx
  rw [this]

theorem pv_cases {c : KClass} (hl : c.perms.length ≤ 32) (s : String) :
    (s ∉ c.perms ∧ pv c s = 0) ∨ ∃ b, b < 32 ∧ c.perms[b]? = some s ∧ pv c s = bit b := by
  by_cases h : s ∈ c.perms
  · right
    unfold pv
    cases hf : c.perms.findIdx? (fun p => p = s) with
    | none =>
      rw [List.findIdx?_eq_none_iff] at hf
      have := hf s h
      simp at this
    | some b =>
      rw [List.findIdx?_eq_some_iff_getElem] at hf
      obtain ⟨hb, hx, _⟩ := hf
      simp at hx
      exact ⟨b, by omega, by rw [List.getElem?_eq_getElem hb, hx], rfl⟩
  · exact Or.inl ⟨h, pv_unknown h⟩

theorem unmapClass_nil (c : BitVec 16) : unmapClass [] c = c := by simp [unmapClass]
theorem unmapPerm_nil (c : BitVec 16) (p : BitVec 32) : unmapPerm [] c p = p := by simp [unmapPerm]
theorem mapClass_nil (c : BitVec 16) : mapClass [] c = c := by simp [mapClass, mapClassLoop]
theorem mapPerm_nil (c : BitVec 16) (p : BitVec 32) : mapPerm [] c p = p := by simp [mapPerm]

theorem stringToPerm_raw {kernel : List KClass} (ok : KernelOk kernel) {l : Lib}
    (co : Coherent kernel l) (hm : l.map = []) {c : KClass} (hc : c ∈ l.cache) (s : String) :
    stringToPerm l c.value s = pv c s := by
  unfold stringToPerm
  rw [hm, unmapClass_nil, cacheByValue_eq ok co hc]
  dsimp only
  unfold pv
  cases c.perms.findIdx? (fun p => p = s) with
  | none => rfl
  | some i => dsimp only; rw [mapPerm_nil]

theorem permLoop_raw {kernel : List KClass} (ok : KernelOk kernel) {l : Lib}
    (co : Coherent kernel l) (hm : l.map = []) {c : KClass} (hc : c ∈ l.cache) (reject : Bool)
    (ss : List String) {ps : List (BitVec 32)} (h : permLoop l reject c.value ss = some ps) :
    ps = ss.map (pv c) ∧ (reject = true → ∀ s ∈ ss, s = "" ∨ s ∈ c.perms) := by
  have hk := co c hc
  obtain ⟨h1, h2, h3⟩ := ok.perms c hk
  induction ss generalizing ps with
  | nil => simp only [permLoop] at h; cases h; simp
  | cons s ss ih =>
    unfold permLoop at h
    split at h
    · rename_i he
      cases hr : permLoop l reject c.value ss with
      | none => rw [hr] at h; cases h
      | some qs =>
        rw [hr] at h
        cases h
        obtain ⟨rfl, h5⟩ := ih hr
        refine ⟨by rw [List.map_cons, he, pv_unknown h2], fun hj s' hs => ?_⟩
        rcases List.mem_cons.1 hs with rfl | hs
        · exact Or.inl he
        · exact h5 hj s' hs
    · rename_i he
      dsimp only at h
      rw [stringToPerm_raw ok co hm hc] at h
      split at h
      · cases h
      · rename_i hp
        cases hr : permLoop l reject c.value ss with
        | none => rw [hr] at h; cases h
        | some qs =>
          rw [hr] at h
          cases h
          obtain ⟨rfl, h5⟩ := ih hr
          refine ⟨by rw [List.map_cons], fun hj s' hs => ?_⟩
          rcases List.mem_cons.1 hs with rfl | hs
          · rcases pv_cases h3 s' with ⟨_, h6⟩ | ⟨b, _, h6, _⟩
            · exact absurd ⟨h6, hj⟩ hp
            · exact Or.inr (List.mem_of_getElem? h6)
          · exact h5 hj s' hs

/-- The entry that belongs to a class of the list. -/
def entryOf (kernel : List KClass) (r : String × List String) : Entry :=
  match kernel.find? (fun n => n.name = r.1) with
  | some c => ⟨c.value, r.2.map (pv c)⟩
  | none => ⟨0, []⟩

theorem classLoop_raw {kernel : List KClass} (ok : KernelOk kernel) (reject : Bool)
    (req : List (String × List String)) {l l' : Lib} (co : Coherent kernel l) (hm : l.map = [])
    {r : Option (List Entry)} (h : classLoop kernel reject l req = (l', r)) :
    Coherent kernel l' ∧ l'.map = [] ∧ (∀ x ∈ l.cache, x ∈ l'.cache) ∧
    (∀ es, r = some es → es = req.map (entryOf kernel) ∧
      (∀ q ∈ req, ∀ c ∈ kernel, c.name = q.1 → c ∈ l'.cache) ∧
      (reject = true → ∀ q ∈ req, ∃ c ∈ kernel, c.name = q.1 ∧ ∀ s ∈ q.2, s = "" ∨ s ∈ c.perms)) := by
  induction req generalizing l l' r with
  | nil =>
    simp only [classLoop] at h
    cases h
    exact ⟨co, hm, fun x hx => hx, by rintro es h; cases h; simp⟩
  | cons q req ih =>
    obtain ⟨name, perms⟩ := q
    unfold classLoop at h
    obtain ⟨n, v, h1, h2, h3, h4, h5⟩ := stringToClass_raw ok co name
    cases hs : stringToClass kernel l name with
    | mk l1 v1 =>
      rw [hs] at h h1 h2 h3
      dsimp only at h h1 h2 h3
      subst h3
      have hm1 : l1.map = [] := by rw [h1]; exact hm
      have hc1 : l1.cache = n := by rw [h1]
      rw [hm] at h5
      split at h
      · rename_i hv
        have hk : ∀ c ∈ kernel, c.name ≠ name := by
          rcases h5 with ⟨c, hc, _, h6, _⟩ | ⟨h6, _⟩
          · rw [mapClass_nil, hv] at h6
            exact absurd h6.symm (ok.nonzero c hc)
          · exact h6
        split at h
        · cases h
          exact ⟨h2, hm1, by rw [hc1]; exact h4, by rintro es h; cases h⟩
        · rename_i hr
          cases hl : classLoop kernel reject l1 req with
          | mk l2 r2 =>
            rw [hl] at h
            cases h
            obtain ⟨a, b, c, d⟩ := ih h2 hm1 hl
            refine ⟨a, b, fun x hx => c x (by rw [hc1]; exact h4 x hx), ?_⟩
            intro es he
            cases r2 with
            | none => cases he
            | some es2 =>
              cases he
              obtain ⟨rfl, d2, d3⟩ := d es2 rfl
              have hfn : kernel.find? (fun n => n.name = name) = none := by
                rw [List.find?_eq_none]; intro x hx; simpa using hk x hx
              refine ⟨by simp [entryOf, hfn], ?_, fun h => absurd h hr⟩
              intro q hq x hx hxn
              rcases List.mem_cons.1 hq with rfl | hq
              · exact absurd hxn (hk x hx)
              · exact d2 q hq x hx hxn
      · rename_i hv
        obtain ⟨c0, hc0, hn0, hv0, hmem⟩ : ∃ c ∈ kernel, c.name = name ∧ v1 = c.value ∧ c ∈ n := by
          rcases h5 with ⟨c, hc, h6, h7, h8⟩ | ⟨_, h6⟩
          · exact ⟨c, hc, h6, by rw [h7, mapClass_nil], h8⟩
          · exact absurd h6 hv
        rw [hv0] at h
        cases hp : permLoop l1 reject c0.value perms with
        | none =>
          rw [hp] at h
          cases h
          exact ⟨h2, hm1, by rw [hc1]; exact h4, by rintro es h; cases h⟩
        | some ps =>
          rw [hp] at h
          dsimp only at h
          obtain ⟨rfl, hpr⟩ := permLoop_raw ok h2 hm1 (by rw [hc1]; exact hmem) reject perms hp
          cases hl : classLoop kernel reject l1 req with
          | mk l2 r2 =>
            rw [hl] at h
            cases h
            obtain ⟨a, b, c, d⟩ := ih h2 hm1 hl
            refine ⟨a, b, fun x hx => c x (by rw [hc1]; exact h4 x hx), ?_⟩
            intro es he
            cases r2 with
            | none => cases he
            | some es2 =>
              cases he
              obtain ⟨rfl, d2, d3⟩ := d es2 rfl
              have hfn : kernel.find? (fun n => n.name = name) = some c0 := by
                rw [← hn0]; exact find_name ok hc0
              refine ⟨by simp [entryOf, hfn], ?_, ?_⟩
              · intro q hq x hx hxn
                rcases List.mem_cons.1 hq with rfl | hq
                · dsimp only at hxn
                  rw [inj_of_nodup ok.names hx hc0 (hxn.trans hn0.symm)]
                  exact c c0 (by rw [hc1]; exact hmem)
                · exact d2 q hq x hx hxn
              · intro hr q hq
                rcases List.mem_cons.1 hq with rfl | hq
                · exact ⟨c0, hc0, hn0, hpr hr⟩
                · exact d3 hr q hq

/-- A successful `selinux_set_mapping`. -/
theorem setMapping_ok {kernel : List KClass} (ok : KernelOk kernel) {l l' : Lib}
    (co : Coherent kernel l) {reset mem : Bool} {rej : Int} {req : List (String × List String)}
    (h : setMapping kernel reset mem rej l req = some (l', true)) :
    req.length < 65535 ∧ (∀ q ∈ req, q.2.length ≤ 32) ∧ Coherent kernel l' ∧
    l'.map = ⟨0, []⟩ :: req.map (entryOf kernel) ∧
    (∀ q ∈ req, ∀ c ∈ kernel, c.name = q.1 → c ∈ l'.cache) ∧
    (rej = 1 → ∀ q ∈ req, ∃ c ∈ kernel, c.name = q.1 ∧ ∀ s ∈ q.2, s = "" ∨ s ∈ c.perms) := by
  unfold setMapping at h
  dsimp only at h
  split at h
  · simp at h
  · split at h
    · cases h
    · rename_i hlen
      split at h
      · simp at h
      · cases hl : classLoop kernel (rej = 1) { l with map := [] } req with
        | mk l1 r =>
          rw [hl] at h
          cases r with
          | none => simp at h
          | some es =>
            simp only [Option.some.injEq, Prod.mk.injEq, and_true] at h
            subst h
            obtain ⟨a, b, c, d⟩ := classLoop_raw ok (decide (rej = 1)) req (l := { l with map := [] })
              (by exact co) rfl hl
            obtain ⟨rfl, d2, d3⟩ := d es rfl
            push Not at hlen
            exact ⟨by omega, fun q hq => by have := hlen.2 q hq; omega, a, rfl, d2, fun hr => d3 (by simpa using hr)⟩

end Verif.Mapping
