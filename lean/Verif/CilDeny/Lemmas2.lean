import Verif.CilDeny.Lemmas

/-!
# Lemmas on types and attributes
-/

namespace Verif.CilDeny
open Ebitmap (Ebitmap)

/-- A bitmap for a set of types. -/
def BOk (e : Ebitmap) (S : Nat → Prop) : Prop := Ebitmap.WF e ∧ ∀ t, Ebitmap.getBit e t = true ↔ S t

theorem BOk.congr {e : Ebitmap} {S T : Nat → Prop} (h : BOk e S) (hs : ∀ t, S t ↔ T t) : BOk e T :=
  ⟨h.1, fun t => (h.2 t).trans (hs t)⟩

theorem init_ok : BOk Ebitmap.init fun _ => False :=
  ⟨(Ebitmap.wf_iff_inv _).2 ⟨trivial, rfl, by decide⟩,
    fun n => by simp [Ebitmap.getBit, Ebitmap.init, Ebitmap.getBitNodes]⟩

theorem setTrue_ok {a : Ebitmap} {S : Nat → Prop} (ha : BOk a S) {v : Nat} (hv : v < 2 ^ 31) :
    ∃ e, setBit a v true = .ok e ∧ BOk e fun n => S n ∨ n = v := by
  obtain ⟨e, h1, h2, h3⟩ := (Ebitmap.C01_set_bit ha.1 v (by omega) true).1 (by omega)
  refine ⟨e, by simp [setBit, h1], h2, fun n => ?_⟩
  show _ ↔ S n ∨ n = v
  rw [h3, ← ha.2]
  by_cases h : n = v <;> simp [h]

theorem single_ok {v : Nat} (hv : v < 2 ^ 31) : ∃ e, setBit Ebitmap.init v true = .ok e ∧ BOk e fun n => n = v := by
  obtain ⟨e, h1, h2⟩ := setTrue_ok init_ok hv
  exact ⟨e, h1, h2.congr fun n => by simp⟩

theorem setFalse_ok {a : Ebitmap} {S : Nat → Prop} (ha : BOk a S) {v : Nat} (hv : v < 2 ^ 31) :
    ∃ e, setBit a v false = .ok e ∧ BOk e fun n => S n ∧ n ≠ v := by
  obtain ⟨e, h1, h2, h3⟩ := (Ebitmap.C01_set_bit ha.1 v (by omega) false).1 (by omega)
  refine ⟨e, by simp [setBit, h1], h2, fun n => ?_⟩
  show _ ↔ S n ∧ n ≠ v
  rw [h3, ← ha.2]
  by_cases h : n = v <;> simp [h]

theorem and_ok {a b : Ebitmap} {S T : Nat → Prop} (ha : BOk a S) (hb : BOk b T) :
    BOk (Ebitmap.and a b) fun n => S n ∧ T n := by
  obtain ⟨w, hw⟩ := (Ebitmap.C02_or_and_xor ha.1 hb.1).2.2.1
  exact ⟨w, fun n => by rw [hw, Bool.and_eq_true, ha.2, hb.2]⟩

theorem not_ok {a : Ebitmap} {S : Nat → Prop} (ha : BOk a S) {max : Nat} (hm : max < 2 ^ 31) :
    ∃ e, complement a max = .ok e ∧ BOk e fun n => n < max ∧ ¬ S n := by
  obtain ⟨r, h1, h2, h3⟩ := (Ebitmap.C02_not_andnot_partial ha.1 ha.1 (maxbit := max) (by omega) (Nat.le_refl _)).1
  refine ⟨r, by simp [complement, h1], h2, fun n => ?_⟩
  show _ ↔ n < max ∧ ¬ S n
  rw [h3, ← ha.2]
  simp

theorem highbit_le {a : Ebitmap} (h : Ebitmap.Inv a) : a.highbit ≤ 2 ^ 32 - 64 := by
  have h1 := h.high
  have h2 := h.small
  have h3 := ((Ebitmap.WFN_iff _ _).1 h.nodes).2.1
  have : a.highbit % 64 = 0 := by
    rw [h1]
    clear h1 h2 h
    generalize a.node = l at h3
    induction l with
    | nil => rfl
    | cons n t ih =>
      cases t with
      | nil =>
        have := h3 n (by simp)
        simp only [Ebitmap.lastEnd]
        omega
      | cons m t => exact ih fun x hx => h3 x (List.mem_cons_of_mem _ hx)
  omega

theorem andnot_ok {a b : Ebitmap} {S T : Nat → Prop} (ha : BOk a S) (hb : BOk b T) :
    ∃ e, Ebitmap.andnotFuel ((a.highbit + 63) / 64 + 1) a b a.highbit = some e ∧ BOk e fun n => S n ∧ ¬ T n := by
  have i := (Ebitmap.wf_iff_inv a).1 ha.1
  obtain ⟨r, h1, h2, h3⟩ := (Ebitmap.C02_not_andnot_partial ha.1 hb.1 (maxbit := a.highbit)
    (highbit_le i) (Nat.le_refl _)).2
  refine ⟨r, h1, h2, fun n => ?_⟩
  show _ ↔ S n ∧ ¬ T n
  rw [h3, ← ha.2, ← hb.2]
  simp only [Bool.and_eq_true, decide_eq_true_eq, Bool.not_eq_true', Bool.not_eq_true]
  constructor
  · exact fun h => ⟨h.1, h.2.2⟩
  · exact fun h => ⟨h.1, Ebitmap.getBit_lt_high i h.1, h.2⟩

theorem isEmpty_ok {a : Ebitmap} {S : Nat → Prop} (ha : BOk a S) : isEmpty a = true ↔ ∀ t, ¬ S t := by
  constructor
  · intro he t ht
    have := (ha.2 t).2 ht
    unfold isEmpty at he
    rw [List.isEmpty_iff] at he
    unfold Ebitmap.getBit at this
    rw [he] at this
    simp [Ebitmap.getBitNodes] at this
  · intro hb
    have := Ebitmap.C03_canonical ha.1 init_ok.1 (fun b => by
      rw [Bool.eq_iff_iff, ha.2, init_ok.2]
      exact iff_of_false (hb b) id)
    rw [this]; rfl

theorem bits_ok {a : Ebitmap} {S : Nat → Prop} (ha : BOk a S) : ∃ l, bits a = .ok l ∧ ∀ t, t ∈ l ↔ S t := by
  have i := (Ebitmap.wf_iff_inv a).1 ha.1
  refine ⟨(List.range (2 ^ 32)).filter (Ebitmap.getBit a), ?_, fun t => ?_⟩
  · unfold bits
    rw [Ebitmap.C04_for_each_positive_bit ha.1 (Nat.le_refl _)]
  · rw [List.mem_filter, List.mem_range, ha.2]
    exact ⟨fun h => h.2, fun h => ⟨Nat.lt_trans (Ebitmap.getBit_lt_high i ((ha.2 t).2 h)) i.small, h⟩⟩

theorem matchAny_ok {a b : Ebitmap} {S T : Nat → Prop} (ha : BOk a S) (hb : BOk b T) :
    Ebitmap.matchAny a b = true ↔ ∃ t, S t ∧ T t := by
  rw [(Ebitmap.C03_relations ha.1 hb.1).2.2]
  simp only [ha.2, hb.2]

theorem card_le {a : Ebitmap} {S : Nat → Prop} (ha : BOk a S) (h : ¬ Ebitmap.cardinality a > 1) {x y : Nat}
    (hx : S x) (hy : S y) : x = y := by
  obtain ⟨l, h1, h2⟩ : ∃ l : List Nat, l.length = Ebitmap.cardinality a ∧ ∀ t, t ∈ l ↔ S t := by
    have i := (Ebitmap.wf_iff_inv a).1 ha.1
    refine ⟨(List.range (2 ^ 32)).filter (Ebitmap.getBit a), ?_, fun t => ?_⟩
    · rw [Ebitmap.C03_cardinality ha.1, List.countP_eq_length_filter]
    · rw [List.mem_filter, List.mem_range, ha.2]
      exact ⟨fun h => h.2, fun h => ⟨Nat.lt_trans (Ebitmap.getBit_lt_high i ((ha.2 t).2 h)) i.small, h⟩⟩
  rw [← h1] at h
  rw [← h2] at hx hy
  match l, h, hx, hy with
  | [], _, hx, _ => cases hx
  | [z], _, hx, hy => rw [List.mem_singleton] at hx hy; rw [hx, hy]
  | _ :: _ :: _, h, _, _ => exact absurd (by simp) h

/-! ### Symbols -/

theorem Datum.Ok.bits {n : Nat} {t i : Nat} {a : Ebitmap} (h : (Datum.attr t i a).Ok n) :
    BOk a (Datum.attr t i a).Mem := ⟨h.1, fun _ => Iff.rfl⟩

theorem Datum.Ok.lt {n : Nat} {d : Datum} (h : d.Ok n) {t : Nat} (ht : d.Mem t) : t < n := by
  cases d with
  | type v => rw [show t = v from ht]; exact h
  | attr _ _ a => exact h.2 t ht

theorem typeMatchAny_ok {n : Nat} {d1 d2 : Datum} (h1 : d1.Ok n) (h2 : d2.Ok n) {t : Nat}
    (m1 : d1.Mem t) (m2 : d2.Mem t) : typeMatchAny d1 d2 = true := by
  cases d1 with
  | type a =>
    have e1 : t = a := m1
    cases d2 with
    | type b => have e2 : t = b := m2; simp [typeMatchAny, ← e1, ← e2]
    | attr _ _ b => rw [typeMatchAny, ← e1]; exact m2
  | attr _ _ a =>
    cases d2 with
    | type b => have e2 : t = b := m2; rw [typeMatchAny, ← e2]; exact m1
    | attr _ _ b =>
      rw [typeMatchAny]
      split
      · rfl
      · exact (matchAny_ok h1.bits h2.bits).2 ⟨t, m1, m2⟩

theorem typeMatches_ok {n : Nat} (hn : n < 2 ^ 31) {d1 d2 : Datum} (h1 : d1.Ok n) (h2 : d2.Ok n) :
    ∃ e, typeMatches d1 d2 = .ok e ∧ BOk e fun t => d1.Mem t ∧ d2.Mem t := by
  cases d1 with
  | type a =>
    have l1 : a < n := h1
    cases d2 with
    | type b =>
      rw [typeMatches]
      by_cases h : a = b
      · obtain ⟨e, he, ho⟩ := single_ok (v := a) (by omega)
        refine ⟨e, by simp [h ▸ he, h], ho.congr fun t => ?_⟩
        simp [Datum.Mem, h]
      · refine ⟨_, by simp [h], init_ok.congr fun t => ?_⟩
        simp only [Datum.Mem, false_iff]
        rintro ⟨rfl, rfl⟩; exact h rfl
    | attr _ _ b =>
      rw [typeMatches]
      by_cases h : Ebitmap.getBit b a = true
      · obtain ⟨e, he, ho⟩ := single_ok (v := a) (by omega)
        refine ⟨e, by simp [he, h], ho.congr fun t => ?_⟩
        simp only [Datum.Mem]
        constructor
        · rintro rfl; exact ⟨rfl, h⟩
        · exact fun h => h.1
      · refine ⟨_, by simp [h], init_ok.congr fun t => ?_⟩
        simp only [Datum.Mem, false_iff]
        rintro ⟨rfl, h'⟩; exact h h'
  | attr _ _ a =>
    cases d2 with
    | type b =>
      have l2 : b < n := h2
      rw [typeMatches]
      by_cases h : Ebitmap.getBit a b = true
      · obtain ⟨e, he, ho⟩ := single_ok (v := b) (by omega)
        refine ⟨e, by simp [he, h], ho.congr fun t => ?_⟩
        simp only [Datum.Mem]
        constructor
        · rintro rfl; exact ⟨h, rfl⟩
        · exact fun h => h.2
      · refine ⟨_, by simp [h], init_ok.congr fun t => ?_⟩
        simp only [Datum.Mem, false_iff]
        rintro ⟨h', rfl⟩; exact h h'
    | attr _ _ b => exact ⟨_, rfl, and_ok h1.bits h2.bits⟩

theorem datumsAnd_eq (d1 d2 : Datum) : datumsAnd d1 d2 = typeMatches d1 d2 := by
  cases d1 <;> cases d2 <;> rfl

theorem datumsAndnot_ok {n : Nat} (hn : n < 2 ^ 31) {d1 d2 : Datum} (h1 : d1.Ok n) (h2 : d2.Ok n) :
    ∃ e, datumsAndnot d1 d2 = .ok e ∧ BOk e fun t => d1.Mem t ∧ ¬ d2.Mem t := by
  cases d1 with
  | type a =>
    have l1 : a < n := h1
    cases d2 with
    | type b =>
      rw [datumsAndnot]
      by_cases h : a = b
      · refine ⟨_, by simp [h], init_ok.congr fun t => ?_⟩
        simp [Datum.Mem, h]
      · obtain ⟨e, he, ho⟩ := single_ok (v := a) (by omega)
        refine ⟨e, by simp [he, h], ho.congr fun t => ?_⟩
        simp only [Datum.Mem]
        constructor
        · rintro rfl; exact ⟨rfl, h⟩
        · exact fun h => h.1
    | attr _ _ b =>
      rw [datumsAndnot]
      by_cases h : Ebitmap.getBit b a = true
      · refine ⟨_, by simp [h], init_ok.congr fun t => ?_⟩
        simp only [Datum.Mem, false_iff]
        rintro ⟨rfl, h'⟩; exact h' h
      · obtain ⟨e, he, ho⟩ := single_ok (v := a) (by omega)
        refine ⟨e, by simp [he, h], ho.congr fun t => ?_⟩
        simp only [Datum.Mem]
        constructor
        · rintro rfl; exact ⟨rfl, h⟩
        · exact fun h => h.1
  | attr _ _ a =>
    cases d2 with
    | type b =>
      have l2 : b < n := h2
      rw [datumsAndnot, Ebitmap.cpy_eq]
      exact setFalse_ok h1.bits (by omega)
    | attr _ _ b =>
      obtain ⟨e, he, ho⟩ := andnot_ok h1.bits h2.bits
      exact ⟨e, by simp [datumsAndnot, he], ho⟩

theorem datumNot_ok {n : Nat} (hn : n < 2 ^ 31) {d : Datum} (h : d.Ok n) :
    ∃ e, datumNot d n = .ok e ∧ BOk e fun t => t < n ∧ ¬ d.Mem t := by
  cases d with
  | type v =>
    have l : v < n := h
    obtain ⟨e, he, ho⟩ := single_ok (v := v) (by omega)
    obtain ⟨e', he', ho'⟩ := not_ok ho hn
    exact ⟨e', by simp [datumNot, he, he'], ho'⟩
  | attr _ _ a =>
    obtain ⟨e', he', ho'⟩ := not_ok h.bits hn
    exact ⟨e', by simp [datumNot, he'], ho'⟩

/-! ### New attributes -/

/-- The types of a symbol that there may not be. -/
def OMem : Option Datum → Nat → Prop
  | none, _ => False
  | some d, t => d.Mem t

def OOk (n : Nat) (o : Option Datum) : Prop := ∀ d, o = some d → d.Ok n

/-- A function that finds or creates a symbol for a set of types does so. -/
def Makes (db : Db) (S : Nat → Prop) (r : Except Stop (Db × Option Datum)) : Prop :=
  ∃ db' o, r = .ok (db', o) ∧ DbOk db' ∧ db'.numTypes = db.numTypes ∧ OOk db.numTypes o ∧ ∀ t, OMem o t ↔ S t

theorem Makes.congr {db : Db} {S T : Nat → Prop} {r} (h : Makes db S r) (hs : ∀ t, S t ↔ T t) : Makes db T r := by
  obtain ⟨db', o, h1, h2, h3, h4, h5⟩ := h
  exact ⟨db', o, h1, h2, h3, h4, fun t => (h5 t).trans (hs t)⟩

theorem findIn_ok {db : Db} (table : Nat) (types : Ebitmap) {d : Datum} (h : db.findIn table types = some d) :
    d ∈ db.attrs ∧ ∃ t i a, d = .attr t i a ∧ Ebitmap.cmp types a = true := by
  unfold Db.findIn at h
  have key : ∀ (l : List Datum) (x : Option Datum),
      l.foldl (fun found d =>
        match d with
        | .attr t _ a => if t = table ∧ Ebitmap.cmp types a = true then some d else found
        | .type _ => found) x = some d →
      x = some d ∨ (d ∈ l ∧ ∃ t i a, d = .attr t i a ∧ Ebitmap.cmp types a = true) := by
    intro l
    induction l with
    | nil => exact fun x h => .inl h
    | cons y ys ih =>
      intro x h
      rw [List.foldl_cons] at h
      rcases ih _ h with h | ⟨h1, h2⟩
      · cases y with
        | type v => exact .inl h
        | attr t i a =>
          simp only at h
          split at h
          · rename_i hc
            cases h
            exact .inr ⟨List.mem_cons_self, t, i, a, rfl, hc.2⟩
          · exact .inl h
      · exact .inr ⟨List.mem_cons_of_mem _ h1, h2⟩
  rcases key _ _ h with h | h
  · cases h
  · exact h

theorem previous_ok {db : Db} (types : Ebitmap) (d0 : Datum) {d : Datum} (h : db.previous types d0 = some d) :
    d ∈ db.attrs ∧ ∃ t i a, d = .attr t i a ∧ Ebitmap.cmp types a = true := by
  unfold Db.previous at h
  split at h
  · rename_i hd
    cases h
    split at hd
    · exact findIn_ok _ _ hd
    · cases hd
  · exact findIn_ok _ _ h

theorem attrFor_ok {db : Db} (ok : DbOk db) {types : Ebitmap} {S : Nat → Prop} (h : BOk types S)
    (hs : ∀ t, S t → t < db.numTypes) (d : Datum) : Makes db S (db.attrFor types d) := by
  unfold Db.attrFor
  by_cases he : isEmpty types = true
  · rw [if_pos he]
    have := (isEmpty_ok h).1 he
    exact ⟨db, none, rfl, ok, rfl, fun _ h => by (cases h), fun t => iff_of_false id (this t)⟩
  · rw [if_neg he]
    obtain ⟨x, hx⟩ : ∃ x, S x := by
      by_contra hc
      exact he ((isEmpty_ok h).2 fun t ht => hc ⟨t, ht⟩)
    by_cases hc : Ebitmap.cardinality types = 1
    · rw [if_pos hc]
      have hh := (Ebitmap.C03_highest h.1 ⟨x, (h.2 x).2 hx⟩).1
      have hS := (h.2 _).1 hh
      rw [if_pos (hs _ hS)]
      refine ⟨db, _, rfl, ok, rfl, fun d h => by cases h; exact hs _ hS, fun t => ?_⟩
      show t = _ ↔ S t
      constructor
      · rintro rfl; exact hS
      · exact fun ht => card_le h (by omega) ht hS
    · rw [if_neg hc]
      split
      · rename_i a ha
        obtain ⟨h1, t, i, b, rfl, h2⟩ := previous_ok _ _ ha
        have ho := ok.attrs _ h1
        refine ⟨db, _, rfl, ok, rfl, fun d h => by cases h; exact ho, fun t => ?_⟩
        rw [← h.2, ((Ebitmap.C03_relations h.1 ho.1).1.1 h2 t)]
        rfl
      · unfold Db.newAttr
        simp only
        rw [if_neg (ok.free _ _ (Nat.le_refl _))]
        have ho : (Datum.attr (db.tableOf d) db.nextId types).Ok db.numTypes :=
          ⟨h.1, fun t ht => hs t ((h.2 t).1 ht)⟩
        refine ⟨_, _, rfl, ⟨ok.small, fun d hd => ?_, fun t k hk hm => ?_⟩, rfl, fun d h => by cases h; exact ho,
          fun t => h.2 t⟩
        · simp only [List.mem_append, List.mem_singleton] at hd
          rcases hd with hd | rfl
          · exact ok.attrs _ hd
          · exact ho
        · simp only [List.mem_cons, Prod.mk.injEq] at hm
          simp only at hk
          rcases hm with hm | hm
          · omega
          · exact ok.free t k (by omega) hm

theorem allAndNot_ok {db : Db} (ok : DbOk db) {d : Datum} (h : d.Ok db.numTypes) :
    Makes db (fun t => t < db.numTypes ∧ ¬ d.Mem t) (db.allAndNot (some d)) := by
  obtain ⟨e, he, ho⟩ := datumNot_ok ok.small h
  simp only [Db.allAndNot, he]
  exact attrFor_ok ok ho (fun t h => h.1) d

theorem andNot_ok {db : Db} (ok : DbOk db) {o1 o2 : Option Datum} (h1 : OOk db.numTypes o1) (h2 : OOk db.numTypes o2) :
    Makes db (fun t => OMem o1 t ∧ ¬ OMem o2 t) (db.andNot o1 o2) := by
  cases o2 with
  | none =>
    cases o1 <;> exact ⟨db, _, rfl, ok, rfl, h1, fun t => by simp [OMem]⟩
  | some d2 =>
    cases o1 with
    | none => exact ⟨db, _, rfl, ok, rfl, h1, fun t => by simp [OMem]⟩
    | some d1 =>
      unfold Db.andNot
      simp only
      split
      · rename_i hd
        subst hd
        exact ⟨db, none, rfl, ok, rfl, fun _ h => (by cases h), fun t => by simp [OMem]⟩
      · obtain ⟨e, he, ho⟩ := datumsAndnot_ok ok.small (h1 _ rfl) (h2 _ rfl)
        simp only [he]
        exact attrFor_ok ok ho (fun t h => (h1 _ rfl).lt h.1) d1

theorem both_ok {db : Db} (ok : DbOk db) {o1 o2 : Option Datum} (h1 : OOk db.numTypes o1) (h2 : OOk db.numTypes o2) :
    Makes db (fun t => OMem o1 t ∧ OMem o2 t) (db.both o1 o2) := by
  unfold Db.both
  split
  · rename_i hd
    subst hd
    exact ⟨db, _, rfl, ok, rfl, h1, fun t => by simp⟩
  · cases o1 with
    | none => exact ⟨db, none, rfl, ok, rfl, fun _ h => (by cases h), fun t => by simp [OMem]⟩
    | some d1 =>
      cases o2 with
      | none => exact ⟨db, none, rfl, ok, rfl, fun _ h => (by cases h), fun t => by simp [OMem]⟩
      | some d2 =>
        obtain ⟨e, he, ho⟩ := typeMatches_ok ok.small (h1 _ rfl) (h2 _ rfl)
        simp only [datumsAnd_eq, he]
        exact attrFor_ok ok ho (fun t h => (h1 _ rfl).lt h.1) d1

theorem datumCard {n : Nat} {o : Option Datum} (h : OOk n o) (hc : ¬ datumCardinality o > 1) {x y : Nat}
    (hx : OMem o x) (hy : OMem o y) : x = y := by
  cases o with
  | none => cases hx
  | some d =>
    cases d with
    | type v => rw [show x = v from hx, show y = v from hy]
    | attr t i a => exact card_le (h _ rfl).bits hc hx hy

end Verif.CilDeny
