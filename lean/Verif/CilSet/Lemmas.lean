import Verif.CilSet.Spec
import Verif.Ebitmap.Props
import Verif.Prelude

/-!
# Lemmas on the evaluation of set expressions
-/

namespace Verif.CilSet
open Ebitmap (Ebitmap)

/-- Nothing stored is lost or changed. -/
def Ext (m m' : Memo) : Prop :=
  (∀ d e, m.bits d = some e → m'.bits d = some e) ∧ ∀ d l, m.cats d = some l → m'.cats d = some l

theorem Ext.refl (m : Memo) : Ext m m := ⟨fun _ _ h => h, fun _ _ h => h⟩

theorem Ext.trans {a b c : Memo} (h1 : Ext a b) (h2 : Ext b c) : Ext a c :=
  ⟨fun d e h => h2.1 d e (h1.1 d e h), fun d l h => h2.2 d l (h1.2 d l h)⟩

/-- The evaluation gives the set, or fails although `P` does not hold. -/
def Post (db : Db) (ρ : Nat → Nat → Prop) (P : Prop) (m : Memo) (S : Nat → Prop)
    (r : Res (Memo × Ebitmap)) : Prop :=
  (∃ m' e, r = some (.ok (m', e)) ∧ Good db ρ m' ∧ Ext m m' ∧ BitsOk e S) ∨
    (¬ P ∧ r = some (.error .err))

theorem init_ok : BitsOk Ebitmap.init fun _ => False :=
  ⟨(Ebitmap.wf_iff_inv _).2 ⟨trivial, rfl, by decide⟩, fun n => by simp [Ebitmap.getBit, Ebitmap.init, Ebitmap.getBitNodes]⟩

theorem BitsOk.congr {e : Ebitmap} {S T : Nat → Prop} (h : BitsOk e S) (hs : ∀ n, S n ↔ T n) : BitsOk e T :=
  ⟨h.1, fun n => (h.2 n).trans (hs n)⟩

theorem union_ok {a b : Ebitmap} {S T : Nat → Prop} (ha : BitsOk a S) (hb : BitsOk b T) :
    BitsOk (Ebitmap.union a b) fun n => S n ∨ T n := by
  obtain ⟨w, hw⟩ := (Ebitmap.C02_or_and_xor ha.1 hb.1).2.1
  exact ⟨w, fun n => by rw [hw, Bool.or_eq_true, ha.2, hb.2]⟩

theorem or_ok {a b : Ebitmap} {S T : Nat → Prop} (ha : BitsOk a S) (hb : BitsOk b T) :
    BitsOk (Ebitmap.or a b) fun n => S n ∨ T n := union_ok ha hb

theorem copy_ok {a : Ebitmap} {S : Nat → Prop} (ha : BitsOk a S) :
    BitsOk (Ebitmap.union Ebitmap.init a) S :=
  (union_ok init_ok ha).congr fun n => by simp

theorem and_ok {a b : Ebitmap} {S T : Nat → Prop} (ha : BitsOk a S) (hb : BitsOk b T) :
    BitsOk (Ebitmap.and a b) fun n => S n ∧ T n := by
  obtain ⟨w, hw⟩ := (Ebitmap.C02_or_and_xor ha.1 hb.1).2.2.1
  exact ⟨w, fun n => by rw [hw, Bool.and_eq_true, ha.2, hb.2]⟩

theorem xor_ok {a b : Ebitmap} {S T : Nat → Prop} (ha : BitsOk a S) (hb : BitsOk b T) :
    BitsOk (Ebitmap.xor a b) fun n => ¬ (S n ↔ T n) := by
  obtain ⟨w, hw⟩ := (Ebitmap.C02_or_and_xor ha.1 hb.1).2.2.2
  refine ⟨w, fun n => ?_⟩
  show _ ↔ ¬ (S n ↔ T n)
  rw [hw, ← ha.2, ← hb.2]
  cases Ebitmap.getBit a n <;> cases Ebitmap.getBit b n <;> simp

theorem not_ok {a : Ebitmap} {S : Nat → Prop} (ha : BitsOk a S) {max : Nat} (hm : max < 2 ^ 31) :
    ∃ e, complement a max = some e ∧ BitsOk e fun n => n < max ∧ ¬ S n := by
  obtain ⟨r, h1, h2, h3⟩ := (Ebitmap.C02_not_andnot_partial ha.1 ha.1 (maxbit := max) (by omega) (Nat.le_refl _)).1
  refine ⟨r, h1, h2, fun n => ?_⟩
  show _ ↔ n < max ∧ ¬ S n
  rw [h3, ← ha.2]
  simp

theorem set_ok {a : Ebitmap} {S : Nat → Prop} (ha : BitsOk a S) {v : Nat} (hv : v < 2 ^ 31) :
    ∃ e, setBit a v = .ok e ∧ BitsOk e fun n => S n ∨ n = v := by
  obtain ⟨e, h1, h2, h3⟩ := (Ebitmap.C01_set_bit ha.1 v (by omega) true).1 (by omega)
  refine ⟨e, by simp [setBit, h1], h2, fun n => ?_⟩
  show _ ↔ S n ∨ n = v
  rw [h3, ← ha.2]
  by_cases h : n = v <;> simp [h]

theorem range_ok {lo hi : Nat} (h1 : lo ≤ hi) (h2 : hi < 2 ^ 31) :
    ∃ e, Ebitmap.initRange lo hi = some e ∧ BitsOk e fun n => lo ≤ n ∧ n ≤ hi := by
  obtain ⟨h3, h4⟩ := Ebitmap.C01_init_range lo hi (by omega) (by omega)
  have h5 := h3.2 ⟨h1, by omega⟩
  rcases h6 : Ebitmap.initRange lo hi with _ | e
  · rw [h6] at h5; cases h5
  · exact ⟨e, rfl, (h4 e h6).1, (h4 e h6).2⟩

theorem range_none {lo hi : Nat} (h1 : hi < lo) (h2 : lo < 2 ^ 31) : Ebitmap.initRange lo hi = none := by
  obtain ⟨h3, -⟩ := Ebitmap.C01_init_range lo hi (by omega) (by omega)
  rcases h6 : Ebitmap.initRange lo hi with _ | e
  · rfl
  · rw [h6] at h3
    have := (h3.1 rfl).1
    omega

theorem everything_ok {max : Nat} (hm : max < 2 ^ 31) (h0 : 0 < max) :
    ∃ e, everything max = some e ∧ BitsOk e fun n => n < max := by
  obtain ⟨e, h1, h2⟩ := range_ok (lo := 0) (hi := max - 1) (by omega) (by omega)
  refine ⟨e, ?_, h2.congr fun n => by omega⟩
  rw [everything, if_neg (by omega), h1]

theorem everything_zero : everything 0 = none := by
  obtain ⟨h3, -⟩ := Ebitmap.C01_init_range 0 4294967295 (by omega) (by omega)
  rw [everything, if_pos rfl]
  rcases h6 : Ebitmap.initRange 0 4294967295 with _ | e
  · rfl
  · rw [h6] at h3
    have := (h3.1 rfl).2
    omega

/-! ### Weakening -/

theorem Post.imp {db : Db} {ρ} {P Q : Prop} {m : Memo} {S T : Nat → Prop} {r}
    (h : Post db ρ P m S r) (hp : Q → P) (hs : ∀ n, S n ↔ T n) : Post db ρ Q m T r := by
  rcases h with ⟨m', e, h1, h2, h3, h4⟩ | ⟨h1, h2⟩
  · exact .inl ⟨m', e, h1, h2, h3, h4.congr hs⟩
  · exact .inr ⟨fun q => h1 (hp q), h2⟩

/-- The ends of ranges mean single numbers. -/
theorem endOf_set {db : Db} {ρ} (hρ : Meaning db ρ) {f : Flavor} {max : Nat} {i : Item} {v : Nat}
    (h : endOf db f i = some v) (n : Nat) : itemSet ρ max i n ↔ n = v := by
  cases i with
  | op o => simp [endOf] at h
  | list f l => simp [endOf] at h
  | str o =>
    cases o with
    | none => simp [endOf] at h
    | some w =>
      simp only [endOf] at h
      split at h
      · cases h; simp [itemSet]
      · cases h
  | datum d =>
    have := hρ d n
    simp only [itemSet]
    simp only [endOf] at h
    split at h
    · next h1 => rw [h1] at this; cases h; exact this
    · next h1 => rw [h1] at this; cases h; exact this
    · cases h

theorem endOf_lt {db : Db} (ok : DbOk db) {f : Flavor} {i : Item} {v : Nat}
    (h : endOf db f i = some v) : v < 2 ^ 31 ∧ v < db.num f := by
  have hi := ok.int
  cases i with
  | op o => simp [endOf] at h
  | list f l => simp [endOf] at h
  | str o =>
    cases o with
    | none => simp [endOf] at h
    | some w =>
      simp only [endOf] at h
      split at h
      · next h2 => cases h; obtain ⟨h2, h3⟩ := h2; subst h2; exact ⟨by omega, by simp only [Db.num]; omega⟩
      · cases h
  | datum d =>
    simp only [endOf] at h
    split at h
    · next h1 => cases h; have := (ok.value d v).2.2.2.2 (.inl h1); exact ⟨by omega, this⟩
    · next h1 => cases h; have := (ok.value d v).2.2.2.2 (.inr h1); exact ⟨by omega, this⟩
    · cases h

theorem catEnd_ok {db : Db} {i : Item} {v : Nat} (h : endOf db .cat i = some v) :
    catEnd db i = .ok v := by
  cases i with
  | op o => simp [endOf] at h
  | list f l => simp [endOf] at h
  | str o => cases o <;> simp [endOf] at h
  | datum d =>
    simp only [endOf] at h
    split at h
    · next h1 => cases h; simp [catEnd, h1]
    · next h1 => cases h; simp [catEnd, h1]
    · cases h

theorem permxValue_ok {db : Db} {i : Item} {v : Nat} (h : endOf db .permissionx i = some v) :
    permxValue i = .ok v := by
  cases i with
  | op o => simp [endOf] at h
  | list f l => simp [endOf] at h
  | datum d => simp [endOf] at h
  | str o =>
    cases o with
    | none => simp [endOf] at h
    | some w =>
      simp only [endOf] at h
      split at h
      · next h2 => cases h; simp only [permxValue]; rw [if_neg (by omega)]
      · cases h

theorem endOf_flavor {db : Db} {f : Flavor} {i : Item} {v : Nat} (h : endOf db f i = some v) :
    f = .cat ∨ f = .permissionx := by
  cases i with
  | op o => simp [endOf] at h
  | list f l => simp [endOf] at h
  | str o =>
    cases o with
    | none => simp [endOf] at h
    | some w =>
      simp only [endOf] at h
      split at h
      · next h2 => exact .inr h2.1
      · cases h
  | datum d =>
    simp only [endOf] at h
    split at h
    · exact .inl rfl
    · exact .inl rfl
    · cases h

/-! ### Categories -/

theorem catList_ok {db : Db} (ok : DbOk db) (l : List Nat) :
    (∀ c ∈ l, ∃ v, db.datums[c]? = some (.cat v)) → ∀ (e : Ebitmap) (S : Nat → Prop), BitsOk e S →
    ∃ e', catList db e (l.map Item.datum) = .ok e' ∧
      BitsOk e' fun n => S n ∨ ∃ c ∈ l, db.datums[c]? = some (.cat n) := by
  induction l with
  | nil => intro _ e S h; exact ⟨e, rfl, h.congr fun n => by simp⟩
  | cons c l ih =>
    intro hl e S h
    obtain ⟨v, hv⟩ := hl c (List.mem_cons_self ..)
    have hlt := (ok.value c v).2.2.2.2 (.inl hv)
    have hi := ok.int
    obtain ⟨e1, h1, h2⟩ := set_ok h (v := v) (by omega)
    obtain ⟨e2, h3, h4⟩ := ih (fun c hc => hl c (List.mem_cons_of_mem _ hc)) e1 _ h2
    refine ⟨e2, by simp only [List.map_cons, catList, catValue, hv, h1, h3], h4.congr fun n => ?_⟩
    simp only [List.mem_cons, exists_eq_or_imp, hv, Option.some.injEq, Datum.cat.injEq, or_assoc]
    constructor
    · rintro (h | h | h)
      · exact .inl h
      · exact .inr (.inl h.symm)
      · exact .inr (.inr h)
    · rintro (h | h | h)
      · exact .inl h
      · exact .inr (.inl h.symm)
      · exact .inr (.inr h)

theorem catFilter_ok {db : Db} (ok : DbOk db) (e : Ebitmap) :
    ∃ l, catFilter db e = .ok l ∧ ∀ c, c ∈ l ↔ c ∈ db.catorder ∧
      ∃ v, db.datums[c]? = some (.cat v) ∧ Ebitmap.getBit e v = true := by
  have h := ok.catorder
  unfold catFilter
  generalize db.catorder = o at h
  induction o with
  | nil => exact ⟨[], rfl, fun c => by simp⟩
  | cons c o ih =>
    obtain ⟨l, h1, h2⟩ := ih fun c hc => h c (List.mem_cons_of_mem _ hc)
    obtain ⟨v, hv⟩ := h c (List.mem_cons_self ..)
    rw [List.foldr_cons, h1]
    simp only [catValue, hv]
    refine ⟨_, rfl, fun x => ?_⟩
    by_cases hb : Ebitmap.getBit e v = true
    · rw [if_pos hb, List.mem_cons, List.mem_cons, h2]
      constructor
      · rintro (h | ⟨h3, h4⟩)
        · subst h; exact ⟨.inl rfl, v, hv, hb⟩
        · exact ⟨.inr h3, h4⟩
      · rintro ⟨h3 | h3, h4⟩
        · exact .inl h3
        · exact .inr ⟨h3, h4⟩
    · rw [if_neg hb, h2, List.mem_cons]
      constructor
      · rintro ⟨h3, h4⟩; exact ⟨.inr h3, h4⟩
      · rintro ⟨h3 | h3, h4⟩
        · subst h3
          obtain ⟨w, h5, h6⟩ := h4
          rw [hv] at h5; cases h5; exact absurd h6 hb
        · exact ⟨h3, h4⟩

/-- A list that is taken as a list of categories is the union of single categories. -/
theorem isList_ok {db : Db} {l : List Item} (ho : itemsOk db .cat l)
    (hn : ∀ c v, Item.datum c ∈ l → db.datums[c]? ≠ some (.catalias v)) :
    ∃ b, isList db .cat l = .ok b ∧
      (b = true → ∃ cs : List Nat, l = cs.map Item.datum ∧ ∀ c ∈ cs, ∃ v, db.datums[c]? = some (.cat v)) := by
  induction l with
  | nil => exact ⟨true, rfl, fun _ => ⟨[], rfl, by simp⟩⟩
  | cons i l ih =>
    rw [itemsOk] at ho
    obtain ⟨hi, hl⟩ := ho
    cases i with
    | op o => simp [itemOk] at hi
    | list f l => exact ⟨false, rfl, by simp⟩
    | str o => cases o <;> simp [itemOk] at hi
    | datum d =>
      simp only [itemOk] at hi
      obtain ⟨-, x, hx, hf⟩ := hi
      obtain ⟨b, h1, h2⟩ := ih hl fun c v hc => hn c v (List.mem_cons_of_mem _ hc)
      cases x <;> simp only [Datum.flavor] at hf <;> try cases hf
      · next v =>
        refine ⟨b, by simp [isList, hx, h1], fun hb => ?_⟩
        obtain ⟨cs, h3, h4⟩ := h2 hb
        refine ⟨d :: cs, by rw [h3]; rfl, ?_⟩
        intro c hc
        rcases List.mem_cons.1 hc with h | h
        · subst h; exact ⟨v, hx⟩
        · exact h4 c h
      · next v => exact absurd hx (hn d v (List.mem_cons_self ..))
      · exact ⟨false, by simp [isList, hx], by simp⟩

theorem unionSet_iff {ρ : Nat → Nat → Prop} {max : Nat} (l : List Item) (n : Nat) :
    unionSet ρ max l n ↔ ∃ i ∈ l, itemSet ρ max i n := by
  induction l with
  | nil => simp [unionSet]
  | cons i l ih => simp [unionSet, ih]

end Verif.CilSet
