import Verif.Prelude
import Mathlib.Tactic.ClearExcept
import Verif.CilBin.Spec
import Verif.Avtab.Lemmas
import Verif.CilDeny.Lemmas2

/-!
# Lemmas on types, attributes and tables
-/

namespace Verif.CilBin
open Ebitmap (Ebitmap)
open CilDeny (CP MP BOk)
open Avtab (Avtab Key Datum Node Rel Answers)

/-! ### Values of types -/

theorem typeDatum_pos {tab : List Sym} {x : Sym} {v : Nat} (h : typeDatum tab x = some v) : 1 ≤ v ∧ v ≤ tab.length := by
  induction tab generalizing v with
  | nil => simp [typeDatum] at h
  | cons s tab ih =>
    unfold typeDatum at h
    split at h
    · cases h; simp
    · obtain ⟨w, hw, rfl⟩ := Option.map_eq_some_iff.1 h
      have := ih hw
      simp; omega

theorem typeDatum_inj {tab : List Sym} {x y : Sym} {v : Nat} (h : typeDatum tab x = some v) (h' : typeDatum tab y = some v) :
    x = y := by
  induction tab generalizing v with
  | nil => simp [typeDatum] at h
  | cons s tab ih =>
    unfold typeDatum at h h'
    split at h
    · rename_i e
      split at h'
      · rename_i e'; rw [← e, ← e']
      · obtain ⟨w, hw, e'⟩ := Option.map_eq_some_iff.1 h'
        have := (typeDatum_pos hw).1
        cases h; omega
    · obtain ⟨w, hw, rfl⟩ := Option.map_eq_some_iff.1 h
      split at h'
      · have := (typeDatum_pos hw).1
        cases h'; omega
      · obtain ⟨w', hw', e'⟩ := Option.map_eq_some_iff.1 h'
        obtain rfl : w' = w := by omega
        exact ih hw hw'

theorem typeDatum_mem {tab : List Sym} {x : Sym} : (∃ v, typeDatum tab x = some v) ↔ x ∈ tab := by
  induction tab with
  | nil => simp [typeDatum]
  | cons s tab ih =>
    unfold typeDatum
    split
    · rename_i e; simp [e]
    · rename_i e
      simp only [Option.map_eq_some_iff, List.mem_cons]
      rw [← ih]
      constructor
      · rintro ⟨_, w, hw, rfl⟩; exact Or.inr ⟨w, hw⟩
      · rintro (h | ⟨w, hw⟩)
        · exact absurd h.symm e
        · exact ⟨_, w, hw, rfl⟩

/-- A symbol that is declared in the binary policy. -/
def kept (db : Db) : Sym → Bool
  | .type _ => true
  | .attr a => (db.attrs a).keep

theorem declare_mem {db : Db} {l tab tab' : List Sym} (h : declare db l tab = some tab') :
    ∀ x, x ∈ tab' ↔ x ∈ tab ∨ (x ∈ l ∧ kept db x = true) := by
  induction l generalizing tab with
  | nil => cases h; simp
  | cons s l ih =>
    intro x
    cases s with
    | type v =>
      simp only [declare] at h
      split at h
      · cases h
      · rename_i t e
        rw [ih h]
        unfold symtabInsert at e
        split at e
        · cases e
        · cases e
          simp only [List.mem_append, List.mem_cons, List.not_mem_nil, or_false]
          have : x = .type v → kept db x = true := by rintro rfl; rfl
          clear * - this; tauto
    | attr a =>
      simp only [declare] at h
      split at h
      · rename_i hk
        rw [ih h]
        have : x = .attr a → ¬ kept db x = true := by rintro rfl; simpa [kept] using hk
        simp only [List.mem_cons]
        clear * - this; tauto
      · rename_i hk
        split at h
        · cases h
        · rename_i t e
          rw [ih h]
          unfold symtabInsert at e
          split at e
          · cases e
          · cases e
            simp only [List.mem_append, List.mem_cons, List.not_mem_nil, or_false]
            have : x = .attr a → kept db x = true := by rintro rfl; simpa [kept] using hk
            clear * - this; tauto

theorem declare_length' {db : Db} (l tab tab' : List Sym) (h : declare db l tab = some tab') : tab'.length ≤ tab.length + l.length := by
  induction l generalizing tab with
  | nil => cases h; simp
  | cons x l ih =>
    cases x with
    | type v =>
      simp only [declare, symtabInsert] at h
      split at h
      · cases h
      · rename_i t e
        split at e
        · cases e
        · cases e
          have := ih _ h
          simp at this ⊢; omega
    | attr a =>
      simp only [declare, symtabInsert] at h
      split at h
      · have := ih _ h
        simp at this ⊢; omega
      · split at h
        · cases h
        · rename_i t e
          split at e
          · cases e
          · cases e
            have := ih _ h
            simp at this ⊢; omega

theorem declare_length {db : Db} {l tab' : List Sym} (h : declare db l [] = some tab') : tab'.length ≤ l.length := by
  simpa using declare_length' l [] tab' h

theorem declare_total {db : Db} {l tab : List Sym} (hn : (tab ++ l).Nodup) : ∃ tab', declare db l tab = some tab' := by
  induction l generalizing tab with
  | nil => exact ⟨tab, rfl⟩
  | cons s l ih =>
    have h1 : s ∉ tab := by
      intro h
      rw [List.nodup_append] at hn
      exact hn.2.2 s h s (by simp) rfl
    have h2 : ((tab ++ [s]) ++ l).Nodup := by simpa using hn
    have h3 : (tab ++ l).Nodup := by
      refine hn.sublist ?_
      exact List.Sublist.append_left (List.sublist_cons_self _ _) _
    cases s with
    | type v =>
      simp only [declare, symtabInsert, if_neg h1]
      exact ih h2
    | attr a =>
      simp only [declare, symtabInsert, if_neg h1]
      split
      · exact ih h3
      · exact ih h2

/-! ### Bitmaps -/

theorem bits_ok {a : Ebitmap} {S : Nat → Prop} (ha : BOk a S) : ∃ l, bits a = some l ∧ ∀ t, t ∈ l ↔ S t := by
  obtain ⟨l, h1, h2⟩ := CilDeny.bits_ok ha
  refine ⟨l, ?_, h2⟩
  unfold CilDeny.bits at h1
  unfold bits
  split at h1
  · cases h1
  · rename_i e; cases h1; exact e

theorem setTrue_ok {a : Ebitmap} {S : Nat → Prop} (ha : BOk a S) {v : Nat} (hv : v < 2 ^ 31) :
    ∃ e, Ebitmap.setBit a v true = some e ∧ BOk e fun n => S n ∨ n = v := by
  obtain ⟨e, h1, h2⟩ := CilDeny.setTrue_ok ha hv
  refine ⟨e, ?_, h2⟩
  unfold CilDeny.setBit at h1
  split at h1
  · cases h1
  · rename_i e; cases h1; exact e

theorem expandType_ok {db : Db} (ok : DbOk db) {x : Sym} (hx : x.Ok db) :
    ∃ l, (expandType db x).bind bits = some l ∧ ∀ t, t ∈ l ↔ x.Mem db t := by
  cases x with
  | type v =>
    obtain ⟨e, h1, h2⟩ := setTrue_ok CilDeny.init_ok (v := v) (Nat.lt_trans hx ok.small)
    obtain ⟨l, h3, h4⟩ := bits_ok h2
    refine ⟨l, by simp [expandType, h1, h3], fun t => ?_⟩
    rw [h4]; simp [Sym.Mem]
  | attr a =>
    have : BOk (db.attrs a).types fun t => Sym.Mem db (.attr a) t := ⟨hx.1, fun t => Iff.rfl⟩
    obtain ⟨l, h3, h4⟩ := bits_ok this
    exact ⟨l, by simp [expandType, Ebitmap.cpy_eq, h3], h4⟩

theorem Sym.Ok.lt {db : Db} {x : Sym} (h : x.Ok db) {t : Nat} (ht : x.Mem db t) : t < db.numTypes := by
  cases x with
  | type v => cases ht; exact h
  | attr a => exact h.2 t ht

/-! ### The map from types to attributes -/

/-- The map has a bitmap for each of `n` types. -/
def MapOk (n : Nat) (m : AttrMap) (S : Nat → Nat → Prop) : Prop :=
  ∀ i, if i < n then ∃ e, m i = some e ∧ BOk e (S i) else m i = none

theorem MapOk.congr {n : Nat} {m : AttrMap} {S T : Nat → Nat → Prop} (h : MapOk n m S) (hs : ∀ i b, S i b ↔ T i b) : MapOk n m T := by
  intro i
  have := h i
  split
  · rename_i hi
    rw [if_pos hi] at this
    obtain ⟨e, h1, h2⟩ := this
    exact ⟨e, h1, h2.congr (hs i)⟩
  · rename_i hi
    rwa [if_neg hi] at this

theorem mapInit_ok {n : Nat} (hn : n < 2 ^ 31) : MapOk n (mapInit n) fun i b => b = i := by
  intro i
  unfold mapInit
  split
  · obtain ⟨e, h1, h2⟩ := setTrue_ok CilDeny.init_ok (v := i) (by omega)
    exact ⟨e, h1, h2.congr fun t => by simp⟩
  · rfl

theorem mapSet_ok {n : Nat} {m : AttrMap} {S : Nat → Nat → Prop} (h : MapOk n m S) {i b : Nat} (hb : b < 2 ^ 31) :
    MapOk n (mapSet m i b) fun j c => S j c ∨ (j = i ∧ c = b) := by
  intro j
  have := h j
  unfold mapSet
  by_cases hj : j < n
  · rw [if_pos hj] at this ⊢
    obtain ⟨e, h1, h2⟩ := this
    by_cases hi : j = i
    · rw [if_pos hi]
      obtain ⟨e', h3, h4⟩ := setTrue_ok h2 hb
      exact ⟨e', by simp [h1, h3], h4.congr fun t => by simp [hi]⟩
    · rw [if_neg hi]
      exact ⟨e, h1, h2.congr fun t => by simp [hi]⟩
  · rw [if_neg hj] at this ⊢
    split
    · simp [this]
    · exact this

theorem mapTypes_ok {tab : List Sym} {value : Nat} {l : List Nat} {m m' : AttrMap} {n : Nat} {S : Nat → Nat → Prop} (h : MapOk n m S)
    (hv : value - 1 < 2 ^ 31) (he : mapTypes tab value l m = some m') :
    MapOk n m' fun j c => S j c ∨ (c = value - 1 ∧ ∃ v ∈ l, typeDatum tab (.type v) = some (j + 1)) := by
  induction l generalizing m S with
  | nil => cases he; exact h.congr fun i b => by simp
  | cons i l ih =>
    unfold mapTypes at he
    split at he
    · cases he
    · rename_i t ht
      have hp := (typeDatum_pos ht).1
      refine (ih (mapSet_ok h hv) he).congr fun j c => ?_
      simp only [List.mem_cons, exists_eq_or_imp, ht, Option.some.injEq]
      have : j = t - 1 ↔ t = j + 1 := by omega
      rw [this]
      clear * -; tauto

theorem mapTypes_total {tab : List Sym} {value : Nat} {l : List Nat} (m : AttrMap) (h : ∀ v ∈ l, Sym.type v ∈ tab) :
    ∃ m', mapTypes tab value l m = some m' := by
  induction l generalizing m with
  | nil => exact ⟨m, rfl⟩
  | cons i l ih =>
    obtain ⟨v, hv⟩ := typeDatum_mem.2 (h i (by simp))
    unfold mapTypes
    rw [hv]
    exact ih _ fun v hv => h v (List.mem_cons_of_mem _ hv)

theorem attrMap_ok {db : Db} {tab l : List Sym} {m m' : AttrMap} {n : Nat} {S : Nat → Nat → Prop} (h : MapOk n m S)
    (hw : ∀ x ∈ l, x.Ok db) (ht : tab.length < 2 ^ 31) (he : attrMap db tab l m = some m') :
    MapOk n m' fun j c => S j c ∨ ∃ a, Sym.attr a ∈ l ∧ (db.attrs a).keep = true ∧ typeDatum tab (.attr a) = some (c + 1) ∧
      ∃ v, Sym.Mem db (.attr a) v ∧ typeDatum tab (.type v) = some (j + 1) := by
  induction l generalizing m S with
  | nil => cases he; exact h.congr fun i b => by simp
  | cons x l ih =>
    have hw' : ∀ x ∈ l, x.Ok db := fun x hx => hw x (List.mem_cons_of_mem _ hx)
    cases x with
    | type v =>
      simp only [attrMap] at he
      exact (ih h hw' he).congr fun j c => by simp
    | attr a =>
      have ha := hw (.attr a) (by simp)
      simp only [attrMap] at he
      split at he
      · cases he
      · rename_i m1 e1
        unfold attrToBitmap at e1
        split at e1
        · rename_i hk
          cases e1
          refine (ih h hw' he).congr fun j c => ?_
          simp only [List.mem_cons, Sym.attr.injEq]
          constructor
          · rintro (h | ⟨b, h1, h2⟩)
            · exact Or.inl h
            · exact Or.inr ⟨b, Or.inr h1, h2⟩
          · rintro (h | ⟨b, rfl | h1, h2⟩)
            · exact Or.inl h
            · rw [h2.1] at hk; simp at hk
            · exact Or.inr ⟨b, h1, h2⟩
        · rename_i hk
          split at e1
          · rename_i value l' e2 e3
            have hpos := typeDatum_pos e2
            obtain ⟨l2, e4, e5⟩ := bits_ok (a := (db.attrs a).types) (S := Sym.Mem db (.attr a)) ⟨ha.1, fun t => Iff.rfl⟩
            rw [e3] at e4
            cases e4
            have h1 := mapTypes_ok h (by omega) e1
            refine (ih h1 hw' he).congr fun j c => ?_
            have hc : c = value - 1 ↔ typeDatum tab (.attr a) = some (c + 1) := by rw [e2, Option.some.injEq]; omega
            simp only [hc, List.mem_cons, Sym.attr.injEq, e5]
            simp only [Bool.not_eq_true', Bool.not_eq_false] at hk
            constructor
            · rintro ((h | h) | ⟨b, h1, h2⟩)
              · exact Or.inl h
              · exact Or.inr ⟨a, Or.inl rfl, hk, h⟩
              · exact Or.inr ⟨b, Or.inr h1, h2⟩
            · rintro (h | ⟨b, rfl | h1, h2⟩)
              · exact Or.inl (Or.inl h)
              · exact Or.inl (Or.inr h2.2)
              · exact Or.inr ⟨b, h1, h2⟩
          · cases e1

theorem attrMap_total {db : Db} {tab l : List Sym} (m : AttrMap) (hw : ∀ x ∈ l, x.Ok db)
    (h1 : ∀ x ∈ l, kept db x = true → x ∈ tab) (h2 : ∀ v < db.numTypes, Sym.type v ∈ tab) : ∃ m', attrMap db tab l m = some m' := by
  induction l generalizing m with
  | nil => exact ⟨m, rfl⟩
  | cons x l ih =>
    have hw' : ∀ x ∈ l, x.Ok db := fun x hx => hw x (List.mem_cons_of_mem _ hx)
    have h1' : ∀ x ∈ l, kept db x = true → x ∈ tab := fun x hx => h1 x (List.mem_cons_of_mem _ hx)
    cases x with
    | type v => exact ih m hw' h1'
    | attr a =>
      have ha := hw (.attr a) (by simp)
      simp only [attrMap, attrToBitmap]
      by_cases hk : (db.attrs a).keep = true
      · simp only [hk, Bool.not_true, Bool.false_eq_true, if_false]
        obtain ⟨value, hv⟩ := typeDatum_mem.2 (h1 (.attr a) (by simp) hk)
        obtain ⟨l2, e4, e5⟩ := bits_ok (a := (db.attrs a).types) (S := Sym.Mem db (.attr a)) ⟨ha.1, fun t => Iff.rfl⟩
        obtain ⟨m1, e1⟩ := mapTypes_total (tab := tab) (value := value) (l := l2) m fun v hv => h2 v (ha.lt ((e5 v).1 hv))
        rw [hv, e4]
        simp only [e1]
        exact ih m1 hw' h1'
      · simp only [hk, Bool.not_false, if_true]
        exact ih m hw' h1'

/-- What the compiled map says of a type and a symbol of the policy. -/
theorem map_iff {db : Db} {decls tab : List Sym} {m : AttrMap} (hw : ∀ x ∈ decls, x.Ok db) (ht : tab.length < 2 ^ 31)
    (hd : declare db decls [] = some tab) (hm : attrMap db tab decls (mapInit tab.length) = some m)
    {v tv : Nat} (hv : typeDatum tab (.type v) = some tv) :
    ∃ e, m (tv - 1) = some e ∧ Ebitmap.WF e ∧ (∀ b, Ebitmap.getBit e b = true → b < tab.length) ∧
      ∀ x xv, typeDatum tab x = some xv → (Ebitmap.getBit e (xv - 1) = true ↔ x.Mem db v) := by
  have h := attrMap_ok (mapInit_ok ht) hw ht hm (tv - 1)
  have hp := typeDatum_pos hv
  have htv : tv - 1 + 1 = tv := by omega
  rw [if_pos (by omega)] at h
  obtain ⟨e, h1, h2, h3⟩ := h
  refine ⟨e, h1, h2, ?_, ?_⟩
  · intro b hb
    rcases (h3 b).1 hb with rfl | ⟨a, _, _, ha, _⟩
    · omega
    · have := (typeDatum_pos ha).2; omega
  · intro x xv hx
    have hpx := typeDatum_pos hx
    have hxv : xv - 1 + 1 = xv := by omega
    rw [h3]
    simp only [htv, hxv]
    constructor
    · rintro (h | ⟨a, _, _, ha, w, hw1, hw2⟩)
      · obtain rfl : xv = tv := by omega
        obtain rfl := typeDatum_inj hx hv
        rfl
      · obtain rfl := typeDatum_inj hx ha
        cases typeDatum_inj hw2 hv
        exact hw1
    · intro hmem
      cases x with
      | type w =>
        cases hmem
        rw [hv] at hx
        cases hx
        exact Or.inl rfl
      | attr a =>
        have hin := (declare_mem hd (.attr a)).1 (typeDatum_mem.1 ⟨_, hx⟩)
        simp only [List.not_mem_nil, false_or, kept] at hin
        exact Or.inr ⟨a, hin.1, hin.2, hx, v, hmem, hv⟩

end Verif.CilBin
