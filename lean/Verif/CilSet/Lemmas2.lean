import Verif.CilSet.Lemmas

/-!
# The evaluation of an expression, given that of the symbols in it
-/

namespace Verif.CilSet
open Ebitmap (Ebitmap)

/-- The evaluation of a symbol gives its set. -/
def DatumClaim (db : Db) (ρ : Nat → Nat → Prop) (d : Nat) : Prop :=
  ∀ x, db.datums[d]? = some x → ∃ N, ∀ fuel, N ≤ fuel → ∀ m, Good db ρ m →
    Post db ρ (Tame db) m (ρ d) (datumBits db fuel m x.flavor d)

/-- Going on after an evaluation. -/
theorem Post.bind {db : Db} {ρ} {P Q : Prop} {m : Memo} {S T : Nat → Prop}
    {r r' : Res (Memo × Ebitmap)} (h : Post db ρ P m S r) (hp : Q → P)
    (h1 : ∀ m' e, r = some (.ok (m', e)) → Good db ρ m' → BitsOk e S → Post db ρ Q m' T r')
    (h2 : r = some (.error .err) → r' = some (.error .err)) : Post db ρ Q m T r' := by
  rcases h with ⟨m', e, h3, h4, h5, h6⟩ | ⟨h3, h4⟩
  · rcases h1 m' e h3 h4 h6 with ⟨m2, e2, h7, h8, h9, h10⟩ | h7
    · exact .inl ⟨m2, e2, h7, h8, h5.trans h9, h10⟩
    · exact .inr h7
  · exact .inr ⟨fun q => h3 (hp q), h2 h4⟩

theorem exprTame_items {db : Db} {f : Flavor} {max : Nat} {o : Op} {l : List Item}
    (h : exprTame db f max (.op o :: l)) (h1 : o ≠ .all) (h2 : o ≠ .range) :
    itemsTame db f max l := by
  cases o <;> first | exact absurd rfl h1 | exact absurd rfl h2 |
    (simp only [exprTame, itemsTame] at h; exact h.2)

variable {db : Db} {ρ : Nat → Nat → Prop}

mutual

theorem item_claim (ok : DbOk db) (hρ : Meaning db ρ) {f : Flavor} {max : Nat} (hm : max < 2 ^ 31) :
    (i : Item) → itemOk db f i → (∀ d ∈ itemRefs i, DatumClaim db ρ d) →
    ∃ N, ∀ fuel, N ≤ fuel → ∀ m, Good db ρ m →
      Post db ρ (Tame db ∧ itemTame db f max i) m (itemSet ρ max i) (itemBits db fuel m f max i)
  | .op o, h, _ => by simp [itemOk] at h
  | .str none, h, _ => by simp [itemOk] at h
  | .str (some v), h, _ => by
    simp only [itemOk] at h
    refine ⟨1, fun fuel hf m hg => ?_⟩
    obtain ⟨k, rfl⟩ : ∃ k, fuel = k + 1 := ⟨fuel - 1, by omega⟩
    obtain ⟨e, h1, h2⟩ := set_ok init_ok (v := v) (by omega)
    rw [itemBits.eq_def]
    simp only [if_pos h.1, permxValue]
    rw [if_neg (by omega)]
    simp only [h1]
    exact .inl ⟨m, e, rfl, hg, Ext.refl m, h2.congr fun n => by simp [itemSet]⟩
  | .datum d, h, hd => by
    simp only [itemOk] at h
    obtain ⟨h1, x, hx, hf⟩ := h
    obtain ⟨N, hN⟩ := hd d (by simp [itemRefs]) x hx
    refine ⟨N + 1, fun fuel hfu m hg => ?_⟩
    obtain ⟨k, rfl⟩ : ∃ k, fuel = k + 1 := ⟨fuel - 1, by omega⟩
    rw [itemBits.eq_def]
    simp only [if_neg h1]
    have := hN k (by omega) m hg
    rw [hf] at this
    exact this.imp (fun h => h.1) fun n => by simp [itemSet]
  | .list f' l, h, hd => by
    simp only [itemOk] at h
    obtain ⟨hf, h⟩ := h
    subst hf
    obtain ⟨N, hN⟩ := expr_claim ok hρ hm l h (by simpa [itemRefs] using hd)
    refine ⟨N + 1, fun fuel hfu m hg => ?_⟩
    obtain ⟨k, rfl⟩ : ∃ k, fuel = k + 1 := ⟨fuel - 1, by omega⟩
    rw [itemBits.eq_def]
    simp only
    exact (hN k (by omega) m hg).imp (by simp [itemTame]) fun n => by simp [itemSet]
termination_by i => (sizeOf i, 0)

theorem expr_claim (ok : DbOk db) (hρ : Meaning db ρ) {f : Flavor} {max : Nat} (hm : max < 2 ^ 31) :
    (l : List Item) → exprOk db f l → (∀ d ∈ itemsRefs l, DatumClaim db ρ d) →
    ∃ N, ∀ fuel, N ≤ fuel → ∀ m, Good db ρ m →
      Post db ρ (Tame db ∧ exprTame db f max l) m (exprSet ρ max l) (exprBits db fuel m max ⟨f, l⟩)
  | [], _, _ => by
    refine ⟨1, fun fuel hf m hg => ?_⟩
    obtain ⟨k, rfl⟩ : ∃ k, fuel = k + 1 := ⟨fuel - 1, by omega⟩
    rw [exprBits.eq_def]
    exact .inl ⟨m, _, rfl, hg, Ext.refl m, init_ok.congr fun n => by simp [exprSet, unionSet]⟩
  | [.op .all], _, _ => by
    refine ⟨1, fun fuel hf m hg => ?_⟩
    obtain ⟨k, rfl⟩ : ∃ k, fuel = k + 1 := ⟨fuel - 1, by omega⟩
    rw [exprBits.eq_def]
    simp only
    rcases Nat.eq_zero_or_pos max with h0 | h0
    · subst h0
      rw [everything_zero]
      exact .inr ⟨by simp [exprTame], rfl⟩
    · obtain ⟨e, h1, h2⟩ := everything_ok hm h0
      rw [h1]
      exact .inl ⟨m, _, rfl, hg, Ext.refl m, (copy_ok h2).congr fun n => by simp [exprSet]⟩
  | [.op .range, a, b], h, _ => by
    simp only [exprOk] at h
    obtain ⟨⟨lo, h1⟩, hi, h2⟩ := h
    refine ⟨1, fun fuel hf m hg => ?_⟩
    obtain ⟨k, rfl⟩ : ∃ k, fuel = k + 1 := ⟨fuel - 1, by omega⟩
    have l1 := (endOf_lt ok h1).1
    have l2 := (endOf_lt ok h2).1
    have hset : ∀ n, (lo ≤ n ∧ n ≤ hi) ↔ exprSet ρ max [.op .range, a, b] n := by
      intro n
      simp only [exprSet]
      simp only [endOf_set hρ h1, endOf_set hρ h2]
      constructor
      · rintro ⟨h3, h4⟩; exact ⟨lo, hi, rfl, rfl, h3, h4⟩
      · rintro ⟨_, _, rfl, rfl, h3, h4⟩; exact ⟨h3, h4⟩
    rw [exprBits.eq_def]
    simp only
    rcases endOf_flavor h1 with hf | hf
    · subst hf
      simp only [if_pos, catRange, catEnd_ok h1, catEnd_ok h2]
      by_cases hlt : lo > hi
      · rw [if_pos hlt]
        refine .inr ⟨fun h => ?_, rfl⟩
        have := h.2
        simp only [exprTame] at this
        have := this lo hi h1 h2
        omega
      · rw [if_neg hlt]
        obtain ⟨e, h3, h4⟩ := range_ok (lo := lo) (hi := hi) (by omega) l2
        rw [h3]
        exact .inl ⟨m, _, rfl, hg, Ext.refl m, (copy_ok h4).congr hset⟩
    · subst hf
      rw [if_neg (by decide), if_pos rfl]
      simp only [permxRange, permxValue_ok h1, permxValue_ok h2]
      by_cases hlt : lo > hi
      · rw [range_none hlt l1]
        refine .inr ⟨fun h => ?_, rfl⟩
        have := h.2
        simp only [exprTame] at this
        have := this lo hi h1 h2
        omega
      · obtain ⟨e, h3, h4⟩ := range_ok (lo := lo) (hi := hi) (by omega) l2
        rw [h3]
        exact .inl ⟨m, _, rfl, hg, Ext.refl m, (copy_ok h4).congr hset⟩
  | [.op .not, a], h, hd => by
    simp only [exprOk] at h
    obtain ⟨N, hN⟩ := item_claim ok hρ hm a h fun d hdd => hd d (by simp [itemsRefs, itemRefs, hdd])
    refine ⟨N + 1, fun fuel hfu m hg => ?_⟩
    obtain ⟨k, rfl⟩ : ∃ k, fuel = k + 1 := ⟨fuel - 1, by omega⟩
    refine (hN k (by omega) m hg).bind ?_ ?_ ?_
    · rintro ⟨h1, h2⟩
      have := exprTame_items h2 (by decide) (by decide)
      simp only [itemsTame] at this
      exact ⟨h1, this.1⟩
    · intro m' e h1 h2 h3
      obtain ⟨e', h4, h5⟩ := not_ok h3 hm
      refine .inl ⟨m', Ebitmap.union Ebitmap.init e', ?_, h2, Ext.refl _, (copy_ok h5).congr fun n => by simp [exprSet]⟩
      rw [exprBits.eq_def]; simp only [h1, h4]
    · intro h1
      rw [exprBits.eq_def]; simp only [h1]
  | [.op .or, a, b], h, hd => by
    simp only [exprOk] at h
    obtain ⟨N1, hN1⟩ := item_claim ok hρ hm a h.1 fun d hdd => hd d (by simp [itemsRefs, hdd])
    obtain ⟨N2, hN2⟩ := item_claim ok hρ hm b h.2 fun d hdd => hd d (by simp [itemsRefs, hdd])
    refine ⟨N1 + N2 + 1, fun fuel hfu m hg => ?_⟩
    obtain ⟨k, rfl⟩ : ∃ k, fuel = k + 1 := ⟨fuel - 1, by omega⟩
    refine (hN1 k (by omega) m hg).bind ?_ ?_ ?_
    · rintro ⟨h1, h2⟩
      have := exprTame_items h2 (by decide) (by decide)
      simp only [itemsTame] at this
      exact ⟨h1, this.1⟩
    · intro m1 e1 h1 h2 h3
      refine (hN2 k (by omega) m1 h2).bind ?_ ?_ ?_
      · rintro ⟨h1, h2⟩
        have := exprTame_items h2 (by decide) (by decide)
        simp only [itemsTame] at this
        exact ⟨h1, this.2.1⟩
      · intro m2 e2 h4 h5 h6
        refine .inl ⟨m2, _, ?_, h5, Ext.refl _, (copy_ok (or_ok h3 h6)).congr fun n => by simp [exprSet]⟩
        rw [exprBits.eq_def]; simp only [h1, h4]
      · intro h4
        rw [exprBits.eq_def]; simp only [h1, h4]
    · intro h1
      rw [exprBits.eq_def]; simp only [h1]
  | [.op .and, a, b], h, hd => by
    simp only [exprOk] at h
    obtain ⟨N1, hN1⟩ := item_claim ok hρ hm a h.1 fun d hdd => hd d (by simp [itemsRefs, hdd])
    obtain ⟨N2, hN2⟩ := item_claim ok hρ hm b h.2 fun d hdd => hd d (by simp [itemsRefs, hdd])
    refine ⟨N1 + N2 + 1, fun fuel hfu m hg => ?_⟩
    obtain ⟨k, rfl⟩ : ∃ k, fuel = k + 1 := ⟨fuel - 1, by omega⟩
    refine (hN1 k (by omega) m hg).bind ?_ ?_ ?_
    · rintro ⟨h1, h2⟩
      have := exprTame_items h2 (by decide) (by decide)
      simp only [itemsTame] at this
      exact ⟨h1, this.1⟩
    · intro m1 e1 h1 h2 h3
      refine (hN2 k (by omega) m1 h2).bind ?_ ?_ ?_
      · rintro ⟨h1, h2⟩
        have := exprTame_items h2 (by decide) (by decide)
        simp only [itemsTame] at this
        exact ⟨h1, this.2.1⟩
      · intro m2 e2 h4 h5 h6
        refine .inl ⟨m2, _, ?_, h5, Ext.refl _, (copy_ok (and_ok h3 h6)).congr fun n => by simp [exprSet]⟩
        rw [exprBits.eq_def]; simp only [h1, h4]
      · intro h4
        rw [exprBits.eq_def]; simp only [h1, h4]
    · intro h1
      rw [exprBits.eq_def]; simp only [h1]
  | [.op .xor, a, b], h, hd => by
    simp only [exprOk] at h
    obtain ⟨N1, hN1⟩ := item_claim ok hρ hm a h.1 fun d hdd => hd d (by simp [itemsRefs, hdd])
    obtain ⟨N2, hN2⟩ := item_claim ok hρ hm b h.2 fun d hdd => hd d (by simp [itemsRefs, hdd])
    refine ⟨N1 + N2 + 1, fun fuel hfu m hg => ?_⟩
    obtain ⟨k, rfl⟩ : ∃ k, fuel = k + 1 := ⟨fuel - 1, by omega⟩
    refine (hN1 k (by omega) m hg).bind ?_ ?_ ?_
    · rintro ⟨h1, h2⟩
      have := exprTame_items h2 (by decide) (by decide)
      simp only [itemsTame] at this
      exact ⟨h1, this.1⟩
    · intro m1 e1 h1 h2 h3
      refine (hN2 k (by omega) m1 h2).bind ?_ ?_ ?_
      · rintro ⟨h1, h2⟩
        have := exprTame_items h2 (by decide) (by decide)
        simp only [itemsTame] at this
        exact ⟨h1, this.2.1⟩
      · intro m2 e2 h4 h5 h6
        refine .inl ⟨m2, _, ?_, h5, Ext.refl _, (copy_ok (xor_ok h3 h6)).congr fun n => by simp [exprSet]⟩
        rw [exprBits.eq_def]; simp only [h1, h4]
      · intro h4
        rw [exprBits.eq_def]; simp only [h1, h4]
    · intro h1
      rw [exprBits.eq_def]; simp only [h1]
  | .datum d :: l, h, hd => by
    simp only [exprOk] at h
    obtain ⟨N, hN⟩ := list_claim ok hρ hm (.datum d :: l) h hd
    refine ⟨N + 1, fun fuel hfu m hg => ?_⟩
    obtain ⟨k, rfl⟩ : ∃ k, fuel = k + 1 := ⟨fuel - 1, by omega⟩
    refine (hN k (by omega) m hg _ _ init_ok).bind (by simp [exprTame]) ?_ ?_
    · intro m' e h1 h2 h3
      refine .inl ⟨m', _, ?_, h2, Ext.refl _, (copy_ok h3).congr fun n => by simp [exprSet]⟩
      rw [exprBits.eq_def]; simp only [h1]
    · intro h1
      rw [exprBits.eq_def]; simp only [h1]
  | .list f' l' :: l, h, hd => by
    simp only [exprOk] at h
    obtain ⟨N, hN⟩ := list_claim ok hρ hm (.list f' l' :: l) h hd
    refine ⟨N + 1, fun fuel hfu m hg => ?_⟩
    obtain ⟨k, rfl⟩ : ∃ k, fuel = k + 1 := ⟨fuel - 1, by omega⟩
    refine (hN k (by omega) m hg _ _ init_ok).bind (by simp [exprTame]) ?_ ?_
    · intro m' e h1 h2 h3
      refine .inl ⟨m', _, ?_, h2, Ext.refl _, (copy_ok h3).congr fun n => by simp [exprSet]⟩
      rw [exprBits.eq_def]; simp only [h1]
    · intro h1
      rw [exprBits.eq_def]; simp only [h1]
  | .str o :: l, h, hd => by
    simp only [exprOk] at h
    obtain ⟨N, hN⟩ := list_claim ok hρ hm (.str o :: l) h hd
    refine ⟨N + 1, fun fuel hfu m hg => ?_⟩
    obtain ⟨k, rfl⟩ : ∃ k, fuel = k + 1 := ⟨fuel - 1, by omega⟩
    refine (hN k (by omega) m hg _ _ init_ok).bind (by simp [exprTame]) ?_ ?_
    · intro m' e h1 h2 h3
      refine .inl ⟨m', _, ?_, h2, Ext.refl _, (copy_ok h3).congr fun n => by simp [exprSet]⟩
      rw [exprBits.eq_def]; simp only [h1]
    · intro h1
      rw [exprBits.eq_def]; simp only [h1]
  | .op .other :: l, h, _ => by simp [exprOk, itemsOk, itemOk] at h
  | .op .all :: _ :: _, h, _ => by simp [exprOk, itemsOk, itemOk] at h
  | [.op .range], h, _ => by simp [exprOk, itemsOk, itemOk] at h
  | [.op .range, _], h, _ => by simp [exprOk, itemsOk, itemOk] at h
  | .op .range :: _ :: _ :: _ :: _, h, _ => by simp [exprOk, itemsOk, itemOk] at h
  | [.op .not], h, _ => by simp [exprOk, itemsOk, itemOk] at h
  | .op .not :: _ :: _ :: _, h, _ => by simp [exprOk, itemsOk, itemOk] at h
  | [.op .or], h, _ => by simp [exprOk, itemsOk, itemOk] at h
  | [.op .or, _], h, _ => by simp [exprOk, itemsOk, itemOk] at h
  | .op .or :: _ :: _ :: _ :: _, h, _ => by simp [exprOk, itemsOk, itemOk] at h
  | [.op .and], h, _ => by simp [exprOk, itemsOk, itemOk] at h
  | [.op .and, _], h, _ => by simp [exprOk, itemsOk, itemOk] at h
  | .op .and :: _ :: _ :: _ :: _, h, _ => by simp [exprOk, itemsOk, itemOk] at h
  | [.op .xor], h, _ => by simp [exprOk, itemsOk, itemOk] at h
  | [.op .xor, _], h, _ => by simp [exprOk, itemsOk, itemOk] at h
  | .op .xor :: _ :: _ :: _ :: _, h, _ => by simp [exprOk, itemsOk, itemOk] at h
termination_by l => (sizeOf l, 1)

theorem list_claim (ok : DbOk db) (hρ : Meaning db ρ) {f : Flavor} {max : Nat} (hm : max < 2 ^ 31) :
    (l : List Item) → itemsOk db f l → (∀ d ∈ itemsRefs l, DatumClaim db ρ d) →
    ∃ N, ∀ fuel, N ≤ fuel → ∀ m, Good db ρ m → ∀ (tmp : Ebitmap) (S : Nat → Prop), BitsOk tmp S →
      Post db ρ (Tame db ∧ itemsTame db f max l) m (fun n => S n ∨ unionSet ρ max l n)
        (listBits db fuel m f max tmp l)
  | [], _, _ => by
    refine ⟨1, fun fuel hf m hg tmp S hs => ?_⟩
    obtain ⟨k, rfl⟩ : ∃ k, fuel = k + 1 := ⟨fuel - 1, by omega⟩
    rw [listBits.eq_def]
    exact .inl ⟨m, tmp, rfl, hg, Ext.refl m, hs.congr fun n => by simp [unionSet]⟩
  | i :: l, h, hd => by
    rw [itemsOk] at h
    obtain ⟨N1, hN1⟩ := item_claim ok hρ hm i h.1 fun d hdd => hd d (by simp [itemsRefs, hdd])
    obtain ⟨N2, hN2⟩ := list_claim ok hρ hm l h.2 fun d hdd => hd d (by simp [itemsRefs, hdd])
    refine ⟨N1 + N2 + 1, fun fuel hfu m hg tmp S hs => ?_⟩
    obtain ⟨k, rfl⟩ : ∃ k, fuel = k + 1 := ⟨fuel - 1, by omega⟩
    refine (hN1 k (by omega) m hg).bind ?_ ?_ ?_
    · rintro ⟨h1, h2⟩
      simp only [itemsTame] at h2
      exact ⟨h1, h2.1⟩
    · intro m1 e1 h1 h2 h3
      have := hN2 k (by omega) m1 h2 _ _ (or_ok hs h3)
      have e : listBits db (k + 1) m f max tmp (i :: l) = listBits db k m1 f max (Ebitmap.or tmp e1) l := by
        rw [listBits.eq_def]; simp only [h1]
      rw [e]
      refine this.imp (fun h => ?_) fun n => by simp [unionSet, or_assoc]
      simp only [itemsTame] at h
      exact ⟨h.1, h.2.2⟩
    · intro h1
      rw [listBits.eq_def]; simp only [h1]
termination_by l => (sizeOf l, 0)

end

end Verif.CilSet
