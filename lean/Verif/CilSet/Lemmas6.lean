import Verif.CilSet.Lemmas5
import Batteries.Data.List.Perm
import Mathlib.Data.Nat.Find
import Mathlib.Logic.Relation

/-!
# The check for self-reference
-/

namespace Verif.CilSet

variable {db : Db}

/-- A smaller stack is as good. -/
theorem noSelf_anti (fuel : Nat) :
    (∀ (st st' : List Nat) (d : Nat), st' ⊆ st → noSelf db fuel st d = some true → noSelf db fuel st' d = some true) ∧
    (∀ (st st' : List Nat) (xs : List Expr), st' ⊆ st → noSelfExprs db fuel st xs = some true →
      noSelfExprs db fuel st' xs = some true) ∧
    (∀ (st st' : List Nat) (l : List Item), st' ⊆ st → noSelfItems db fuel st l = some true →
      noSelfItems db fuel st' l = some true) := by
  induction fuel with
  | zero =>
    refine ⟨fun _ _ _ _ h => ?_, fun _ _ _ _ h => ?_, fun _ _ _ _ h => ?_⟩
    · rw [noSelf.eq_def] at h; cases h
    · rw [noSelfExprs.eq_def] at h; cases h
    · rw [noSelfItems.eq_def] at h; cases h
  | succ k ih =>
    obtain ⟨i1, i2, i3⟩ := ih
    refine ⟨fun st st' d hs h => ?_, fun st st' xs hs h => ?_, fun st st' l hs h => ?_⟩
    · rw [noSelf.eq_def] at h ⊢
      simp only at h ⊢
      by_cases hd : d ∈ st
      · rw [if_pos hd] at h; cases h
      · rw [if_neg hd] at h
        rw [if_neg fun hc => hd (hs hc)]
        have hs' : d :: st' ⊆ d :: st := List.cons_subset_cons _ hs
        split at h
        · exact i2 _ _ _ hs' h
        · exact i2 _ _ _ hs' h
        · exact i2 _ _ _ hs' h
        · exact i3 _ _ _ hs' h
        · rfl
    · cases xs with
      | nil => rw [noSelfExprs.eq_def]
      | cons x xs =>
        rw [noSelfExprs.eq_def] at h ⊢
        simp only at h ⊢
        rcases h1 : noSelfItems db k st x.items with _ | _ | _ <;> rw [h1] at h <;> try cases h
        rw [i3 _ _ _ hs h1]
        exact i2 _ _ _ hs h
    · cases l with
      | nil => rw [noSelfItems.eq_def]
      | cons i l =>
        rw [noSelfItems.eq_def] at h ⊢
        cases i with
        | datum d =>
          simp only at h ⊢
          rcases h1 : noSelf db k st d with _ | _ | _ <;> rw [h1] at h <;> try cases h
          rw [i1 _ _ _ hs h1]
          exact i3 _ _ _ hs h
        | list f l' =>
          simp only at h ⊢
          rcases h1 : noSelfItems db k st l' with _ | _ | _ <;> rw [h1] at h <;> try cases h
          rw [i3 _ _ _ hs h1]
          exact i3 _ _ _ hs h
        | op o => exact i3 _ _ _ hs h
        | str o => exact i3 _ _ _ hs h

/-- If the check passes it has passed for everything referred to. -/
theorem noSelfItems_refs (fuel : Nat) : ∀ (st : List Nat) (l : List Item), noSelfItems db fuel st l = some true →
    ∀ c ∈ itemsRefs l, ∃ k, k < fuel ∧ noSelf db k st c = some true := by
  induction fuel with
  | zero => intro st l h; rw [noSelfItems.eq_def] at h; cases h
  | succ k ih =>
    intro st l h c hc
    cases l with
    | nil => simp [itemsRefs] at hc
    | cons i l =>
      rw [noSelfItems.eq_def] at h
      simp only [itemsRefs, List.mem_append] at hc
      have lift : (∃ j, j < k ∧ noSelf db j st c = some true) → ∃ j, j < k + 1 ∧ noSelf db j st c = some true := by
        rintro ⟨j, h1, h2⟩; exact ⟨j, by omega, h2⟩
      cases i with
      | datum d =>
        simp only at h
        rcases h1 : noSelf db k st d with _ | _ | _ <;> rw [h1] at h <;> try cases h
        rcases hc with hc | hc
        · simp only [itemRefs, List.mem_singleton] at hc
          subst hc
          exact ⟨k, by omega, h1⟩
        · exact lift (ih st l h c hc)
      | list f l' =>
        simp only at h
        rcases h1 : noSelfItems db k st l' with _ | _ | _ <;> rw [h1] at h <;> try cases h
        rcases hc with hc | hc
        · exact lift (ih st l' h1 c (by simpa [itemRefs] using hc))
        · exact lift (ih st l h c hc)
      | op o =>
        rcases hc with hc | hc
        · simp [itemRefs] at hc
        · exact lift (ih st l h c hc)
      | str o =>
        rcases hc with hc | hc
        · simp [itemRefs] at hc
        · exact lift (ih st l h c hc)

theorem noSelfExprs_refs (fuel : Nat) : ∀ (st : List Nat) (xs : List Expr), noSelfExprs db fuel st xs = some true →
    ∀ c ∈ xs.flatMap (fun x => itemsRefs x.items), ∃ k, k < fuel ∧ noSelf db k st c = some true := by
  induction fuel with
  | zero => intro st l h; rw [noSelfExprs.eq_def] at h; cases h
  | succ k ih =>
    intro st xs h c hc
    cases xs with
    | nil => simp at hc
    | cons x xs =>
      rw [noSelfExprs.eq_def] at h
      simp only at h
      rcases h1 : noSelfItems db k st x.items with _ | _ | _ <;> rw [h1] at h <;> try cases h
      simp only [List.flatMap_cons, List.mem_append] at hc
      have lift : (∃ j, j < k ∧ noSelf db j st c = some true) → ∃ j, j < k + 1 ∧ noSelf db j st c = some true := by
        rintro ⟨j, h1, h2⟩; exact ⟨j, by omega, h2⟩
      rcases hc with hc | hc
      · exact lift (noSelfItems_refs k st x.items h1 c hc)
      · exact lift (ih st xs h c hc)

theorem noSelf_refs {fuel d : Nat} (h : noSelf db fuel [] d = some true) (c : Nat) (hc : c ∈ db.refs d) :
    ∃ k, k < fuel ∧ noSelf db k [] c = some true := by
  cases fuel with
  | zero => rw [noSelf.eq_def] at h; cases h
  | succ k =>
    rw [noSelf.eq_def] at h
    simp only [List.not_mem_nil, if_false] at h
    have key : (∃ j, j < k ∧ noSelf db j [d] c = some true) → ∃ j, j < k + 1 ∧ noSelf db j [] c = some true := by
      rintro ⟨j, h1, h2⟩
      exact ⟨j, by omega, (noSelf_anti j).1 _ _ _ (List.nil_subset _) h2⟩
    unfold Db.refs at hc
    split at h
    · next h1 => rw [h1] at hc; exact key (noSelfExprs_refs k _ _ h c hc)
    · next h1 => rw [h1] at hc; exact key (noSelfExprs_refs k _ _ h c hc)
    · next h1 => rw [h1] at hc; exact key (noSelfExprs_refs k _ _ h c hc)
    · next h1 => rw [h1] at hc; exact key (noSelfItems_refs k _ _ h c hc)
    · next h1 h2 h3 h4 =>
      split at hc
      · next h5 => exact absurd h5 (h3 _)
      · next h5 => exact absurd h5 (h2 _)
      · next h5 => exact absurd h5 (h1 _)
      · next h5 => exact absurd h5 (h4 _)
      · cases hc

theorem acyclic_of_noSelf (h : ∀ d, ∃ k, noSelf db k [] d = some true) : Acyclic db := by
  classical
  refine ⟨fun d => Nat.find (h d), fun d c hc => ?_⟩
  obtain ⟨k, h1, h2⟩ := noSelf_refs (Nat.find_spec (h d)) c hc
  exact Nat.lt_of_le_of_lt (Nat.find_min' (h c) h2) h1

/-! ### Going through lists with a claim about every symbol -/

mutual

theorem noSelfItem_all (Q : Option Bool → Prop) (hq : Q (some true)) {st : List Nat} : (l : List Item) →
    (∀ c ∈ itemsRefs l, ∃ N, ∀ fuel, N ≤ fuel → noSelf db fuel st c ≠ none ∧ Q (noSelf db fuel st c)) →
    ∃ N, ∀ fuel, N ≤ fuel → noSelfItems db fuel st l ≠ none ∧ Q (noSelfItems db fuel st l)
  | [], _ => ⟨1, fun fuel hf => by
      obtain ⟨k, rfl⟩ : ∃ k, fuel = k + 1 := ⟨fuel - 1, by omega⟩
      rw [noSelfItems.eq_def]; exact ⟨by simp, hq⟩⟩
  | .datum d :: l, h => by
    obtain ⟨N1, h1⟩ := h d (by simp [itemsRefs, itemRefs])
    obtain ⟨N2, h2⟩ := noSelfItem_all Q hq l fun c hc => h c (by simp [itemsRefs, hc])
    refine ⟨N1 + N2 + 1, fun fuel hf => ?_⟩
    obtain ⟨k, rfl⟩ : ∃ k, fuel = k + 1 := ⟨fuel - 1, by omega⟩
    rw [noSelfItems.eq_def]
    simp only
    obtain ⟨g1, g2⟩ := h1 k (by omega)
    rcases h3 : noSelf db k st d with _ | _ | _
    · exact absurd h3 g1
    · rw [h3] at g2; exact ⟨by simp, g2⟩
    · exact h2 k (by omega)
  | .list f l' :: l, h => by
    obtain ⟨N1, h1⟩ := noSelfItem_all Q hq l' fun c hc => h c (by simp [itemsRefs, itemRefs, hc])
    obtain ⟨N2, h2⟩ := noSelfItem_all Q hq l fun c hc => h c (by simp [itemsRefs, hc])
    refine ⟨N1 + N2 + 1, fun fuel hf => ?_⟩
    obtain ⟨k, rfl⟩ : ∃ k, fuel = k + 1 := ⟨fuel - 1, by omega⟩
    rw [noSelfItems.eq_def]
    simp only
    obtain ⟨g1, g2⟩ := h1 k (by omega)
    rcases h3 : noSelfItems db k st l' with _ | _ | _
    · exact absurd h3 g1
    · rw [h3] at g2; exact ⟨by simp, g2⟩
    · exact h2 k (by omega)
  | .op o :: l, h => by
    obtain ⟨N2, h2⟩ := noSelfItem_all Q hq l fun c hc => h c (by simp [itemsRefs, hc])
    refine ⟨N2 + 1, fun fuel hf => ?_⟩
    obtain ⟨k, rfl⟩ : ∃ k, fuel = k + 1 := ⟨fuel - 1, by omega⟩
    rw [noSelfItems.eq_def]
    exact h2 k (by omega)
  | .str o :: l, h => by
    obtain ⟨N2, h2⟩ := noSelfItem_all Q hq l fun c hc => h c (by simp [itemsRefs, hc])
    refine ⟨N2 + 1, fun fuel hf => ?_⟩
    obtain ⟨k, rfl⟩ : ∃ k, fuel = k + 1 := ⟨fuel - 1, by omega⟩
    rw [noSelfItems.eq_def]
    exact h2 k (by omega)

end

theorem noSelfExprs_all (Q : Option Bool → Prop) (hq : Q (some true)) {st : List Nat} (xs : List Expr)
    (h : ∀ c ∈ xs.flatMap (fun x => itemsRefs x.items),
      ∃ N, ∀ fuel, N ≤ fuel → noSelf db fuel st c ≠ none ∧ Q (noSelf db fuel st c)) :
    ∃ N, ∀ fuel, N ≤ fuel → noSelfExprs db fuel st xs ≠ none ∧ Q (noSelfExprs db fuel st xs) := by
  induction xs with
  | nil =>
    exact ⟨1, fun fuel hf => by
      obtain ⟨k, rfl⟩ : ∃ k, fuel = k + 1 := ⟨fuel - 1, by omega⟩
      rw [noSelfExprs.eq_def]; exact ⟨by simp, hq⟩⟩
  | cons x xs ih =>
    obtain ⟨N1, h1⟩ := noSelfItem_all Q hq x.items fun c hc => h c (by simp [hc])
    obtain ⟨N2, h2⟩ := ih fun c hc => h c (by rw [List.flatMap_cons]; exact List.mem_append_right _ hc)
    refine ⟨N1 + N2 + 1, fun fuel hf => ?_⟩
    obtain ⟨k, rfl⟩ : ∃ k, fuel = k + 1 := ⟨fuel - 1, by omega⟩
    rw [noSelfExprs.eq_def]
    simp only
    obtain ⟨g1, g2⟩ := h1 k (by omega)
    rcases h3 : noSelfItems db k st x.items with _ | _ | _
    · exact absurd h3 g1
    · rw [h3] at g2; exact ⟨by simp, g2⟩
    · exact h2 k (by omega)

theorem noSelf_step (Q : Option Bool → Prop) (hq : Q (some true)) {st : List Nat} {d : Nat} (hd : d ∉ st)
    (h : ∀ c ∈ db.refs d, ∃ N, ∀ fuel, N ≤ fuel → noSelf db fuel (d :: st) c ≠ none ∧ Q (noSelf db fuel (d :: st) c)) :
    ∃ N, ∀ fuel, N ≤ fuel → noSelf db fuel st d ≠ none ∧ Q (noSelf db fuel st d) := by
  unfold Db.refs at h
  have lift : ∀ {F : Nat → Option Bool}, (∃ N, ∀ fuel, N ≤ fuel → F fuel ≠ none ∧ Q (F fuel)) →
      (∀ k, noSelf db (k + 1) st d = F k) → ∃ N, ∀ fuel, N ≤ fuel → noSelf db fuel st d ≠ none ∧ Q (noSelf db fuel st d) := by
    rintro F ⟨N, hN⟩ he
    refine ⟨N + 1, fun fuel hf => ?_⟩
    obtain ⟨k, rfl⟩ : ∃ k, fuel = k + 1 := ⟨fuel - 1, by omega⟩
    rw [he k]
    exact hN k (by omega)
  rcases hx : db.datums[d]? with _ | x
  · exact lift (F := fun _ => some true) ⟨0, fun _ _ => ⟨by simp, hq⟩⟩ fun k => by
      rw [noSelf.eq_def]; simp only [if_neg hd, hx]
  · rw [hx] at h
    cases x with
    | typeattribute xs =>
      exact lift (noSelfExprs_all Q hq xs h) fun k => by rw [noSelf.eq_def]; simp only [if_neg hd, hx]
    | roleattribute xs =>
      exact lift (noSelfExprs_all Q hq xs h) fun k => by rw [noSelf.eq_def]; simp only [if_neg hd, hx]
    | userattribute xs =>
      exact lift (noSelfExprs_all Q hq xs h) fun k => by rw [noSelf.eq_def]; simp only [if_neg hd, hx]
    | catset x =>
      exact lift (noSelfItem_all Q hq x.items h) fun k => by rw [noSelf.eq_def]; simp only [if_neg hd, hx]
    | _ =>
      exact lift (F := fun _ => some true) ⟨0, fun _ _ => ⟨by simp, hq⟩⟩ fun k => by
        rw [noSelf.eq_def]; simp only [if_neg hd, hx]

theorem noSelf_true_of_acyclic (ac : Acyclic db) (d : Nat) :
    ∃ N, ∀ fuel, N ≤ fuel → noSelf db fuel [] d = some true := by
  obtain ⟨rank, hr⟩ := ac
  have : ∀ r d st, rank d = r → (∀ s ∈ st, rank d < rank s) →
      ∃ N, ∀ fuel, N ≤ fuel → noSelf db fuel st d ≠ none ∧ noSelf db fuel st d = some true := by
    intro r
    induction r using Nat.strongRecOn with
    | _ r ih =>
      intro d st hd hs
      refine noSelf_step (fun o => o = some true) rfl (fun hm => ?_) fun c hc => ?_
      · exact absurd (hs d hm) (Nat.lt_irrefl _)
      · have h1 := hr d c hc
        refine ih (rank c) (by omega) c _ rfl fun s hm => ?_
        rcases List.mem_cons.1 hm with h | h
        · subst h; exact h1
        · have := hs s h; omega
  obtain ⟨N, hN⟩ := this _ d [] rfl (by simp)
  exact ⟨N, fun fuel hf => (hN fuel hf).2⟩

theorem nodup_length {n : Nat} {l : List Nat} (hn : l.Nodup) (h : ∀ x ∈ l, x < n) : l.length ≤ n := by
  have : l.Subperm (List.range n) := List.subperm_of_subset hn fun x hx => List.mem_range.2 (h x hx)
  simpa using this.length_le

theorem noSelf_ends (d : Nat) : ∃ N, ∀ fuel, N ≤ fuel → noSelf db fuel [] d ≠ none := by
  have : ∀ k (st : List Nat) (d : Nat), st.Nodup → (∀ s ∈ st, s < db.datums.length) →
      db.datums.length ≤ st.length + k →
      ∃ N, ∀ fuel, N ≤ fuel → noSelf db fuel st d ≠ none ∧ True := by
    intro k
    induction k with
    | zero =>
      intro st d h1 h2 h3
      by_cases hd : d ∈ st
      · refine ⟨1, fun fuel hf => ?_⟩
        obtain ⟨k, rfl⟩ : ∃ k, fuel = k + 1 := ⟨fuel - 1, by omega⟩
        rw [noSelf.eq_def]; simp [hd]
      · refine noSelf_step (fun _ => True) trivial hd fun c hc => ?_
        exfalso
        have hlt : d < db.datums.length := by
          by_contra h
          have : db.datums[d]? = none := List.getElem?_eq_none (by omega)
          simp [Db.refs, this] at hc
        have := nodup_length (l := d :: st) (n := db.datums.length) (List.nodup_cons.2 ⟨hd, h1⟩) (by
          intro x hx
          rcases List.mem_cons.1 hx with h | h
          · subst h; exact hlt
          · exact h2 x h)
        simp only [List.length_cons] at this
        omega
    | succ k ih =>
      intro st d h1 h2 h3
      by_cases hd : d ∈ st
      · refine ⟨1, fun fuel hf => ?_⟩
        obtain ⟨k, rfl⟩ : ∃ k, fuel = k + 1 := ⟨fuel - 1, by omega⟩
        rw [noSelf.eq_def]; simp [hd]
      · refine noSelf_step (fun _ => True) trivial hd fun c hc => ?_
        have hlt : d < db.datums.length := by
          by_contra h
          have : db.datums[d]? = none := List.getElem?_eq_none (by omega)
          simp [Db.refs, this] at hc
        refine ih (d :: st) c (List.nodup_cons.2 ⟨hd, h1⟩) (fun x hx => ?_) (by simp only [List.length_cons]; omega)
        rcases List.mem_cons.1 hx with h | h
        · subst h; exact hlt
        · exact h2 x h
  obtain ⟨N, hN⟩ := this db.datums.length [] d List.nodup_nil (by simp) (by simp)
  exact ⟨N, fun fuel hf => (hN fuel hf).1⟩

/-- One symbol refers to another, directly or through others. -/
abbrev Reaches (db : Db) : Nat → Nat → Prop := Relation.TransGen fun a b => b ∈ db.refs a

theorem acyclic_iff : Acyclic db ↔ ∀ d, ¬ Reaches db d d := by
  constructor
  · rintro ⟨rank, hr⟩ d hd
    have : ∀ a b, Reaches db a b → rank b < rank a := by
      intro a b h
      induction h with
      | single h => exact hr _ _ h
      | tail _ h ih => exact Nat.lt_trans (hr _ _ h) ih
    exact Nat.lt_irrefl _ (this d d hd)
  · intro hno
    have : ∀ k (st : List Nat) (d : Nat), st.Nodup → (∀ s ∈ st, s < db.datums.length) →
        db.datums.length ≤ st.length + k → (∀ s ∈ st, Reaches db s d) →
        ∃ N, ∀ fuel, N ≤ fuel → noSelf db fuel st d ≠ none ∧ noSelf db fuel st d = some true := by
      intro k
      induction k with
      | zero =>
        intro st d h1 h2 h3 h4
        have hd : d ∉ st := fun h => hno d (h4 d h)
        refine noSelf_step (fun o => o = some true) rfl hd fun c hc => ?_
        exfalso
        have hlt : d < db.datums.length := by
          by_contra h
          have : db.datums[d]? = none := List.getElem?_eq_none (by omega)
          simp [Db.refs, this] at hc
        have := nodup_length (l := d :: st) (n := db.datums.length) (List.nodup_cons.2 ⟨hd, h1⟩) (by
          intro x hx
          rcases List.mem_cons.1 hx with h | h
          · subst h; exact hlt
          · exact h2 x h)
        simp only [List.length_cons] at this
        omega
      | succ k ih =>
        intro st d h1 h2 h3 h4
        have hd : d ∉ st := fun h => hno d (h4 d h)
        refine noSelf_step (fun o => o = some true) rfl hd fun c hc => ?_
        have hlt : d < db.datums.length := by
          by_contra h
          have : db.datums[d]? = none := List.getElem?_eq_none (by omega)
          simp [Db.refs, this] at hc
        refine ih (d :: st) c (List.nodup_cons.2 ⟨hd, h1⟩) (fun x hx => ?_) (by simp only [List.length_cons]; omega)
          fun x hx => ?_
        · rcases List.mem_cons.1 hx with h | h
          · subst h; exact hlt
          · exact h2 x h
        · rcases List.mem_cons.1 hx with h | h
          · subst h; exact Relation.TransGen.single hc
          · exact Relation.TransGen.tail (h4 x h) hc
    refine acyclic_of_noSelf fun d => ?_
    obtain ⟨N, hN⟩ := this db.datums.length [] d List.nodup_nil (by simp) (by simp) (by simp)
    exact ⟨N, (hN N (Nat.le_refl _)).2⟩

end Verif.CilSet
