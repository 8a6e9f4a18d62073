import Verif.Prelude

/-! General list lemmas used in several areas. -/

namespace Verif

/-- Two strictly increasing lists with the same members are equal. -/
theorem sorted_ext {α : Type _} (lt : α → α → Prop) (irr : ∀ a, ¬ lt a a) (asym : ∀ a b, lt a b → ¬ lt b a)
    {l1 l2 : List α} (h1 : l1.Pairwise lt) (h2 : l2.Pairwise lt)
    (h : ∀ x, x ∈ l1 ↔ x ∈ l2) : l1 = l2 := by
  induction l1 generalizing l2 with
  | nil =>
    cases l2 with
    | nil => rfl
    | cons b t => exact absurd ((h b).2 (by simp)) (by simp)
  | cons a t ih =>
    cases l2 with
    | nil => exact absurd ((h a).1 (by simp)) (by simp)
    | cons b t2 =>
      rw [List.pairwise_cons] at h1 h2
      have hab : a = b := by
        have ha := (h a).1 (by simp)
        have hb := (h b).2 (by simp)
        rw [List.mem_cons] at ha hb
        rcases ha with ha | ha
        · exact ha
        · rcases hb with hb | hb
          · exact hb.symm
          · exact absurd (h2.1 a ha) (asym _ _ (h1.1 b hb))
      subst hab
      congr 1
      apply ih h1.2 h2.2
      intro x
      have := h x
      rw [List.mem_cons, List.mem_cons] at this
      constructor
      · intro hx
        rcases this.1 (Or.inr hx) with e | e
        · subst e; exact absurd (h1.1 _ hx) (irr _)
        · exact e
      · intro hx
        rcases this.2 (Or.inr hx) with e | e
        · subst e; exact absurd (h2.1 _ hx) (irr _)
        · exact e

theorem sorted_ext_nat {l1 l2 : List Nat} (h1 : l1.Pairwise (· < ·)) (h2 : l2.Pairwise (· < ·))
    (h : ∀ x, x ∈ l1 ↔ x ∈ l2) : l1 = l2 :=
  sorted_ext (· < ·) (fun a => Nat.lt_irrefl a) (fun _ _ h h' => Nat.lt_asymm h h') h1 h2 h

theorem countP_or_disjoint {α : Type _} (p q : α → Bool) (l : List α)
    (h : ∀ x ∈ l, ¬ (p x = true ∧ q x = true)) :
    l.countP (fun x => p x || q x) = l.countP p + l.countP q := by
  induction l with
  | nil => simp
  | cons a t ih =>
    have i := ih (fun x hx => h x (by simp [hx]))
    have ha := h a (by simp)
    simp only [List.countP_cons, i]
    cases hp : p a <;> cases hq : q a <;> simp_all <;> omega

theorem countP_range_shift (p : Nat → Bool) (s k N : Nat) (hN : s + k ≤ N)
    (h1 : ∀ b, b < s → p b = false) (h2 : ∀ b, s + k ≤ b → p b = false) :
    (List.range N).countP p = (List.range k).countP (fun i => p (s + i)) := by
  obtain ⟨r, rfl⟩ : ∃ r, N = s + k + r := ⟨N - (s + k), by omega⟩
  rw [List.range_add, List.range_add, List.countP_append, List.countP_append, List.countP_map,
    List.countP_map]
  have e1 : (List.range s).countP p = 0 := by
    rw [List.countP_eq_zero]; intro a ha; rw [h1 a (by simpa using ha)]; simp
  have e2 : (List.range r).countP (p ∘ (fun x => s + k + x)) = 0 := by
    rw [List.countP_eq_zero]; intro a ha
    simp [h2 (s + k + a) (by omega)]
  rw [e1, e2]
  simp [Function.comp_def]

end Verif
