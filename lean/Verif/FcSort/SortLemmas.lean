import Verif.Prelude
import Mathlib.Data.List.Perm.Basic
import Verif.FcSort.Model
/-!
# The merge sort
-/
namespace Verif.FcSort

/-- `a` has to come before `b`. -/
def lt (a b : Node) : Prop := compare b a = 1

instance (a b : Node) : Decidable (lt a b) := by unfold lt; infer_instance

/-- The four keys of the comparison. -/
theorem lt_iff (a b : Node) : lt a b ↔
    if (0 ≤ a.metaPos) ≠ (0 ≤ b.metaPos) then 0 ≤ a.metaPos
    else if a.metaPos ≠ b.metaPos then a.metaPos < b.metaPos
    else if a.effLen ≠ b.effLen then a.effLen < b.effLen
    else a.fileType = none ∧ b.fileType ≠ none := by
  unfold lt compare
  by_cases ha : 0 ≤ a.metaPos <;> by_cases hb : 0 ≤ b.metaPos <;>
  cases hfa : a.fileType <;> cases hfb : b.fileType <;>
    simp [ha, hb] <;> split_ifs <;> simp <;> omega

theorem lt_asymm {a b : Node} (h : lt a b) : ¬ lt b a := by
  rw [lt_iff] at h ⊢
  by_cases ha : 0 ≤ a.metaPos <;> by_cases hb : 0 ≤ b.metaPos <;>
  cases hfa : a.fileType <;> cases hfb : b.fileType <;>
    simp [ha, hb, hfa, hfb] at h ⊢ <;> split_ifs at h ⊢ <;> first | omega | (exfalso; omega)

theorem nlt_trans {a b c : Node} (h1 : ¬ lt b a) (h2 : ¬ lt c b) : ¬ lt c a := by
  rw [lt_iff] at h1 h2 ⊢
  by_cases ha : 0 ≤ a.metaPos <;> by_cases hb : 0 ≤ b.metaPos <;> by_cases hc : 0 ≤ c.metaPos <;>
  cases hfa : a.fileType <;> cases hfb : b.fileType <;> cases hfc : c.fileType <;>
    simp [ha, hb, hc, hfa, hfb, hfc] at h1 h2 ⊢ <;> split_ifs at h1 h2 ⊢ <;> simp_all <;> omega

/-- Equally specific. -/
def same (a b : Node) : Bool := decide (¬ lt a b ∧ ¬ lt b a)

theorem not_same_of_lt {a b c e : Node} (hab : lt a b) (hbc : ¬ lt c b) (hae : same a e = true) :
    same c e = false := by
  simp only [same, decide_eq_true_eq, decide_eq_false_iff_not, not_and_or, not_not] at *
  by_contra h
  push Not at h
  -- c ≤ e ≤ a, b ≤ c gives b ≤ a
  exact nlt_trans hbc (nlt_trans h.2 hae.1) hab

def Sorted (l : List Node) : Prop := l.Pairwise (fun a b => ¬ lt b a)

theorem merge_perm (l r : List Node) : (merge l r).Perm (l ++ r) := by
  fun_induction merge l r with
  | case1 r => simp
  | case2 l => simp
  | case3 l left r right h ih =>
    exact (List.Perm.cons r ih).trans (List.perm_middle (l₁ := l :: left)).symm
  | case4 l left r right h ih => exact List.Perm.cons l ih

theorem merge_sorted (l r : List Node) (hl : Sorted l) (hr : Sorted r) : Sorted (merge l r) := by
  fun_induction merge l r with
  | case1 r => exact hr
  | case2 l => exact hl
  | case3 l left r right h ih =>
    have h : lt r l := h
    refine List.pairwise_cons.2 ⟨?_, ih hl (List.pairwise_cons.1 hr).2⟩
    intro x hx
    have hx := (merge_perm _ _).mem_iff.1 hx
    rcases List.mem_append.1 hx with hx | hx
    · rcases List.mem_cons.1 hx with rfl | hx
      · exact lt_asymm h
      · exact nlt_trans (lt_asymm h) ((List.pairwise_cons.1 hl).1 x hx)
    · exact (List.pairwise_cons.1 hr).1 x hx
  | case4 l left r right h ih =>
    have h : ¬ lt r l := h
    refine List.pairwise_cons.2 ⟨?_, ih (List.pairwise_cons.1 hl).2 hr⟩
    intro x hx
    have hx := (merge_perm _ _).mem_iff.1 hx
    rcases List.mem_append.1 hx with hx | hx
    · exact (List.pairwise_cons.1 hl).1 x hx
    · rcases List.mem_cons.1 hx with rfl | hx
      · exact h
      · exact nlt_trans h ((List.pairwise_cons.1 hr).1 x hx)

theorem merge_stable (e : Node) (l r : List Node) (hl : Sorted l) (hr : Sorted r) :
    (merge l r).filter (same · e) = l.filter (same · e) ++ r.filter (same · e) := by
  fun_induction merge l r with
  | case1 r => simp
  | case2 l => simp
  | case3 l left r right h ih =>
    have h : lt r l := h
    have ih := ih hl (List.pairwise_cons.1 hr).2
    by_cases hre : same r e = true
    · have hnil : (l :: left).filter (same · e) = [] := by
        rw [List.filter_eq_nil_iff]
        intro x hx
        have : same x e = false := by
          rcases List.mem_cons.1 hx with rfl | hx
          · exact not_same_of_lt h (fun h' => lt_asymm h' h') hre
          · exact not_same_of_lt h ((List.pairwise_cons.1 hl).1 x hx) hre
        simp [this]
      rw [List.filter_cons_of_pos (by simpa using hre), ih, hnil,
        List.filter_cons_of_pos (by simpa using hre)]
      rfl
    · rw [List.filter_cons_of_neg (by simpa using hre), ih,
        List.filter_cons_of_neg (a := r) (by simpa using hre)]
  | case4 l left r right h ih =>
    have ih := ih (List.pairwise_cons.1 hl).2 hr
    by_cases hle : same l e = true
    · rw [List.filter_cons_of_pos (by simpa using hle), ih,
        List.filter_cons_of_pos (a := l) (by simpa using hle)]
      rfl
    · rw [List.filter_cons_of_neg (by simpa using hle), ih,
        List.filter_cons_of_neg (a := l) (by simpa using hle)]

theorem mergePass_perm : ∀ bs, (mergePass bs).flatten.Perm bs.flatten
  | [] => by simp [mergePass]
  | [_] => by simp [mergePass]
  | a :: b :: rest => by
    simp only [mergePass, List.flatten_cons, ← List.append_assoc]
    exact (merge_perm a b).append (mergePass_perm rest)

theorem mergePass_sorted : ∀ bs, (∀ b ∈ bs, Sorted b) → ∀ b ∈ mergePass bs, Sorted b
  | [], h => h
  | [_], h => h
  | a :: b :: rest, h => by
    intro x hx
    simp only [mergePass, List.mem_cons] at hx
    rcases hx with rfl | hx
    · exact merge_sorted _ _ (h a (by simp)) (h b (by simp))
    · exact mergePass_sorted rest (fun y hy => h y (by simp [hy])) x hx

theorem mergePass_stable (e : Node) : ∀ bs, (∀ b ∈ bs, Sorted b) →
    (mergePass bs).flatten.filter (same · e) = bs.flatten.filter (same · e)
  | [], _ => rfl
  | [_], _ => rfl
  | a :: b :: rest, h => by
    simp only [mergePass, List.flatten_cons, List.filter_append]
    rw [merge_stable e a b (h a (by simp)) (h b (by simp)),
      mergePass_stable e rest (fun y hy => h y (by simp [hy])), List.append_assoc]

theorem mergeSort_perm (bs : List (List Node)) : (mergeSort bs).Perm bs.flatten := by
  fun_induction mergeSort bs with
  | case1 => simp
  | case2 b => simp
  | case3 a b rest ih => exact ih.trans (mergePass_perm _)

theorem mergeSort_sorted (bs : List (List Node)) (h : ∀ b ∈ bs, Sorted b) :
    Sorted (mergeSort bs) := by
  fun_induction mergeSort bs with
  | case1 => exact List.Pairwise.nil
  | case2 b => exact h b (by simp)
  | case3 a b rest ih => exact ih (mergePass_sorted _ h)

theorem mergeSort_stable (e : Node) (bs : List (List Node)) (h : ∀ b ∈ bs, Sorted b) :
    (mergeSort bs).filter (same · e) = bs.flatten.filter (same · e) := by
  fun_induction mergeSort bs with
  | case1 => rfl
  | case2 b => simp
  | case3 a b rest ih => rw [ih (mergePass_sorted _ h), mergePass_stable e _ h]

theorem flatten_singles (ns : List Node) : (ns.map (fun n => [n])).flatten = ns := by
  induction ns with
  | nil => rfl
  | cons n ns ih => simp [ih]

theorem singles_sorted (ns : List Node) : ∀ b ∈ ns.map (fun n => [n]), Sorted b := by
  intro b hb
  obtain ⟨n, _, rfl⟩ := List.mem_map.1 hb
  exact List.pairwise_singleton _ _

end Verif.FcSort
