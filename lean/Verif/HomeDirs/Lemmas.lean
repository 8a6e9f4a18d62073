import Verif.HomeDirs.Model
import Verif.HomeDirs.Spec
import Verif.LabelObj.MediaProps
/-! # Lemmas on replacing -/
namespace Verif.HomeDirs
open Verif.FileLabel (isspace)
open Verif.LabelObj (str)
open Spec

theorem strstr_none {pat s : Bytes} (h : strstr pat s = none) : ∀ pre post, s ≠ pre ++ pat ++ post := by
  induction s with
  | nil =>
    intro pre post e
    rw [strstr] at h
    split at h
    · cases h
    · rename_i hp
      have : pat.length = 0 := by
        have := congrArg List.length e
        simp only [List.length_nil, List.length_append] at this; omega
      exact hp (List.length_eq_zero_iff.1 this)
  | cons b s ih =>
    rw [strstr] at h
    split at h
    · cases h
    · rename_i hp
      intro pre post e
      cases pre with
      | nil =>
        apply hp
        rw [List.isPrefixOf_iff_prefix]
        exact ⟨post, e.symm⟩
      | cons c pre =>
        rw [List.cons_append, List.cons_append, List.cons.injEq] at e
        exact ih (by simpa using h) pre post e.2

theorem strstr_some {pat s : Bytes} {i : Nat} (h : strstr pat s = some i) :
    FirstAt pat s (s.take i) (s.drop (i + pat.length)) ∧ i + pat.length ≤ s.length := by
  induction s generalizing i with
  | nil =>
    rw [strstr] at h
    split at h
    · rename_i hp
      cases h
      subst hp
      exact ⟨⟨rfl, fun _ _ _ => by simp⟩, by simp⟩
    · cases h
  | cons b s ih =>
    rw [strstr] at h
    split at h
    · rename_i hp
      cases h
      rw [List.isPrefixOf_iff_prefix] at hp
      obtain ⟨t, ht⟩ := hp
      rw [← ht]
      refine ⟨⟨?_, fun _ _ _ => by simp⟩, by simp⟩
      simp
    · rename_i hp
      cases hs : strstr pat s with
      | none => rw [hs] at h; cases h
      | some j =>
        rw [hs] at h
        have hi : j + 1 = i := by simpa using h
        subst hi
        obtain ⟨⟨h1, h2⟩, h3⟩ := ih hs
        refine ⟨⟨?_, ?_⟩, ?_⟩
        · rw [List.take_succ_cons, show j + 1 + pat.length = (j + pat.length) + 1 by omega, List.drop_succ_cons,
            List.cons_append, List.cons_append, ← h1]
        · intro pre post e
          cases pre with
          | nil =>
            exfalso
            apply hp
            rw [List.isPrefixOf_iff_prefix]
            exact ⟨post, e.symm⟩
          | cons c pre =>
            rw [List.cons_append, List.cons_append, List.cons.injEq] at e
            have := h2 pre post e.2
            rw [List.take_succ_cons, List.length_cons, List.length_cons]
            omega
        · rw [List.length_cons]; omega

/-- There are `n` occurrences, one after the other. -/
def has (pat : Bytes) : Nat → Bytes → Prop
  | 0, _ => True
  | n + 1, s => ∃ i, strstr pat s = some i ∧ has pat n (s.drop (i + pat.length))

/-- `n` of them replaced. -/
def reps (pat repl : Bytes) : Nat → Bytes → Bytes
  | 0, s => s
  | n + 1, s =>
    match strstr pat s with
    | none => s
    | some i => s.take i ++ repl ++ reps pat repl n (s.drop (i + pat.length))

theorem reps_length {pat repl : Bytes} {n : Nat} {s : Bytes} (h : has pat n s) :
    (reps pat repl n s).length + n * pat.length = s.length + n * repl.length ∧ n * pat.length ≤ s.length := by
  induction n generalizing s with
  | zero => simp [reps]
  | succ n ih =>
    obtain ⟨i, hi, h⟩ := h
    have hl := (strstr_some hi).2
    obtain ⟨h1, h2⟩ := ih h
    rw [reps, hi]
    rw [List.length_drop] at h1 h2
    simp only [List.length_append, List.length_take, Nat.succ_mul]
    omega

theorem fill_eq {pat repl : Bytes} {size n c : Nat} {s out : Bytes} (h : has pat (c + 1) s) (hn : c + 1 ≤ n)
    (hs : size = out.length + (reps pat repl (c + 1) s).length + 1) :
    fill pat repl size n s out (c + 1) = .ok (out ++ reps pat repl (c + 1) s) := by
  induction n generalizing s out c with
  | zero => omega
  | succ n ih =>
    obtain ⟨i, hi, h⟩ := h
    have e : reps pat repl (c + 1) s = s.take i ++ repl ++ reps pat repl c (s.drop (i + pat.length)) := by
      rw [reps, hi]
    rw [e] at hs ⊢
    simp only [List.length_append] at hs
    rw [fill, hi]
    dsimp only
    rw [if_neg (by simp only [List.length_append]; omega), if_neg (by simp only [List.length_append]; omega)]
    cases c with
    | zero =>
      rw [if_pos rfl, finish, if_neg]
      · simp [reps]
      · simp only [List.length_append, reps] at hs ⊢; omega
    | succ c =>
      rw [if_neg (by omega), Nat.add_sub_cancel, ih h (by omega)]
      · simp
      · simp only [List.length_append]; omega

theorem count_eq {pat : Bytes} (hp : pat ≠ []) {lim n c : Nat} {s : Bytes} (hn : s.length < n) (hc : lim ≠ 0 → c < lim) :
    ∃ m, countLoop pat lim n s c = c + m ∧ has pat m s ∧ (lim = 0 → ¬ has pat (m + 1) s) ∧
      (lim ≠ 0 → c + m ≤ lim ∧ (c + m = lim ∨ ¬ has pat (m + 1) s)) := by
  induction n generalizing s c with
  | zero => omega
  | succ n ih =>
    rw [countLoop]
    cases hi : strstr pat s with
    | none =>
      have : ¬ has pat (0 + 1) s := by rintro ⟨i, h, _⟩; rw [hi] at h; cases h
      exact ⟨0, rfl, trivial, fun _ => this, fun h => ⟨by have := hc h; omega, Or.inr this⟩⟩
    | some i =>
      dsimp only
      split
      · rename_i hl
        exact ⟨1, rfl, ⟨i, hi, trivial⟩, fun h => absurd h hl.1, fun h => ⟨by have := hc h; omega, Or.inl (by have := hc h; omega)⟩⟩
      · rename_i hl
        have hl' := (strstr_some hi).2
        have hpl : 0 < pat.length := List.length_pos_iff.2 hp
        obtain ⟨m, h1, h2, h3, h4⟩ := ih (s := s.drop (i + pat.length)) (c := c + 1) (by rw [List.length_drop]; omega)
          (fun h => by by_contra h'; exact hl ⟨h, by omega⟩)
        have hstep : ¬ has pat (m + 1) (s.drop (i + pat.length)) → ¬ has pat (m + 1 + 1) s := by
          rintro h ⟨j, hj, hh⟩
          rw [hi] at hj; cases hj
          exact h hh
        refine ⟨m + 1, by rw [h1]; omega, ⟨i, hi, h2⟩, fun h => hstep (h3 h), fun h => ?_⟩
        obtain ⟨h5, h6⟩ := h4 h
        refine ⟨by omega, h6.elim (fun h => Or.inl (by omega)) (fun h => Or.inr (hstep h))⟩

theorem reps_all {pat repl : Bytes} {m : Nat} {s : Bytes} (h : has pat m s) (hn : ¬ has pat (m + 1) s) :
    Replaced pat repl none s (reps pat repl m s) := by
  induction m generalizing s with
  | zero =>
    refine .none _ _ (strstr_none ?_)
    cases hi : strstr pat s with
    | none => rfl
    | some i => exact absurd ⟨i, hi, trivial⟩ hn
  | succ m ih =>
    obtain ⟨i, hi, h⟩ := h
    rw [reps, hi]
    exact .all _ _ _ _ (strstr_some hi).1 (ih h fun h' => hn ⟨i, hi, h'⟩)

theorem reps_some {pat repl : Bytes} {m k : Nat} {s : Bytes} (h : has pat m s) (hk : m ≤ k) (hn : m = k ∨ ¬ has pat (m + 1) s) :
    Replaced pat repl (some k) s (reps pat repl m s) := by
  induction m generalizing s k with
  | zero =>
    rcases hn with rfl | hn
    · exact .stop _
    · refine .none _ _ (strstr_none ?_)
      cases hi : strstr pat s with
      | none => rfl
      | some i => exact absurd ⟨i, hi, trivial⟩ hn
  | succ m ih =>
    obtain ⟨i, hi, h⟩ := h
    cases k with
    | zero => omega
    | succ k =>
      rw [reps, hi]
      exact .some _ _ _ _ _ (strstr_some hi).1 (ih h (by omega) (hn.elim (fun e => Or.inl (by omega))
        fun e => Or.inr fun h' => e ⟨i, hi, h'⟩))

theorem size_eq {S R L m N : Nat} (h : N + m * L = S + m * R) (hm : 1 ≤ m) (hL : m * L ≤ S) (hN : N + 1 < 2 ^ 64) (hS : S + 1 < 2 ^ 64) :
    (S + 1 + m * ((R + 2 ^ 64 - L) % 2 ^ 64)) % 2 ^ 64 = N + 1 := by
  generalize 2 ^ 64 = W at *
  have hmL : L ≤ m * L := Nat.le_mul_of_pos_left L hm
  have hmR : R ≤ m * R := Nat.le_mul_of_pos_left R hm
  by_cases hr : L ≤ R
  · have e : (R + W - L) % W = R - L := by
      rw [show R + W - L = (R - L) + W by omega, Nat.add_mod_right, Nat.mod_eq_of_lt (by omega)]
    have e2 : m * (R - L) = m * R - m * L := Nat.mul_sub ..
    have e3 : m * L ≤ m * R := Nat.mul_le_mul_left m hr
    rw [e, e2, Nat.mod_eq_of_lt (by omega)]; omega
  · have e : (R + W - L) % W = W - (L - R) := by
      rw [Nat.mod_eq_of_lt (by omega)]; omega
    have e2 : m * (W - (L - R)) = m * W - m * (L - R) := Nat.mul_sub ..
    have e3 : m * (L - R) = m * L - m * R := Nat.mul_sub ..
    have e4 : m * (L - R) ≤ m * W := Nat.mul_le_mul_left m (by omega)
    have e5 : m * R ≤ m * L := Nat.mul_le_mul_left m (by omega)
    rw [e, e2, show S + 1 + (m * W - m * (L - R)) = (N + 1) + m * W by omega, Nat.add_mul_mod_self_right, Nat.mod_eq_of_lt hN]

theorem replaced_unique {pat repl : Bytes} {k : Option Nat} {s a b : Bytes} (ha : Replaced pat repl k s a) (hb : Replaced pat repl k s b) :
    a = b := by
  have hfirst : ∀ {s pre post pre' post'}, FirstAt pat s pre post → FirstAt pat s pre' post' → pre = pre' ∧ post = post' := by
    intro s pre post pre' post' h h'
    have l1 := h.2 _ _ h'.1
    have l2 := h'.2 _ _ h.1
    have e := h.1.symm.trans h'.1
    rw [List.append_assoc, List.append_assoc] at e
    obtain ⟨e1, e2⟩ := List.append_inj e (by omega)
    exact ⟨e1, List.append_cancel_left e2⟩
  induction ha generalizing b with
  | stop s => cases hb <;> rfl
  | none k s h =>
    cases hb with
    | stop => rfl
    | none => rfl
    | all _ pre post _ hf => exact absurd hf.1 (h pre post)
    | some _ _ pre post _ hf => exact absurd hf.1 (h pre post)
  | all s pre post out hf hr ih =>
    cases hb with
    | none _ _ h => exact absurd hf.1 (h pre post)
    | all _ pre' post' out' hf' hr' =>
      obtain ⟨rfl, rfl⟩ := hfirst hf hf'
      rw [ih hr']
  | some k s pre post out hf hr ih =>
    cases hb with
    | none _ _ h => exact absurd hf.1 (h pre post)
    | some _ _ pre' post' out' hf' hr' =>
      obtain ⟨rfl, rfl⟩ := hfirst hf hf'
      rw [ih hr']

theorem strReplace_ok {search repl src out : Bytes} {lim : Nat} (hp : search ≠ [])
    (hr : Replaced search repl (if lim = 0 then none else some lim) src out) (hs : src.length + 1 < 2 ^ 64) (ho : out.length + 1 < 2 ^ 64) :
    strReplace search repl src lim = .ok out := by
  unfold strReplace
  rw [if_neg (by rw [List.length_eq_zero_iff]; exact hp)]
  obtain ⟨m, h1, h2, h3, h4⟩ := count_eq hp (lim := lim) (n := src.length + 1) (c := 0) (s := src) (by omega) (by omega)
  rw [Nat.zero_add] at h1 h4
  have hr' : Replaced search repl (if lim = 0 then none else some lim) src (reps search repl m src) := by
    split
    · rename_i hl
      exact reps_all h2 (h3 hl)
    · rename_i hl
      exact reps_some h2 (h4 hl).1 (h4 hl).2
  have e := replaced_unique hr hr'
  subst e
  dsimp only
  rw [h1]
  cases m with
  | zero => rw [if_pos rfl]; rfl
  | succ m =>
    rw [if_neg (by omega)]
    have hl := reps_length (repl := repl) h2
    have hsize : newSize search repl src (m + 1) = (reps search repl (m + 1) src).length + 1 :=
      size_eq hl.1 (by omega) hl.2 ho hs
    rw [fill_eq h2]
    · rfl
    · have : 1 ≤ search.length := List.length_pos_iff.2 hp
      have := Nat.le_mul_of_pos_right (m + 1) this
      omega
    · rw [hsize]; simp

end Verif.HomeDirs
