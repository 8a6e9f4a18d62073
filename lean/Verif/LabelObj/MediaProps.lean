import Verif.LabelObj.Media
import Verif.LabelObj.MediaSpec
import Verif.LabelObj.Props
/-! # Properties of `matchmediacon` -/
namespace Verif.LabelObj
open Verif.FileLabel (isspace)
open Spec (Parts)

theorem drop_all {p : UInt8 → Bool} {a s : Bytes} (h : ∀ x ∈ a, p x = true) : (a ++ s).dropWhile p = s.dropWhile p := by
  induction a with
  | nil => rfl
  | cons x a ih =>
    rw [List.cons_append, List.dropWhile_cons_of_pos (h x List.mem_cons_self)]
    exact ih fun y hy => h y (List.mem_cons_of_mem _ hy)

theorem take_all {p : UInt8 → Bool} {a s : Bytes} (h : ∀ x ∈ a, p x = true) : (a ++ s).takeWhile p = a ++ s.takeWhile p := by
  induction a with
  | nil => rfl
  | cons x a ih =>
    rw [List.cons_append, List.takeWhile_cons_of_pos (h x List.mem_cons_self)]
    rw [ih fun y hy => h y (List.mem_cons_of_mem _ hy)]; rfl

theorem drop_head {p : UInt8 → Bool} {s : Bytes} (h : ∀ x, s.head? = some x → p x = false) : s.dropWhile p = s := by
  cases s with
  | nil => rfl
  | cons x s => rw [List.dropWhile_cons_of_neg]; simp [h x rfl]

theorem take_head {p : UInt8 → Bool} {s : Bytes} (h : ∀ x, s.head? = some x → p x = false) : s.takeWhile p = [] := by
  cases s with
  | nil => rfl
  | cons x s => rw [List.takeWhile_cons_of_neg]; simp [h x rfl]

theorem head_drop (p : UInt8 → Bool) (s : Bytes) : ∀ x, (s.dropWhile p).head? = some x → p x = false := by
  induction s with
  | nil => simp
  | cons y s ih =>
    by_cases hy : p y = true
    · rw [List.dropWhile_cons_of_pos hy]; exact ih
    · rw [List.dropWhile_cons_of_neg hy]
      intro x hx
      simp only [List.head?_cons, Option.some.injEq] at hx
      subst hx; simpa using hy

theorem mem_take {p : UInt8 → Bool} {s : Bytes} : ∀ x ∈ s.takeWhile p, p x = true := by
  induction s with
  | nil => simp
  | cons y s ih =>
    by_cases hy : p y = true
    · rw [List.takeWhile_cons_of_pos hy]
      intro x hx
      rcases List.mem_cons.1 hx with rfl | hx
      · exact hy
      · exact ih x hx
    · rw [List.takeWhile_cons_of_neg hy]; simp

theorem parts_iff {l w c : Bytes} : Parts l w c ↔
    w = (l.dropWhile isspace).takeWhile (fun b => !isspace b) ∧ w ≠ [] ∧
    (l.dropWhile isspace).dropWhile (fun b => !isspace b) ≠ [] ∧
    c = ((l.dropWhile isspace).dropWhile (fun b => !isspace b)).dropWhile isspace := by
  constructor
  · rintro ⟨a, b, rfl, ha, hw, hwn, hb, hbs, hc⟩
    have h1 : (a ++ (w ++ (b ++ c))).dropWhile isspace = w ++ (b ++ c) := by
      rw [drop_all ha, drop_head]
      intro x hx
      cases w with
      | nil => exact absurd rfl hw
      | cons y w => simp at hx; subst hx; exact hwn y List.mem_cons_self
    have hh : ∀ x, (b ++ c).head? = some x → (!isspace x) = false := by
      intro x hx
      cases b with
      | nil => exact absurd rfl hb
      | cons y b => simp at hx; subst hx; simp [hbs y List.mem_cons_self]
    have hw' : ∀ x ∈ w, (!isspace x) = true := fun x hx => by simp [hwn x hx]
    rw [h1, take_all hw', take_head hh, drop_all hw', drop_head hh, drop_all hbs, drop_head hc]
    exact ⟨by simp, hw, by simp [hb], rfl⟩
  · rintro ⟨h1, h2, h3, h4⟩
    refine ⟨l.takeWhile isspace, ((l.dropWhile isspace).dropWhile (fun b => !isspace b)).takeWhile isspace, ?_, mem_take, h2, ?_, ?_,
      mem_take, ?_⟩
    · rw [h4, List.takeWhile_append_dropWhile, h1, List.takeWhile_append_dropWhile, List.takeWhile_append_dropWhile]
    · intro x hx
      rw [h1] at hx
      simpa using mem_take x hx
    · have hd := head_drop (fun b => !isspace b) (l.dropWhile isspace)
      cases hr : (l.dropWhile isspace).dropWhile (fun b => !isspace b) with
      | nil => exact absurd hr h3
      | cons y t =>
        rw [hr] at hd
        have hy : isspace y = true := by simpa using hd y rfl
        rw [List.takeWhile_cons_of_pos hy]; simp
    · rw [h4]; exact head_drop _ _

/-- The body of the loop for a line with its newline. -/
theorem try_line (media : Bytes) {l : Bytes} (h0 : (0 : UInt8) ∉ l) :
    (∃ c r, Parts l media c ∧ tryLine media (l ++ [10]) = .found r ∧ r.dropWhile isspace = c) ∨
    ((∀ c, ¬ Parts l media c) ∧ tryLine media (l ++ [10]) = .next) := by
  have hc : cstr (l ++ [10]) = l ++ [10] := by
    unfold cstr
    have : ∀ x ∈ l ++ [(10 : UInt8)], (x != 0) = true := by
      intro x hx
      rcases List.mem_append.1 hx with hx | hx
      · simp only [bne_iff_ne, ne_eq]; rintro rfl; exact h0 hx
      · simp only [List.mem_singleton] at hx; subst hx; decide
    have := take_all (s := []) this
    simpa using this
  unfold tryLine
  rw [hc, if_neg (by simp), List.dropLast_concat]
  split
  · rename_i h
    refine Or.inr ⟨fun c hp => ?_, rfl⟩
    have := (parts_iff.1 hp).2.2.1
    rw [h] at this
    exact this rfl
  · rename_i hne
    split
    · rename_i h
      exact Or.inr ⟨fun c hp => (parts_iff.1 hp).2.2.1 h, rfl⟩
    · rename_i hr
      split
      · rename_i hm
        refine Or.inl ⟨_, _, parts_iff.2 ⟨hm, ?_, hr, rfl⟩, rfl, ?_⟩
        · rw [hm]
          have hd := head_drop isspace l
          cases ht : l.dropWhile isspace with
          | nil => exact absurd ht hne
          | cons y t =>
            rw [ht] at hd
            rw [List.takeWhile_cons_of_pos (by simp [hd y rfl])]; simp
        · have hd := head_drop (fun b => !isspace b) (l.dropWhile isspace)
          cases ht : (l.dropWhile isspace).dropWhile (fun b => !isspace b) with
          | nil => exact absurd ht hr
          | cons y t =>
            rw [ht] at hd
            rw [List.dropWhile_cons_of_pos (by simpa using hd y rfl)]; rfl
      · rename_i hm
        exact Or.inr ⟨fun c hp => hm (parts_iff.1 hp).1, rfl⟩

theorem fgets_line {k : Nat} {l s : Bytes} (hn : (10 : UInt8) ∉ l) (hk : l.length < k) : fgets k (l ++ 10 :: s) = (l ++ [10], s) := by
  induction l generalizing k with
  | nil =>
    cases k with
    | zero => simp at hk
    | succ k => simp [fgets]
  | cons b l ih =>
    simp only [List.mem_cons, not_or] at hn
    cases k with
    | zero => simp at hk
    | succ k =>
      simp only [List.length_cons] at hk
      rw [List.cons_append, fgets, if_neg (fun e => hn.1 e.symm), ih hn.2 (by omega)]
      rfl

/-! ## C116: `matchmediacon` -/

/-- For a file of lines that are not too long and all end in a newline: the context
of the first line for the medium, if it has one. -/
theorem C116_partial (lines : List Bytes) (media : Bytes)
    (hl : ∀ l ∈ lines, (10 : UInt8) ∉ l ∧ (0 : UInt8) ∉ l ∧ l.length < 4095) :
    (∃ pre l post c, lines = pre ++ l :: post ∧ (∀ l' ∈ pre, ∀ c', ¬ Parts l' media c') ∧ Parts l media c ∧
      matchmediacon (lines.flatMap (· ++ [10])) media = if c = [] then .fail else .ok c) ∨
    ((∀ l ∈ lines, ∀ c, ¬ Parts l media c) ∧ matchmediacon (lines.flatMap (· ++ [10])) media = .fail) := by
  unfold matchmediacon
  have key : ∀ k, (lines.flatMap (· ++ [10])).length ≤ k →
      (∃ pre l post c, lines = pre ++ l :: post ∧ (∀ l' ∈ pre, ∀ c', ¬ Parts l' media c') ∧ Parts l media c ∧
        mediaLoop media k (lines.flatMap (· ++ [10])) = if c = [] then .fail else .ok c) ∨
      ((∀ l ∈ lines, ∀ c, ¬ Parts l media c) ∧ mediaLoop media k (lines.flatMap (· ++ [10])) = .fail) := by
    induction lines with
    | nil =>
      intro k _
      refine Or.inr ⟨by simp, ?_⟩
      cases k with
      | zero => rfl
      | succ k => rw [mediaLoop]; rfl
    | cons l ls ih =>
      intro k hk
      obtain ⟨hn, h0, hlen⟩ := hl l List.mem_cons_self
      simp only [List.flatMap_cons, List.append_assoc, List.singleton_append] at hk ⊢
      cases k with
      | zero => simp at hk
      | succ k =>
        simp only [List.length_append, List.length_cons] at hk
        rw [mediaLoop, if_neg (by simp), fgets_line hn hlen]
        rcases try_line media h0 with ⟨c, r, hp, ht, hr⟩ | ⟨hp, ht⟩
        · refine Or.inl ⟨[], l, ls, c, rfl, by simp, hp, ?_⟩
          simp only [ht, finish, hr]
        · simp only [ht]
          rcases ih (fun x hx => hl x (List.mem_cons_of_mem _ hx)) k (by omega) with ⟨pre, l', post, c, h1, h2, h3, h4⟩ | ⟨h1, h2⟩
          · refine Or.inl ⟨l :: pre, l', post, c, by rw [h1]; rfl, ?_, h3, h4⟩
            intro x hx
            rcases List.mem_cons.1 hx with rfl | hx
            · exact hp
            · exact h2 x hx
          · refine Or.inr ⟨?_, h2⟩
            intro x hx
            rcases List.mem_cons.1 hx with rfl | hx
            · exact hp
            · exact h1 x hx
  exact key _ (Nat.le_refl _)

/-- A last line without a newline loses its last character: the context is another
one. -/
theorem C116_newline_refuted : ∃ (s media c c' : Bytes), Parts s media c ∧ matchmediacon s media = .ok c' ∧ c ≠ c' := by
  refine ⟨str "cdrom s0:c12", str "cdrom", str "s0:c12", str "s0:c1", ⟨[], [32], ?_⟩, ?_, ?_⟩ <;> decide +kernel

/-- A line that starts with a zero byte makes it read and write before the buffer. -/
theorem C116_nul_refuted : matchmediacon [0, 10] (str "cdrom") = .ub := by decide +kernel

/-- A long line is taken for several: the context is found in the middle of a line. -/
theorem C116_long_refuted : ∃ (l media c : Bytes), (10 : UInt8) ∉ l ∧ (∀ c, ¬ Parts l media c) ∧
    matchmediacon (l ++ [10]) media = .ok c := by
  refine ⟨List.replicate 4095 97 ++ str "cdrom x", str "cdrom", str "x", by decide +kernel, ?_, by decide +kernel⟩
  intro c hp
  have := (parts_iff.1 hp).1
  revert this
  decide +kernel

/-- Other media, a line without a context, white space and comments. -/
example : (matchmediacon (str "# x\nfloppy a\n cdrom \t b c\ncdrom d\n") (str "cdrom"),
    matchmediacon (str "# x\nfloppy a\ncdrom\ndisk \n") (str "cdrom"),
    matchmediacon (str "disk \ndisk a\n") (str "disk")) = (.ok (str "b c"), .fail, .fail) := by decide +kernel

end Verif.LabelObj
