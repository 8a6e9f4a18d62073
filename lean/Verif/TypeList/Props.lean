import Verif.TypeList.Model
import Verif.TypeList.Spec
/-!
# C122: lists of types
-/
namespace Verif.TypeList
open Verif.LabelObj (str cstr fgets)
open Spec

theorem fgets_line {k : Nat} {l : Bytes} (r : Bytes) (h : (10 : UInt8) ∉ l) (hk : l.length < k) : fgets k (l ++ 10 :: r) = (l ++ [10], r) := by
  induction l generalizing k with
  | nil =>
    cases k with
    | zero => cases hk
    | succ k => simp [fgets]
  | cons x l ih =>
    cases k with
    | zero => cases hk
    | succ k =>
      have hx : x ≠ 10 := fun e => h (e ▸ List.mem_cons_self)
      rw [List.cons_append, fgets, if_neg hx, ih (fun hh => h (List.mem_cons_of_mem _ hh)) (by simpa using hk)]
      rfl

theorem fgets_last {k : Nat} {l : Bytes} (h : (10 : UInt8) ∉ l) (hk : l.length ≤ k) : fgets k l = (l, []) := by
  induction l generalizing k with
  | nil => cases k <;> rfl
  | cons x l ih =>
    cases k with
    | zero => cases hk
    | succ k =>
      have hx : x ≠ 10 := fun e => h (e ▸ List.mem_cons_self)
      rw [fgets, if_neg hx, ih (fun hh => h (List.mem_cons_of_mem _ hh)) (by simpa using hk)]

theorem chunks_file {k n : Nat} {lines : List Bytes} {last : Bytes} (h : ∀ l ∈ lines, (10 : UInt8) ∉ l ∧ l.length < k)
    (hl : (10 : UInt8) ∉ last) (hk : last.length ≤ k) (hn : (file lines last).length ≤ n) :
    chunks k n (file lines last) = lines.map (fun l => l ++ [10]) ++ (if last = [] then [] else [last]) := by
  unfold file at *
  induction lines generalizing n with
  | nil =>
    simp only [List.flatMap_nil, List.nil_append, List.map_nil] at hn ⊢
    cases n with
    | zero =>
      have : last = [] := List.length_eq_zero_iff.1 (by omega)
      rw [this]; rfl
    | succ n =>
      rw [chunks]
      split
      · rfl
      · rw [fgets_last hl hk]
        cases n <;> rfl
  | cons l lines ih =>
    have e : (l :: lines).flatMap (fun l => l ++ [10]) ++ last = l ++ 10 :: (lines.flatMap (fun l => l ++ [10]) ++ last) := by
      simp [List.flatMap_cons]
    rw [e] at hn ⊢
    simp only [List.length_append, List.length_cons] at hn
    cases n with
    | zero => omega
    | succ n =>
      have hh := h l List.mem_cons_self
      rw [chunks, if_neg (by simp), fgets_line _ hh.1 hh.2, ih (fun x hx => h x (List.mem_cons_of_mem _ hx)) (by
        simp only [List.length_append]; omega)]
      rfl

theorem space_iff (b : UInt8) : isSpace b = true ↔ Space b := by
  have : ∀ i : Fin 256, isSpace (UInt8.ofNat i.val) = true ↔ UInt8.ofNat i.val ∈ [(32 : UInt8), 9, 10, 11, 12, 13] := by decide +kernel
  have h := this ⟨b.toNat, b.toNat_lt⟩
  simp only [UInt8.ofNat_toNat] at h
  exact h

theorem cstr_self {l : Bytes} (h : (0 : UInt8) ∉ l) : cstr l = l := by
  unfold cstr
  induction l with
  | nil => rfl
  | cons x l ih =>
    have hx : x ≠ 0 := fun e => h (e ▸ List.mem_cons_self)
    rw [List.takeWhile_cons, if_pos (by simpa using hx), ih (fun hh => h (List.mem_cons_of_mem _ hh))]

theorem drop_head {p : UInt8 → Bool} {l t : Bytes} {b : UInt8} (h : l.dropWhile p = b :: t) : p b = false := by
  induction l with
  | nil => cases h
  | cons x l ih =>
    rw [List.dropWhile_cons] at h
    split at h
    · exact ih h
    · rename_i hx
      cases h
      simpa using hx

theorem first_word (l w : Bytes) :
    (if l.dropWhile isSpace = [] then none else some ((l.dropWhile isSpace).takeWhile (fun b => !isSpace b))) = some w ↔ First l w := by
  induction l with
  | nil =>
    rw [List.dropWhile_nil, if_pos rfl]
    constructor
    · intro h; cases h
    · intro h
      obtain ⟨pre, post, h, _, hw, _⟩ := h
      have h := List.append_eq_nil_iff.1 h.symm
      exact absurd (List.append_eq_nil_iff.1 h.1).2 hw
  | cons x l ih =>
    by_cases hx : isSpace x = true
    · rw [List.dropWhile_cons, if_pos hx, ih]
      constructor
      · rintro ⟨pre, post, h, hp, hw⟩
        refine ⟨x :: pre, post, by rw [h]; rfl, ?_, hw⟩
        intro b hb
        rcases List.mem_cons.1 hb with rfl | hb
        · exact (space_iff b).1 hx
        · exact hp b hb
      · rintro ⟨pre, post, h, hp, hw, hw', hpost⟩
        cases pre with
        | nil =>
          cases w with
          | nil => exact absurd rfl hw
          | cons y w =>
            simp only [List.nil_append, List.cons_append, List.cons.injEq] at h
            exact absurd ((space_iff x).1 hx) (h.1 ▸ hw' y List.mem_cons_self)
        | cons y pre =>
          simp only [List.cons_append, List.cons.injEq] at h
          exact ⟨pre, post, h.2, fun b hb => hp b (List.mem_cons_of_mem _ hb), hw, hw', hpost⟩
    · rw [List.dropWhile_cons, if_neg hx, if_neg (List.cons_ne_nil _ _)]
      have hs : ¬ Space x := fun hh => hx ((space_iff x).2 hh)
      constructor
      · intro h
        cases h
        refine ⟨[], (x :: l).dropWhile (fun b => !isSpace b), by simp [List.takeWhile_append_dropWhile], by simp, ?_, ?_, ?_⟩
        · rw [List.takeWhile_cons, if_pos (by simpa using hx)]; exact List.cons_ne_nil _ _
        · intro b hb hsb
          have := List.all_eq_true.1 (@List.all_takeWhile _ (fun b => !isSpace b) (x :: l)) b hb
          rw [(space_iff b).2 hsb] at this
          cases this
        · cases hd : (x :: l).dropWhile (fun b => !isSpace b) with
          | nil => exact Or.inl rfl
          | cons b p =>
            refine Or.inr ⟨b, p, rfl, (space_iff b).1 ?_⟩
            simpa using drop_head hd
      · rintro ⟨pre, post, h, hp, hw, hw', hpost⟩
        cases pre with
        | cons y pre =>
          simp only [List.cons_append, List.cons.injEq] at h
          exact absurd (hp y List.mem_cons_self) (h.1 ▸ hs)
        | nil =>
          rw [List.nil_append] at h
          rw [h, List.takeWhile_append_of_pos (fun b hb => by
            have := hw' b hb
            rw [← space_iff] at this
            simpa using this)]
          rcases hpost with rfl | ⟨b, p, rfl, hb⟩
          · simp
          · rw [List.takeWhile_cons, if_neg (by simpa using (space_iff b).2 hb), List.append_nil]

theorem word_line {l : Bytes} (h0 : (0 : UInt8) ∉ l) (w : Bytes) : word (l ++ [10]) = some w ↔ First l w := by
  rw [← first_word, word]
  simp only [List.getLast?_append, List.getLast?_singleton, Option.some_or, if_true, List.dropLast_concat, cstr_self h0]

theorem word_last {l : Bytes} (h0 : (0 : UInt8) ∉ l) (h : (10 : UInt8) ∉ l) (w : Bytes) : word l = some w ↔ First l w := by
  rw [← first_word, word, if_neg (fun hh => h (List.mem_of_getLast? hh)), cstr_self h0]

/-! ## C122 -/

/-- A terminal is secure exactly if the type is the first word of some line. -/
theorem C122_securetty (lines : List Bytes) (last t : Bytes) (h : ∀ l ∈ lines, (10 : UInt8) ∉ l ∧ (0 : UInt8) ∉ l)
    (hl : (10 : UInt8) ∉ last ∧ (0 : UInt8) ∉ last) :
    securetty (file lines last) (some t) = true ↔ ∃ l ∈ lines ++ [last], First l t := by
  have hb : ∀ l ∈ lines, (10 : UInt8) ∉ l ∧ l.length < (file lines last).length := by
    intro l hm
    refine ⟨(h l hm).1, ?_⟩
    obtain ⟨a, b, rfl⟩ := List.append_of_mem hm
    simp only [file, List.flatMap_append, List.flatMap_cons, List.length_append, List.length_cons, List.length_nil]
    omega
  have hk : last.length ≤ (file lines last).length := by simp [file]
  unfold securetty
  dsimp only
  rw [chunks_file hb hl.1 hk (Nat.le_refl _), List.any_append, Bool.or_eq_true]
  simp only [List.any_map, List.any_eq_true, Function.comp, beq_iff_eq, List.mem_append, List.mem_singleton]
  constructor
  · rintro (⟨l, hm, hw⟩ | ⟨l, hm, hw⟩)
    · exact ⟨l, Or.inl hm, (word_line (h l hm).2 t).1 hw⟩
    · split at hm
      · cases hm
      · rw [List.mem_singleton.1 hm] at hw
        exact ⟨last, Or.inr rfl, (word_last hl.2 hl.1 t).1 hw⟩
  · rintro ⟨l, hm | rfl, hw⟩
    · exact Or.inl ⟨l, hm, (word_line (h l hm).2 t).2 hw⟩
    · refine Or.inr ⟨l, ?_, (word_last hl.2 hl.1 t).2 hw⟩
      rw [if_neg]
      · exact List.mem_singleton_self _
      · rintro rfl
        obtain ⟨pre, post, hh, _, hw, _⟩ := hw
        simp at hh
        exact hw hh.2.1

/-- What is not a context is not secure, and neither customizable nor not customizable. -/
theorem C122_nocontext (page : Nat) (f : Bytes) :
    securetty f none = false ∧ customizable page f none ≠ .yes ∧ customizable page f none ≠ .no := by
  have : customizable page f none = .error ∨ customizable page f none = .oob := by
    unfold customizable
    dsimp only
    generalize chunks (page - 1) f.length f = bufs
    by_cases h : min bufs.length (2 ^ 32 - 1) = 0
    · rw [if_pos h]; exact Or.inl rfl
    · rw [if_neg h]
      cases fill (min bufs.length (2 ^ 32 - 1)) bufs with
      | none => exact Or.inr rfl
      | some l => exact Or.inl rfl
  refine ⟨rfl, ?_⟩
  rcases this with e | e <;> rw [e] <;> decide

theorem fill_lines {ctr : Nat} {lines : List Bytes} (h0 : ∀ l ∈ lines, (0 : UInt8) ∉ l) (hc : lines.length ≤ ctr) :
    fill ctr (lines.map (fun l => l ++ [10])) = some lines := by
  induction lines generalizing ctr with
  | nil => cases ctr <;> rfl
  | cons l lines ih =>
    cases ctr with
    | zero => cases hc
    | succ ctr =>
      have e : entry (l ++ [10]) = some l := by
        rw [entry, cstr_self (by simp [h0 l List.mem_cons_self]), if_neg (by simp), List.dropLast_concat]
      rw [List.map_cons, fill, e, Option.bind_some, ih (fun x hx => h0 x (List.mem_cons_of_mem _ hx)) (by simpa using hc)]
      rfl

/-- If all lines end in a newline and fit into a page: a context is customizable exactly if
its type is a line of the file. -/
theorem C122_customizable_partial (page : Nat) (lines : List Bytes) (t : Bytes)
    (h : ∀ l ∈ lines, (10 : UInt8) ∉ l ∧ (0 : UInt8) ∉ l ∧ l.length + 1 < page) (hne : lines ≠ []) (hlen : lines.length < 2 ^ 32) :
    customizable page (file lines []) (some t) = if t ∈ lines then .yes else .no := by
  unfold customizable
  rw [chunks_file (fun l hm => ⟨(h l hm).1, by have := (h l hm).2.2; omega⟩) (by simp) (Nat.zero_le _) (Nat.le_refl _)]
  have hpos := List.length_pos_iff.2 hne
  rw [if_pos rfl, List.append_nil]
  dsimp only
  rw [List.length_map, if_neg (by omega), fill_lines (fun l hm => (h l hm).2.1) (by omega)]
  dsimp only
  by_cases hm : t ∈ lines
  · rw [if_pos hm, if_pos (by simpa using hm)]
  · rw [if_neg hm, if_neg (by simpa using hm)]

example : securetty (file [str "  a_t b_t", str "", str "# c_t"] (str "d_t")) (some (str "d_t")) = true ∧
    securetty (file [str "  a_t b_t", str "", str "# c_t"] (str "d_t")) (some (str "b_t")) = false ∧
    customizable 16 (file [str "a_t", str "", str "b_t"] []) (some (str "b_t")) = .yes ∧
    customizable 16 (file [str "a_t", str "", str "b_t"] []) (some (str "c_t")) = .no := by decide +kernel

/-- A last line without a newline loses its last letter. -/
theorem C122_newline_refuted : customizable 16 (file [str "a_t"] (str "b_t")) (some (str "b_t")) = .no ∧
    customizable 16 (file [str "a_t"] (str "b_t")) (some (str "b_")) = .yes := by decide +kernel

/-- A zero byte at the start of a line makes it write before its buffer. -/
theorem C122_zero_refuted : customizable 16 (file [str "a_t", [0]] []) (some (str "a_t")) = .oob := by decide +kernel

/-- Spaces are part of the type, other than in the file of secure terminals. -/
theorem C122_space_refuted : customizable 16 (file [str " a_t"] []) (some (str "a_t")) = .no := by decide +kernel

end Verif.TypeList
