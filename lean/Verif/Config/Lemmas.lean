import Verif.Prelude
import Verif.Config.Model
import Verif.Config.Spec
import Verif.LabelObj.MediaProps
/-! # Lemmas on the lines of the configuration file -/
namespace Verif.Config
open Verif.FileLabel (isspace)
open Verif.FileLabel.Spec (text)
open Verif.LabelObj (str cstr fgets drop_all drop_head head_drop mem_take fgets_line)
open Spec

theorem space_iff (b : UInt8) : isspace b = true ↔ space b := by
  unfold isspace space
  have h : ∀ n : Nat, n < 256 → (b = UInt8.ofNat n ↔ b.toNat = n) := by
    intro n hn
    constructor
    · rintro rfl; simp; omega
    · intro e; rw [← e]; simp
  have h9 := h 9 (by decide); have h10 := h 10 (by decide); have h11 := h 11 (by decide)
  have h12 := h 12 (by decide); have h13 := h 13 (by decide); have h32 := h 32 (by decide)
  simp only [List.mem_cons, List.not_mem_nil, or_false, Bool.or_eq_true, beq_iff_eq, Bool.and_eq_true, decide_eq_true_eq]
  change b = UInt8.ofNat 32 ∨ _ ↔ b = UInt8.ofNat 9 ∨ b = UInt8.ofNat 10 ∨ b = UInt8.ofNat 11 ∨ b = UInt8.ofNat 12 ∨
    b = UInt8.ofNat 13 ∨ b = UInt8.ofNat 32
  rw [h9, h10, h11, h12, h13, h32]
  omega

theorem space_neg (b : UInt8) : isspace b = false ↔ ¬ space b := by
  rw [← space_iff]; simp

theorem junk_iff (b : UInt8) : (isspace b || iscntrl b) = true ↔ space b ∨ ctrl b := by
  rw [Bool.or_eq_true, space_iff]
  unfold iscntrl ctrl
  simp only [Bool.or_eq_true, decide_eq_true_eq, beq_iff_eq, UInt8.lt_iff_toNat_lt]
  rfl

theorem same_iff {x y : UInt8} (hy : lower y = y) : lower x = y ↔ sameLetter x y := by
  unfold sameLetter
  unfold lower at hy ⊢
  have hx := x.toNat_lt
  have hyl := y.toNat_lt
  rw [UInt8.le_iff_toNat_le, UInt8.le_iff_toNat_le]
  simp only [← UInt8.toNat_inj] at *
  have e97 : (97 : UInt8).toNat = 97 := rfl
  have e122 : (122 : UInt8).toNat = 122 := rfl
  have e32 : (32 : UInt8).toNat = 32 := rfl
  rw [UInt8.toNat_sub]
  rw [e97, e122, e32]
  split at hy
  · rw [UInt8.toNat_add, e32] at hy; omega
  · split
    · rw [UInt8.toNat_add, e32]; omega
    · omega

theorem word_iff {t w : Bytes} (ht : ∀ y ∈ t, lower y = y) :
    w.map lower = t ↔ w.length = t.length ∧ ∀ (i : Nat) (x y : UInt8), w[i]? = some x → t[i]? = some y → sameLetter x y := by
  constructor
  · rintro rfl
    refine ⟨by simp, fun i x y hx hy => ?_⟩
    rw [List.getElem?_map, hx] at hy
    have e := Option.some.inj hy
    exact (same_iff (ht y (by
      rw [← e]; exact List.mem_map_of_mem (List.mem_of_getElem? hx)))).1 e
  · rintro ⟨hl, h⟩
    apply List.ext_getElem?
    intro i
    rw [List.getElem?_map]
    by_cases hi : i < w.length
    · have hi' : i < t.length := by omega
      rw [List.getElem?_eq_getElem hi, List.getElem?_eq_getElem hi']
      have := h i w[i] t[i] (List.getElem?_eq_getElem hi) (List.getElem?_eq_getElem hi')
      exact congrArg some ((same_iff (ht _ (List.getElem_mem hi'))).2 this)
    · rw [List.getElem?_eq_none (by omega), List.getElem?_eq_none (by omega)]; rfl

/-- A comparison that succeeds, as a word and what follows. -/
theorem icase_iff {tag s : Bytes} {n : String} (ht : tag.map lower = ascii n) (hn : ∀ y ∈ ascii n, lower y = y) :
    icase tag s = true ↔ ∃ w rest, s = w ++ rest ∧ isWord n w := by
  unfold icase isWord
  rw [beq_iff_eq, ht]
  constructor
  · intro h
    exact ⟨_, _, (List.take_append_drop tag.length s).symm, (word_iff hn).1 h⟩
  · rintro ⟨w, rest, rfl, hw⟩
    have hl : tag.length = w.length := by rw [hw.1, ← ht, List.length_map]
    rw [hl, List.take_left']
    · exact (word_iff hn).2 hw
    · rfl

/-! ## Lines -/

theorem fgets_short {k : Nat} {l : Bytes} (hn : (10 : UInt8) ∉ l) (hk : l.length ≤ k) : fgets k l = (l, []) := by
  induction l generalizing k with
  | nil => cases k <;> rfl
  | cons b l ih =>
    simp only [List.mem_cons, not_or] at hn
    cases k with
    | zero => simp at hk
    | succ k =>
      simp only [List.length_cons] at hk
      rw [fgets, if_neg (fun e => hn.1 e.symm), ih hn.2 (by omega)]

theorem pieces_file {k n : Nat} {ls : List Bytes} {last : Bytes} (hn : (fileOf ls last).length ≤ n)
    (hl : ∀ l ∈ ls, (10 : UInt8) ∉ l ∧ l.length < k) (hlast : (10 : UInt8) ∉ last ∧ last.length ≤ k) :
    pieces k n (fileOf ls last) = ls.map (· ++ [10]) ++ (if last = [] then [] else [last]) := by
  induction ls generalizing n with
  | nil =>
    have e : fileOf [] last = last := by simp [fileOf]
    rw [e] at hn ⊢
    cases n with
    | zero =>
      have : last = [] := List.length_eq_zero_iff.1 (by omega)
      subst this; rfl
    | succ n =>
      rw [pieces]
      split
      · simp
      · rw [fgets_short hlast.1 hlast.2]
        cases n <;> simp [pieces]
  | cons l ls ih =>
    have e : fileOf (l :: ls) last = l ++ 10 :: fileOf ls last := by simp [fileOf]
    rw [e] at hn ⊢
    have hll := hl l List.mem_cons_self
    cases n with
    | zero => simp at hn
    | succ n =>
      rw [pieces, if_neg (by simp), fgets_line hll.1 hll.2]
      simp only [List.length_append, List.length_cons] at hn
      rw [ih (by omega) fun l' h' => hl l' (List.mem_cons_of_mem _ h')]
      rfl

/-! ## The mode -/

theorem cstr_snoc (l : Bytes) : cstr (l ++ [10]) = cstr l ∨ cstr (l ++ [10]) = cstr l ++ [10] := by
  induction l with
  | nil => exact Or.inr rfl
  | cons b l ih =>
    unfold cstr at *
    rw [List.cons_append]
    by_cases hb : (b != 0) = true
    · rw [List.takeWhile_cons_of_pos (p := fun x => x != 0) hb, List.takeWhile_cons_of_pos (p := fun x => x != 0) hb]
      rcases ih with ih | ih
      · rw [ih]; exact Or.inl rfl
      · rw [ih]; exact Or.inr rfl
    · rw [List.takeWhile_cons_of_neg (p := fun x => x != 0) hb, List.takeWhile_cons_of_neg (p := fun x => x != 0) hb]; exact Or.inl rfl

theorem first_letter {n : String} {w : Bytes} (h : isWord n w) (hn : ∃ y r, ascii n = y :: r ∧ 97 ≤ y.toNat) :
    ∃ x r, w = x :: r ∧ ¬ space x := by
  obtain ⟨y, r, hy, h97⟩ := hn
  cases w with
  | nil => have := h.1; rw [hy] at this; simp at this
  | cons x w =>
    refine ⟨x, w, rfl, ?_⟩
    have := h.2 0 x y rfl (by rw [hy]; rfl)
    rw [← space_iff]
    unfold isspace
    have hyl := y.toNat_lt
    rcases this with rfl | ⟨_, _, rfl⟩
    · simp only [Bool.or_eq_true, beq_iff_eq, Bool.and_eq_true, decide_eq_true_eq]
      rintro (rfl | h) <;> simp_all; omega
    · have e : (y - 32).toNat = y.toNat - 32 := by
        have e32 : (32 : UInt8).toNat = 32 := rfl
        rw [UInt8.toNat_sub, e32]; omega
      simp only [Bool.or_eq_true, beq_iff_eq, Bool.and_eq_true, decide_eq_true_eq, e]
      rintro (h | h)
      · have := congrArg UInt8.toNat h
        rw [e] at this
        have e32 : (32 : UInt8).toNat = 32 := rfl
        rw [e32] at this; omega
      · omega

theorem small_enf : ∀ y ∈ ascii "enforcing", lower y = y := by decide +kernel
theorem small_per : ∀ y ∈ ascii "permissive", lower y = y := by decide +kernel
theorem small_dis : ∀ y ∈ ascii "disabled", lower y = y := by decide +kernel
theorem small_typ : ∀ y ∈ ascii "selinuxtype=", lower y = y := by decide +kernel

/-- The text after the white space begins with a word. -/
theorem begins_iff {n : String} {v : Bytes} (hn : ∃ y r, ascii n = y :: r ∧ 97 ≤ y.toNat) :
    (∃ w rest, v.dropWhile isspace = w ++ rest ∧ isWord n w) ↔
      ∃ a w rest, v = a ++ w ++ rest ∧ (∀ x ∈ a, space x) ∧ isWord n w := by
  constructor
  · rintro ⟨w, rest, e, hw⟩
    refine ⟨v.takeWhile isspace, w, rest, ?_, fun x hx => (space_iff x).1 (mem_take x hx), hw⟩
    rw [List.append_assoc, ← e, List.takeWhile_append_dropWhile]
  · rintro ⟨a, w, rest, rfl, ha, hw⟩
    refine ⟨w, rest, ?_, hw⟩
    rw [List.append_assoc, drop_all (fun x hx => (space_iff x).2 (ha x hx))]
    obtain ⟨x, r, rfl, hx⟩ := first_letter hw hn
    exact drop_head fun y hy => by
      have : x = y := by simpa using hy
      subst this
      exact (space_neg x).2 hx

/-- Words that begin differently cannot be at the same place. -/
theorem differ {n n' : String} {w w' r r' : Bytes} (h : isWord n w) (h' : isWord n' w')
    (e : w ++ r = w' ++ r') (hn : ∃ y s, ascii n = y :: s ∧ 97 ≤ y.toNat) (hn' : ∃ y s, ascii n' = y :: s ∧ 97 ≤ y.toNat)
    (hd : (ascii n).head? ≠ (ascii n').head?) (hs : ∀ y ∈ ascii n, lower y = y) (hs' : ∀ y ∈ ascii n', lower y = y) : False := by
  obtain ⟨x, t, rfl, _⟩ := first_letter h hn
  obtain ⟨x', t', rfl, _⟩ := first_letter h' hn'
  obtain ⟨y, s, hy, _⟩ := hn
  obtain ⟨y', s', hy', _⟩ := hn'
  have ex : x = x' := by
    have := congrArg List.head? e
    simpa using this
  subst ex
  have h1 := h.2 0 x y rfl (by rw [hy]; rfl)
  have h2 := h'.2 0 x y' rfl (by rw [hy']; rfl)
  rw [← same_iff (hs y (by rw [hy]; exact List.mem_cons_self))] at h1
  rw [← same_iff (hs' y' (by rw [hy']; exact List.mem_cons_self))] at h2
  rw [hy, hy'] at hd
  exact hd (by rw [← h1, ← h2]; rfl)

theorem ex_enf : ∃ y r, ascii "enforcing" = y :: r ∧ 97 ≤ y.toNat := ⟨101, (ascii "enforcing").tail, by decide +kernel, by decide⟩
theorem ex_per : ∃ y r, ascii "permissive" = y :: r ∧ 97 ≤ y.toNat := ⟨112, (ascii "permissive").tail, by decide +kernel, by decide⟩
theorem ex_dis : ∃ y r, ascii "disabled" = y :: r ∧ 97 ≤ y.toNat := ⟨100, (ascii "disabled").tail, by decide +kernel, by decide⟩
theorem ex_typ : ∃ y r, ascii "selinuxtype=" = y :: r ∧ 97 ≤ y.toNat := ⟨115, (ascii "selinuxtype=").tail, by decide +kernel, by decide⟩

theorem setsMode_iff (t : Bytes) (m : Int) : SetsMode t m ↔ t.take 8 = ascii "SELINUX=" ∧
    ∃ s, (s, m) ∈ modes ∧ ∃ a w rest, t.drop 8 = a ++ w ++ rest ∧ (∀ x ∈ a, space x) ∧ isWord s w := by
  have h8 : (ascii "SELINUX=").length = 8 := by decide +kernel
  constructor
  · rintro ⟨a, w, rest, s, rfl, ha, hs, hw⟩
    simp only [List.append_assoc]
    rw [← h8, List.take_left', List.drop_left']
    · exact ⟨rfl, s, hs, a, w, rest, by simp, ha, hw⟩
    · rfl
    · rfl
  · rintro ⟨ht, s, hs, a, w, rest, e, ha, hw⟩
    refine ⟨a, w, rest, s, ?_, ha, hs, hw⟩
    rw [List.append_assoc, List.append_assoc, ← List.append_assoc a, ← e, ← ht, List.take_append_drop]

theorem pick {A B C : Prop} {m : Int} (h : A ∧ ¬ B ∧ ¬ C) : some (1 : Int) = some m ↔ (m = 1 ∧ A) ∨ (m = 0 ∧ B) ∨ (m = -1 ∧ C) := by
  simp [h.1, h.2.1, h.2.2, eq_comm]

theorem pick2 {A B C : Prop} {m : Int} (h : ¬ A ∧ B ∧ ¬ C) : some (0 : Int) = some m ↔ (m = 1 ∧ A) ∨ (m = 0 ∧ B) ∨ (m = -1 ∧ C) := by
  simp [h.1, h.2.1, h.2.2, eq_comm]

theorem pick3 {A B C : Prop} {m : Int} (h : ¬ A ∧ ¬ B ∧ C) : some (-1 : Int) = some m ↔ (m = 1 ∧ A) ∨ (m = 0 ∧ B) ∨ (m = -1 ∧ C) := by
  simp [h.1, h.2.1, h.2.2, eq_comm]

theorem modeLine_cstr (buf : Bytes) (m : Int) : modeLine buf = some m ↔ SetsMode (cstr buf) m := by
  rw [setsMode_iff]
  have etag : str "SELINUX=" = ascii "SELINUX=" := rfl
  have e1 := icase_iff (tag := str "enforcing") (s := ((cstr buf).drop 8).dropWhile isspace) (n := "enforcing") (by decide +kernel) small_enf
  have e2 := icase_iff (tag := str "permissive") (s := ((cstr buf).drop 8).dropWhile isspace) (n := "permissive") (by decide +kernel) small_per
  have e3 := icase_iff (tag := str "disabled") (s := ((cstr buf).drop 8).dropWhile isspace) (n := "disabled") (by decide +kernel) small_dis
  have d12 : ∀ w rest w' rest', ((cstr buf).drop 8).dropWhile isspace = w ++ rest → isWord "enforcing" w →
      ((cstr buf).drop 8).dropWhile isspace = w' ++ rest' → isWord "permissive" w' → False :=
    fun w r w' r' h hw h' hw' => differ hw hw' (h.symm.trans h') ex_enf ex_per (by decide +kernel) small_enf small_per
  have d13 : ∀ w rest w' rest', ((cstr buf).drop 8).dropWhile isspace = w ++ rest → isWord "enforcing" w →
      ((cstr buf).drop 8).dropWhile isspace = w' ++ rest' → isWord "disabled" w' → False :=
    fun w r w' r' h hw h' hw' => differ hw hw' (h.symm.trans h') ex_enf ex_dis (by decide +kernel) small_enf small_dis
  have d23 : ∀ w rest w' rest', ((cstr buf).drop 8).dropWhile isspace = w ++ rest → isWord "permissive" w →
      ((cstr buf).drop 8).dropWhile isspace = w' ++ rest' → isWord "disabled" w' → False :=
    fun w r w' r' h hw h' hw' => differ hw hw' (h.symm.trans h') ex_per ex_dis (by decide +kernel) small_per small_dis
  unfold modeLine
  rw [etag]
  by_cases ht : (cstr buf).take 8 = ascii "SELINUX="
  · rw [if_neg (not_not.2 ht)]
    have key : (∃ s, (s, m) ∈ modes ∧ ∃ a w rest, (cstr buf).drop 8 = a ++ w ++ rest ∧ (∀ x ∈ a, space x) ∧ isWord s w) ↔
        (m = 1 ∧ icase (str "enforcing") (((cstr buf).drop 8).dropWhile isspace) = true) ∨
        (m = 0 ∧ icase (str "permissive") (((cstr buf).drop 8).dropWhile isspace) = true) ∨
        (m = -1 ∧ icase (str "disabled") (((cstr buf).drop 8).dropWhile isspace) = true) := by
      rw [e1, e2, e3, begins_iff ex_enf, begins_iff ex_per, begins_iff ex_dis]
      constructor
      · rintro ⟨s, hs, h⟩
        simp only [modes, List.mem_cons, Prod.mk.injEq, List.not_mem_nil, or_false] at hs
        rcases hs with ⟨rfl, rfl⟩ | ⟨rfl, rfl⟩ | ⟨rfl, rfl⟩
        · exact Or.inl ⟨rfl, h⟩
        · exact Or.inr (Or.inl ⟨rfl, h⟩)
        · exact Or.inr (Or.inr ⟨rfl, h⟩)
      · rintro (⟨rfl, h⟩ | ⟨rfl, h⟩ | ⟨rfl, h⟩)
        · exact ⟨_, by simp [modes], h⟩
        · exact ⟨"permissive", by simp [modes], h⟩
        · exact ⟨"disabled", by simp [modes], h⟩
    rw [key]
    simp only [ht, true_and]
    by_cases i1 : icase (str "enforcing") (((cstr buf).drop 8).dropWhile isspace) = true
    · rw [if_pos i1]
      obtain ⟨w, r, hw, hw'⟩ := e1.1 i1
      have n2 : ¬ icase (str "permissive") (((cstr buf).drop 8).dropWhile isspace) = true := fun i2 => by
        obtain ⟨v, r', hv, hv'⟩ := e2.1 i2
        exact d12 w r v r' hw hw' hv hv'
      have n3 : ¬ icase (str "disabled") (((cstr buf).drop 8).dropWhile isspace) = true := fun i2 => by
        obtain ⟨v, r', hv, hv'⟩ := e3.1 i2
        exact d13 w r v r' hw hw' hv hv'
      exact pick ⟨i1, n2, n3⟩
    · rw [if_neg i1]
      by_cases i2 : icase (str "permissive") (((cstr buf).drop 8).dropWhile isspace) = true
      · rw [if_pos i2]
        obtain ⟨w, r, hw, hw'⟩ := e2.1 i2
        have n3 : ¬ icase (str "disabled") (((cstr buf).drop 8).dropWhile isspace) = true := fun i3 => by
          obtain ⟨v, r', hv, hv'⟩ := e3.1 i3
          exact d23 w r v r' hw hw' hv hv'
        exact pick2 ⟨i1, i2, n3⟩
      · rw [if_neg i2]
        by_cases i3 : icase (str "disabled") (((cstr buf).drop 8).dropWhile isspace) = true
        · rw [if_pos i3]
          exact pick3 ⟨i1, i2, i3⟩
        · rw [if_neg i3]
          simp [i1, i2, i3]
  · rw [if_pos ht]
    simp [ht]

theorem setsMode_snoc (t : Bytes) (m : Int) : SetsMode (t ++ [10]) m ↔ SetsMode t m := by
  constructor
  · rintro ⟨a, w, rest, s, e, ha, hs, hw⟩
    rcases List.eq_nil_or_concat rest with rfl | ⟨r, x, rfl⟩
    · exfalso
      have h10 : (10 : UInt8) ∈ w := by
        have hne : ∃ y r, ascii s = y :: r ∧ 97 ≤ y.toNat := by
          simp only [modes, List.mem_cons, Prod.mk.injEq, List.not_mem_nil, or_false] at hs
          rcases hs with ⟨rfl, rfl⟩ | ⟨rfl, rfl⟩ | ⟨rfl, rfl⟩
          · exact ex_enf
          · exact ex_per
          · exact ex_dis
        rcases List.eq_nil_or_concat w with rfl | ⟨v, x, rfl⟩
        · obtain ⟨_, _, h, _⟩ := first_letter hw hne
          cases h
        · have e' : t ++ [10] = (ascii "SELINUX=" ++ a ++ v) ++ [x] := by rw [e]; simp
          have := (List.append_inj' e' rfl).2
          have hx : (10 : UInt8) = x := by simpa using this
          simp [hx]
      obtain ⟨i, hi⟩ := List.getElem?_of_mem h10
      have hi' : i < (ascii s).length := by
        rw [← hw.1]
        exact (List.getElem?_eq_some_iff.1 hi).1
      have hb := hw.2 i 10 _ hi (List.getElem?_eq_getElem hi')
      have hc : ∀ y ∈ ascii s, ¬ sameLetter 10 y := by
        have h97 : ∀ y ∈ ascii s, 97 ≤ y.toNat := by
          simp only [modes, List.mem_cons, Prod.mk.injEq, List.not_mem_nil, or_false] at hs
          rcases hs with ⟨rfl, rfl⟩ | ⟨rfl, rfl⟩ | ⟨rfl, rfl⟩ <;> decide +kernel
        intro y hy hs'
        have hyy := h97 y hy
        have hyl := y.toNat_lt
        rcases hs' with rfl | ⟨_, _, h⟩
        · revert hyy; decide
        · have := congrArg UInt8.toNat h
          have e32 : (32 : UInt8).toNat = 32 := rfl
          have e10 : (10 : UInt8).toNat = 10 := rfl
          rw [UInt8.toNat_sub, e32, e10] at this; omega
      exact hc _ (List.getElem_mem hi') hb
    · have e' : t ++ [10] = (ascii "SELINUX=" ++ a ++ w ++ r) ++ [x] := by rw [e]; simp
      exact ⟨a, w, r, s, (List.append_inj' e' rfl).1, ha, hs, hw⟩
  · rintro ⟨a, w, rest, s, rfl, ha, hs, hw⟩
    exact ⟨a, w, rest ++ [10], s, by simp, ha, hs, hw⟩

theorem modeLine_text (l : Bytes) (m : Int) : modeLine l = some m ↔ SetsMode (text l) m := by
  rw [modeLine_cstr, LabelObj.text_cstr]

theorem modeLine_snoc (l : Bytes) : modeLine (l ++ [10]) = modeLine l := by
  have : ∀ m, modeLine (l ++ [10]) = some m ↔ modeLine l = some m := by
    intro m
    rw [modeLine_cstr, modeLine_cstr]
    rcases cstr_snoc l with h | h
    · rw [h]
    · rw [h, setsMode_snoc]
  exact Option.ext this

/-! ## The type -/

theorem text_chop {l : Bytes} (hl : (10 : UInt8) ∉ l) : chop l = l ∧ chop (l ++ [10]) = l := by
  unfold chop
  constructor
  · rw [if_neg]
    intro h
    exact hl (List.mem_of_getLast? h)
  · simp

/-- The type a line sets. -/
def typeOf (t : Bytes) : Option Bytes :=
  if icase (str "SELINUXTYPE=") (t.dropWhile isspace) then some (rtrim (((t.dropWhile isspace).drop 12).dropWhile isspace)) else none

theorem rtrim_split (v : Bytes) (hv : ∀ x, v.head? = some x → ¬ space x) : ∃ c, v = rtrim v ++ c ∧
    ((rtrim v = [] ∧ c = []) ∨
      ((∃ x, (rtrim v).head? = some x ∧ ¬ space x) ∧
        ((rtrim v).length = 1 ∨ ∃ y, (rtrim v).getLast? = some y ∧ ¬ space y ∧ ¬ ctrl y) ∧
        ∀ x ∈ c, space x ∨ ctrl x)) := by
  cases v with
  | nil => exact ⟨[], rfl, Or.inl ⟨rfl, rfl⟩⟩
  | cons x r =>
    refine ⟨(r.reverse.takeWhile (fun b => isspace b || iscntrl b)).reverse, ?_, Or.inr ⟨⟨x, rfl, hv x rfl⟩, ?_, ?_⟩⟩
    · rw [rtrim, List.cons_append, ← List.reverse_append, List.takeWhile_append_dropWhile, List.reverse_reverse]
    · rw [rtrim]
      cases hd : r.reverse.dropWhile (fun b => isspace b || iscntrl b) with
      | nil => exact Or.inl rfl
      | cons y s =>
        have hy := head_drop (fun b => isspace b || iscntrl b) r.reverse y (by rw [hd]; rfl)
        refine Or.inr ⟨y, by simp [List.getLast?_cons], ?_⟩
        have : ¬ (space y ∨ ctrl y) := by rw [← junk_iff]; simp_all
        exact ⟨fun h => this (Or.inl h), fun h => this (Or.inr h)⟩
    · intro x hx
      exact (junk_iff x).1 (mem_take x (List.mem_reverse.1 hx))

theorem rtrim_app {w c : Bytes} (hw : w ≠ []) (hl : w.length = 1 ∨ ∃ y, w.getLast? = some y ∧ ¬ space y ∧ ¬ ctrl y)
    (hc : ∀ x ∈ c, space x ∨ ctrl x) : rtrim (w ++ c) = w := by
  cases w with
  | nil => exact absurd rfl hw
  | cons x r =>
    rw [List.cons_append, rtrim, List.reverse_append, drop_all (fun y hy => (junk_iff y).2 (hc y (List.mem_reverse.1 hy)))]
    rw [drop_head, List.reverse_reverse]
    intro y hy
    rw [List.head?_reverse] at hy
    rcases hl with hl | ⟨z, hz, h1, h2⟩
    · have : r = [] := List.length_eq_zero_iff.1 (by simpa using hl)
      subst this; simp at hy
    · have : z = y := by
        cases r with
        | nil => simp at hy
        | cons u r =>
          rw [List.getLast?_cons_cons, hy] at hz
          exact (Option.some.inj hz).symm
      subst this
      have : ¬ (isspace z || iscntrl z) = true := by rw [junk_iff]; exact fun h => h.elim h1 h2
      simpa using this

theorem typeOf_iff (t w : Bytes) : typeOf t = some w ↔ SetsType t w := by
  have e := icase_iff (tag := str "SELINUXTYPE=") (s := t.dropWhile isspace) (n := "selinuxtype=") (by decide +kernel) small_typ
  have h12 : (ascii "selinuxtype=").length = 12 := by decide +kernel
  unfold typeOf
  constructor
  · intro h
    split at h
    · rename_i hi
      obtain ⟨tag, rest, hs, ht⟩ := e.1 hi
      have hl : tag.length = 12 := ht.1.trans h12
      have hd : (t.dropWhile isspace).drop 12 = rest := by rw [hs, List.drop_left' hl]
      rw [hd] at h
      have h := Option.some.inj h
      obtain ⟨c, hc, hx⟩ := rtrim_split (rest.dropWhile isspace) fun x hx => (space_neg x).1 (head_drop isspace rest x hx)
      rw [h] at hc hx
      refine ⟨t.takeWhile isspace, tag, rest.takeWhile isspace, c, ?_, fun x hx => (space_iff x).1 (mem_take x hx), ht,
        fun x hx => (space_iff x).1 (mem_take x hx), hx⟩
      rw [List.append_assoc _ w c, ← hc, List.append_assoc _ _ (rest.dropWhile isspace), List.takeWhile_append_dropWhile,
        List.append_assoc, ← hs, List.takeWhile_append_dropWhile]
    · cases h
  · rintro ⟨a, tag, b, c, rfl, ha, ht, hb, hx⟩
    have hl : tag.length = 12 := ht.1.trans h12
    have hd : (a ++ tag ++ b ++ w ++ c).dropWhile isspace = tag ++ (b ++ (w ++ c)) := by
      simp only [List.append_assoc]
      rw [drop_all (fun x hx => (space_iff x).2 (ha x hx))]
      obtain ⟨x, r, rfl, hx⟩ := first_letter ht ex_typ
      exact drop_head fun y hy => by
        have : x = y := by simpa using hy
        subst this
        exact (space_neg x).2 hx
    rw [hd, if_pos]
    · rw [List.drop_left' hl, drop_all (fun x hx => (space_iff x).2 (hb x hx))]
      rcases hx with ⟨rfl, rfl⟩ | ⟨⟨x, hx, hs⟩, hy, hc⟩
      · rfl
      · rw [drop_head, rtrim_app _ hy hc]
        · rintro rfl; cases hx
        · intro y hy
          cases w with
          | nil => cases hx
          | cons z w =>
            have h1 : z = x := by simpa using hx
            have h2 : z = y := by simpa using hy
            rw [← h2, h1]
            exact (space_neg x).2 hs
    · rw [hd] at e
      exact e.2 ⟨tag, _, rfl, ht⟩

/-- The value a line gives to `REQUIRESEUSERS`. -/
def reqOf (t : Bytes) : Option Bytes :=
  if (t.dropWhile isspace).take 15 = str "REQUIRESEUSERS=" then some (((t.dropWhile isspace).drop 15).dropWhile isspace) else none

theorem reqOf_iff (t v : Bytes) : reqOf t = some v ↔ SetsRequire t v := by
  have h15 : (ascii "REQUIRESEUSERS=").length = 15 := by decide +kernel
  have etag : str "REQUIRESEUSERS=" = ascii "REQUIRESEUSERS=" := rfl
  have hex : ∃ r, ascii "REQUIRESEUSERS=" = 82 :: r := ⟨(ascii "REQUIRESEUSERS=").tail, by decide +kernel⟩
  unfold reqOf
  rw [etag]
  constructor
  · intro h
    split at h
    · rename_i ht
      have h := Option.some.inj h
      refine ⟨t.takeWhile isspace, ((t.dropWhile isspace).drop 15).takeWhile isspace, ?_, fun x hx => (space_iff x).1 (mem_take x hx),
        fun x hx => (space_iff x).1 (mem_take x hx), ?_⟩
      · rw [← h, List.append_assoc _ (List.takeWhile _ _), List.takeWhile_append_dropWhile, ← ht, List.append_assoc, List.take_append_drop,
          List.takeWhile_append_dropWhile]
      · rw [← h]
        exact fun x hx => (space_neg x).1 (head_drop isspace _ x hx)
    · cases h
  · rintro ⟨a, b, rfl, ha, hb, hv⟩
    have hd : (a ++ ascii "REQUIRESEUSERS=" ++ b ++ v).dropWhile isspace = ascii "REQUIRESEUSERS=" ++ (b ++ v) := by
      simp only [List.append_assoc]
      rw [drop_all (fun x hx => (space_iff x).2 (ha x hx))]
      obtain ⟨r, hr⟩ := hex
      rw [hr]
      exact drop_head fun y hy => by
        have : 82 = y := by simpa using hy
        subst this; decide
    rw [hd, List.take_left' h15, if_pos rfl, List.drop_left' h15, drop_all (fun x hx => (space_iff x).2 (hb x hx)),
      drop_head fun x hx => (space_neg x).2 (hv x hx)]

/-- `require_seusers` after a value. -/
def reqVal (old : Int) (v : Bytes) : Int :=
  if (v.head?.map isdigit) = some true then atoi v
  else if ¬ icase (str "true") v then 1
  else if ¬ icase (str "false") v then 0
  else old

theorem head_not {p tag : Bytes} {c : UInt8} (h : icase tag p = true) (hc : (tag.map lower).head? = some (lower c)) :
    p ≠ [] ∧ p.head?.map lower = some (lower c) := by
  unfold icase at h
  rw [beq_iff_eq] at h
  cases p with
  | nil => rw [List.take_nil, List.map_nil] at h; rw [← h] at hc; cases hc
  | cons x p =>
    refine ⟨by simp, ?_⟩
    cases tag with
    | nil => cases hc
    | cons y tag =>
      simp only [List.length_cons, List.take_succ_cons, List.map_cons, List.cons.injEq] at h
      simp only [List.map_cons, List.head?_cons] at hc
      simp [h.1, Option.some.inj hc]

theorem confLine_eq (st : St) (l : Bytes) : confLine st l =
    { type := (typeOf (cstr (chop l))).or st.type,
      require := match reqOf (cstr (chop l)) with | some v => reqVal st.require v | none => st.require } := by
  unfold confLine typeOf reqOf
  generalize (cstr (chop l)).dropWhile isspace = p
  have hne : icase (str "SELINUXTYPE=") p = true → ¬ (p.head? = some 35 ∨ p = []) := by
    intro h
    obtain ⟨h1, h2⟩ := head_not (c := 115) h (by decide +kernel)
    rintro (h3 | h3)
    · rw [h3] at h2; revert h2; decide
    · exact h1 h3
  have hne' : p.take 15 = str "REQUIRESEUSERS=" → ¬ (p.head? = some 35 ∨ p = []) ∧ ¬ icase (str "SELINUXTYPE=") p = true := by
    intro h
    have hh : p.head? = some 82 := by
      cases p with
      | nil => revert h; decide +kernel
      | cons x p =>
        have := congrArg List.head? h
        have e : (str "REQUIRESEUSERS=").head? = some 82 := by decide +kernel
        rw [e] at this
        simpa using this
    refine ⟨?_, fun hi => ?_⟩
    · rintro (h3 | h3)
      · rw [hh] at h3; revert h3; decide
      · rw [h3] at hh; cases hh
    · have := (head_not (c := 115) hi (by decide +kernel)).2
      rw [hh] at this; revert this; decide
  by_cases ht : icase (str "SELINUXTYPE=") p = true
  · have hr : ¬ p.take 15 = str "REQUIRESEUSERS=" := fun h => (hne' h).2 ht
    simp only [if_neg (hne ht), if_pos ht, if_neg hr]
    rfl
  · by_cases hr : p.take 15 = str "REQUIRESEUSERS="
    · simp only [if_neg (hne' hr).1, if_neg ht, if_pos hr]
      unfold reqVal
      split
      · rfl
      · split
        · rfl
        · split <;> rfl
    · simp only [if_neg ht, if_neg hr]
      split <;> rfl

end Verif.Config
