import Verif.Login.Lemmas3

namespace Verif.Login
open Verif.Context

/-! ## Records for services -/

theorem star_iff {t : Bytes} : t.take 2 = [42, colon] ↔ ForService [42] t := by
  unfold ForService
  constructor
  · intro h
    match t, h with
    | a :: b :: t, h =>
      simp at h
      exact ⟨t, by simp [h.1, h.2]⟩
  · rintro ⟨x, rfl⟩
    rfl

theorem service_iff {s t : Bytes} : (t.take s.length = s ∧ (t.drop s.length).head? = some colon) ↔ ForService s t := by
  unfold ForService
  constructor
  · rintro ⟨h1, h2⟩
    have h3 := List.take_append_drop s.length t
    rw [h1] at h3
    cases hd : t.drop s.length with
    | nil => rw [hd] at h2; cases h2
    | cons c x =>
      rw [hd] at h2 h3
      simp at h2
      subst h2
      exact ⟨x, h3.symm⟩
  · rintro ⟨x, rfl⟩
    simp

theorem not_both {s t : Bytes} (h58 : 58 ∉ s) (hs : s ≠ [42]) (h1 : ForService [42] t) : ¬ ForService s t := by
  rintro ⟨y, h⟩
  obtain ⟨x, rfl⟩ := h1
  match s, h58, hs, h with
  | [], _, _, h => simp at h
  | [a], _, hs, h => simp at h; exact hs (by rw [← h.1])
  | a :: b :: s, h58, _, h => simp at h; exact h58 (by rw [← h.2.1]; simp)

theorem recLoop_some {s : Bytes} (h58 : 58 ∉ s) (hs : s ≠ [42]) : ∀ {ls ts : List Bytes} {r : Option Bytes}, List.Forall₂ TextOf ls ts →
    (∀ t, First (ForService s) ts t → recLoop (some s) ls r = some t) ∧
    ((∀ x ∈ ts, ¬ ForService s x) → (∀ t, Last (ForService [42]) ts t → recLoop (some s) ls r = some t) ∧
      ((∀ x ∈ ts, ¬ ForService [42] x) → recLoop (some s) ls r = r))
  | [], [], r, _ => by
    refine ⟨?_, fun _ => ⟨?_, fun _ => rfl⟩⟩
    · rintro t ⟨pre, post, h, -⟩; simp at h
    · rintro t ⟨pre, post, h, -⟩; simp at h
  | l :: ls, t :: ts, r, h => by
    cases h with
    | cons h1 h2 =>
      rw [textOf_iff] at h1
      unfold recLoop
      rw [← h1]
      dsimp only
      by_cases hst : ForService [42] t
      · rw [if_pos (star_iff.2 hst)]
        obtain ⟨i1, i2⟩ := recLoop_some h58 hs (r := some t) h2
        refine ⟨?_, fun hn => ?_⟩
        · rintro x ⟨pre, post, e1, e2, e3⟩
          cases pre with
          | nil => simp at e1; exact absurd (e1.1 ▸ e2) (not_both h58 hs hst)
          | cons a pre =>
            simp at e1
            exact i1 x ⟨pre, post, e1.2, e2, fun y hy => e3 y (List.mem_cons_of_mem _ hy)⟩
        · obtain ⟨i3, i4⟩ := i2 fun x hx => hn x (List.mem_cons_of_mem _ hx)
          refine ⟨?_, fun hno => absurd hst (hno t (by simp))⟩
          rintro x ⟨pre, post, e1, e2, e3⟩
          cases pre with
          | nil =>
            simp at e1
            rw [i4 (by rw [e1.2]; exact e3), e1.1]
          | cons a pre =>
            simp at e1
            exact i3 x ⟨pre, post, e1.2, e2, e3⟩
      · rw [if_neg (fun hh => hst (star_iff.1 hh))]
        by_cases hse : ForService s t
        · rw [if_pos (service_iff.2 hse)]
          refine ⟨?_, fun hn => absurd hse (hn t (by simp))⟩
          rintro x ⟨pre, post, e1, e2, e3⟩
          cases pre with
          | nil => simp at e1; rw [e1.1]
          | cons a pre => simp at e1; exact absurd hse (e1.1 ▸ e3 a (by simp))
        · rw [if_neg (fun hh => hse (service_iff.1 hh))]
          obtain ⟨i1, i2⟩ := recLoop_some h58 hs (r := r) h2
          refine ⟨?_, fun hn => ?_⟩
          · rintro x ⟨pre, post, e1, e2, e3⟩
            cases pre with
            | nil => simp at e1; exact absurd (e1.1 ▸ e2) hse
            | cons a pre =>
              simp at e1
              exact i1 x ⟨pre, post, e1.2, e2, fun y hy => e3 y (List.mem_cons_of_mem _ hy)⟩
          · obtain ⟨i3, i4⟩ := i2 fun x hx => hn x (List.mem_cons_of_mem _ hx)
            refine ⟨?_, fun hno => i4 fun x hx => hno x (List.mem_cons_of_mem _ hx)⟩
            rintro x ⟨pre, post, e1, e2, e3⟩
            cases pre with
            | nil => simp at e1; exact absurd (e1.1 ▸ e2) hst
            | cons a pre =>
              simp at e1
              exact i3 x ⟨pre, post, e1.2, e2, e3⟩

theorem parseRec_of {s t se le : Bytes} (h58 : 58 ∉ s) (h : Record s t se le) : parseRec t = some (se, some le) := by
  obtain ⟨h1, h2, h3⟩ := h
  obtain ⟨x, hx, hx2⟩ : ∃ x, t = s ++ 58 :: (se ++ 58 :: x) ∧ (if x.getLast? = some nl then x.dropLast else x) = le := by
    rcases h3 with h3 | h3
    · exact ⟨le, h3, by rw [if_neg fun h => h2 (List.mem_of_getLast? h)]⟩
    · exact ⟨le ++ [10], h3, by simp⟩
  subst hx
  unfold parseRec
  have e1 : (s ++ 58 :: (se ++ 58 :: x)).dropWhile (· != colon) = 58 :: (se ++ 58 :: x) :=
    dropWhile_eq (fun c hc => by simp; rintro rfl; exact h58 hc) (by rintro c y ⟨⟩; rfl)
  have e2 : (se ++ 58 :: x).takeWhile (· != colon) = se :=
    takeWhile_eq (fun c hc => by simp; rintro rfl; exact h1 hc) (by rintro c y ⟨⟩; rfl)
  simp only [e1, List.drop_succ_cons, List.drop_zero, e2, drop_length_append, hx2]
  simp

theorem of_parseRec {s t : Bytes} {m : Mapped} (h58 : 58 ∉ s) (hs : ForService s t) (ht : 10 ∉ t ∨ ∃ a, t = a ++ [10] ∧ 10 ∉ a)
    (h : parseRec t = some m) : ∃ se le, Record s t se le := by
  obtain ⟨x, rfl⟩ := hs
  unfold parseRec at h
  have e1 : (s ++ 58 :: x).dropWhile (· != colon) = 58 :: x :=
    dropWhile_eq (fun c hc => by simp; rintro rfl; exact h58 hc) (by rintro c y ⟨⟩; rfl)
  obtain ⟨se, r, q1, q2, q3, q4, -⟩ := span_spec (· != colon) x
  have e2 : x.drop se.length = r := by rw [q1, drop_length_append]
  simp only [e1, List.drop_succ_cons, List.drop_zero, q4, e2] at h
  rw [if_neg (by simp)] at h
  cases r with
  | nil => simp at h
  | cons c y =>
    have hc := q3 c y rfl
    simp at hc
    subst hc
    have hse : (58 : UInt8) ∉ se := fun hm => by simpa using q2 58 hm
    rcases ht with ht | ⟨a, ha, hna⟩
    · exact ⟨se, y, hse, fun hm => ht (by rw [q1]; simp [hm]), Or.inl (by rw [q1])⟩
    · rcases List.eq_nil_or_concat y with rfl | ⟨y', d, rfl⟩
      · have h3 : (s ++ 58 :: se) ++ [58] = a ++ [10] := by
          rw [← ha, q1]
          simp [colon]
        obtain ⟨-, h5⟩ := List.append_inj' h3 rfl
        simp at h5
      · have h3 : (s ++ 58 :: (se ++ 58 :: y')) ++ [d] = a ++ [10] := by rw [← ha, q1]; simp
        obtain ⟨h4, h5⟩ := List.append_inj' h3 rfl
        simp at h5
        subst h5
        refine ⟨se, y', hse, fun hm => hna (by rw [← h4]; simp [hm]), Or.inr (by rw [q1]; simp)⟩

theorem texts_end {bs : Bytes} {ts : List Bytes} (h : TextsOf bs ts) : ∀ t ∈ ts, 10 ∉ t ∨ ∃ a, t = a ++ [10] ∧ 10 ∉ a := by
  obtain ⟨ls, h1, h2⟩ := h
  have h3 := isLine_of_linesOf h1
  clear h1
  induction h2 with
  | nil => simp
  | @cons l t ls ts h _ ih =>
    intro x hx
    rcases List.mem_cons.1 hx with rfl | hx
    · rw [textOf_iff] at h
      obtain ⟨b1, b2⟩ := body_spec (h3 l (by simp))
      rw [h]
      rcases b2 with b2 | b2
      · rw [b2]; exact Or.inl b1
      · rw [b2]; exact Or.inr ⟨_, rfl, b1⟩
    · exact ih (fun y hy => h3 y (List.mem_cons_of_mem _ hy)) x hx

/-! ## Types of roles -/

theorem findDefaultType_line {role a rest : Bytes} (h10 : 10 ∉ a) (h0 : 0 ∉ a) (hlen : a.length ≤ 248) :
    findDefaultType role (a ++ 10 :: rest) =
      let ptr := a.dropWhile isSpace
      if ptr ≠ [] ∧ ptr.take role.length = role ∧ (ptr.drop role.length).head? = some colon then
        .ok ((ptr.drop (role.length + 1)).take (a.length - role.length - 1))
      else findDefaultType role rest := by
  rw [findDefaultType, dif_neg (by simp)]
  have hg : fgets 249 (a ++ 10 :: rest) = a ++ [10] := by
    rw [fgets_line h10 (by omega), if_neg (by omega)]
  have hc : cstr (a ++ [10]) = a ++ [10] := by
    unfold cstr
    have := takeWhile_eq (p := (· != 0)) (w := a ++ [10]) (r := []) (by
      intro c hc
      rcases List.mem_append.1 hc with hc | hc
      · simp; rintro rfl; exact h0 hc
      · rw [List.mem_singleton.1 hc]; rfl) (by simp)
    simpa using this
  simp only [hg, hc, List.dropLast_concat]
  rw [if_neg (by simp)]
  have hd : (a ++ 10 :: rest).drop (a ++ [10]).length = rest := by
    rw [show a ++ 10 :: rest = (a ++ [10]) ++ rest by simp, drop_length_append]
  rw [hd]

theorem typeLine_iff {role a : Bytes} (hr : ∀ c x, role = c :: x → ¬ Space c) {type : Bytes} :
    TypeLine role (a ++ [10]) type ↔
      (let ptr := a.dropWhile isSpace
       ptr ≠ [] ∧ ptr.take role.length = role ∧ (ptr.drop role.length).head? = some colon) ∧
      type = ((a.dropWhile isSpace).drop (role.length + 1)).take (a.length - role.length - 1) := by
  unfold TypeLine
  constructor
  · rintro ⟨pre, h, hp⟩
    have h' : a ++ [10] = (pre ++ role ++ 58 :: type) ++ [10] := by rw [h]; simp
    obtain ⟨h1, -⟩ := List.append_inj' h' rfl
    have e1 : a.dropWhile isSpace = role ++ 58 :: type := by
      rw [h1, List.append_assoc]
      refine dropWhile_eq (fun c hc => isSpace_iff.2 (hp c hc)) ?_
      intro c x hx
      cases role with
      | nil => simp at hx; rw [← hx.1]; rfl
      | cons d r => simp at hx; rw [← hx.1]; exact not_isSpace_iff.2 (hr d r rfl)
    rw [e1]
    have e2 : (role ++ 58 :: type).drop (role.length + 1) = type := by
      rw [show role ++ 58 :: type = (role ++ [58]) ++ type by simp, ← List.length_singleton (a := (58 : UInt8)), ← List.length_append,
        drop_length_append]
    rw [e2]
    refine ⟨⟨by simp, by simp, by simp⟩, ?_⟩
    rw [List.take_of_length_le]
    rw [h1]
    simp
    omega
  · rintro ⟨⟨h1, h2⟩, h3⟩
    obtain ⟨pre, st, p1, p2, p3, -, p5⟩ := span_spec isSpace a
    rw [p5] at h1 h2 h3
    obtain ⟨x, rfl⟩ := service_iff.1 h2
    have e2 : (role ++ 58 :: x).drop (role.length + 1) = x := by
      rw [show role ++ 58 :: x = (role ++ [58]) ++ x by simp, ← List.length_singleton (a := (58 : UInt8)), ← List.length_append,
        drop_length_append]
    rw [e2, List.take_of_length_le (by rw [p1]; simp; omega)] at h3
    subst h3
    exact ⟨pre, by rw [p1]; simp, fun c hc => isSpace_iff.1 (p2 c hc)⟩

end Verif.Login
