import Verif.FileLabel.Spec
import Verif.Prelude
/-!
# Strings, expressions and stems
-/
namespace Verif.FileLabel
open Spec

/-! ## Literals -/

theorem simplify_cons (b : Byte) (bs : Bytes) : simplify (b :: bs) =
    if isMeta b then none
    else if b = bslash then
      match bs with
      | [] => none
      | c :: cs => if isEscapable c then (simplify cs).map (c :: ·) else none
    else (simplify bs).map (b :: ·) := by
  rw [simplify.eq_def]; rfl

unseal isMeta in
theorem isMeta_bslash : isMeta bslash = false := by decide

theorem simplify_plain : ∀ r : Bytes, simplify r = plain r
  | [] => by rw [simplify, plain]
  | [b] => by
    rw [simplify_cons, plain]
    by_cases hm : isMeta b = true
    · rw [if_pos hm, if_pos (Or.inl hm)]
    · rw [if_neg hm]
      by_cases hb : b = bslash
      · rw [if_pos hb, if_pos (Or.inr hb)]
      · rw [if_neg hb, if_neg (by rw [not_or]; exact ⟨hm, hb⟩), simplify]; rfl
  | b :: c :: r => by
    have h1 := simplify_plain r
    have h2 := simplify_plain (c :: r)
    rw [simplify_cons, plain]
    by_cases hb : b = bslash
    · subst hb
      rw [isMeta_bslash, if_neg Bool.false_ne_true, if_pos rfl, if_pos rfl]
      simp only [h1]
    · rw [if_neg hb, if_neg hb, h2]

theorem hasMeta_plain (r : Bytes) (n : Nat) : (hasMeta r n).1 = (plain r).isNone := by
  rw [← simplify_plain]
  induction hk : r.length using Nat.strongRecOn generalizing r n with
  | _ k ih =>
    cases r with
    | nil => rw [hasMeta, simplify]; rfl
    | cons b bs =>
      rw [hasMeta.eq_def, simplify_cons]
      simp only
      simp only [List.length_cons] at hk
      split
      · rfl
      · split
        · cases bs with
          | nil => rfl
          | cons c cs =>
            simp only [List.length_cons] at hk
            simp only
            split
            · rw [ih cs.length (by omega) cs (n + 1) rfl]; cases simplify cs <;> rfl
            · rfl
        · rw [ih bs.length (by omega) bs (n + 1) rfl]; cases simplify bs <;> rfl

/-! ## Cutting at slashes -/

theorem parts_cut (s : Bytes) :
    parts s = match cut s with
      | none => []
      | some (seg, q) => seg :: parts (q.drop 1) := by
  induction s with
  | nil => rfl
  | cons b bs ih =>
    rw [parts, cut]
    by_cases h : b = 47
    · rw [if_pos h, if_pos h]; rfl
    · rw [if_neg h, if_neg h, ih]
      cases cut bs <;> rfl

theorem cut_head {s a r : Bytes} (h : cut s = some (a, r)) : r.head? = some slash := by
  induction s generalizing a r with
  | nil => simp [cut] at h
  | cons b bs ih =>
    unfold cut at h
    split at h
    · rename_i hb
      simp only [Option.some.injEq, Prod.mk.injEq] at h; rw [← h.2, hb]; rfl
    · cases hc : cut bs with
      | none => simp [hc] at h
      | some x =>
        simp only [hc, Option.map_some, Option.some.injEq, Prod.mk.injEq] at h
        rw [← h.2]; exact ih (a := x.1) (by rw [hc])

theorem cut_seg_length {s a r : Bytes} (h : cut s = some (a, r)) : a.length + r.length = s.length := by
  induction s generalizing a r with
  | nil => simp [cut] at h
  | cons b bs ih =>
    unfold cut at h
    split at h
    · simp only [Option.some.injEq, Prod.mk.injEq] at h; rw [← h.1, ← h.2]; simp
    · cases hc : cut bs with
      | none => simp [hc] at h
      | some x =>
        simp only [hc, Option.map_some, Option.some.injEq, Prod.mk.injEq] at h
        have := ih (a := x.1) (r := x.2) (by rw [hc])
        rw [← h.1, ← h.2]
        simp only [List.length_cons]; omega

theorem plain_length {r t : Bytes} (h : plain r = some t) : t.length ≤ r.length := by
  rw [← simplify_plain] at h
  induction hk : r.length using Nat.strongRecOn generalizing r t with
  | _ k ih =>
    cases r with
    | nil => rw [simplify] at h; simp only [Option.some.injEq] at h; simp [← h]
    | cons b bs =>
      rw [simplify_cons] at h
      simp only [List.length_cons] at hk
      split at h
      · simp at h
      · split at h
        · cases bs with
          | nil => simp at h
          | cons c cs =>
            simp only [List.length_cons] at hk
            simp only at h
            split at h
            · obtain ⟨u, hu, rfl⟩ := Option.map_eq_some_iff.1 h
              have := ih cs.length (by omega) hu rfl
              simp only [List.length_cons]; omega
            · simp at h
        · obtain ⟨u, hu, rfl⟩ := Option.map_eq_some_iff.1 h
          have := ih bs.length (by omega) hu rfl
          simp only [List.length_cons]; omega

/-- The fixed leading directories, without the bound on their number. -/
def leads (p : Bytes) : List Bytes :=
  ((((parts (p.drop 1)).filter (· ≠ [])).map plain).takeWhile Option.isSome).filterMap id

theorem leads_cut (p : Bytes) :
    leads p = match cut (p.drop 1) with
      | none => []
      | some (seg, q) => if seg = [] then leads q else
          match plain seg with
          | none => []
          | some t => t :: leads q := by
  unfold leads
  rw [parts_cut]
  cases hc : cut (p.drop 1) with
  | none => rfl
  | some x =>
    obtain ⟨seg, q⟩ := x
    simp only
    by_cases hs : seg = []
    · subst hs; simp
    · rw [if_neg hs]
      simp only [ne_eq, List.filter_cons, hs, not_false_eq_true, decide_true, if_true, List.map_cons]
      cases hp : plain seg with
      | none => simp [List.takeWhile_cons]
      | some t => simp [List.takeWhile_cons, List.filterMap_cons]

theorem reStems_eq (depth : Nat) (p : Bytes) (hl : p.length < 65535) :
    reStems none depth p = some ((leads p).take (3 - depth)) := by
  induction hk : p.length using Nat.strongRecOn generalizing p depth with
  | _ k ih =>
    rw [reStems.eq_def]
    by_cases hd : depth ≥ 3
    · rw [if_pos hd, Nat.sub_eq_zero_of_le hd]; rfl
    · rw [if_neg hd, leads_cut]
      split
      · rename_i hc; rw [hc]; simp
      · rename_i seg q hc
        have hq := cut_length hc
        have hseg := cut_seg_length hc
        have hp : q.length < p.length := by
          cases p with
          | nil => simp [cut] at hc
          | cons b bs => simp only [List.drop_succ_cons, List.drop_zero] at hq; simp only [List.length_cons]; omega
        simp only [hc]
        by_cases hs : seg = []
        · rw [if_pos hs, if_pos hs]
          exact ih q.length (by omega) depth q (by omega) rfl
        · rw [if_neg hs, if_neg hs, simplify_plain]
          cases hpl : plain seg with
          | none => simp
          | some t =>
            have ht := plain_length hpl
            have : seg.length ≤ p.length := by
              have : (p.drop 1).length ≤ p.length := by simp
              omega
            simp only
            rw [if_neg (by omega)]
            simp only [offRe, Bool.and_false, Bool.false_eq_true, if_false]
            rw [ih q.length (by omega) (depth + 1) q (by omega) rfl]
            have : 3 - depth = (3 - (depth + 1)) + 1 := by omega
            rw [this, List.take_succ_cons]
            rfl

theorem litStems_eq (depth : Nat) (p : Bytes) :
    litStems none depth p = some (if p.head? = some slash
      then ((parts (p.drop 1)).filter (· ≠ [])).take (3 - depth) else []) := by
  induction hk : p.length using Nat.strongRecOn generalizing p depth with
  | _ k ih =>
    rw [litStems.eq_def]
    by_cases hd : depth ≥ 3
    · rw [if_pos hd, Nat.sub_eq_zero_of_le hd]; simp
    · rw [if_neg hd]
      cases p with
      | nil => simp
      | cons b bs =>
        simp only [List.head?_cons, Option.some.injEq, List.drop_succ_cons, List.drop_zero]
        by_cases hb : b = slash
        · rw [if_neg (by simp [hb]), if_pos hb, parts_cut]
          split
          · rename_i hc; simp [hc]
          · rename_i seg q hc
            have hq := cut_length hc
            have hh := cut_head hc
            simp only [hc]
            have hlen : q.length < k := by simp only [List.length_cons] at hk; omega
            by_cases hs : seg = []
            · subst hs
              rw [if_pos rfl, ih q.length hlen depth q rfl, if_pos hh]
              simp
            · rw [if_neg hs]
              simp only [offLit, Bool.and_false, Bool.false_eq_true, if_false]
              rw [ih q.length hlen (depth + 1) q rfl, if_pos hh]
              have : 3 - depth = (3 - (depth + 1)) + 1 := by omega
              rw [this]
              simp [List.filter_cons, hs]
        · rw [if_pos hb, if_neg hb]

/-! ## Comparison of strings -/

theorem strcmp_eq {a b : Bytes} : strcmp a b = 0 ↔ a = b := by
  fun_induction strcmp a b with
  | case1 => simp
  | case2 => simp
  | case3 => simp
  | case4 a as b bs h => simp; intro h'; subst h'; exact absurd h (by simp)
  | case5 a as b bs h h' => simp; intro h''; subst h''; exact absurd h' (by simp)
  | case6 a as b bs h h' ih =>
    rw [ih]
    have : a = b := by
      apply UInt8.toNat_inj.1
      rw [UInt8.lt_iff_toNat_lt] at h h'
      omega
    simp [this]

theorem strcmp_anti (a b : Bytes) : strcmp a b < 0 ↔ 0 < strcmp b a := by
  fun_induction strcmp a b with
  | case1 => simp [strcmp]
  | case2 => simp [strcmp]
  | case3 => simp [strcmp]
  | case4 a as b bs h =>
    unfold strcmp
    have : ¬ b < a := by rw [UInt8.lt_iff_toNat_lt] at h ⊢; omega
    simp [this, h]
  | case5 a as b bs h h' => unfold strcmp; simp [h']
  | case6 a as b bs h h' ih => rw [ih]; conv_rhs => unfold strcmp; simp [h, h']

theorem strcmp_trans (a b c : Bytes) (h1 : strcmp a b ≤ 0) (h2 : strcmp b c ≤ 0) : strcmp a c ≤ 0 := by
  induction a generalizing b c with
  | nil => cases c <;> simp [strcmp]
  | cons x xs ih =>
    cases b with
    | nil => simp [strcmp] at h1
    | cons y ys =>
      cases c with
      | nil => simp [strcmp] at h2
      | cons z zs =>
        unfold strcmp at h1 h2 ⊢
        by_cases hxy : x < y
        · by_cases hyz : y < z
          · have : x < z := by rw [UInt8.lt_iff_toNat_lt] at *; omega
            simp [this]
          · rw [if_neg hyz] at h2
            by_cases hzy : z < y
            · simp [hzy] at h2
            · have : x < z := by rw [UInt8.lt_iff_toNat_lt] at *; omega
              simp [this]
        · rw [if_neg hxy] at h1
          by_cases hyx : y < x
          · simp [hyx] at h1
          · rw [if_neg hyx] at h1
            have hxy' : x = y := by
              apply UInt8.toNat_inj.1
              rw [UInt8.lt_iff_toNat_lt] at hxy hyx
              omega
            subst hxy'
            by_cases hxz : x < z
            · simp [hxz]
            · rw [if_neg hxz] at h2 ⊢
              by_cases hzx : z < x
              · simp [hzx] at h2
              · rw [if_neg hzx] at h2 ⊢
                exact ih ys zs h1 h2

/-- The sign of the comparison of a stem with a part of the path. -/
theorem strncmp_stem (stem key : Bytes) :
    (strncmp stem key key.length < 0 ↔ strcmp stem key < 0) ∧
    (strncmp stem key key.length = 0 ∧ stem.length = key.length ↔ stem = key) := by
  unfold strncmp
  rw [List.take_length]
  constructor
  · induction stem generalizing key with
    | nil => cases key <;> simp [strcmp]
    | cons a as ih =>
      cases key with
      | nil => simp [strcmp]
      | cons b bs =>
        simp only [List.length_cons, List.take_succ_cons, strcmp]
        split
        · simp
        · split
          · simp
          · exact ih bs
  · rw [strcmp_eq]
    constructor
    · rintro ⟨h, hl⟩
      rw [← hl, List.take_length] at h; exact h
    · rintro rfl; simp

theorem cmpNode_consistent : Consistent cmpNode :=
  ⟨fun a b => strcmp_anti _ _, fun a b c => strcmp_trans _ _ _⟩

theorem strcmp_le_antisymm {a b : Bytes} (h1 : strcmp a b ≤ 0) (h2 : strcmp b a ≤ 0) : a = b := by
  rw [← strcmp_eq]
  have := (strcmp_anti a b)
  omega

theorem cmpLit_nonpos (a b : Lit) :
    cmpLit a b ≤ 0 ↔ strcmp a.literalMatch b.literalMatch < 0 ∨
      (a.literalMatch = b.literalMatch ∧ b.kind ≤ a.kind) := by
  unfold cmpLit
  simp only
  by_cases h : strcmp a.literalMatch b.literalMatch = 0
  · rw [if_neg (by simp [h])]
    have he := strcmp_eq.1 h
    rw [h]
    simp only [he, true_and]
    split <;> split <;> omega
  · rw [if_pos h]
    have : ¬ a.literalMatch = b.literalMatch := fun h' => h (strcmp_eq.2 h')
    simp only [this, false_and, or_false]
    omega

theorem cmpLit_consistent : Consistent cmpLit := by
  constructor
  · intro a b
    have h1 := strcmp_anti a.literalMatch b.literalMatch
    have h2 := strcmp_anti b.literalMatch a.literalMatch
    unfold cmpLit
    simp only
    by_cases h : strcmp a.literalMatch b.literalMatch = 0
    · have h' : strcmp b.literalMatch a.literalMatch = 0 := by rw [strcmp_eq] at h ⊢; exact h.symm
      rw [h, h']
      simp only [ne_eq, not_true_eq_false, if_false]
      split <;> split <;> omega
    · have h' : ¬ strcmp b.literalMatch a.literalMatch = 0 := by rw [strcmp_eq] at h ⊢; exact fun x => h x.symm
      rw [if_pos h, if_pos h']
      exact h1
  · intro a b c h1 h2
    rw [cmpLit_nonpos] at *
    rcases h1 with h1 | ⟨e1, k1⟩
    · left
      rcases h2 with h2 | ⟨e2, k2⟩
      · have := strcmp_trans a.literalMatch b.literalMatch c.literalMatch (by omega) (by omega)
        by_contra hn
        have h0 : strcmp a.literalMatch c.literalMatch = 0 := by omega
        rw [strcmp_eq] at h0
        have := strcmp_anti a.literalMatch b.literalMatch
        rw [h0] at this h1
        have := strcmp_anti b.literalMatch c.literalMatch
        omega
      · rw [← e2]; exact h1
    · rcases h2 with h2 | ⟨e2, k2⟩
      · left; rw [e1]; exact h2
      · exact Or.inr ⟨e1.trans e2, by omega⟩

end Verif.FileLabel
