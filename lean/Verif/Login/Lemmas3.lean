import Verif.Login.Lemmas2
import Batteries.Data.List.Basic

namespace Verif.Login
open Verif.Context

/-! ## Contexts for words -/

theorem splits_user {s user w u r t : Bytes} {g : Option Bytes} (hu : 58 ∉ user) (hs : s = user ++ 58 :: w) (h : Splits s u r t g) :
    u = user := by
  have h' := h.eq
  rw [hs] at h'
  have h2 : ∃ x, user ++ 58 :: w = u ++ 58 :: x := by
    rw [h']
    exact ⟨_, by simp only [List.append_assoc, List.singleton_append]; rfl⟩
  obtain ⟨x, h2⟩ := h2
  exact (append_cut hu h.user h2).1.symm

theorem candidate_eq {user : Bytes} {level : Option Bytes} (hu : 58 ∉ user) (hl : ∀ l, level = some l → NoCtrl l) (w : Bytes) :
    ∃ o, candidate user level w = .ok o ∧ ∀ c, o = some c ↔ ContextFor user level w c := by
  unfold candidate
  have hacc := C32_accept (user ++ 58 :: w)
  cases hc : contextNew true (fun _ => true) (user ++ colon :: w) with
  | ub => exact absurd hc (hacc.2.2 _ _)
  | err =>
    refine ⟨none, rfl, fun c => ⟨by simp, ?_⟩⟩
    rintro ⟨hv, -⟩
    obtain ⟨h, hh⟩ := hacc.1.2 hv
    have : Res.err = Res.ok h := hc.symm.trans hh
    cases this
  | ok h =>
    obtain ⟨u, r, t, g, h1, h2, h3, h4, h5, h6, rfl⟩ := contextNew_ok hc
    obtain rfl := splits_user hu rfl h1
    have hset : setComp true (handleOf u r t g) 3 level = ((handleOf u r t g).set 3 level, true) := by
      obtain ⟨k1, k2, -⟩ := compOk_arg 3 level (handleOf u r t g) true (Or.inr rfl)
      have h7 : (setComp true (handleOf u r t g) 3 level).2 = true := k1.2 fun s hs => ⟨hl s hs, fun h => absurd rfl h⟩
      exact Prod.ext (k2 h7) h7
    dsimp only
    rw [hset]
    dsimp only
    have hstr : contextStr true ((handleOf u r t g).set 3 level) =
        .ok (withLevel (if g = none ∧ t = [] then u ++ 58 :: r else u ++ 58 :: (r ++ 58 :: t)) level) := by
      cases g with
      | none =>
        simp only [handleOf, List.set_cons_succ, List.set_cons_zero]
        rw [contextStr_some]
        by_cases ht : t = []
        · cases level <;> simp [orNull, ht, copyRest, withLevel]
        · cases level <;> simp [orNull, ht, copyRest, withLevel]
      | some g =>
        simp only [handleOf, List.set_cons_succ, List.set_cons_zero]
        rw [contextStr_some]
        cases level <;> simp [copyRest, withLevel]
    rw [hstr]
    refine ⟨_, rfl, fun c => ?_⟩
    constructor
    · intro hcc
      rw [Option.some.injEq] at hcc
      exact ⟨⟨u, r, t, g, h1, h2, h3, h4, h5, h6⟩, r, t, g, h1, hcc.symm⟩
    · rintro ⟨-, r', t', g', h1', rfl⟩
      obtain ⟨-, rfl, rfl, rfl⟩ := splits_unique h1 h1'
      rfl

/-- The contexts of words. -/
theorem candidates_exist {user : Bytes} {level : Option Bytes} (hu : 58 ∉ user) (hl : ∀ l, level = some l → NoCtrl l) :
    ∀ ws : List Bytes, ∃ os : List (Option Bytes), List.Forall₂ (fun w o => ∀ c, o = some c ↔ ContextFor user level w c) ws os
  | [] => ⟨[], .nil⟩
  | w :: ws => by
    obtain ⟨o, -, ho⟩ := candidate_eq hu hl w
    obtain ⟨os, hos⟩ := candidates_exist hu hl ws
    exact ⟨o :: os, .cons ho hos⟩

theorem eraseDups_concat (a : List Bytes) (c : Bytes) : (a ++ [c]).eraseDups = if c ∈ a then a.eraseDups else a.eraseDups ++ [c] := by
  rw [List.eraseDups_append]
  split
  · rename_i h
    simp [List.removeAll, h]
  · rename_i h
    have : ([c] : List Bytes).removeAll a = [c] := by simp [List.removeAll, h]
    rw [this]
    simp [List.eraseDups_cons]

theorem addWords_eq {valid : Bytes → Bool} {user : Bytes} {level : Option Bytes} (hu : 58 ∉ user) (hl : ∀ l, level = some l → NoCtrl l) :
    ∀ {ws : List Bytes} {os : List (Option Bytes)} (a : List Bytes),
    List.Forall₂ (fun w o => ∀ c, o = some c ↔ ContextFor user level w c) ws os →
    addWords valid user level ws a.eraseDups = .ok (a ++ (os.filterMap id).filter valid).eraseDups
  | [], [], a, _ => by simp [addWords]
  | w :: ws, o :: os, a, h => by
    cases h with
    | cons h1 h2 =>
      unfold addWords
      obtain ⟨o', ho, ho'⟩ := candidate_eq hu hl w
      have : o' = o := by
        cases o' with
        | none =>
          cases o with
          | none => rfl
          | some c => exact ((ho' c).2 ((h1 c).1 rfl))
        | some c => exact ((h1 c).2 ((ho' c).1 rfl)).symm
      subst this
      rw [ho]
      cases o' with
      | none =>
        dsimp only
        rw [addWords_eq hu hl a h2]
        simp
      | some c =>
        dsimp only
        have key := addWords_eq hu hl (a ++ [c]) h2 (valid := valid)
        have keyn := addWords_eq hu hl a h2 (valid := valid)
        by_cases hm : c ∈ a
        · rw [if_pos (by simpa [List.mem_eraseDups] using hm), keyn]
          rw [eraseDups_concat, if_pos hm] at key
          by_cases hv : valid c = true
          · have : (some c :: os).filterMap id = c :: os.filterMap id := rfl
            rw [this, List.filter_cons, if_pos hv, ← keyn, key]
            simp
          · have : (some c :: os).filterMap id = c :: os.filterMap id := rfl
            rw [this, List.filter_cons, if_neg hv]
        · rw [if_neg (by simpa [List.mem_eraseDups] using hm)]
          have hfm : (some c :: os).filterMap id = c :: os.filterMap id := rfl
          by_cases hv : valid c = true
          · rw [if_pos hv, hfm, List.filter_cons, if_pos hv]
            rw [eraseDups_concat, if_neg hm] at key
            rw [key]
            simp
          · rw [if_neg hv, hfm, List.filter_cons, if_neg hv, keyn]

theorem forall₂_append_inv {R : Bytes → Option Bytes → Prop} : ∀ {a b : List Bytes} {os : List (Option Bytes)}, List.Forall₂ R (a ++ b) os →
    ∃ x y, os = x ++ y ∧ List.Forall₂ R a x ∧ List.Forall₂ R b y
  | [], b, os, h => ⟨[], os, rfl, .nil, h⟩
  | w :: a, b, [], h => by cases h
  | w :: a, b, o :: os, h => by
    cases h with
    | cons h1 h2 =>
      obtain ⟨x, y, rfl, h3, h4⟩ := forall₂_append_inv h2
      exact ⟨o :: x, y, rfl, .cons h1 h3, h4⟩

theorem getContextUser_eq {valid : Bytes → Bool} {file : Option Bytes} {con : Handle} {user role type : Bytes} {os : List (Option Bytes)}
    (hu : 58 ∉ user) (hl : ∀ l, rangeGet con = some l → NoCtrl l) (hr : roleGet con = some role) (ht : typeGet con = some type)
    (a : List Bytes)
    (hos : List.Forall₂ (fun w o => ∀ c, o = some c ↔ ContextFor user (rangeGet con) w c) (wordsFor file role type) os) :
    getContextUser valid file con user a.eraseDups = .ok (a ++ (os.filterMap id).filter valid).eraseDups := by
  unfold getContextUser
  rw [hr, ht]
  unfold wordsFor at hos
  cases file with
  | none => cases hos; simp
  | some bs =>
    dsimp only at hos ⊢
    cases hf : findLine role type (lines bs) with
    | none => rw [hf] at hos; cases hos; simp
    | some rest =>
      rw [hf] at hos
      exact addWords_eq hu hl a hos

/-! ## The last resort -/

theorem fgets_line : ∀ {n : Nat} {l rest : Bytes}, 10 ∉ l → l.length ≤ n →
    fgets n (l ++ 10 :: rest) = if l.length = n then l else l ++ [10]
  | 0, [], _, _, _ => by simp [fgets]
  | n + 1, [], rest, _, _ => by simp [fgets]
  | n + 1, b :: l, rest, h, hn => by
    rw [List.mem_cons, not_or] at h
    rw [List.cons_append]
    unfold fgets
    rw [if_neg (fun hb => h.1 hb.symm), fgets_line h.2 (by simpa using hn)]
    simp only [List.length_cons, Nat.add_right_cancel_iff]
    split <;> rfl

theorem fgets_last : ∀ {n : Nat} {l : Bytes}, 10 ∉ l → l.length ≤ n → fgets n l = l
  | 0, [], _, _ => rfl
  | n + 1, [], _, _ => rfl
  | n + 1, b :: l, h, hn => by
    rw [List.mem_cons, not_or] at h
    unfold fgets
    rw [if_neg (fun hb => h.1 hb.symm), fgets_last h.2 (by simpa using hn)]

end Verif.Login
