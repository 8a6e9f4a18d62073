import Verif.Restore.Spec

/-! # Lemmas: contexts, excluded directories and the files of a tree -/

namespace Verif.Restore
open Verif.Context (Res Handle contextNew contextStr setter setComp typeGet userGet roleGet allMem)

/-! ## Contexts -/

/-- The handle of a context. -/
def hd (p : Parts) : Handle := [some p.user, some p.role, some p.type, p.range]

theorem new_text {p : Parts} (h : p.Good) : contextNew true allMem p.text = .ok (hd p) := by
  have hno : ∀ {s : Bytes}, Plain s → (58 : UInt8) ∉ s ∧ (32 : UInt8) ∉ s ∧ Context.NoCtrl s := fun {s} hs =>
    ⟨fun hm => (hs _ hm).1 rfl, fun hm => (hs _ hm).2.1 rfl, fun hm => (hs _ hm).2.2.1 rfl, fun hm => (hs _ hm).2.2.2.1 rfl,
      fun hm => (hs _ hm).2.2.2.2 rfl⟩
  obtain ⟨u1, u2, u3⟩ := hno h.user
  obtain ⟨r1, r2, r3⟩ := hno h.role
  obtain ⟨t1, t2, t3⟩ := hno h.type
  have hcol : Context.NoCtrl [58] := by simp [Context.NoCtrl]
  have hsp : Context.Splits p.text p.user p.role p.type p.range := ⟨u1, r1, t1, rfl⟩
  have hctl : Context.NoCtrl p.text := by
    unfold Parts.text
    simp only [Context.noCtrl_append]
    refine ⟨⟨⟨⟨⟨u3, hcol⟩, r3⟩, hcol⟩, t3⟩, ?_⟩
    cases hg : p.range with
    | none => simp [Context.NoCtrl]
    | some g =>
      have := (h.range g hg).2.1
      refine ⟨?_, ?_, ?_⟩ <;> · simp only [List.mem_cons]; rintro (h | h) <;> first | (revert h; decide) | (have := this _ h; simp at this)
  have := Context.contextNew_of_valid hsp hctl u2 r2 t2 (fun g hg => (h.range g hg).2.2)
  unfold allMem
  rw [this]
  congr 1
  unfold hd
  cases hg : p.range with
  | none => simp [Context.handleOf, Context.orNull, h.some]
  | some g => simp [Context.handleOf, Context.orNull, (h.range g hg).1]

theorem text_inj {p q : Parts} (hp : p.Good) (hq : q.Good) (h : p.text = q.text) : p = q := by
  have h1 := new_text hp
  rw [h, new_text hq] at h1
  simp only [Res.ok.injEq, hd, List.cons.injEq, Option.some.injEq] at h1
  obtain ⟨a, b, c, d, -⟩ := h1
  cases p; cases q; simp_all

theorem str_hd (p : Parts) : contextStr true (hd p) = .ok p.text := by
  unfold hd
  rw [Context.contextStr_some]
  unfold Parts.text
  cases p.range <;> simp [Context.copyRest]

theorem plain_arg {i : Nat} {s : Bytes} (h : Plain s) : s.any (Context.badChar i) = false := by
  rw [Context.any_badChar]
  exact ⟨⟨fun hm => (h _ hm).2.2.1 rfl, fun hm => (h _ hm).2.2.2.1 rfl, fun hm => (h _ hm).2.2.2.2 rfl⟩,
    fun _ => ⟨fun hm => (h _ hm).1 rfl, fun hm => (h _ hm).2.1 rfl⟩⟩

theorem set_type {p : Parts} {s : Bytes} (h : Plain s) : setter true (hd p) (.type (some s)) = (hd { p with type := s }, true) := by
  simp only [setter, setComp, plain_arg h]
  rfl

theorem set_user {p : Parts} {s : Bytes} (h : Plain s) : setter true (hd p) (.user (some s)) = (hd { p with user := s }, true) := by
  simp only [setter, setComp, plain_arg h]
  rfl

theorem set_role {p : Parts} {s : Bytes} (h : Plain s) : setter true (hd p) (.role (some s)) = (hd { p with role := s }, true) := by
  simp only [setter, setComp, plain_arg h]
  rfl

/-- The context with the parts that are to be replaced. -/
def mix (userRole : Bool) (c n : Parts) : Parts :=
  ⟨if userRole then n.user else c.user, if userRole then n.role else c.role, n.type, c.range⟩

theorem comparePortions_spec {c n : Parts} (hc : c.Good) (hn : n.Good) (ur : Bool) :
    comparePortions c.text n.text ur = .ok (if mix ur c n = c then none else some (mix ur c n).text) := by
  unfold comparePortions
  rw [new_text hc, new_text hn]
  have ht : ∀ p : Parts, typeGet (hd p) = some p.type := fun _ => rfl
  have hu : ∀ p : Parts, userGet (hd p) = some p.user := fun _ => rfl
  have hr : ∀ p : Parts, roleGet (hd p) = some p.role := fun _ => rfl
  have step1 : (if decide (c.type ≠ n.type) = true then setter true (hd c) (.type (some n.type)) else (hd c, true)) =
      (hd { c with type := n.type }, true) := by
    by_cases h : c.type = n.type
    · simp only [h, ne_eq, not_true_eq_false, decide_false, Bool.false_eq_true, if_false]
      congr 2
      cases c; simp_all
    · simp only [ne_eq, h, not_false_eq_true, decide_true, if_true]
      exact set_type hn.type
  have step2 : ∀ p : Parts, (if decide (p.user ≠ n.user) = true then setter true (hd p) (.user (some n.user)) else (hd p, true)) =
      (hd { p with user := n.user }, true) := fun p => by
    by_cases h : p.user = n.user
    · simp only [h, ne_eq, not_true_eq_false, decide_false, Bool.false_eq_true, if_false]
      congr 2
      cases p; simp_all
    · simp only [ne_eq, h, not_false_eq_true, decide_true, if_true]
      exact set_user hn.user
  have step3 : ∀ p : Parts, (if decide (p.role ≠ n.role) = true then setter true (hd p) (.role (some n.role)) else (hd p, true)) =
      (hd { p with role := n.role }, true) := fun p => by
    by_cases h : p.role = n.role
    · simp only [h, ne_eq, not_true_eq_false, decide_false, Bool.false_eq_true, if_false]
      congr 2
      cases p; simp_all
    · simp only [ne_eq, h, not_false_eq_true, decide_true, if_true]
      exact set_role hn.role
  simp only [ht, differ, step1, Bool.true_eq_false, if_false]
  cases ur with
  | false =>
    simp only [Bool.false_eq_true, if_false, str_hd]
    have : (mix false c n = c) ↔ c.type = n.type := by
      unfold mix
      cases c
      simp [eq_comm]
    by_cases h : c.type = n.type
    · rw [if_pos (this.2 h)]
      simp [h]
    · rw [if_neg (fun e => h (this.1 e))]
      simp [h, mix]
  | true =>
    have s2 : (if decide (c.user ≠ n.user) = true then setter true (hd ⟨c.user, c.role, n.type, c.range⟩) (.user (some n.user))
        else (hd ⟨c.user, c.role, n.type, c.range⟩, true)) = (hd ⟨n.user, c.role, n.type, c.range⟩, true) := step2 ⟨c.user, c.role, n.type, c.range⟩
    have s3 : (if decide (c.role ≠ n.role) = true then setter true (hd ⟨n.user, c.role, n.type, c.range⟩) (.role (some n.role))
        else (hd ⟨n.user, c.role, n.type, c.range⟩, true)) = (hd ⟨n.user, n.role, n.type, c.range⟩, true) := step3 ⟨n.user, c.role, n.type, c.range⟩
    simp only [if_true, hu, hr, differ, s2, s3, Bool.true_eq_false, if_false, str_hd]
    have : (mix true c n = c) ↔ (c.type = n.type ∧ c.user = n.user ∧ c.role = n.role) := by
      unfold mix
      cases c
      simp only [if_true, Parts.mk.injEq]
      constructor
      · rintro ⟨a, b, c, -⟩; exact ⟨c.symm, a.symm, b.symm⟩
      · rintro ⟨a, b, c⟩; exact ⟨b.symm, c.symm, a.symm, trivial⟩
    by_cases h : c.type = n.type ∧ c.user = n.user ∧ c.role = n.role
    · rw [if_pos (this.2 h)]
      simp [h.1, h.2.1, h.2.2]
    · rw [if_neg (fun e => h (this.1 e))]
      have h' : (decide (c.type ≠ n.type) || decide (c.user ≠ n.user) || decide (c.role ≠ n.role)) = true := by
        simp only [Bool.or_eq_true, decide_eq_true_eq]
        by_contra hno
        push Not at hno
        exact h ⟨hno.1.1, hno.1.2, hno.2⟩
      rw [if_pos h']
      simp [mix]

theorem customizable_iff {custom : Option (List Bytes)} {c : Parts} (hc : c.Good) : customizable custom c.text = true ↔ Custom custom c.type := by
  unfold customizable Custom
  cases custom with
  | none => simp
  | some l =>
    have ht : typeGet (hd c) = some c.type := rfl
    simp only [new_text hc, ht, Option.some.injEq, exists_eq_left']
    simp

theorem decision_spec {env : Env} {fl : Flags} {cur : Option Parts} {new : Parts} (hc : ∀ c, cur = some c → c.Good) (hn : new.Good) :
    decision env fl (cur.map Parts.text) new.text =
      .ok (if cur = some (newLabel fl env.custom cur new) then none else some (newLabel fl env.custom cur new).text) := by
  unfold decision newLabel
  cases cur with
  | none => simp
  | some c =>
    have hc := hc c rfl
    simp only [Option.map_some, Option.some.injEq]
    by_cases h1 : c.text = new.text
    · have := text_inj hc hn h1
      subst this
      rw [if_pos rfl]
      split
      · simp
      · split
        · simp
        · split <;> simp_all
    · have h1' : c ≠ new := fun e => h1 (by rw [e])
      rw [if_neg h1]
      split
      · rfl
      · by_cases h2 : Custom env.custom c.type
        · rw [if_pos ((customizable_iff hc).2 h2), if_pos h2]
          simp
        · rw [if_neg (fun e => h2 ((customizable_iff hc).1 e)), if_neg h2, comparePortions_spec hc hn]
          unfold mix
          simp only [eq_comm]

theorem newLabel_good {fl : Flags} {custom : Option (List Bytes)} {cur : Option Parts} {new : Parts} (hc : ∀ c, cur = some c → c.Good) (hn : new.Good) :
    (newLabel fl custom cur new).Good := by
  unfold newLabel
  cases cur with
  | none => exact hn
  | some c =>
    have hc := hc c rfl
    simp only
    split
    · exact hn
    · split
      · exact hc
      · refine ⟨?_, ?_, hn.type, hn.some, hc.range⟩
        · show Plain (if _ then _ else _); split; exact hn.user; exact hc.user
        · show Plain (if _ then _ else _); split; exact hn.role; exact hc.role

theorem newLabel_spec {fl : Flags} (h : fl.specctx = true) (custom : Option (List Bytes)) (cur : Option Parts) (new : Parts) :
    newLabel fl custom cur new = new := by
  unfold newLabel
  cases cur <;> simp [h]

open Classical in
theorem newLabel_some {fl : Flags} (h : ¬ fl.specctx = true) (custom : Option (List Bytes)) (c new : Parts) :
    newLabel fl custom (some c) new = if Custom custom c.type then c else mix fl.userRole c new := by
  unfold newLabel
  simp only [h, if_false]
  rfl

open Classical in
/-- Restoring once more changes nothing. -/
theorem newLabel_idem (fl : Flags) (custom : Option (List Bytes)) (cur : Option Parts) (new : Parts) :
    newLabel fl custom (some (newLabel fl custom cur new)) new = newLabel fl custom cur new := by
  by_cases h1 : fl.specctx = true
  · rw [newLabel_spec h1, newLabel_spec h1]
  have hm : ∀ p : Parts, mix fl.userRole (mix fl.userRole p new) new = mix fl.userRole p new := fun p => by
    unfold mix; cases fl.userRole <;> rfl
  have hnew : mix fl.userRole new new = new := by unfold mix; cases fl.userRole <;> rfl
  cases cur with
  | none =>
    show newLabel fl custom (some new) new = new
    rw [newLabel_some h1, hnew]
    split <;> rfl
  | some c =>
    rw [newLabel_some h1 custom c]
    by_cases h2 : Custom custom c.type
    · rw [if_pos h2, newLabel_some h1, if_pos h2]
    · rw [if_neg h2, newLabel_some h1, hm]
      split <;> rfl

end Verif.Restore
