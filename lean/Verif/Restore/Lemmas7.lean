import Verif.Restore.Lemmas6

/-! # Lemmas: what a call does -/

namespace Verif.Restore
open Verif.Context (Res)

/-- What a walk does. -/
theorem walk_result {env : Env} {fl : Flags} {w : World} {t : Tree} (hN : Normal env fl w t) (hA : Apart env fl (files env fl w t))
    (cur : Nat × Nat → Option Parts) (hcur : ∀ k, Cur w k (cur k)) :
    ∃ s, walk env fl t { w := w } = some s ∧ s.w.digest = w.digest ∧
      (∀ e ∈ chosen env fl (files env fl w t), HasSpec env e →
        s.w.label e.key = (match (actOf env fl.noAssoc (cur e.key) e).set with | none => w.label e.key | some c => some c)) ∧
      (∀ k, (∀ e ∈ chosen env fl (files env fl w t), e.key = k → (actOf env fl.noAssoc (cur k) e).set = none) → s.w.label k = w.label k) ∧
      s.log = (chosen env fl (files env fl w t)).flatMap (fun e => (actOf env fl.noAssoc (cur e.key) e).say) ∧
      (s.error = true ↔ fl.countErrors = false ∧ ∃ e ∈ chosen env fl (files env fl w t), (actOf env fl.noAssoc (cur e.key) e).fail = true) ∧
      (0 < s.skipped ↔ fl.countErrors = true ∧ ∃ e ∈ chosen env fl (files env fl w t), (actOf env fl.noAssoc (cur e.key) e).fail = true) ∧
      s.abort = false := by
  have hreach : ∀ e ∈ files env fl w t, Reached env fl w t e := fun e he => (mem_files t).1 he
  obtain ⟨s1, h1, h2, h3, h4, h5, h6, h7⟩ := runAll_acts (env := env) (fl := fl.noAssoc) rfl hN.goOn hN.raw cur (chosen env fl (files env fl w t)) { w := w }
    (fun e he => ⟨hN.short e (hreach e (chosen_subset he)), fun x hx => hN.specs e x hx, fun _ => hcur e.key⟩) (chosen_different hA) rfl
  obtain ⟨tab, ht⟩ := run_chosen (s := { w := w }) hA (fun e he => hN.short e (hreach e he)) rfl
  rw [h1] at ht
  have hw := walk_files (env := env) (fl := fl) (w := w) t hN.acyclic { w := w } rfl
  rw [ht] at hw
  cases hx : walk env fl t { w := w } with
  | none => rw [hx] at hw; cases hw
  | some s =>
    rw [hx] at hw
    have hp : s.put [] = (s1.tab tab).put [] := Option.some.inj hw
    have e1 : s.w = s1.w := by have := congrArg St.w hp; exact this
    have e2 : s.log = s1.log := by have := congrArg St.log hp; exact this
    have e3 : s.error = s1.error := by have := congrArg St.error hp; exact this
    have e4 : s.skipped = s1.skipped := by have := congrArg St.skipped hp; exact this
    have e5 : s.abort = s1.abort := by have := congrArg St.abort hp; exact this
    refine ⟨s, rfl, ?_, ?_⟩
    · have := (walk_keeps hN.acyclic hx).1
      exact this
    · rw [e1, e2, e3, e4, e5]
      refine ⟨h2, h3, by rw [h4]; simp, by rw [h5]; simp [Flags.noAssoc], h6, h7⟩

theorem reached_iff_chosen {env : Env} {fl : Flags} {es : List Ent} {e : Ent} (h : fl.addAssoc = false) : Chosen env fl es e ↔ e ∈ es := by
  unfold Chosen
  simp only [h, Bool.false_eq_true, false_implies, and_true]
  exact List.mem_iff_append.symm

open Classical in
/-- The parts of an action. -/
theorem act_ok {env : Env} {fl : Flags} {cur : Option Parts} {e : Ent} {new : Parts} (hg : new.Good) (hs : Specified env e new.text)
    (hspec : ∀ x, Specified env e x → ∃ p : Parts, p.Good ∧ x = p.text) :
    (Fails env fl cur e → (actOf env fl.noAssoc cur e).set = none ∧ (actOf env fl.noAssoc cur e).say = []) ∧
    (¬ Fails env fl cur e → fl.nochange = false →
      (cur = some (newLabel fl env.custom cur new) ∧ (actOf env fl.noAssoc cur e).set = none) ∨
        (actOf env fl.noAssoc cur e).set = some (newLabel fl env.custom cur new).text) ∧
    (fl.nochange = true → (actOf env fl.noAssoc cur e).set = none) ∧
    ((actOf env fl.noAssoc cur e).say = if fl.verbose = true ∧ ¬ Fails env fl cur e ∧ cur ≠ some (newLabel fl env.custom cur new) then
      [⟨!fl.nochange, e.path, cur.map Parts.text, (newLabel fl env.custom cur new).text⟩] else []) := by
  have hf := actOf_fail (env := env) (fl := fl.noAssoc) (cur := cur) hspec
  rw [fails_noAssoc] at hf
  have hn : newLabel fl.noAssoc env.custom cur new = newLabel fl env.custom cur new := rfl
  have h1 : fl.noAssoc.nochange = fl.nochange := rfl
  have h2 : fl.noAssoc.verbose = fl.verbose := rfl
  rw [actOf_new hg hs] at hf ⊢
  unfold actNew at hf ⊢
  rw [hn, h1, h2] at hf ⊢
  by_cases c1 : env.canGet e.key = false
  · rw [if_pos c1] at hf ⊢
    have hF : Fails env fl cur e := hf.1 rfl
    simp [hF]
  · rw [if_neg c1] at hf ⊢
    by_cases c2 : cur = some (newLabel fl env.custom cur new)
    · rw [if_pos c2] at hf ⊢
      refine ⟨fun _ => ⟨rfl, rfl⟩, fun _ _ => Or.inl ⟨c2, rfl⟩, fun _ => rfl, ?_⟩
      rw [if_neg (fun h => h.2.2 c2)]
    · rw [if_neg c2] at hf ⊢
      cases hnc : fl.nochange with
      | true =>
        rw [hnc, if_pos rfl] at hf
        rw [if_pos rfl]
        have hF : ¬ Fails env fl cur e := fun h => by simpa using hf.2 h
        refine ⟨fun h => absurd h hF, fun _ h => by simp at h, fun _ => rfl, ?_⟩
        simp [hF, c2]
      | false =>
        rw [hnc, if_neg (by simp)] at hf
        rw [if_neg (by simp)]
        by_cases c3 : env.canSet e.key (newLabel fl env.custom cur new).text = false
        · rw [if_pos c3] at hf ⊢
          have hF : Fails env fl cur e := hf.1 rfl
          simp [hF]
        · rw [if_neg c3] at hf ⊢
          have hF : ¬ Fails env fl cur e := fun h => by simpa using hf.2 h
          refine ⟨fun h => absurd h hF, fun _ _ => Or.inr rfl, fun h => by simp at h, ?_⟩
          simp [hF, c2]

open Classical in
/-- The digests a walk leaves to be written when there is no error. -/
theorem walk_digests {env : Env} {fl : Flags} {w : World} {t : Tree} {s : St} (hac : Acyclic t) (h : walk env fl t { w := w } = some s) (he : s.error = false) :
    ∀ p, (writeDigests s.heads s.w).digest p = (match env.specDigest p with
      | none => w.digest p
      | some d => if fl.setDigest = true ∧ (∃ e, ReachedDir env fl w t e ∧ e.path = p) then some d else w.digest p) ∧
        (writeDigests s.heads s.w).label = s.w.label := by
  have hh := walk_heads (w := w) t hac { w := w } s rfl rfl h he
  have hdig : s.w.digest = w.digest := (walk_keeps hac h).1
  have hall : ∀ x ∈ s.heads, ∃ e, ReachedDir env fl w t e ∧ NewDigest env fl w e x := fun x hx => by
    rcases (hh x).1 hx with h | h
    · simp at h
    · exact h
  obtain ⟨a1, a2, a3⟩ := writeDigests_spec s.heads s.w (by
    intro a ha b hb hab
    obtain ⟨e, -, h1, -, h2, -⟩ := hall a ha
    obtain ⟨e', -, h3, -, h4, -⟩ := hall b hb
    rw [← h1] at h2
    rw [← h3, ← hab, h2] at h4
    exact Option.some.inj h4)
  intro p
  refine ⟨?_, a1⟩
  by_cases hex : ∃ x ∈ s.heads, x.1 = p
  · obtain ⟨x, hx, rfl⟩ := hex
    obtain ⟨e, he1, h1, h2, h3, -⟩ := hall x hx
    rw [a2 x hx, h1, h3]
    simp only
    rw [if_pos ⟨h2, e, he1, rfl⟩]
  · rw [a3 p (fun x hx hxp => hex ⟨x, hx, hxp⟩), hdig]
    cases hs : env.specDigest p with
    | none => rfl
    | some d =>
      simp only
      split
      · rename_i hc
        obtain ⟨hc, e, hr, rfl⟩ := hc
        by_contra hne
        exact hex ⟨(e.path, d), (hh (e.path, d)).2 (Or.inr ⟨e, hr, rfl, hc, hs, hne⟩), rfl⟩
      · rfl

end Verif.Restore
