import Verif.Restore.Lemmas8

/-!
# C103: restoring the labels of files
-/

namespace Verif.Restore
open Verif.Context (Res b)

/-- The digests do not matter for the labels. -/
theorem digest_part {env : Env} {c : Call} {w : World} {t : Tree} {s1 : St} (hr : c.recurse = true) (hx : walk env c.flags t { w := w } = some s1) :
    ∃ s, restorecon env c t w = some s ∧ s.log = s1.log ∧ s.error = s1.error ∧ s.skipped = s1.skipped ∧ s.abort = s1.abort ∧
      s.w = (if (c.flags.setDigest && !c.flags.nochange && !s1.error && decide (s1.skipped = 0)) = true then writeDigests s1.heads s1.w else s1.w) := by
  cases t with
  | node e info kids =>
    unfold restorecon
    simp only
    rw [if_neg (by simp [hr]), hx]
    simp only
    split <;> exact ⟨_, rfl, rfl, rfl, rfl, rfl, rfl⟩

theorem writeDigests_label : ∀ (hs : List (Bytes × Bytes)) (w : World), (writeDigests hs w).label = w.label
  | [], w => rfl
  | h :: hs, w => writeDigests_label hs _

open Classical in
/-- **C103.** Labels are restored: a recursive call ends, and then each file that counts and for which there is a context has the label that the
specification, its old label and the flags say, unless nothing is to be changed or something fails; every other file keeps its label; and
the call reports a failure exactly if there was one. -/
theorem C103_label {env : Env} {c : Call} {w : World} {t : Tree} (hr : c.recurse = true) (hN : Normal env c.flags w t)
    (hA : Apart env c.flags (files env c.flags w t)) :
    ∃ s, restorecon env c t w = some s ∧
      (∀ e cur new, Chosen env c.flags (files env c.flags w t) e → Cur w e.key cur → new.Good → Specified env e new.text →
        s.w.label e.key = if c.fl.nochange = true ∨ Fails env c.flags cur e then w.label e.key else some (newLabel c.fl env.custom cur new).text) ∧
      (∀ k, (∀ e, Chosen env c.flags (files env c.flags w t) e → e.key = k → ¬ HasSpec env e) → s.w.label k = w.label k) ∧
      (s.error = true ↔ c.fl.countErrors = false ∧ ∃ e cur, Chosen env c.flags (files env c.flags w t) e ∧ Cur w e.key cur ∧ Fails env c.flags cur e) ∧
      (0 < s.skipped ↔ c.fl.countErrors = true ∧ ∃ e cur, Chosen env c.flags (files env c.flags w t) e ∧ Cur w e.key cur ∧ Fails env c.flags cur e) := by
  obtain ⟨cur, hcur⟩ : ∃ cur : Nat × Nat → Option Parts, ∀ k, Cur w k (cur k) :=
    ⟨fun k => (exists_cur hN.labels k).choose, fun k => (exists_cur hN.labels k).choose_spec⟩
  obtain ⟨s1, hx, -, h2, h3, -, h5, h6, -⟩ := walk_result hN hA cur hcur
  obtain ⟨s, hs, -, he, hk, -, hw⟩ := digest_part hr hx
  have hlab : s.w.label = s1.w.label := by
    rw [hw]
    split
    · exact writeDigests_label _ _
    · rfl
  have huniq : ∀ k p, Cur w k p → p = cur k := fun k p hp => by
    have h := (hcur k).1
    rw [hp.1] at h
    cases p with
    | none => cases hq : cur k with
      | none => rfl
      | some q => rw [hq] at h; cases h
    | some p => cases hq : cur k with
      | none => rw [hq] at h; cases h
      | some q =>
        rw [hq] at h
        rw [text_inj (hp.2 p rfl) ((hcur k).2 q hq) (Option.some.inj h)]
  have hfail : (∃ e ∈ chosen env c.flags (files env c.flags w t), (actOf env c.flags.noAssoc (cur e.key) e).fail = true) ↔
      ∃ e cur, Chosen env c.flags (files env c.flags w t) e ∧ Cur w e.key cur ∧ Fails env c.flags cur e := by
    constructor
    · rintro ⟨e, he, hf⟩
      rw [actOf_fail (fun x hx => hN.specs e x hx), fails_noAssoc] at hf
      exact ⟨e, cur e.key, mem_chosen.1 he, hcur _, hf⟩
    · rintro ⟨e, p, he, hp, hf⟩
      refine ⟨e, mem_chosen.2 he, ?_⟩
      rw [actOf_fail (fun x hx => hN.specs e x hx), fails_noAssoc, ← huniq _ _ hp]
      exact hf
  refine ⟨s, hs, ?_, ?_, ?_, ?_⟩
  · intro e p new he hp hg hsp
    rw [hlab, h2 e (mem_chosen.2 he) ⟨_, hsp⟩, huniq _ _ hp]
    obtain ⟨a1, a2, a3, -⟩ := act_ok (fl := c.flags) (cur := cur e.key) hg hsp (fun x hx => hN.specs e x hx)
    by_cases hf : Fails env c.flags (cur e.key) e
    · rw [(a1 hf).1, if_pos (Or.inr hf)]
    · cases hn : c.fl.nochange with
      | true => rw [a3 hn, if_pos (Or.inl rfl)]
      | false =>
        rw [if_neg (by rintro (h | h); cases h; exact hf h)]
        rcases a2 hf hn with ⟨h1, h2⟩ | h
        · rw [h2]
          simp only
          rw [(hcur e.key).1, h1]
          show some (newLabel c.flags env.custom (cur e.key) new).text = _
          rw [← h1]
          rfl
        · rw [h]; rfl
  · intro k hk
    rw [hlab]
    refine h3 k fun e he hek => ?_
    exact (actOf_none (hk e (mem_chosen.1 he) hek)).1
  · rw [he, h5, hfail]; rfl
  · rw [hk, h6, hfail]; rfl

/-- **C103.** The files that count: they are among the reached ones, and without the table of inodes they are all of them. -/
theorem C103_reached {env : Env} {fl : Flags} {w : World} {t : Tree} {e : Ent} :
    (Chosen env fl (files env fl w t) e → Reached env fl w t e) ∧
      (fl.addAssoc = false → (Chosen env fl (files env fl w t) e ↔ Reached env fl w t e)) ∧
      (Reached env fl w t e → ¬ HasSpec env e → Chosen env fl (files env fl w t) e) := by
  refine ⟨fun h => (mem_files t).1 (chosen_subset (mem_chosen.2 h)), fun h => (reached_iff_chosen h).trans (mem_files t), fun h hn => ?_⟩
  obtain ⟨pre, post, hp⟩ := List.mem_iff_append.1 ((mem_files t).2 h)
  exact ⟨pre, post, hp, fun _ hs => absurd hs hn⟩

/-- **C103.** Of the names of a file that have contexts one counts, whichever names there are. -/
theorem C103_some_name {env : Env} {fl : Flags} {w : World} {t : Tree} {e : Ent} (h : Reached env fl w t e) (hs : HasSpec env e) :
    ∃ e', Chosen env fl (files env fl w t) e' ∧ HasSpec env e' ∧ e'.ino = e.ino := by
  classical
  have key : ∀ (es : List Ent), e ∈ es → ∃ e', Chosen env fl es e' ∧ HasSpec env e' ∧ e'.ino = e.ino := by
    intro es
    induction es with
    | nil => intro h; cases h
    | cons a es ih =>
      intro hm
      by_cases ha : HasSpec env a ∧ a.ino = e.ino
      · exact ⟨a, ⟨[], es, rfl, by simp⟩, ha⟩
      · have : e ∈ es := by
          rcases List.mem_cons.1 hm with rfl | h
          · exact absurd ⟨hs, rfl⟩ ha
          · exact h
        obtain ⟨e', ⟨pre, post, h1, h2⟩, h3, h4⟩ := ih this
        refine ⟨e', ⟨a :: pre, post, by rw [h1]; rfl, fun hf hse x hx hxs => ?_⟩, h3, h4⟩
        rcases List.mem_cons.1 hx with rfl | hx
        · intro hxe; exact ha ⟨hxs, hxe.trans h4⟩
        · exact h2 hf hse x hx hxs
  exact key _ ((mem_files t).2 h)

/-- **C103.** With the option that says so nothing is changed, whatever the files and their labels are. -/
theorem C103_nochange {env : Env} {c : Call} {w : World} {t : Tree} {s : St} (hn : c.fl.nochange = true) (h : restorecon env c t w = some s) : s.w = w := by
  cases t with
  | node e info kids =>
    unfold restorecon at h
    simp only at h
    split at h
    · split at h
      · cases h; rfl
      · cases hs : restoreconSb env c.fl e { w := w } with
        | none => rw [hs] at h; cases h
        | some r =>
          rw [hs] at h
          have := sb_nochange hn r hs
          obtain ⟨b, s1⟩ := r
          cases h
          exact this
    · cases hx : walk env c.flags (.node e info kids) { w := w } with
      | none => rw [hx] at h; cases h
      | some s1 =>
        rw [hx] at h
        have h1 := walk_nochange (fl := c.flags) hn _ _ _ hx
        have h2 : c.flags.nochange = true := hn
        simp only [h2, Bool.not_true, Bool.and_false, Bool.false_and, Bool.false_eq_true, if_false] at h
        cases h
        exact h1

open Classical in
/-- **C103.** Messages: with the option for it there is one for each file whose label is to change and does not fail, in the order of the walk, with the
old and the new label; there are no others. -/
theorem C103_messages {env : Env} {c : Call} {w : World} {t : Tree} (hr : c.recurse = true) (hN : Normal env c.flags w t)
    (hA : Apart env c.flags (files env c.flags w t)) :
    ∃ s, restorecon env c t w = some s ∧ (c.fl.verbose = false → s.log = []) ∧
      (∀ m, m ∈ s.log ↔ c.fl.verbose = true ∧ ∃ e cur new, Chosen env c.flags (files env c.flags w t) e ∧ Cur w e.key cur ∧ Parts.Good new ∧
        Specified env e new.text ∧ ¬ Fails env c.flags cur e ∧ cur ≠ some (newLabel c.fl env.custom cur new) ∧
        m = ⟨!c.fl.nochange, e.path, cur.map Parts.text, (newLabel c.fl env.custom cur new).text⟩) := by
  obtain ⟨cur, hcur⟩ : ∃ cur : Nat × Nat → Option Parts, ∀ k, Cur w k (cur k) :=
    ⟨fun k => (exists_cur hN.labels k).choose, fun k => (exists_cur hN.labels k).choose_spec⟩
  obtain ⟨s1, hx, -, -, -, h4, -, -, -⟩ := walk_result hN hA cur hcur
  obtain ⟨s, hs, hl, -⟩ := digest_part hr hx
  have huniq : ∀ k p, Cur w k p → p = cur k := fun k p hp => by
    have h := (hcur k).1
    rw [hp.1] at h
    cases p with
    | none => cases hq : cur k with
      | none => rfl
      | some q => rw [hq] at h; cases h
    | some p => cases hq : cur k with
      | none => rw [hq] at h; cases h
      | some q =>
        rw [hq] at h
        rw [text_inj (hp.2 p rfl) ((hcur k).2 q hq) (Option.some.inj h)]
  have hmem : ∀ m, m ∈ s.log ↔ c.fl.verbose = true ∧ ∃ e cur new, Chosen env c.flags (files env c.flags w t) e ∧ Cur w e.key cur ∧ Parts.Good new ∧
        Specified env e new.text ∧ ¬ Fails env c.flags cur e ∧ cur ≠ some (newLabel c.fl env.custom cur new) ∧
        m = ⟨!c.fl.nochange, e.path, cur.map Parts.text, (newLabel c.fl env.custom cur new).text⟩ := by
    intro m
    rw [hl, h4, List.mem_flatMap]
    constructor
    · rintro ⟨e, he, hm⟩
      by_cases hsp : HasSpec env e
      · obtain ⟨x, hx⟩ := hsp
        obtain ⟨new, hg, rfl⟩ := hN.specs e x hx
        obtain ⟨-, -, -, a4⟩ := act_ok (fl := c.flags) (cur := cur e.key) hg hx (fun x hx => hN.specs e x hx)
        rw [a4] at hm
        split at hm
        · rename_i hcond
          exact ⟨hcond.1, e, cur e.key, new, mem_chosen.1 he, hcur _, hg, hx, hcond.2.1, hcond.2.2, List.mem_singleton.1 hm⟩
        · cases hm
      · rw [(actOf_none hsp).2.1] at hm
        cases hm
    · rintro ⟨hv, e, p, new, he, hp, hg, hsp, hf, hne, rfl⟩
      refine ⟨e, mem_chosen.2 he, ?_⟩
      have := huniq _ _ hp
      subst this
      obtain ⟨-, -, -, a4⟩ := act_ok (fl := c.flags) (cur := cur e.key) hg hsp (fun x hx => hN.specs e x hx)
      rw [a4, if_pos ⟨hv, hf, hne⟩]
      exact List.mem_singleton.2 rfl
  refine ⟨s, hs, fun hv => ?_, hmem⟩
  cases hlog : s.log with
  | nil => rfl
  | cons m l =>
    have := (hmem m).1 (by rw [hlog]; simp)
    rw [hv] at this
    cases this.1

end Verif.Restore
