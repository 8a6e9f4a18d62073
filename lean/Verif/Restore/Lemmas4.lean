import Verif.Restore.Lemmas3

/-! # Lemmas: digests and hard links -/

namespace Verif.Restore
open Verif.Context (Res)

/-! ## Digests -/

theorem norm_some {o : Option St} {s : St} (h : o = some s) : norm o = some (s.put []) := by rw [h]; rfl

theorem walk_run {env : Env} {fl : Flags} {w : World} {t : Tree} {s s' : St} (hac : Acyclic t) (hw : s.w.digest = w.digest) (h : walk env fl t s = some s') :
    ∃ s1, runAll env fl (files env fl w t) s = some s1 ∧ s'.put [] = s1.put [] := by
  have := walk_files (env := env) (fl := fl) (w := w) t hac s hw
  rw [norm_some h] at this
  cases hr : runAll env fl (files env fl w t) s with
  | none => rw [hr] at this; cases this
  | some s1 => rw [hr] at this; exact ⟨s1, rfl, Option.some.inj this⟩

theorem walk_keeps {env : Env} {fl : Flags} {t : Tree} {s s' : St} (hac : Acyclic t) (h : walk env fl t s = some s') :
    s'.w.digest = s.w.digest ∧ (s.error = true → s'.error = true) ∧ (s'.abort = true → s.abort = true ∨ s'.error = true) := by
  obtain ⟨s1, h1, h2⟩ := walk_run (w := s.w) hac rfl h
  obtain ⟨a, -, b, -, c⟩ := runAll_keeps h1
  have e1 : s'.w = s1.w := by have := congrArg St.w h2; exact this
  have e2 : s'.error = s1.error := by have := congrArg St.error h2; exact this
  have e3 : s'.abort = s1.abort := by have := congrArg St.abort h2; exact this
  rw [e1, e2, e3]
  exact ⟨a, b, c⟩

theorem walks_keeps {env : Env} {fl : Flags} : ∀ {ts : List Tree} {s s' : St}, (∀ t ∈ ts, Acyclic t) → walks env fl ts s = some s' →
    s'.w.digest = s.w.digest ∧ (s.error = true → s'.error = true) ∧ (s'.abort = true → s.abort = true ∨ s'.error = true)
  | [], s, s', _, h => by cases h; exact ⟨rfl, id, Or.inl⟩
  | t :: ts, s, s', hac, h => by
    rw [walks] at h
    cases hx : walk env fl t s with
    | none => rw [hx] at h; cases h
    | some s1 =>
      rw [hx] at h
      obtain ⟨a1, a2, a3⟩ := walk_keeps (hac t (by simp)) hx
      obtain ⟨b1, b2, b3⟩ := walks_keeps (s := s1) (fun t ht => hac t (List.mem_cons_of_mem _ ht)) h
      exact ⟨b1.trans a1, fun x => b2 (a2 x), fun x => (b3 x).elim (fun y => (a3 y).imp id b2) Or.inr⟩

/-- A digest to be written for a directory. -/
def NewDigest (env : Env) (fl : Flags) (w : World) (e : Ent) (h : Bytes × Bytes) : Prop :=
  h.1 = e.path ∧ fl.setDigest = true ∧ env.specDigest e.path = some h.2 ∧ w.digest e.path ≠ some h.2

theorem digestStep_heads {env : Env} {fl : Flags} {w : World} {e : Ent} {s : St} (hw : s.w.digest = w.digest) (he : s.error = false)
    (hskip : (digestStep env fl e.path s).1 = false) (h : Bytes × Bytes) :
    h ∈ (digestStep env fl e.path s).2.heads ↔ h ∈ s.heads ∨ NewDigest env fl w e h := by
  unfold NewDigest
  unfold digestStep at hskip ⊢
  rw [hw] at hskip ⊢
  cases hd : fl.setDigest with
  | false => simp
  | true =>
    rw [hd, if_neg (by simp)] at hskip
    rw [if_neg (by simp)]
    simp only at hskip ⊢
    by_cases hc : (decide (env.specDigest e.path ≠ none ∧ w.digest e.path = env.specDigest e.path) && !fl.ignoreDigest) = true
    · rw [if_pos hc] at hskip; cases hskip
    · rw [if_neg hc]
      cases hs : env.specDigest e.path with
      | none => simp
      | some d =>
        simp only [he, Bool.or_false]
        by_cases hsame : w.digest e.path = some d
        · simp [hsame]
        · simp only [hsame, and_false, decide_false, Bool.false_eq_true, if_false, List.mem_append, List.mem_singleton]
          constructor
          · rintro (h | rfl)
            · exact Or.inl h
            · exact Or.inr ⟨rfl, trivial, rfl, hsame⟩
          · rintro (h | ⟨h1, -, h2, -⟩)
            · exact Or.inl h
            · right
              cases h
              simp only at h1
              subst h1
              simp only [Option.some.injEq] at h2
              rw [h2]

mutual
theorem walk_heads {env : Env} {fl : Flags} {w : World} : ∀ (t : Tree), Acyclic t → ∀ (s s' : St), s.w.digest = w.digest → s.abort = false →
    walk env fl t s = some s' → s'.error = false →
    ∀ h, h ∈ s'.heads ↔ h ∈ s.heads ∨ ∃ e, ReachedDir env fl w t e ∧ NewDigest env fl w e h
  | .node e info kids, hac, s, s', hw, ha, hwalk, herr, h => by
    have hmono := walk_keeps hac hwalk
    have hse : s.error = false := by
      cases hs : s.error with
      | false => rfl
      | true => rw [hmono.2.1 hs] at herr; cases herr
    have hac' := hac
    cases hac' with
    | node _ _ _ hi hk =>
    rw [walk.eq_def] at hwalk
    simp only at hwalk
    rw [if_neg (by simp [ha])] at hwalk
    have hleaf : s'.heads = s.heads → (∀ e', ¬ ReachedDir env fl w (.node e info kids) e') →
        (h ∈ s'.heads ↔ h ∈ s.heads ∨ ∃ e', ReachedDir env fl w (.node e info kids) e' ∧ NewDigest env fl w e' h) := fun h1 h2 => by
      rw [h1]
      exact ⟨Or.inl, fun x => x.elim id fun ⟨e', he', _⟩ => absurd he' (h2 e')⟩
    have hnot : ¬ Entered env fl w e → ∀ e', ¬ ReachedDir env fl w (.node e info kids) e' := fun hn e' hr => by
      cases hr with
      | here _ _ _ _ hent => exact hn hent
      | inside _ _ _ _ hent => exact hn hent
    by_cases hd : (fl.xdev && decide (e.dev ≠ fl.devNum)) = true
    · rw [if_pos hd] at hwalk
      cases hwalk
      refine hleaf rfl (hnot fun hent => ?_)
      have := hent.1
      unfold OnDevice at this
      simp only [Bool.and_eq_true, decide_eq_true_eq] at hd
      exact hd.2 (this hd.1)
    · rw [if_neg hd] at hwalk
      have hdev : OnDevice fl e := by
        intro hx
        by_contra hne
        exact hd (by simp [hx, hne])
      have hdir : info = .dir ∨ info = .unreadable → (if (fl.sysfs && !env.partialMatch e.path) = true then some s
          else if checkExcluded env.excl e.path = true then some s
          else
            let d := digestStep env fl e.path s
            if d.1 = true then some d.2
            else match entry env fl e d.2 with
              | none => none
              | some s => if info = .dir then walks env fl kids s else some s) = some s' →
          (h ∈ s'.heads ↔ h ∈ s.heads ∨ ∃ e', ReachedDir env fl w (.node e info kids) e' ∧ NewDigest env fl w e' h) := by
        intro hinfo hwalk
        obtain ⟨ds1, hh, ds2⟩ := digestStep_spec env fl w e.path s hw
        simp only at hwalk
        by_cases c1 : (fl.sysfs && !env.partialMatch e.path) = true
        · rw [if_pos c1] at hwalk
          cases hwalk
          refine hleaf rfl (hnot fun hent => ?_)
          simp only [Bool.and_eq_true, Bool.not_eq_true'] at c1
          rw [hent.2.1 c1.1] at c1
          simp at c1
        · rw [if_neg c1] at hwalk
          by_cases c2 : checkExcluded env.excl e.path = true
          · rw [if_pos c2] at hwalk
            cases hwalk
            exact hleaf rfl (hnot fun hent => hent.2.2.1 ((checkExcluded_iff _ _).1 c2))
          · rw [if_neg c2] at hwalk
            by_cases c3 : (digestStep env fl e.path s).1 = true
            · rw [if_pos c3] at hwalk
              cases hwalk
              refine hleaf ?_ (hnot fun hent => hent.2.2.2 (ds1.1 c3))
              unfold digestStep at c3 ⊢
              split
              · rfl
              · rename_i hsd
                simp only at c3 ⊢
                rw [if_neg hsd] at c3
                split
                · rfl
                · rename_i hno
                  rw [if_neg hno] at c3
                  split at c3
                  · cases c3
                  · split at c3 <;> cases c3
            · have hent : Entered env fl w e := by
                refine ⟨hdev, fun hs => ?_, fun hx => c2 ((checkExcluded_iff _ _).2 hx), fun hx => c3 (ds1.2 hx)⟩
                cases hp : env.partialMatch e.path with
                | true => rfl
                | false => simp [hs, hp] at c1
              rw [if_neg c3] at hwalk
              have hds := digestStep_heads (env := env) (fl := fl) (w := w) hw hse (by simpa using c3) h
              cases hen : entry env fl e (digestStep env fl e.path s).2 with
              | none => rw [hen] at hwalk; cases hwalk
              | some s1 =>
                rw [hen] at hwalk
                obtain ⟨k1, k2, k3, -, k5⟩ := entry_keeps hen
                simp only at hwalk
                by_cases hdd : info = .dir
                · subst hdd
                  rw [if_pos rfl] at hwalk
                  have hm := walks_keeps hk hwalk
                  have hs1 : s1.error = false := by
                    cases hs : s1.error with
                    | false => rfl
                    | true => rw [hm.2.1 hs] at herr; cases herr
                  have hab1 : s1.abort = false := by
                    cases hs : s1.abort with
                    | false => rfl
                    | true =>
                      rcases k5 hs with h | h
                      · rw [ds2] at h; exact absurd (h.symm.trans ha) (by simp)
                      · rw [h] at hs1; cases hs1
                  rw [walks_heads (w := w) kids hk s1 s' (by rw [k1, ds2]; exact hw) hab1 hwalk herr h, k2, hds]
                  constructor
                  · rintro ((h1 | h1) | ⟨k, hkk, e', h1, h2⟩)
                    · exact Or.inl h1
                    · exact Or.inr ⟨e, .here _ _ _ (Or.inl rfl) hent, h1⟩
                    · exact Or.inr ⟨e', .inside _ _ k _ hent hkk h1, h2⟩
                  · rintro (h1 | ⟨e', h1, h2⟩)
                    · exact Or.inl (Or.inl h1)
                    · cases h1 with
                      | here => exact Or.inl (Or.inr h2)
                      | inside _ _ k _ _ hkk hr => exact Or.inr ⟨k, hkk, e', hr, h2⟩
                · rw [if_neg hdd] at hwalk
                  cases hwalk
                  rw [k2, hds]
                  constructor
                  · rintro (h1 | h1)
                    · exact Or.inl h1
                    · exact Or.inr ⟨e, .here _ _ _ hinfo hent, h1⟩
                  · rintro (h1 | ⟨e', h1, h2⟩)
                    · exact Or.inl h1
                    · cases h1 with
                      | here => exact Or.inr h2
                      | inside => exact absurd rfl hdd
      cases info with
      | cycle => exact absurd rfl hi
      | nostat =>
        cases hwalk
        refine hleaf rfl fun e' hr => ?_
        cases hr with
        | here _ _ _ h => simp at h
      | other =>
        refine hleaf (entry_keeps hwalk).2.1 fun e' hr => ?_
        cases hr with
        | here _ _ _ h => simp at h
      | dir => exact hdir (Or.inl rfl) hwalk
      | unreadable => exact hdir (Or.inr rfl) hwalk
theorem walks_heads {env : Env} {fl : Flags} {w : World} : ∀ (ts : List Tree), (∀ t ∈ ts, Acyclic t) → ∀ (s s' : St), s.w.digest = w.digest →
    s.abort = false → walks env fl ts s = some s' → s'.error = false →
    ∀ h, h ∈ s'.heads ↔ h ∈ s.heads ∨ ∃ k ∈ ts, ∃ e, ReachedDir env fl w k e ∧ NewDigest env fl w e h
  | [], _, s, s', _, _, hwalk, _, h => by cases hwalk; simp
  | t :: ts, hac, s, s', hw, ha, hwalk, herr, h => by
    rw [walks] at hwalk
    cases hx : walk env fl t s with
    | none => rw [hx] at hwalk; cases hwalk
    | some s1 =>
      rw [hx] at hwalk
      simp only at hwalk
      obtain ⟨a1, a2, a3⟩ := walk_keeps (hac t (by simp)) hx
      have hac' : ∀ t ∈ ts, Acyclic t := fun t ht => hac t (List.mem_cons_of_mem _ ht)
      have hm := walks_keeps hac' hwalk
      have hs1 : s1.error = false := by
        cases hs : s1.error with
        | false => rfl
        | true => rw [hm.2.1 hs] at herr; cases herr
      have hab1 : s1.abort = false := by
        cases hs : s1.abort with
        | false => rfl
        | true =>
          rcases a3 hs with h | h
          · exact absurd (h.symm.trans ha) (by simp)
          · rw [h] at hs1; cases hs1
      rw [walks_heads ts hac' s1 s' (a1.trans hw) hab1 hwalk herr h, walk_heads t (hac t (by simp)) s s1 hw ha hx hs1 h]
      simp only [List.mem_cons, exists_eq_or_imp]
      exact or_assoc
end

theorem writeDigests_spec : ∀ (hs : List (Bytes × Bytes)) (w : World), (∀ a ∈ hs, ∀ b ∈ hs, a.1 = b.1 → a.2 = b.2) →
    (writeDigests hs w).label = w.label ∧ (∀ h ∈ hs, (writeDigests hs w).digest h.1 = some h.2) ∧
      (∀ p, (∀ h ∈ hs, h.1 ≠ p) → (writeDigests hs w).digest p = w.digest p)
  | [], w, _ => ⟨rfl, by simp, fun _ _ => rfl⟩
  | h :: hs, w, hu => by
    obtain ⟨a1, a2, a3⟩ := writeDigests_spec hs { w with digest := fun p => if p = h.1 then some h.2 else w.digest p }
      (fun a ha b hb => hu a (List.mem_cons_of_mem _ ha) b (List.mem_cons_of_mem _ hb))
    refine ⟨a1, fun x hx => ?_, fun p hp => ?_⟩
    · show (writeDigests hs _).digest x.1 = _
      by_cases hex : ∃ y ∈ hs, y.1 = x.1
      · obtain ⟨y, hy, hyx⟩ := hex
        rw [← hyx, a2 y hy, hu y (List.mem_cons_of_mem _ hy) x hx hyx]
      · rcases List.mem_cons.1 hx with rfl | hx
        · rw [a3 x.1 (fun y hy he => hex ⟨y, hy, he⟩)]
          simp
        · exact absurd ⟨x, hx, rfl⟩ hex
    · show (writeDigests hs _).digest p = _
      rw [a3 p (fun y hy => hp y (List.mem_cons_of_mem _ hy))]
      have := hp h (by simp)
      simp [Ne.symm this]

end Verif.Restore
