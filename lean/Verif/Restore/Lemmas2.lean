import Verif.Restore.Lemmas

/-! # Lemmas: the walk labels the files of a list -/

namespace Verif.Restore
open Verif.Context (Res)

/-! ## Excluded directories -/

theorem checkExcluded_iff (l : List Edir) (path : Bytes) : checkExcluded l path = true ↔ Excluded l path := by
  unfold checkExcluded Excluded
  rw [List.any_eq_true]
  constructor
  · rintro ⟨x, hx, h⟩
    simp only [Bool.and_eq_true, Bool.or_eq_true, decide_eq_true_eq] at h
    obtain ⟨h1, h2⟩ := h
    have hsplit := (List.take_append_drop x.dir.length path).symm
    rw [h1] at hsplit
    refine ⟨x, hx, ?_⟩
    rcases h2 with h2 | h2
    · left
      rw [List.drop_eq_nil_of_le (by omega), List.append_nil] at hsplit
      exact hsplit
    · right
      obtain ⟨hlt, he⟩ := List.getElem?_eq_some_iff.1 h2
      rw [List.drop_eq_getElem_cons hlt, he] at hsplit
      exact ⟨_, hsplit⟩
  · rintro ⟨x, hx, h | ⟨rest, h⟩⟩
    · refine ⟨x, hx, ?_⟩
      subst h
      simp
    · refine ⟨x, hx, ?_⟩
      subst h
      simp

/-! ## The files -/

mutual
theorem mem_files {env : Env} {fl : Flags} {w : World} {e : Ent} : ∀ (t : Tree), e ∈ files env fl w t ↔ Reached env fl w t e
  | .node r info kids => by
    have ih := mem_filess (env := env) (fl := fl) (w := w) (e := e) kids
    rw [files]
    constructor
    · intro h
      by_cases hd : OnDevice fl r
      · rw [if_neg (not_not.2 hd)] at h
        by_cases hi : info = .other
        · rw [if_pos hi, List.mem_singleton] at h
          subst hi
          subst h
          exact .file _ _ hd
        · rw [if_neg hi] at h
          by_cases hi : (info = .dir ∨ info = .unreadable) ∧ Entered env fl w r
          · rw [if_pos hi] at h
            rcases List.mem_cons.1 h with hm | hm
            · rw [hm]
              exact .dir _ _ _ hi.1 hi.2
            · by_cases hdir : info = .dir
              · rw [if_pos hdir, ih] at hm
                obtain ⟨k, hk, he⟩ := hm
                rw [hdir]
                exact .inside _ _ k e hi.2 hk he
              · rw [if_neg hdir] at hm; simp at hm
          · rw [if_neg hi] at h; simp at h
      · rw [if_pos hd] at h; simp at h
    · intro h
      cases h with
      | file _ _ hd => simp [hd]
      | dir _ _ _ hi he =>
        rw [if_neg (not_not.2 he.1), if_neg (by rcases hi with rfl | rfl <;> simp), if_pos ⟨hi, he⟩]
        simp
      | inside _ _ k _ hent hk hr =>
        rw [if_neg (not_not.2 hent.1), if_neg (by simp), if_pos ⟨Or.inl rfl, hent⟩, if_pos rfl]
        exact List.mem_cons_of_mem _ (ih.2 ⟨k, hk, hr⟩)
theorem mem_filess {env : Env} {fl : Flags} {w : World} {e : Ent} : ∀ (ts : List Tree), e ∈ filess env fl w ts ↔ ∃ k ∈ ts, Reached env fl w k e
  | [] => by simp [filess]
  | t :: ts => by
    rw [filess, List.mem_append, mem_files t, mem_filess ts]
    simp
end

/-! ## The walk as a run over a list -/

/-- The files of a list are labelled one after the other. -/
def runAll (env : Env) (fl : Flags) : List Ent → St → Option St
  | [], s => some s
  | e :: es, s => if s.abort then some s else match entry env fl e s with
    | none => none
    | some s => runAll env fl es s

theorem runAll_abort {env : Env} {fl : Flags} {es : List Ent} {s : St} (h : s.abort = true) : runAll env fl es s = some s := by
  cases es <;> simp [runAll, h]

theorem runAll_append {env : Env} {fl : Flags} : ∀ (es es' : List Ent) (s : St),
    runAll env fl (es ++ es') s = (runAll env fl es s).bind (runAll env fl es')
  | [], es', s => rfl
  | e :: es, es', s => by
    rw [List.cons_append, runAll, runAll]
    by_cases h : s.abort = true
    · rw [if_pos h, if_pos h]
      exact (runAll_abort h).symm
    · rw [if_neg h, if_neg h]
      cases entry env fl e s with
      | none => rfl
      | some s' => exact runAll_append es es' s'

/-- The list of digests to be written is set. -/
def St.put (s : St) (h : List (Bytes × Bytes)) : St := { s with heads := h }

theorem tell_put (s : St) (fl : Flags) (e : Ent) (o : Option Bytes) (c : Bytes) (h : List (Bytes × Bytes)) :
    (s.put h).tell fl e o c = (s.tell fl e o c).put h := by
  unfold St.tell St.put
  split <;> rfl

theorem relabel_put (env : Env) (fl : Flags) (e : Ent) (new : Bytes) (s : St) (h : List (Bytes × Bytes)) :
    relabel env fl e new (s.put h) = (relabel env fl e new s).map fun r => (r.1, r.2.put h) := by
  unfold relabel
  have hl : (s.put h).w = s.w := rfl
  rw [hl]
  split
  · rfl
  · cases decision env fl (s.w.label e.key) new with
    | ub => rfl
    | err => rfl
    | ok o =>
      cases o with
      | none => rfl
      | some c =>
        simp only
        split
        · rw [tell_put]; rfl
        · cases env.toRaw c with
          | none => rfl
          | some raw =>
            simp only
            split
            · rfl
            · exact congrArg some (congrArg (Prod.mk false) (tell_put { s with w := s.w.setLabel e.key raw } fl e (s.w.label e.key) c h))

theorem sb_put (env : Env) (fl : Flags) (e : Ent) (s : St) (h : List (Bytes × Bytes)) :
    restoreconSb env fl e (s.put h) = (restoreconSb env fl e s).map fun r => (r.1, r.2.put h) := by
  unfold restoreconSb
  cases lookupPath env.root e.path with
  | none => rfl
  | some p =>
    simp only
    cases env.lookup p e.mode with
    | error => rfl
    | noMatch => rfl
    | found new =>
      simp only
      split
      · have : (s.put h).assoc = s.assoc := rfl
        rw [this]
        cases (filespecAdd env fl e new s.assoc).1 with
        | failed => rfl
        | present => rfl
        | added => exact relabel_put env fl e new { s with assoc := (filespecAdd env fl e new s.assoc).2 } h
      · exact relabel_put env fl e new s h

theorem entry_put (env : Env) (fl : Flags) (e : Ent) (s : St) (h : List (Bytes × Bytes)) :
    entry env fl e (s.put h) = (entry env fl e s).map (·.put h) := by
  unfold entry
  split
  · rfl
  · rw [sb_put]
    cases restoreconSb env fl e s with
    | none => rfl
    | some r =>
      obtain ⟨b, s'⟩ := r
      cases b with
      | false => rfl
      | true =>
        simp only [Option.map_some]
        split
        · rfl
        · split <;> rfl

theorem runAll_put (env : Env) (fl : Flags) (h : List (Bytes × Bytes)) : ∀ (es : List Ent) (s : St),
    runAll env fl es (s.put h) = (runAll env fl es s).map (·.put h)
  | [], s => rfl
  | e :: es, s => by
    have ha : (s.put h).abort = s.abort := rfl
    rw [runAll, runAll, ha, entry_put]
    split
    · rfl
    · cases entry env fl e s with
      | none => rfl
      | some s' => exact runAll_put env fl h es s'

theorem tell_digest (s : St) (fl : Flags) (e : Ent) (o : Option Bytes) (c : Bytes) : (s.tell fl e o c).w = s.w ∧ (s.tell fl e o c).heads = s.heads ∧
    (s.tell fl e o c).assoc = s.assoc ∧ (s.tell fl e o c).error = s.error ∧ (s.tell fl e o c).skipped = s.skipped ∧ (s.tell fl e o c).abort = s.abort := by
  unfold St.tell
  split <;> simp

/-- What labelling one file never changes. -/
theorem relabel_keeps {env : Env} {fl : Flags} {e : Ent} {new : Bytes} {s s' : St} {b : Bool} (h : relabel env fl e new s = some (b, s')) :
    s'.w.digest = s.w.digest ∧ s'.heads = s.heads ∧ s'.error = s.error ∧ s'.skipped = s.skipped ∧ s'.abort = s.abort ∧ s'.assoc = s.assoc := by
  unfold relabel at h
  split at h
  · cases h; simp
  · revert h
    cases decision env fl (s.w.label e.key) new with
    | ub => intro h; cases h
    | err => intro h; cases h; simp
    | ok o =>
      cases o with
      | none => intro h; cases h; simp
      | some c =>
        intro h
        simp only at h
        split at h
        · cases h
          obtain ⟨a, b, c, d, f, g⟩ := tell_digest s fl e (s.w.label e.key) c
          exact ⟨by rw [a], b, d, f, g, c⟩
        · revert h
          cases env.toRaw c with
          | none => intro h; cases h; simp
          | some raw =>
            intro h
            simp only at h
            split at h
            · cases h; simp
            · cases h
              obtain ⟨a, b, c, d, f, g⟩ := tell_digest { s with w := s.w.setLabel e.key raw } fl e (s.w.label e.key) c
              exact ⟨by rw [a]; rfl, b, d, f, g, c⟩

theorem sb_keeps {env : Env} {fl : Flags} {e : Ent} {s s' : St} {b : Bool} (h : restoreconSb env fl e s = some (b, s')) :
    s'.w.digest = s.w.digest ∧ s'.heads = s.heads ∧ s'.error = s.error ∧ s'.skipped = s.skipped ∧ s'.abort = s.abort := by
  unfold restoreconSb at h
  revert h
  cases lookupPath env.root e.path with
  | none => intro h; cases h; simp
  | some p =>
    simp only
    cases env.lookup p e.mode with
    | error => intro h; cases h; simp
    | noMatch => intro h; cases h; simp
    | found new =>
      intro h
      simp only at h
      split at h
      · revert h
        cases hr : (filespecAdd env fl e new s.assoc).1 with
        | failed => intro h; cases h; simp
        | present => intro h; cases h; simp
        | added =>
          intro h
          obtain ⟨a, b, c, d, f, -⟩ := relabel_keeps h
          exact ⟨a, b, c, d, f⟩
      · obtain ⟨a, b, c, d, f, -⟩ := relabel_keeps h
        exact ⟨a, b, c, d, f⟩

theorem entry_keeps {env : Env} {fl : Flags} {e : Ent} {s s' : St} (h : entry env fl e s = some s') :
    s'.w.digest = s.w.digest ∧ s'.heads = s.heads ∧ (s.error = true → s'.error = true) ∧ s.skipped ≤ s'.skipped ∧
      (s'.abort = true → s.abort = true ∨ s'.error = true) := by
  unfold entry at h
  split at h
  · cases h; simp
  · revert h
    cases hsb : restoreconSb env fl e s with
    | none => intro h; cases h
    | some r =>
      obtain ⟨b, s1⟩ := r
      obtain ⟨k1, k2, k3, k4, k5⟩ := sb_keeps hsb
      cases b with
      | false =>
        intro h; cases h
        exact ⟨k1, k2, by rw [k3]; exact id, by omega, by rw [k5]; exact Or.inl⟩
      | true =>
        intro h
        simp only at h
        split at h
        · cases h; exact ⟨k1, k2, by simp, by simp [k4], by simp⟩
        · split at h
          · cases h; exact ⟨k1, k2, by simp [k3], by simp [k4], by simp only [k5]; exact Or.inl⟩
          · cases h; exact ⟨k1, k2, by simp, by simp [k4], by simp⟩

theorem runAll_keeps {env : Env} {fl : Flags} : ∀ {es : List Ent} {s s' : St}, runAll env fl es s = some s' →
    s'.w.digest = s.w.digest ∧ s'.heads = s.heads ∧ (s.error = true → s'.error = true) ∧ s.skipped ≤ s'.skipped ∧
      (s'.abort = true → s.abort = true ∨ s'.error = true)
  | [], s, s', h => by cases h; exact ⟨rfl, rfl, id, Nat.le_refl _, Or.inl⟩
  | e :: es, s, s', h => by
    rw [runAll] at h
    split at h
    · cases h; exact ⟨rfl, rfl, id, Nat.le_refl _, Or.inl⟩
    · revert h
      cases he : entry env fl e s with
      | none => intro h; cases h
      | some s1 =>
        intro h
        obtain ⟨a1, a2, a3, a4, a5⟩ := entry_keeps he
        obtain ⟨b1, b2, b3, b4, b5⟩ := runAll_keeps (s := s1) h
        exact ⟨b1.trans a1, b2.trans a2, fun x => b3 (a3 x), by omega, fun x => (b5 x).elim (fun y => (a5 y).imp id b3) Or.inr⟩

theorem digestStep_spec (env : Env) (fl : Flags) (w : World) (path : Bytes) (s : St) (hw : s.w.digest = w.digest) :
    ((digestStep env fl path s).1 = true ↔ fl.setDigest = true ∧ fl.ignoreDigest = false ∧ UpToDate env w path) ∧
      ∃ h, (digestStep env fl path s).2 = s.put h := by
  have hup : UpToDate env w path ↔ (env.specDigest path ≠ none ∧ w.digest path = env.specDigest path) := by
    unfold UpToDate
    constructor
    · rintro ⟨d, a, b⟩
      exact ⟨by simp [a], by rw [a, b]⟩
    · rintro ⟨a, b⟩
      obtain ⟨d, hd⟩ := Option.ne_none_iff_exists'.1 a
      exact ⟨d, hd, by rw [b, hd]⟩
  unfold digestStep
  rw [hw]
  cases hd : fl.setDigest with
  | false => rw [if_pos rfl]; exact ⟨by simp, s.heads, rfl⟩
  | true =>
    rw [if_neg (by simp)]
    simp only
    by_cases hs : env.specDigest path ≠ none ∧ w.digest path = env.specDigest path
    · have hP := hup.2 hs
      rw [decide_eq_true hs]
      cases hi : fl.ignoreDigest with
      | false => exact ⟨by simp [hP], s.heads, rfl⟩
      | true =>
        rw [if_neg (by simp)]
        cases env.specDigest path <;> exact ⟨by simp, s.heads, rfl⟩
    · have hP : ¬ UpToDate env w path := fun h => hs (hup.1 h)
      rw [decide_eq_false hs, if_neg (by simp)]
      cases env.specDigest path with
      | none => exact ⟨by simp [hP], s.heads, rfl⟩
      | some d =>
        simp only
        split
        · exact ⟨by simp [hP], s.heads, rfl⟩
        · exact ⟨by simp [hP], _, rfl⟩

/-- The list of digests is left aside. -/
def norm (o : Option St) : Option St := o.map (·.put [])

theorem norm_put (o : Option St) (h : List (Bytes × Bytes)) : norm (o.map (·.put h)) = norm o := by
  cases o <;> rfl

theorem norm_runAll {env : Env} {fl : Flags} {es : List Ent} {s s' : St} (h : s.put [] = s'.put []) :
    norm (runAll env fl es s) = norm (runAll env fl es s') := by
  rw [norm, norm, ← runAll_put, ← runAll_put, h]

theorem put_put (s : St) (h h' : List (Bytes × Bytes)) : (s.put h).put h' = s.put h' := rfl

open Classical in
mutual
theorem walk_files {env : Env} {fl : Flags} {w : World} : ∀ (t : Tree), Acyclic t → ∀ (s : St), s.w.digest = w.digest →
    norm (walk env fl t s) = norm (runAll env fl (files env fl w t) s)
  | .node e info kids, hac, s, hw => by
    cases hac with
    | node _ _ _ hi hk =>
    rw [walk.eq_def]
    simp only
    by_cases ha : s.abort = true
    · rw [if_pos ha, runAll_abort ha]
    rw [if_neg ha, files]
    have one : ∀ s : St, norm (entry env fl e s) = norm (if s.abort = true then some s else match entry env fl e s with
        | none => none
        | some s => runAll env fl [] s) ∨ s.abort = true := fun s => by
      by_cases h : s.abort = true
      · exact Or.inr h
      · left; rw [if_neg h]; cases entry env fl e s <;> rfl
    by_cases hd : OnDevice fl e
    · have hd' : (fl.xdev && decide (e.dev ≠ fl.devNum)) = false := by
        unfold OnDevice at hd
        cases hx : fl.xdev with
        | false => rfl
        | true => simp [hd hx]
      rw [hd', if_neg (by simp), if_neg (not_not.2 hd)]
      have hdir : info = .dir ∨ info = .unreadable → norm (if (fl.sysfs && !env.partialMatch e.path) = true then some s
          else if checkExcluded env.excl e.path = true then some s
          else
            let d := digestStep env fl e.path s
            if d.1 = true then some d.2
            else match entry env fl e d.2 with
              | none => none
              | some s => if info = .dir then walks env fl kids s else some s) =
          norm (runAll env fl (if Entered env fl w e then e :: (if info = .dir then filess env fl w kids else []) else []) s) := by
        intro hinfo
        obtain ⟨ds1, h, ds2⟩ := digestStep_spec env fl w e.path s hw
        simp only [ds2]
        by_cases c1 : (fl.sysfs && !env.partialMatch e.path) = true
        · rw [if_pos c1, if_neg]
          · rfl
          · rintro ⟨-, h1, -⟩
            simp only [Bool.and_eq_true, Bool.not_eq_true'] at c1
            rw [h1 c1.1] at c1
            simp at c1
        · rw [if_neg c1]
          by_cases c2 : checkExcluded env.excl e.path = true
          · rw [if_pos c2, if_neg]
            · rfl
            · rintro ⟨-, -, h1, -⟩
              exact h1 ((checkExcluded_iff _ _).1 c2)
          · rw [if_neg c2]
            by_cases c3 : (digestStep env fl e.path s).1 = true
            · rw [if_pos c3, if_neg]
              · rfl
              · rintro ⟨-, -, -, h1⟩
                exact h1 (ds1.1 c3)
            · have hent : Entered env fl w e := by
                refine ⟨hd, fun hs => ?_, fun hx => c2 ((checkExcluded_iff _ _).2 hx), fun hx => c3 (ds1.2 hx)⟩
                cases hp : env.partialMatch e.path with
                | true => rfl
                | false => simp [hs, hp] at c1
              rw [if_neg c3, if_pos hent, runAll, if_neg ha, entry_put]
              cases he : entry env fl e s with
              | none => rfl
              | some s1 =>
                simp only [Option.map_some]
                by_cases hdd : info = .dir
                · rw [if_pos hdd, if_pos hdd, walks_files (w := w) kids hk (s1.put h) (by rw [← hw]; exact (entry_keeps he).1)]
                  exact norm_runAll rfl
                · rw [if_neg hdd, if_neg hdd]; rfl
      cases info with
      | cycle => exact absurd rfl hi
      | nostat => simp only [reduceCtorEq, if_false, or_self, false_and]; rfl
      | other =>
        rw [if_pos rfl, runAll]
        exact (one s).resolve_right ha
      | dir =>
        have := hdir (Or.inl rfl)
        simp only [reduceCtorEq, if_false, true_or, true_and] at this ⊢
        exact this
      | unreadable =>
        have := hdir (Or.inr rfl)
        simp only [reduceCtorEq, if_false, or_true, true_and] at this ⊢
        exact this
    · have hd' : (fl.xdev && decide (e.dev ≠ fl.devNum)) = true := by
        unfold OnDevice at hd
        rw [Classical.not_imp] at hd
        simp [hd.1, hd.2]
      rw [if_pos hd', if_pos hd]
      rfl
theorem walks_files {env : Env} {fl : Flags} {w : World} : ∀ (ts : List Tree), (∀ t ∈ ts, Acyclic t) → ∀ (s : St), s.w.digest = w.digest →
    norm (walks env fl ts s) = norm (runAll env fl (filess env fl w ts) s)
  | [], _, s, _ => rfl
  | t :: ts, hac, s, hw => by
    have h1 := walk_files (env := env) (fl := fl) t (hac t (by simp)) s hw
    rw [walks, filess, runAll_append]
    cases hr : runAll env fl (files env fl w t) s with
    | none =>
      rw [hr] at h1
      cases hx : walk env fl t s with
      | none => rfl
      | some s1 => rw [hx] at h1; cases h1
    | some s2 =>
      rw [hr] at h1
      cases hx : walk env fl t s with
      | none => rw [hx] at h1; cases h1
      | some s1 =>
        rw [hx] at h1
        have h2 : s1.put [] = s2.put [] := Option.some.inj h1
        have hk : s2.w.digest = w.digest := by rw [← hw]; exact (runAll_keeps hr).1
        have hk1 : s1.w.digest = w.digest := by
          have : (s1.put []).w = (s2.put []).w := by rw [h2]
          show (s1.put []).w.digest = _
          rw [this]; exact hk
        show norm (walks env fl ts s1) = norm (runAll env fl (filess env fl w ts) s2)
        rw [walks_files ts (fun t ht => hac t (List.mem_cons_of_mem _ ht)) s1 hk1]
        exact norm_runAll h2
end

end Verif.Restore
