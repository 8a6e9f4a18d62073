import Verif.Commit.Steps
/-!
# C36, C37: crashes and failures of a commit
-/
namespace Verif.Commit
open Spec

/-! ## The installed files, whatever happens to the stores -/

section
variable {e : Env} {f0 : FS}

/-- The final files are there and the installed files are whole. -/
def Keep (e : Env) (f0 : FS) (f : FS) : Prop := f .ftmp = f0 .ftmp ∧ FilesWhole e f0 f

theorem keep_frame {l : Loc} (h1 : l ≠ .ftmp) (h2 : l ≠ .inst) {g f : FS} (hf : Frame l g f)
    (h : Keep e f0 g) : Keep e f0 f :=
  ⟨(hf _ (Ne.symm h1)).trans h.1, filesWhole_only g f (hf _ (Ne.symm h2)).symm h.2⟩

theorem keep_idle (c : Call) : Holds e (Keep e f0) (sysOk c id) (fun _ => Keep e f0) (Keep e f0) :=
  Holds.idle (fun _ h => h) (fun _ h => h) (fun _ h _ => h)

theorem keep_set {l : Loc} (h1 : l ≠ .ftmp) (h2 : l ≠ .inst) (c : Call) (u : FS → FS)
    (hu : ∀ f, Frame l f (u f)) : Holds e (Keep e f0) (sysOk c u) (fun _ => Keep e f0) (Keep e f0) :=
  Holds.sysOk (fun g hg => ⟨keep_frame h1 h2 (hu g) hg, keep_frame h1 h2 (hu g) hg⟩) (fun _ h _ => h)

theorem keep_removeDir {l : Loc} (h1 : l ≠ .ftmp) (h2 : l ≠ .inst) :
    Holds e (Keep e f0) (removeDir l) (fun _ => Keep e f0) (Keep e f0) := by
  refine Holds.each ?_
  intro g hg
  exact (removeDir_holds l g).conseq (by rintro f rfl; exact Frame.refl _ _)
    (fun r f h => keep_frame h1 h2 h.1 hg) (fun f h => keep_frame h1 h2 h hg)

theorem keep_copyFile {l : Loc} (h1 : l ≠ .ftmp) (h2 : l ≠ .inst) (src : Loc) (n : Name) (y : Bool) :
    Holds e (Keep e f0) (copyFile src l n y) (fun _ => Keep e f0) (Keep e f0) := by
  refine Holds.each ?_
  intro g hg
  refine (copyFile_holds src l n y g).conseq (fun _ h => h) ?_ ?_
  · intro b f h
    cases b with
    | true =>
      simp only [if_true] at h
      obtain ⟨c, _, hp⟩ := h
      exact keep_frame h1 h2 hp.1 hg
    | false =>
      have h : Only l n.tmp g f := h
      exact keep_frame h1 h2 h.1 hg
  · rintro f (h | ⟨c, _, hp⟩)
    · exact keep_frame h1 h2 h.1 hg
    · exact keep_frame h1 h2 hp.1 hg

theorem keep_copyAll {l : Loc} (h1 : l ≠ .ftmp) (h2 : l ≠ .inst) (src : Loc) (ns : List Name) :
    Holds e (Keep e f0) (copyAll src l ns) (fun _ => Keep e f0) (Keep e f0) := by
  induction ns with
  | nil => exact Holds.pure (fun _ h => h)
  | cons n ns ih =>
    unfold copyAll
    refine Holds.bind (keep_idle _) (fun a => Holds.ite (fun _ => Holds.pure (fun _ h => h)) (fun _ => ?_))
    exact Holds.bind (keep_copyFile h1 h2 src n false)
      (fun a => Holds.ite (fun _ => Holds.pure (fun _ h => h)) (fun _ => ih))

theorem keep_copyDir {l : Loc} (h1 : l ≠ .ftmp) (h2 : l ≠ .inst) (src : Loc) :
    Holds e (Keep e f0) (copyDir src l) (fun _ => Keep e f0) (Keep e f0) := by
  unfold copyDir
  refine Holds.bind (Q := fun _ => Keep e f0) (Holds.look (fun _ h => h)) ?_
  intro g
  split
  · exact Holds.pure (fun _ h => h)
  · refine Holds.bind (keep_idle _) (fun a => Holds.ite (fun _ => Holds.pure (fun _ h => h)) (fun _ => ?_))
    have tail : ∀ (made : Bool) (ns : List Name), Holds e (Keep e f0)
        (if made then copyAll src l ns else pure false) (fun _ => Keep e f0) (Keep e f0) := fun made ns =>
      Holds.ite (fun _ => keep_copyAll h1 h2 src _) (fun _ => Holds.pure (fun _ h => h))
    exact Holds.ite (fun _ => Holds.bind (keep_set h1 h2 _ _ (fun f => (Frame.refl _ _).set _)) (fun a => tail a _))
      (fun _ => Holds.bind (Q := fun _ => Keep e f0) (Holds.pure (fun _ h => h)) (fun a => tail a _))

theorem keep_semRename {s d : Loc} (h1 : s ≠ .ftmp) (h2 : s ≠ .inst) (h3 : d ≠ .ftmp) (h4 : d ≠ .inst) :
    Holds e (Keep e f0) (semRename s d) (fun _ => Keep e f0) (Keep e f0) := by
  unfold semRename
  refine Holds.bind (Q := fun _ => Keep e f0) ?_ ?_
  · unfold renameDir
    refine Holds.bind (Q := fun _ => Keep e f0) (Holds.look (fun _ h => h)) ?_
    intro g
    refine Holds.ite (fun _ => Holds.sysFail (fun _ _ h _ => h)) (fun _ => ?_)
    have hk : ∀ f, Keep e f0 f → Keep e f0 ((f.set d (f s)).set s none) := fun f hf =>
      keep_frame h1 h2 ((Frame.refl _ _).set _) (keep_frame h3 h4 ((Frame.refl _ _).set _) hf)
    exact Holds.sys (fun f hf => ⟨hk f hf, hk f hf⟩) (fun _ _ h _ _ => h)
  · intro r
    split
    · exact Holds.pure (fun _ h => h)
    · exact Holds.pure (fun _ h => h)
    · exact Holds.bind (keep_copyDir h3 h4 s)
        (fun a => Holds.ite (fun _ => Holds.pure (fun _ h => h)) (fun _ => keep_removeDir h1 h2))

theorem keep_install (hpl : PlainFinals e) :
    Holds e (Keep e f0) installFinal (fun _ => Keep e f0) (Keep e f0) := by
  refine Holds.each ?_
  intro g hg
  exact (install_at (e := e) (f0 := f0) hpl (g .active) (g .backup) (g .sandbox) (Keep e f0)
    (fun f h => ⟨h.ftmp, h.files⟩)).conseq (by rintro f rfl; exact ⟨rfl, rfl, rfl, hg.1, hg.2⟩)
      (fun r f h => ⟨h.1.ftmp, h.1.files⟩) (fun _ h => h)

theorem keep_prepare : Holds e (Keep e f0) prepare (fun _ => Keep e f0) (Keep e f0) := by
  have idle : ∀ (c : Call) (m : M Bool), Holds e (Keep e f0) m (fun _ => Keep e f0) (Keep e f0) →
      Holds e (Keep e f0) (do if !(← sysOk c id) then pure false else m) (fun _ => Keep e f0) (Keep e f0) :=
    fun c m hm => Holds.bind (keep_idle c) (fun a => Holds.ite (fun _ => Holds.pure (fun _ h => h)) (fun _ => hm))
  have put : ∀ (c : Call) (b : Bytes) (m : M Bool), Holds e (Keep e f0) m (fun _ => Keep e f0) (Keep e f0) →
      Holds e (Keep e f0) (do if !(← sysOk c (putFile .sandbox commitNum b)) then pure false else m)
        (fun _ => Keep e f0) (Keep e f0) :=
    fun c b m hm => Holds.bind (keep_set (l := .sandbox) (by decide) (by decide) c _
        (fun f => putFile_frame _ _ _ (Frame.refl _ _)))
      (fun a => Holds.ite (fun _ => Holds.pure (fun _ h => h)) (fun _ => hm))
  unfold prepare
  refine Holds.bind (Q := fun _ => Keep e f0) (Holds.ask (fun _ h => h)) (fun a => ?_)
  refine idle _ _ ?_
  refine Holds.bind (Q := fun _ => Keep e f0) (Holds.look (fun _ h => h)) (fun g => ?_)
  refine Holds.ite (fun _ => Holds.pure (fun _ h => h)) (fun _ => ?_)
  exact put _ _ _ (put _ _ _ (idle _ _ (idle _ _ (idle _ _ (keep_idle _)))))

theorem keep_removeBackup : Holds e (Keep e f0) removeBackup (fun _ => Keep e f0) (Keep e f0) := by
  unfold removeBackup
  refine Holds.bind (Q := fun _ => Keep e f0) (Holds.look (fun _ h => h)) (fun g => ?_)
  refine Holds.bind (keep_idle _) (fun a => Holds.ite (fun _ => Holds.pure (fun _ h => h)) (fun _ => ?_))
  exact Holds.ite (fun _ => Holds.bind (keep_removeDir (by decide) (by decide)) (fun _ => Holds.pure (fun _ h => h)))
    (fun _ => Holds.pure (fun _ h => h))

theorem keep_commitSandbox (hpl : PlainFinals e) :
    Holds e (Keep e f0) commitSandbox (fun _ => Keep e f0) (Keep e f0) := by
  have ret : ∀ {α : Type} {a : α}, Holds e (Keep e f0) (pure a : M α) (fun _ => Keep e f0) (Keep e f0) :=
    Holds.pure (fun _ h => h)
  unfold commitSandbox
  refine Holds.bind keep_prepare (fun a => Holds.ite (fun _ => ret) (fun _ => ?_))
  refine Holds.bind keep_removeBackup (fun a => Holds.ite (fun _ => ret) (fun _ => ?_))
  refine Holds.bind (keep_semRename (by decide) (by decide) (by decide) (by decide))
    (fun a => Holds.ite (fun _ => ret) (fun _ => ?_))
  refine Holds.bind (keep_semRename (by decide) (by decide) (by decide) (by decide))
    (fun a => Holds.ite (fun _ => ?_) (fun _ => ?_))
  · exact Holds.bind (keep_semRename (by decide) (by decide) (by decide) (by decide)) (fun _ => ret)
  refine Holds.bind (keep_install hpl) (fun a => Holds.ite (fun _ => ?_) (fun _ => ?_))
  · refine Holds.bind (Q := fun _ => Keep e f0) ?_ (fun _ => ret)
    unfold rollback
    refine Holds.bind (keep_semRename (by decide) (by decide) (by decide) (by decide))
      (fun a => Holds.ite (fun _ => ret) (fun _ => ?_))
    refine Holds.bind (keep_semRename (by decide) (by decide) (by decide) (by decide))
      (fun a => Holds.ite (fun _ => ret) (fun _ => ?_))
    exact Holds.bind (keep_install hpl) (fun _ => ret)
  · refine Holds.bind (Q := fun _ => Keep e f0) (Holds.ask (fun _ h => h)) (fun a => ?_)
    exact Holds.ite (fun _ => ret) (fun _ =>
      Holds.bind (keep_removeDir (by decide) (by decide)) (fun _ => ret))

theorem keep_commit (hpl : PlainFinals e) :
    Holds e (Keep e f0) commit (fun _ => FilesWhole e f0) (FilesWhole e f0) := by
  unfold commit
  refine Holds.bind ((keep_commitSandbox hpl).conseq (fun _ h => h) (fun _ _ h => h) (fun _ h => h.2)) (fun a => ?_)
  refine Holds.ite (fun _ => Holds.pure (fun _ h => h.2)) (fun _ => ?_)
  refine Holds.each ?_
  intro g hg
  refine Holds.bind ((removeTmp_holds .sandbox g).conseq (Q := fun _ => Keep e f0) (fun _ h => h)
    (fun _ _ h => keep_frame (by decide) (by decide) h.1 hg)
    (fun _ h => (keep_frame (by decide) (by decide) h hg).2)) (fun a => ?_)
  refine Holds.ite (fun _ => Holds.pure (fun _ h => h.2)) (fun _ => ?_)
  refine Holds.each ?_
  intro g hg
  exact (removeTmp_holds .ftmp g).conseq (fun _ h => h)
    (fun _ f h => filesWhole_only g f (h.1 _ (by decide)).symm hg.2)
    (fun f h => filesWhole_only g f (h _ (by decide)).symm hg.2)

end

/-- From a triple to a run. -/
theorem Holds.run {e : Env} {f0 : FS} {α : Type} {m : M α} {Q : α → FS → Prop} {T : FS → Prop}
    (h : Holds e (· = f0) m Q T) (h0 : T f0) :
    Q (run m e f0).1 (run m e f0).2.fs ∧ ∀ f ∈ (run m e f0).2.trace, T f := by
  obtain ⟨a, new, ht, hn⟩ := h ⟨f0, 0, [f0]⟩ rfl
  refine ⟨a, ?_⟩
  intro f hf
  unfold Commit.run at hf
  rw [ht] at hf
  rcases List.mem_append.1 hf with hf | hf
  · exact hn f hf
  · rw [List.mem_singleton] at hf; subst hf; exact h0

/-! ## Examples -/

/-- A store with a policy, its next version in the sandbox, an older backup, and
one final file to install. -/
def exFS : FS := fun l => match l with
  | .active => some [(⟨0, 0⟩, [49]), (⟨1, 0⟩, [65]), (⟨2, 0⟩, [66])]
  | .sandbox => some [(⟨0, 0⟩, [49]), (⟨1, 0⟩, [67])]
  | .backup => some [(⟨1, 0⟩, [90])]
  | .ftmp => some [(⟨7, 0⟩, [67]), (⟨8, 0⟩, [68])]
  | .inst => some [(⟨7, 0⟩, [65]), (⟨8, 0⟩, [66])]

/-- Every call succeeds. -/
def exEnv : Env :=
  { out := fun _ _ => .ok, next := fun _ => [50], savePrevious := true, disableHomedirs := false,
    reload := true, finals := [⟨7, 0⟩, ⟨8, 0⟩], homedirs := ⟨9, 0⟩ }

/-- The old and the new store. -/
def exOld : Dir := [(⟨0, 0⟩, [49]), (⟨1, 0⟩, [65]), (⟨2, 0⟩, [66])]
def exSb : Dir := [(⟨0, 0⟩, [49]), (⟨1, 0⟩, [67])]
def exNew : Dir := [(⟨0, 0⟩, [50]), (⟨1, 0⟩, [67])]

example : PlainFinals exEnv ∧ NoExdev exEnv ∧ exFS .active = some exOld ∧ exFS .sandbox = some exSb := by
  refine ⟨?_, by intro k; simp [exEnv], rfl, rfl⟩
  unfold PlainFinals exEnv
  decide

/-- A decidable view of a state. -/
def view (f : FS) : List (Option Dir) := [f .active, f .backup, f .sandbox, f .ftmp, f .inst]

/-! ## C36: crashes -/

/-- **C36 (partial).** A crash at any point of a commit, with any failing system
calls, leaves the old or the new store complete and active, or — between two
renames — no active store but both of them complete in the backup and sandbox
directories; and every installed policy file is the complete old or new one.
Directories have to be renamed, not copied (see `C36_exdev_refuted`). -/
theorem C36_partial (e : Env) (hpl : PlainFinals e) (hx : NoExdev e) (f0 : FS) (old sb : Dir)
    (h0 : f0 .active = some old) (hs : f0 .sandbox = some sb) :
    ∀ f ∈ (run commit e f0).2.trace,
      (Complete e old sb f ∨ Window e old sb f) ∧ FilesWhole e f0 f :=
  ((commit_holds hpl hx h0 hs).run ⟨Or.inl (Or.inl h0), fun _ _ => Or.inl rfl⟩).2

/-- **C36 (installed files).** Even when directories are copied, from any state,
no crash leaves a half-written policy file in place. -/
theorem C36_installed (e : Env) (hpl : PlainFinals e) (f0 : FS) :
    ∀ f ∈ (run commit e f0).2.trace, FilesWhole e f0 f :=
  (((keep_commit (f0 := f0) hpl).conseq (by rintro f rfl; exact ⟨rfl, fun _ _ => Or.inl rfl⟩)
    (fun _ _ h => h) (fun _ h => h)).run (fun _ _ => Or.inl rfl)).2

/-- **C36 refuted**: with every system call succeeding, there is a moment without
an active store. -/
theorem C36_refuted :
    ¬ ∀ f ∈ (run commit exEnv exFS).2.trace, Complete exEnv exOld exSb f := by
  have h : ((run commit exEnv exFS).2.trace.any (fun f => (f .active).isNone)) = true := by decide +kernel
  rw [List.any_eq_true] at h
  obtain ⟨f, hf, hn⟩ := h
  intro hall
  rw [Option.isNone_iff_eq_none] at hn
  rcases hall f hf with h | ⟨d, h, _⟩ <;> (rw [hn] at h; exact absurd h (by simp))

/-- Renames of directories fail with `EXDEV`. -/
def exdevEnv : Env := { exEnv with out := fun c _ => if c = .rename then .exdev else .ok }

/-- **C36 refuted for copied directories**: a crash can leave a truncated copy of
the new store as active store. -/
theorem C36_exdev_refuted :
    ¬ ∀ f ∈ (run commit exdevEnv exFS).2.trace,
      Complete exdevEnv exOld exSb f ∨ Window exdevEnv exOld exSb f := by
  have h : ((run commit exdevEnv exFS).2.trace.any (fun f => f .active == some [(⟨0, 0⟩, [50])])) = true := by
    decide +kernel
  rw [List.any_eq_true] at h
  obtain ⟨f, hf, hn⟩ := h
  have hn : f .active = some [(⟨0, 0⟩, [50])] := by simpa using hn
  intro hall
  rcases hall f hf with (h | ⟨d, h, hd⟩) | h
  · rw [hn] at h; revert h; decide
  · rw [hn] at h
    cases h
    have := hd ⟨1, 0⟩
    revert this
    decide
  · have := h.1; rw [hn] at this; exact absurd this (by simp)

/-- Renames fail with `EXDEV`, and one file of the old active store cannot be
removed after the copy. -/
def stuckEnv : Env :=
  { exEnv with out := fun c k => if c = .rename then .exdev else if c = .unlink ∧ 30 ≤ k ∧ k < 45 then .err else .ok }

/-- **C36, a mixture committed**: when directories are copied and the old store
cannot be emptied, the failure goes unnoticed (the result of the removal is
compared with -1 and is -3): the commit succeeds and the active store has a file
that is only in the old one next to the files of the new one. -/
theorem C36_mixture :
    ((run commit stuckEnv exFS).1 = true) ∧
      ∃ d, (run commit stuckEnv exFS).2.fs .active = some d ∧
        d.get ⟨1, 0⟩ = some [67] ∧ d.get ⟨2, 0⟩ = some [66] ∧ exSb.get ⟨2, 0⟩ = none := by
  have h : (run commit stuckEnv exFS).1 = true ∧
      ((run commit stuckEnv exFS).2.fs .active).map (fun d => (d.get ⟨1, 0⟩, d.get ⟨2, 0⟩)) =
        some (some [67], some [66]) := by decide +kernel
  refine ⟨h.1, ?_⟩
  cases hd : (run commit stuckEnv exFS).2.fs .active with
  | none => rw [hd] at h; exact absurd h.2 (by simp)
  | some d =>
    rw [hd] at h
    have h2 := h.2
    simp only [Option.map_some, Option.some.injEq, Prod.mk.injEq] at h2
    exact ⟨d, rfl, h2.1, h2.2, by decide⟩

/-- What a crash between the two renames leaves behind. -/
def crashed : FS := fun l => match l with
  | .active => none
  | .backup => some exOld
  | .sandbox => some exNew
  | .ftmp => some [(⟨7, 0⟩, [67]), (⟨8, 0⟩, [68])]
  | .inst => some [(⟨7, 0⟩, [65]), (⟨8, 0⟩, [66])]

/-- **C36, both stores lost**: after a crash between the renames, the next
transaction of `semodule` (which asks for the store to be created) starts from an
empty store, removes the new store, and its commit removes the old one: no store
holds any file of the policy any more. Every system call succeeds. -/
theorem C36_loss :
    (∃ f ∈ (run commit exEnv exFS).2.trace, view f = view crashed) ∧
    (run (do let _ ← createStore; let _ ← makeSandbox; commit) exEnv crashed).1 = true ∧
    ∀ l ∈ [Loc.active, .backup, .sandbox], ∀ n, n ≠ (⟨0, 0⟩ : Name) →
      ((run (do let _ ← createStore; let _ ← makeSandbox; commit) exEnv crashed).2.fs l).bind (·.get n) = none := by
  have h1 : ((run commit exEnv exFS).2.trace.any (fun f => view f == view crashed)) = true := by decide +kernel
  have h2 : (run (do let _ ← createStore; let _ ← makeSandbox; commit) exEnv crashed).1 = true := by
    decide +kernel
  have h3 : (run (do let _ ← createStore; let _ ← makeSandbox; commit) exEnv crashed).2.fs .active =
      some [(⟨0, 0⟩, [50])] := by decide +kernel
  have h4 : (run (do let _ ← createStore; let _ ← makeSandbox; commit) exEnv crashed).2.fs .backup =
      some [] := by decide +kernel
  have h5 : (run (do let _ ← createStore; let _ ← makeSandbox; commit) exEnv crashed).2.fs .sandbox =
      none := by decide +kernel
  refine ⟨?_, h2, ?_⟩
  · rw [List.any_eq_true] at h1
    obtain ⟨f, hf, h⟩ := h1
    exact ⟨f, hf, by simpa using h⟩
  · intro l hl n hn
    simp only [List.mem_cons, List.not_mem_nil, or_false] at hl
    rcases hl with rfl | rfl | rfl
    · rw [h3]
      have : (n == (⟨0, 0⟩ : Name)) = false := by simpa using hn
      simp [Dir.get, List.lookup_cons, this]
    · rw [h4]; rfl
    · rw [h5]; rfl

/-! ## C37: the result -/

/-- **C37 (success).** When the commit succeeds, the active store is the new one,
all the policy files are installed and no other file changed, and the old store
is the backup (if it is to be kept). -/
theorem C37_success (e : Env) (hpl : PlainFinals e) (hx : NoExdev e) (f0 : FS) (old sb : Dir)
    (h0 : f0 .active = some old) (hs : f0 .sandbox = some sb) (h : (run commit e f0).1 = true) :
    (∃ d, (run commit e f0).2.fs .active = some d ∧ New e sb d) ∧
      FilesNew e f0 (run commit e f0).2.fs ∧
      (e.savePrevious = true → (run commit e f0).2.fs .backup = some old) := by
  have := ((commit_holds hpl hx h0 hs).run ⟨Or.inl (Or.inl h0), fun _ _ => Or.inl rfl⟩).1
  rw [h] at this
  exact this

/-- **C37 (failure).** When the commit fails, the old store is active and the
installed files are unchanged; or the old store is active, but the installation
of files failed and each file is the old or the new one; or a directory could not
be renamed (then the store is the new one, or the old one is in the backup
directory only); or everything has been committed and only the removal of a
directory failed. -/
theorem C37_failure (e : Env) (hpl : PlainFinals e) (hx : NoExdev e) (f0 : FS) (old sb : Dir)
    (h0 : f0 .active = some old) (hs : f0 .sandbox = some sb) (h : (run commit e f0).1 = false) :
    let f := (run commit e f0).2.fs
    (f .active = some old ∧ FilesOld f0 f) ∨
    (f .active = some old ∧ FilesWhole e f0 f ∧ InstallFails e) ∨
    ((f .active = none ∧ f .backup = some old ∨ ∃ d, f .active = some d ∧ New e sb d) ∧
      FilesWhole e f0 f ∧ RenameFails e) ∨
    ((∃ d, f .active = some d ∧ New e sb d) ∧ FilesNew e f0 f ∧ CleanupFails e) := by
  have := ((commit_holds hpl hx h0 hs).run ⟨Or.inl (Or.inl h0), fun _ _ => Or.inl rfl⟩).1
  rw [h] at this
  exact this

/-- **C37 (partial).** When neither the installation of files nor the renaming or
removal of directories can fail, a failed commit leaves the old store active and
the installed files as they were. -/
theorem C37_partial (e : Env) (hpl : PlainFinals e) (hx : NoExdev e) (f0 : FS) (old sb : Dir)
    (h0 : f0 .active = some old) (hs : f0 .sandbox = some sb)
    (hi : ¬ InstallFails e) (hr : ¬ RenameFails e) (hc : ¬ CleanupFails e)
    (h : (run commit e f0).1 = false) :
    (run commit e f0).2.fs .active = some old ∧ FilesOld f0 (run commit e f0).2.fs := by
  rcases C37_failure e hpl hx f0 old sb h0 hs h with h | ⟨_, _, h⟩ | ⟨_, _, h⟩ | ⟨_, _, h⟩
  · exact h
  · exact absurd h hi
  · exact absurd h hr
  · exact absurd h hc

/-- The lock cannot be taken. -/
def lockEnv : Env := { exEnv with out := fun c _ => if c = .lock then .err else .ok }

example : PlainFinals lockEnv ∧ NoExdev lockEnv ∧ ¬ InstallFails lockEnv ∧ ¬ RenameFails lockEnv ∧
    ¬ CleanupFails lockEnv ∧ (run commit lockEnv exFS).1 = false := by
  refine ⟨by unfold PlainFinals lockEnv exEnv; decide, ?_, ?_, ?_, ?_, by decide +kernel⟩
  · intro k; simp [lockEnv]
  · rintro ⟨c, hc, hn⟩
    apply hn
    intro k
    simp only [List.mem_cons, List.not_mem_nil, or_false] at hc
    rcases hc with rfl | rfl | rfl | rfl | rfl | rfl | rfl | rfl | rfl <;> rfl
  · intro hn; exact hn (fun k => rfl)
  · rintro ⟨c, hc, hn⟩
    apply hn
    intro k
    simp only [List.mem_cons, List.not_mem_nil, or_false] at hc
    rcases hc with rfl | rfl | rfl | rfl <;> rfl

/-- The policy cannot be loaded. -/
def reloadEnv : Env := { exEnv with out := fun c _ => if c = .reload then .err else .ok }

/-- **C37 refuted (installed files)**: when loading the new policy fails, the old
store is restored but the files of the new policy stay installed. -/
theorem C37_refuted :
    (run commit reloadEnv exFS).1 = false ∧ (run commit reloadEnv exFS).2.fs .active = some exOld ∧
      installed exFS ⟨7, 0⟩ = some [65] ∧
      installed (run commit reloadEnv exFS).2.fs ⟨7, 0⟩ = some [67] := by
  refine ⟨?_, ?_, ?_, ?_⟩ <;> decide +kernel

/-- The removal of the temporary directory of final files fails. -/
def tmpEnv : Env := { exEnv with out := fun c k => if c = .rmdir ∧ 20 ≤ k then .err else .ok }

/-- **C37 refuted (store)**: the commit reports failure although the new store is
active and its files are installed. -/
theorem C37_store_refuted :
    (run commit tmpEnv exFS).1 = false ∧ (run commit tmpEnv exFS).2.fs .active = some exNew ∧
      installed (run commit tmpEnv exFS).2.fs ⟨7, 0⟩ = some [67] := by
  refine ⟨?_, ?_, ?_⟩ <;> decide +kernel

end Verif.Commit
