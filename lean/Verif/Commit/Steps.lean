import Verif.Commit.Lemmas
/-!
# The steps of a commit
-/
namespace Verif.Commit
open Spec

theorem Holds.and {e : Env} {P T : FS → Prop} {α : Type} {m : M α} {Q Q' : α → FS → Prop} {T' : FS → Prop}
    (h1 : Holds e P m Q T) (h2 : Holds e P m Q' T') : Holds e P m (fun a f => Q a f ∧ Q' a f) T := by
  intro s hs
  obtain ⟨a, b⟩ := h1 s hs
  exact ⟨⟨a, (h2 s hs).1⟩, b⟩

/-- A statement about the environment can be decided first. -/
theorem Holds.classical {e : Env} {P T : FS → Prop} {α : Type} {m : M α} {Q : α → FS → Prop} (p : Prop)
    (h1 : p → Holds e P m Q T) (h2 : ¬ p → Holds e P m Q T) : Holds e P m Q T := by
  by_cases h : p
  · exact h1 h
  · exact h2 h

/-! ## Calls that never fail -/

theorem Holds.never {e : Env} {P T : FS → Prop} {c : Call} {f : FS → FS} {Q : Bool → FS → Prop}
    (hn : Never e c) (hok : ∀ g, P g → T (f g) ∧ Q true (f g)) : Holds e P (Commit.sysOk c f) Q T :=
  Holds.sysOk hok (fun _ _ hk => by obtain ⟨k, hk⟩ := hk; exact absurd (hn k) hk)

/-- After a call that never fails the program goes on. -/
theorem Holds.neverThen {e : Env} {P T : FS → Prop} {α : Type} {c : Call} {f : FS → FS} {m1 m2 : M α}
    {Q : α → FS → Prop} (hn : Never e c) (P' : FS → Prop) (hok : ∀ g, P g → T (f g) ∧ P' (f g))
    (h : Holds e P' m2 Q T) :
    Holds e P (do if !(← Commit.sysOk c f) then m1 else m2) Q T := by
  refine Holds.bind (Q := fun b g => b = true ∧ P' g)
    (Holds.never hn (fun g hg => ⟨(hok g hg).1, rfl, (hok g hg).2⟩)) ?_
  intro b
  refine Holds.ite (fun hb => Holds.vac (fun _ h => by simp [h.1] at hb)) (fun _ => ?_)
  exact h.conseq (fun _ h => h.2) (fun _ _ h => h) (fun _ h => h)

theorem not_installFails {e : Env} (h : ¬ InstallFails e) {c : Call}
    (hc : c ∈ [Call.mkpath, .openR, .openW, .read, .write, .fsync, .close, .renameFile, .reload]) :
    Never e c := by
  by_contra hn
  exact h ⟨c, hc, hn⟩

theorem not_cleanupFails {e : Env} (h : ¬ CleanupFails e) {c : Call}
    (hc : c ∈ [Call.scandir, .stat, .unlink, .rmdir]) : Never e c := by
  by_contra hn
  exact h ⟨c, hc, hn⟩

theorem copyLoop_never {e : Env} (h : ¬ InstallFails e) (l : Loc) (t : Name) (done rest : Bytes) :
    Holds e (fun _ => True) (copyLoop l t done rest) (fun b _ => b = true) (fun _ => True) := by
  induction hk : rest.length using Nat.strongRecOn generalizing done rest with
  | _ k ih =>
    rw [copyLoop.eq_def]
    refine Holds.neverThen (not_installFails h (by simp)) (fun _ => True) (fun _ _ => ⟨trivial, trivial⟩) ?_
    cases rest with
    | nil => exact Holds.pure (fun _ _ => rfl)
    | cons b bs =>
      refine Holds.neverThen (not_installFails h (by simp)) (fun _ => True) (fun _ _ => ⟨trivial, trivial⟩) ?_
      exact ih ((b :: bs).drop 4192).length (by subst hk; simp; omega) _ _ rfl

theorem copyFile_never {e : Env} (h : ¬ InstallFails e) (src dst : Loc) (n : Name) (g : FS)
    (hs : ((g src).bind (·.get n)).isSome) (hd : (g dst).isSome) :
    Holds e (· = g) (copyFile src dst n true) (fun b _ => b = true) (fun _ => True) := by
  unfold copyFile
  refine Holds.bind (Q := fun f0 f => f0 = g ∧ f = g) (Holds.look (fun _ h => ⟨h, h⟩)) ?_
  intro f0
  refine Holds.each ?_
  rintro g ⟨rfl, rfl⟩
  split
  · rename_i hn; rw [hn] at hs; exact absurd hs (by simp)
  · refine Holds.neverThen (not_installFails h (by simp)) (· = g) (by rintro f rfl; exact ⟨trivial, rfl⟩) ?_
    refine Holds.ite (fun hn => ?_) (fun _ => ?_)
    · rw [Option.isNone_iff_eq_none] at hn; rw [hn] at hd; exact absurd hd (by simp)
    refine Holds.neverThen (not_installFails h (by simp)) (fun _ => True) (fun _ _ => ⟨trivial, trivial⟩) ?_
    refine Holds.bind (copyLoop_never h _ _ _ _) ?_
    intro ok
    simp only [if_true]
    refine Holds.bind (Q := fun b _ => ok = true ∧ b = true)
      (Holds.never (not_installFails h (by simp)) (fun g hg => ⟨trivial, hg, rfl⟩)) ?_
    intro s
    refine Holds.bind (Q := fun b _ => ok = true ∧ s = true ∧ b = true)
      (Holds.never (not_installFails h (by simp)) (fun g hg => ⟨trivial, hg.1, hg.2, rfl⟩)) ?_
    intro k
    refine Holds.ite (fun _ => Holds.never (not_installFails h (by simp)) (fun _ _ => ⟨trivial, rfl⟩))
      (fun hk => Holds.vac ?_)
    rintro f ⟨rfl, rfl, rfl⟩
    exact hk rfl

theorem installAll_never {e : Env} (h : ¬ InstallFails e) (x : Option Dir) (ns : List Name) :
    Holds e (fun f => f .ftmp = x) (installAll ns) (fun b _ => b = true) (fun _ => True) := by
  induction ns with
  | nil => exact Holds.pure (fun _ _ => rfl)
  | cons n ns ih =>
    unfold installAll
    refine Holds.bind (Q := fun _ f => f .ftmp = x) (Holds.ask (fun _ h => h)) ?_
    intro a
    refine Holds.bind (Q := fun f0 f => f0 = f ∧ f .ftmp = x) (Holds.look (fun _ h => ⟨rfl, h⟩)) ?_
    intro f0
    refine Holds.ite (fun _ => ih.conseq (fun _ h => h.2) (fun _ _ h => h) (fun _ h => h)) (fun hn => ?_)
    refine Holds.ite (fun _ => ih.conseq (fun _ h => h.2) (fun _ _ h => h) (fun _ h => h)) (fun _ => ?_)
    refine Holds.neverThen (not_installFails h (by simp))
      (fun f => f .ftmp = x ∧ (f .inst).isSome ∧ ((f .ftmp).bind (·.get n)).isSome) ?_ ?_
    · rintro f ⟨rfl, hx⟩
      have hs : ((f0 .ftmp).bind (·.get n)).isSome := by
        cases hc : (f0 .ftmp).bind (·.get n) with
        | none => rw [hc] at hn; exact absurd rfl hn
        | some c => rfl
      refine ⟨trivial, ?_⟩
      split
      · refine ⟨?_, by rw [set_same]; rfl, ?_⟩
        · rw [set_other _ _ (by decide)]; exact hx
        · rw [set_other _ _ (by decide)]; exact hs
      · rename_i hi
        refine ⟨hx, ?_, hs⟩
        cases hc : f0 .inst with
        | none => rw [hc] at hi; exact absurd rfl hi
        | some c => rfl
    refine Holds.each ?_
    rintro f ⟨hx, hi, hs⟩
    refine Holds.bind (Q := fun b f => b = true ∧ f .ftmp = x) ?_ ?_
    · have h1 := (copyFile_holds (e := e) .ftmp .inst n true f).conseq (T := fun _ => True)
        (Q := fun _ f => f .ftmp = x) (fun _ h => h) ?_ (fun _ _ => trivial)
      · exact ((copyFile_never h .ftmp .inst n f hs hi).and h1).conseq (fun _ h => h)
          (fun _ _ h => h) (fun _ h => h)
      · intro b f' hb
        cases b with
        | true =>
          simp only [if_true] at hb
          obtain ⟨c, _, hp⟩ := hb
          rw [hp.1 _ (by decide), hx]
        | false =>
          have hb : Only .inst n.tmp f f' := hb
          rw [hb.1 _ (by decide), hx]
    intro b
    refine Holds.ite (fun hb => Holds.vac (fun _ h => by simp [h.1] at hb)) (fun _ => ?_)
    exact ih.conseq (fun _ h => h.2) (fun _ _ h => h) (fun _ h => h)

theorem installFinal_never {e : Env} (h : ¬ InstallFails e) :
    Holds e (fun _ => True) installFinal (fun b _ => b = true) (fun _ => True) := by
  refine Holds.each ?_
  intro g _
  unfold installFinal
  refine Holds.bind (Q := fun _ f => f .ftmp = g .ftmp) (Holds.ask (by rintro f rfl; rfl)) ?_
  intro a
  refine Holds.bind (installAll_never h (g .ftmp) _) ?_
  intro b
  refine Holds.ite (fun hb => Holds.vac (fun _ h => by simp [h] at hb)) (fun _ => ?_)
  exact Holds.ite (fun _ => Holds.pure (fun _ _ => rfl))
    (fun _ => Holds.never (not_installFails h (by simp)) (fun _ _ => ⟨trivial, rfl⟩))

/-! ## States of a commit -/

section
variable (e : Env) (f0 : FS) (old sb : Dir)

/-- The three stores are `a`, `b`, `s`; the final files are there, and the
installed files are in a state allowed by `J`. -/
structure At (J : FS → Prop) (a b s : Option Dir) (f : FS) : Prop where
  active : f .active = a
  backup : f .backup = b
  sandbox : f .sandbox = s
  ftmp : f .ftmp = f0 .ftmp
  files : J f

/-- A property of the installed files only. -/
def FilesOnly (J : FS → Prop) : Prop := ∀ f f' : FS, f .inst = f' .inst → J f → J f'

/-- What a crash may leave behind. -/
def Crash (f : FS) : Prop := (Complete e old sb f ∨ Window e old sb f) ∧ FilesWhole e f0 f
end

section
variable {e : Env} {f0 : FS} {old sb : Dir}

theorem filesWhole_only : FilesOnly (FilesWhole e f0) := by
  intro f f' h hf n hn
  have : installed f' n = installed f n := by unfold installed; rw [h]
  rw [this]; exact hf n hn

theorem filesOld_only : FilesOnly (FilesOld f0) := by
  intro f f' h hf n hn
  have : installed f' n = installed f n := by unfold installed; rw [h]
  rw [this]; exact hf n hn

theorem filesNew_only : FilesOnly (FilesNew e f0) := by
  intro f f' h hf n hn
  have : installed f' n = installed f n := by unfold installed; rw [h]
  rw [this]; exact hf n hn

theorem filesWhole_of_old {f : FS} (h : FilesOld f0 f) : FilesWhole e f0 f := fun n hn => Or.inl (h n hn)

theorem filesWhole_of_new {f : FS} (h : FilesNew e f0 f) : FilesWhole e f0 f := by
  intro n hn
  by_cases hc : ∃ c, Installs e f0 n c
  · obtain ⟨c, hc⟩ := hc; exact Or.inr ⟨c, hc, (h n hn).1 c hc⟩
  · exact Or.inl ((h n hn).2 (fun c hc' => hc ⟨c, hc'⟩))

theorem At.weaken {J J' : FS → Prop} {a b s : Option Dir} {f : FS} (h : At f0 J a b s f)
    (hj : ∀ f, J f → J' f) : At f0 J' a b s f :=
  ⟨h.active, h.backup, h.sandbox, h.ftmp, hj f h.files⟩

/-- Renaming, by the values of the stores. -/
theorem rename_ab {J : FS → Prop} (hJ : FilesOnly J) (hx : NoExdev e) (a : Dir) (s : Option Dir)
    (T : FS → Prop) (hT : ∀ f, At f0 J none (some a) s f → T f) :
    Holds e (At f0 J (some a) none s) (semRename .active .backup)
      (fun r f => (r = 0 ∧ At f0 J none (some a) s f) ∨
        (r = -1 ∧ At f0 J (some a) none s f ∧ RenameFails e)) T := by
  refine Holds.each ?_
  intro g hg
  have hm : At f0 J none (some a) s (moved .active .backup g) := by
    refine ⟨set_same _ _ _, ?_, ?_, ?_, ?_⟩
    · simp [moved, FS.set, hg.active]
    · simp [moved, FS.set, hg.sandbox]
    · simp [moved, FS.set, hg.ftmp]
    · exact hJ g _ (by simp [moved, FS.set]) hg.files
  refine (semRename_holds .active .backup g hx).conseq (fun _ h => h) ?_ (by rintro f rfl; exact hT _ hm)
  rintro r f (⟨rfl, rfl, _⟩ | ⟨rfl, rfl, h⟩)
  · exact Or.inl ⟨rfl, hm⟩
  · refine Or.inr ⟨rfl, hg, ?_⟩
    rcases h with ⟨k, hk⟩ | h | ⟨d, h, _⟩
    · exact fun hn => hk (hn k)
    · rw [hg.active] at h; exact absurd h (by simp)
    · rw [hg.backup] at h; exact absurd h (by simp)

theorem rename_sa {J : FS → Prop} (hJ : FilesOnly J) (hx : NoExdev e) (d : Dir) (b : Option Dir)
    (T : FS → Prop) (hT : ∀ f, At f0 J (some d) b none f → T f) :
    Holds e (At f0 J none b (some d)) (semRename .sandbox .active)
      (fun r f => (r = 0 ∧ At f0 J (some d) b none f) ∨
        (r = -1 ∧ At f0 J none b (some d) f ∧ RenameFails e)) T := by
  refine Holds.each ?_
  intro g hg
  have hm : At f0 J (some d) b none (moved .sandbox .active g) := by
    refine ⟨?_, ?_, set_same _ _ _, ?_, ?_⟩
    · simp [moved, FS.set, hg.sandbox]
    · simp [moved, FS.set, hg.backup]
    · simp [moved, FS.set, hg.ftmp]
    · exact hJ g _ (by simp [moved, FS.set]) hg.files
  refine (semRename_holds .sandbox .active g hx).conseq (fun _ h => h) ?_ (by rintro f rfl; exact hT _ hm)
  rintro r f (⟨rfl, rfl, _⟩ | ⟨rfl, rfl, h⟩)
  · exact Or.inl ⟨rfl, hm⟩
  · refine Or.inr ⟨rfl, hg, ?_⟩
    rcases h with ⟨k, hk⟩ | h | ⟨d, h, _⟩
    · exact fun hn => hk (hn k)
    · rw [hg.sandbox] at h; exact absurd h (by simp)
    · rw [hg.active] at h; exact absurd h (by simp)

theorem rename_ba {J : FS → Prop} (hJ : FilesOnly J) (hx : NoExdev e) (d : Dir) (s : Option Dir)
    (T : FS → Prop) (hT : ∀ f, At f0 J (some d) none s f → T f) :
    Holds e (At f0 J none (some d) s) (semRename .backup .active)
      (fun r f => (r = 0 ∧ At f0 J (some d) none s f) ∨
        (r = -1 ∧ At f0 J none (some d) s f ∧ RenameFails e)) T := by
  refine Holds.each ?_
  intro g hg
  have hm : At f0 J (some d) none s (moved .backup .active g) := by
    refine ⟨?_, set_same _ _ _, ?_, ?_, ?_⟩
    · simp [moved, FS.set, hg.backup]
    · simp [moved, FS.set, hg.sandbox]
    · simp [moved, FS.set, hg.ftmp]
    · exact hJ g _ (by simp [moved, FS.set]) hg.files
  refine (semRename_holds .backup .active g hx).conseq (fun _ h => h) ?_ (by rintro f rfl; exact hT _ hm)
  rintro r f (⟨rfl, rfl, _⟩ | ⟨rfl, rfl, h⟩)
  · exact Or.inl ⟨rfl, hm⟩
  · refine Or.inr ⟨rfl, hg, ?_⟩
    rcases h with ⟨k, hk⟩ | h | ⟨d, h, _⟩
    · exact fun hn => hk (hn k)
    · rw [hg.backup] at h; exact absurd h (by simp)
    · rw [hg.active] at h; exact absurd h (by simp)

theorem rename_as {J : FS → Prop} (hJ : FilesOnly J) (hx : NoExdev e) (d : Dir) (b : Option Dir)
    (T : FS → Prop) (hT : ∀ f, At f0 J none b (some d) f → T f) :
    Holds e (At f0 J (some d) b none) (semRename .active .sandbox)
      (fun r f => (r = 0 ∧ At f0 J none b (some d) f) ∨
        (r = -1 ∧ At f0 J (some d) b none f ∧ RenameFails e)) T := by
  refine Holds.each ?_
  intro g hg
  have hm : At f0 J none b (some d) (moved .active .sandbox g) := by
    refine ⟨set_same _ _ _, ?_, ?_, ?_, ?_⟩
    · simp [moved, FS.set, hg.backup]
    · simp [moved, FS.set, hg.active]
    · simp [moved, FS.set, hg.ftmp]
    · exact hJ g _ (by simp [moved, FS.set]) hg.files
  refine (semRename_holds .active .sandbox g hx).conseq (fun _ h => h) ?_ (by rintro f rfl; exact hT _ hm)
  rintro r f (⟨rfl, rfl, _⟩ | ⟨rfl, rfl, h⟩)
  · exact Or.inl ⟨rfl, hm⟩
  · refine Or.inr ⟨rfl, hg, ?_⟩
    rcases h with ⟨k, hk⟩ | h | ⟨d, h, _⟩
    · exact fun hn => hk (hn k)
    · rw [hg.active] at h; exact absurd h (by simp)
    · rw [hg.sandbox] at h; exact absurd h (by simp)

/-- The installation, by the values of the stores. -/
theorem install_at (hpl : PlainFinals e) (a b s : Option Dir) (T : FS → Prop)
    (hT : ∀ f, At f0 (FilesWhole e f0) a b s f → T f) :
    Holds e (At f0 (FilesWhole e f0) a b s) installFinal
      (fun r f => At f0 (FilesWhole e f0) a b s f ∧ (r = true → FilesNew e f0 f) ∧
        (r = false → InstallFails e)) T := by
  refine Holds.each ?_
  intro g hg
  -- a base with the original installed files
  let h : FS := g.set .inst (f0 .inst)
  have hh : h .ftmp = f0 .ftmp := by rw [← hg.ftmp]; exact set_other _ _ (by decide)
  have hinst : ∀ n c, Installs e h n c ↔ Installs e f0 n c := by
    intro n c; unfold Installs; rw [hh]
  have hold : ∀ n, installed h n = installed f0 n := by
    intro n; unfold installed; show ((g.set .inst (f0 .inst)) .inst).bind _ = _; rw [set_same]
  have hw : ∀ f, FilesWhole e h f ↔ FilesWhole e f0 f := by
    intro f; unfold FilesWhole; simp only [hinst, hold]
  have hnew : ∀ f, FilesNew e h f ↔ FilesNew e f0 f := by
    intro f; unfold FilesNew; simp only [hinst, hold]
  have hfr : ∀ f, Inst e h f → At f0 (FilesWhole e f0) a b s f := by
    intro f hf
    refine ⟨?_, ?_, ?_, ?_, (hw f).1 hf.2⟩
    · rw [hf.1 _ (by decide), ← hg.active]; exact set_other _ _ (by decide)
    · rw [hf.1 _ (by decide), ← hg.backup]; exact set_other _ _ (by decide)
    · rw [hf.1 _ (by decide), ← hg.sandbox]; exact set_other _ _ (by decide)
    · rw [hf.1 _ (by decide)]; exact hh
  have hstart : Inst e h g := by
    refine ⟨fun x hx => ?_, (hw g).2 hg.files⟩
    show g x = (g.set .inst (f0 .inst)) x
    rw [set_other _ _ hx]
  have h1 : Holds e (· = g) installFinal (fun r f => At f0 (FilesWhole e f0) a b s f ∧
      (r = true → FilesNew e f0 f)) T :=
    (installFinal_holds hpl h).conseq (by rintro f rfl; exact hstart)
      (fun r f hq => ⟨hfr f hq.1, fun hr => (hnew f).1 (filesNew_of_done hq.1 (hq.2 hr))⟩)
      (fun f hf => hT f (hfr f hf))
  refine Holds.classical (InstallFails e) (fun hf => ?_) (fun hf => ?_)
  · exact h1.conseq (fun _ h => h) (fun r f h => ⟨h.1, h.2, fun _ => hf⟩) (fun _ h => h)
  · have h2 := (installFinal_never hf).conseq (P := (· = g)) (fun _ _ => trivial) (fun _ _ h => h)
      (T := fun _ => True) (fun _ h => h)
    exact (h1.and h2).conseq (fun _ h => h)
      (fun r f h => ⟨h.1.1, h.1.2, fun hr => by rw [h.2] at hr; exact absurd hr (by simp)⟩) (fun _ h => h)

/-- The removal of a directory, by the values of the stores. -/
theorem remove_backup {J : FS → Prop} (hJ : FilesOnly J) (a b s : Option Dir) (hb : b.isSome) (T : FS → Prop)
    (hT : ∀ f b, At f0 J a b s f → T f) :
    Holds e (At f0 J a b s) (removeDir .backup)
      (fun r f => ∃ b', At f0 J a b' s f ∧ (r = 0 → b' = none) ∧ (r ≠ 0 → CleanupFails e)) T := by
  refine Holds.each ?_
  intro g hg
  have hfr : ∀ f, Frame .backup g f → At f0 J a (f .backup) s f := by
    intro f hf
    refine ⟨?_, rfl, ?_, ?_, ?_⟩
    · rw [hf _ (by decide)]; exact hg.active
    · rw [hf _ (by decide)]; exact hg.sandbox
    · rw [hf _ (by decide)]; exact hg.ftmp
    · exact hJ g f (hf _ (by decide)).symm hg.files
  have h1 : Holds e (· = g) (removeDir .backup)
      (fun r f => At f0 J a (f .backup) s f ∧ (r = 0 → f .backup = none)) T :=
    (removeDir_holds .backup g).conseq (by rintro f rfl; exact Frame.refl _ _)
      (fun r f h => ⟨hfr f h.1, h.2.1⟩) (fun f h => hT f _ (hfr f h))
  refine Holds.classical (CleanupFails e) (fun hf => ?_) (fun hf => ?_)
  · exact h1.conseq (fun _ h => h) (fun r f h => ⟨_, h.1, h.2, fun _ => hf⟩) (fun _ h => h)
  · have h2 := removeDir_never (e := e) .backup g (by rw [hg.backup]; exact hb)
      (not_cleanupFails hf (by simp)) (not_cleanupFails hf (by simp)) (not_cleanupFails hf (by simp))
      (not_cleanupFails hf (by simp))
    exact (h1.and h2).conseq (fun _ h => h)
      (fun r f h => ⟨_, h.1.1, h.1.2, fun hr => absurd h.2 hr⟩) (fun _ h => h)

/-! ## The parts of the commit -/

theorem new_put (sb : Dir) (c : Bytes) :
    New e sb ((sb.put commitNum c).put commitNum (e.next (sb.get commitNum))) := by
  intro n
  rw [get_put, get_put]
  by_cases h : n = commitNum
  · simp [h, commitNum]
  · have h' : ¬ n = ⟨0, 0⟩ := h
    rw [if_neg h, if_neg h, if_neg h']

theorem prepare_holds (T : FS → Prop)
    (hT : ∀ f, (∃ s, At f0 (FilesOld f0) (some old) (f0 .backup) s f) → T f)
    (h0 : f0 .active = some old) (hs : f0 .sandbox = some sb) :
    Holds e (· = f0) prepare
      (fun r f => ∃ d, At f0 (FilesOld f0) (some old) (f0 .backup) (some d) f ∧ (r = true → New e sb d)) T := by
  have hstart : At f0 (FilesOld f0) (some old) (f0 .backup) (some sb) f0 :=
    ⟨h0, rfl, hs, rfl, fun _ _ => rfl⟩
  have hput : ∀ {d : Dir} {f : FS} (c : Bytes), At f0 (FilesOld f0) (some old) (f0 .backup) (some d) f →
      At f0 (FilesOld f0) (some old) (f0 .backup) (some (d.put commitNum c))
        (putFile .sandbox commitNum c f) := by
    intro d f c h
    unfold putFile
    refine ⟨?_, ?_, ?_, ?_, ?_⟩
    · rw [set_other _ _ (by decide)]; exact h.active
    · rw [set_other _ _ (by decide)]; exact h.backup
    · rw [set_same, h.sandbox]; rfl
    · rw [set_other _ _ (by decide)]; exact h.ftmp
    · exact filesOld_only f _ (by rw [set_other _ _ (by decide)]) h.files
  -- after the number is written, only calls without effect
  have tail : ∀ (c : Call) (m : M Bool) (d : Dir), New e sb d →
      Holds e (At f0 (FilesOld f0) (some old) (f0 .backup) (some d)) m
        (fun r f => ∃ d, At f0 (FilesOld f0) (some old) (f0 .backup) (some d) f ∧ (r = true → New e sb d)) T →
      Holds e (At f0 (FilesOld f0) (some old) (f0 .backup) (some d))
        (do if !(← sysOk c id) then pure false else m)
        (fun r f => ∃ d, At f0 (FilesOld f0) (some old) (f0 .backup) (some d) f ∧ (r = true → New e sb d)) T := by
    intro c m d hd hm
    refine Holds.bind (Q := fun _ f => At f0 (FilesOld f0) (some old) (f0 .backup) (some d) f)
      (Holds.idle (fun f h => hT f ⟨_, h⟩) (fun _ h => h) (fun _ h _ => h)) ?_
    intro b
    exact Holds.ite (fun _ => Holds.pure (fun f h => ⟨d, h, by simp⟩)) (fun _ => hm)
  unfold prepare
  refine Holds.bind (Q := fun a f => a = e ∧ f = f0) (Holds.ask (fun _ h => ⟨rfl, h⟩)) ?_
  intro a
  refine Holds.bind (Q := fun _ f => a = e ∧ f = f0)
    (Holds.idle (by rintro f ⟨_, rfl⟩; exact hT _ ⟨_, hstart⟩) (fun _ h => h) (fun _ h _ => h)) ?_
  intro b
  refine Holds.ite (fun _ => Holds.pure (by rintro f ⟨_, rfl⟩; exact ⟨sb, hstart, by simp⟩)) (fun _ => ?_)
  refine Holds.bind (Q := fun g f => g = f0 ∧ a = e ∧ f = f0)
    (Holds.look (by rintro f ⟨h, rfl⟩; exact ⟨rfl, h, rfl⟩)) ?_
  intro g
  refine Holds.each ?_
  rintro f ⟨hg, ha, hf⟩
  subst hg ha hf
  simp only [hs, Option.isNone_some, Bool.false_eq_true, if_false, Option.bind_some]
  refine Holds.bind (Q := fun r f' => if r then
      At f (FilesOld f) (some old) (f .backup) (some (sb.put commitNum [])) f'
      else At f (FilesOld f) (some old) (f .backup) (some sb) f')
    (Holds.sysOk (by rintro f rfl; exact ⟨hT _ ⟨_, hput _ hstart⟩, by simpa using hput _ hstart⟩)
      (by rintro f rfl _; simpa using hstart)) ?_
  intro r
  refine Holds.ite (fun hr => Holds.pure ?_) (fun hr => ?_)
  · intro f h
    have : r = false := by simpa using hr
    subst this
    exact ⟨sb, by simpa using h, by simp⟩
  have : r = true := by simpa using hr
  subst this
  simp only [if_true]
  refine Holds.bind (Q := fun r f' => if r then
      At f (FilesOld f) (some old) (f .backup)
        (some ((sb.put commitNum []).put commitNum (a.next (sb.get commitNum)))) f'
      else At f (FilesOld f) (some old) (f .backup) (some (sb.put commitNum [])) f')
    (Holds.sysOk (fun f h => ⟨hT _ ⟨_, hput _ h⟩, by simpa using hput _ h⟩)
      (fun f h _ => by simpa using h)) ?_
  intro r
  refine Holds.ite (fun hr => Holds.pure ?_) (fun hr => ?_)
  · intro f h
    have : r = false := by simpa using hr
    subst this
    exact ⟨_, by simpa using h, by simp⟩
  have : r = true := by simpa using hr
  subst this
  simp only [if_true]
  have hn := new_put (e := a) sb []
  refine tail _ _ _ hn (tail _ _ _ hn (tail _ _ _ hn ?_))
  exact Holds.idle (fun f h => hT f ⟨_, h⟩) (fun f h => ⟨_, h, fun _ => hn⟩) (fun f h _ => ⟨_, h, by simp⟩)

theorem removeBackup_holds {J : FS → Prop} (hJ : FilesOnly J) (a b s : Option Dir) (T : FS → Prop)
    (hT : ∀ f b, At f0 J a b s f → T f) :
    Holds e (At f0 J a b s) removeBackup
      (fun r f => ∃ b', At f0 J a b' s f ∧ (r = true → b' = none)) T := by
  unfold removeBackup
  refine Holds.bind (Q := fun g f => g = f ∧ At f0 J a b s f) (Holds.look (fun _ h => ⟨rfl, h⟩)) ?_
  intro g
  refine Holds.each ?_
  rintro f ⟨rfl, hg⟩
  refine Holds.bind (Q := fun _ f => f = g)
    (Holds.idle (by rintro f rfl; exact hT f _ hg) (fun _ h => h) (fun _ h _ => h)) ?_
  intro x
  refine Holds.ite (fun _ => Holds.pure (by rintro f rfl; exact ⟨b, hg, by simp⟩)) (fun _ => ?_)
  refine Holds.ite (fun hb => ?_) (fun hb => Holds.pure ?_)
  · refine Holds.bind ((remove_backup (e := e) hJ a b s (by rw [← hg.backup]; exact hb) T hT).conseq
      (by rintro f rfl; exact hg) (fun _ _ h => h) (fun _ h => h)) ?_
    intro r
    refine Holds.pure ?_
    rintro f ⟨b', h, h1, _⟩
    exact ⟨b', h, fun hr => h1 (by simpa using hr)⟩
  · rintro f rfl
    refine ⟨b, hg, fun _ => ?_⟩
    rw [hg.backup] at hb
    cases b with
    | none => rfl
    | some d => simp at hb

/-- What a failed commit may leave behind. -/
def Failed (e : Env) (f0 : FS) (old sb : Dir) (f : FS) : Prop :=
  (f .active = some old ∧ FilesOld f0 f) ∨
  (f .active = some old ∧ FilesWhole e f0 f ∧ InstallFails e) ∨
  ((f .active = none ∧ f .backup = some old ∨ ∃ d, f .active = some d ∧ New e sb d) ∧
    FilesWhole e f0 f ∧ RenameFails e) ∨
  ((∃ d, f .active = some d ∧ New e sb d) ∧ FilesNew e f0 f ∧ CleanupFails e)

/-- What a successful commit leaves behind. -/
def Succeeded (e : Env) (f0 : FS) (old sb : Dir) (f : FS) : Prop :=
  (∃ d, f .active = some d ∧ New e sb d) ∧ f .sandbox = none ∧ f .ftmp = f0 .ftmp ∧ FilesNew e f0 f ∧
    (e.savePrevious = true → f .backup = some old)

theorem crash_old {J : FS → Prop} (hJ : ∀ f, J f → FilesWhole e f0 f) {b s : Option Dir} {f : FS}
    (h : At f0 J (some old) b s f) : Crash e f0 old sb f := ⟨Or.inl (Or.inl h.active), hJ f h.files⟩

theorem crash_new {J : FS → Prop} (hJ : ∀ f, J f → FilesWhole e f0 f) {d : Dir} {b s : Option Dir} {f : FS}
    (hn : New e sb d) (h : At f0 J (some d) b s f) : Crash e f0 old sb f :=
  ⟨Or.inl (Or.inr ⟨d, h.active, hn⟩), hJ f h.files⟩

theorem crash_window {J : FS → Prop} (hJ : ∀ f, J f → FilesWhole e f0 f) {d : Dir} {f : FS}
    (hn : New e sb d) (h : At f0 J none (some old) (some d) f) : Crash e f0 old sb f :=
  ⟨Or.inr ⟨h.active, h.backup, d, h.sandbox, hn⟩, hJ f h.files⟩

theorem commitSandbox_holds (hpl : PlainFinals e) (hx : NoExdev e)
    (h0 : f0 .active = some old) (hs : f0 .sandbox = some sb) :
    Holds e (· = f0) commitSandbox
      (fun r f => if r then Succeeded e f0 old sb f else Failed e f0 old sb f) (Crash e f0 old sb) := by
  have how : ∀ f, FilesOld f0 f → FilesWhole e f0 f := fun _ h => filesWhole_of_old h
  unfold commitSandbox
  refine Holds.bind (prepare_holds (e := e) (Crash e f0 old sb)
    (by rintro f ⟨s, h⟩; exact crash_old how h) h0 hs) ?_
  intro r
  refine Holds.ite (fun _ => Holds.pure ?_) (fun hr => ?_)
  · rintro f ⟨d, h, _⟩; exact Or.inl ⟨h.active, h.files⟩
  have hr : r = true := by simpa using hr
  subst hr
  refine Holds.each ?_
  rintro g1 ⟨d, hg1, hnew⟩
  have hnew := hnew rfl
  refine Holds.bind ((removeBackup_holds (e := e) filesOld_only (some old) (f0 .backup) (some d)
    (Crash e f0 old sb) (fun f b h => crash_old how h)).conseq (by rintro f rfl; exact hg1)
    (fun _ _ h => h) (fun _ h => h)) ?_
  intro r
  refine Holds.ite (fun _ => Holds.pure ?_) (fun hr => ?_)
  · rintro f ⟨b, h, _⟩; exact Or.inl ⟨h.active, h.files⟩
  have hr : r = true := by simpa using hr
  subst hr
  refine Holds.bind ((rename_ab (e := e) filesOld_only hx old (some d) (Crash e f0 old sb)
    (fun f h => crash_window how hnew h)).conseq
      (by rintro f ⟨b, h, hb⟩; rw [hb rfl] at h; exact h) (fun _ _ h => h) (fun _ h => h)) ?_
  intro r
  refine Holds.ite (fun hr => Holds.pure ?_) (fun hr => ?_)
  · rintro f (⟨rfl, _⟩ | ⟨_, h, _⟩)
    · exact absurd hr (by decide)
    · exact Or.inl ⟨h.active, h.files⟩
  refine Holds.bind ((rename_sa (e := e) filesOld_only hx d (some old) (Crash e f0 old sb)
    (fun f h => crash_new how hnew h)).conseq
      (by rintro f (⟨_, h⟩ | ⟨h, _⟩); exacts [h, absurd h hr]) (fun _ _ h => h) (fun _ h => h)) ?_
  intro r
  refine Holds.ite (fun hr => ?_) (fun hr => ?_)
  · -- the second rename failed
    refine Holds.bind (Q := fun _ f => Failed e f0 old sb f) ?_ (fun _ => Holds.pure (fun f h => h))
    refine Holds.classical (RenameFails e) (fun hf => ?_) (fun hf => ?_)
    · refine (rename_ba (e := e) filesOld_only hx old (some d) (Crash e f0 old sb)
        (fun f h => crash_old how h)).conseq ?_ ?_ (fun _ h => h)
      · rintro f (⟨rfl, _⟩ | ⟨_, h, _⟩)
        · exact absurd hr (by decide)
        · exact h
      · rintro a f (⟨_, h⟩ | ⟨_, h, _⟩)
        · exact Or.inl ⟨h.active, h.files⟩
        · exact Or.inr (Or.inr (Or.inl ⟨Or.inl ⟨h.active, h.backup⟩, how f h.files, hf⟩))
    · refine Holds.vac ?_
      rintro f (⟨rfl, _⟩ | ⟨_, _, h⟩)
      · exact absurd hr (by decide)
      · exact hf h
  refine Holds.bind ((install_at (e := e) hpl (some d) (some old) none (Crash e f0 old sb)
    (fun f h => crash_new (fun _ h => h) hnew h)).conseq
      (by rintro f (⟨_, h⟩ | ⟨h, _⟩); exacts [h.weaken how, absurd h hr]) (fun _ _ h => h) (fun _ h => h)) ?_
  intro r
  refine Holds.ite (fun hr => ?_) (fun hr => ?_)
  · -- the installation failed
    have hr : r = false := by simpa using hr
    subst hr
    refine Holds.bind (Q := fun _ f => Failed e f0 old sb f) ?_ (fun _ => Holds.pure (fun f h => h))
    refine Holds.classical (InstallFails e) (fun hf => ?_) (fun hf => Holds.vac (fun f h => hf (h.2.2 rfl)))
    unfold rollback
    refine Holds.bind ((rename_as (e := e) filesWhole_only hx d (some old) (Crash e f0 old sb)
      (fun f h => crash_window (fun _ h => h) hnew h)).conseq (fun f h => h.1) (fun _ _ h => h) (fun _ h => h)) ?_
    intro r
    refine Holds.ite (fun hr => Holds.pure ?_) (fun hr => ?_)
    · rintro f (⟨rfl, _⟩ | ⟨_, h, h'⟩)
      · exact absurd hr (by decide)
      · exact Or.inr (Or.inr (Or.inl ⟨Or.inr ⟨d, h.active, hnew⟩, h.files, h'⟩))
    refine Holds.bind ((rename_ba (e := e) filesWhole_only hx old (some d) (Crash e f0 old sb)
      (fun f h => crash_old (fun _ h => h) h)).conseq
        (by rintro f (⟨_, h⟩ | ⟨rfl, _⟩); exacts [h, absurd (by decide) hr]) (fun _ _ h => h) (fun _ h => h)) ?_
    intro r
    refine Holds.ite (fun hr => Holds.pure ?_) (fun hr => ?_)
    · rintro f (⟨rfl, _⟩ | ⟨_, h, h'⟩)
      · exact absurd hr (by decide)
      · exact Or.inr (Or.inr (Or.inl ⟨Or.inl ⟨h.active, h.backup⟩, h.files, h'⟩))
    refine Holds.bind ((install_at (e := e) hpl (some old) none (some d) (Crash e f0 old sb)
      (fun f h => crash_old (fun _ h => h) h)).conseq
        (by rintro f (⟨_, h⟩ | ⟨rfl, _⟩); exacts [h, absurd (by decide) hr]) (fun _ _ h => h) (fun _ h => h)) ?_
    intro r
    refine Holds.pure ?_
    rintro f ⟨h, _⟩
    exact Or.inr (Or.inl ⟨h.active, h.files, hf⟩)
  have hr : r = true := by simpa using hr
  subst hr
  refine Holds.bind (Q := fun a f => a = e ∧ At f0 (FilesNew e f0) (some d) (some old) none f)
    (Holds.ask (fun f h => ⟨rfl, ⟨h.1.active, h.1.backup, h.1.sandbox, h.1.ftmp, h.2.1 rfl⟩⟩)) ?_
  intro a
  refine Holds.each ?_
  rintro g ⟨rfl, hg⟩
  refine Holds.ite (fun hp => Holds.pure ?_) (fun hp => ?_)
  · rintro f rfl
    exact ⟨⟨d, hg.active, hnew⟩, hg.sandbox, hg.ftmp, hg.files, fun _ => hg.backup⟩
  · refine Holds.bind ((remove_backup (e := a) filesNew_only (some d) (some old) none rfl (Crash a f0 old sb)
      (fun f b h => crash_new (fun _ h => filesWhole_of_new h) hnew h)).conseq (by rintro f rfl; exact hg)
        (fun _ _ h => h) (fun _ h => h)) ?_
    intro r
    refine Holds.pure ?_
    rintro f ⟨b', h, h1, h2⟩
    by_cases hr : r = 0
    · subst hr
      exact ⟨⟨d, h.active, hnew⟩, h.sandbox, h.ftmp, h.files, fun h' => absurd h' hp⟩
    · have : (r == 0) = false := by simpa using hr
      rw [this]
      exact Or.inr (Or.inr (Or.inr ⟨⟨d, h.active, hnew⟩, h.files, h2 hr⟩))

theorem removeTmp_holds (l : Loc) (g : FS) :
    Holds e (· = g) (removeTmp l) (fun r f => Frame l g f ∧ (r = false → CleanupFails e)) (Frame l g) := by
  unfold removeTmp
  refine Holds.bind (Q := fun f0 f => f0 = g ∧ f = g) (Holds.look (fun _ h => ⟨h, h⟩)) ?_
  intro f0
  refine Holds.each ?_
  rintro g ⟨rfl, rfl⟩
  refine Holds.ite (fun _ => Holds.pure (by rintro f rfl; exact ⟨Frame.refl _ _, by simp⟩)) (fun hn => ?_)
  refine Holds.bind (Q := fun r f => Frame l g f ∧ (r ≠ 0 → CleanupFails e)) ?_ ?_
  · have h1 := (removeDir_holds (e := e) l g).conseq (P := (· = g)) (by rintro f rfl; exact Frame.refl _ _)
      (fun _ _ h => h) (T := Frame l g) (fun _ h => h)
    refine Holds.classical (CleanupFails e) (fun hf => ?_) (fun hf => ?_)
    · exact h1.conseq (fun _ h => h) (fun r f h => ⟨h.1, fun _ => hf⟩) (fun _ h => h)
    · have hs : (g l).isSome := by
        cases h : g l with
        | none => rw [h] at hn; exact absurd rfl hn
        | some d => rfl
      have h2 := removeDir_never (e := e) l g hs
        (not_cleanupFails hf (by simp)) (not_cleanupFails hf (by simp)) (not_cleanupFails hf (by simp))
        (not_cleanupFails hf (by simp))
      exact (h1.and h2).conseq (fun _ h => h) (fun r f h => ⟨h.1.1, fun hr => absurd h.2 hr⟩) (fun _ h => h)
  · intro r
    refine Holds.pure (fun f h => ⟨h.1, fun hr => h.2 (by simpa using hr)⟩)

theorem commit_holds (hpl : PlainFinals e) (hx : NoExdev e)
    (h0 : f0 .active = some old) (hs : f0 .sandbox = some sb) :
    Holds e (· = f0) commit
      (fun r f => if r then (∃ d, f .active = some d ∧ New e sb d) ∧ FilesNew e f0 f ∧
          (e.savePrevious = true → f .backup = some old) else Failed e f0 old sb f)
      (Crash e f0 old sb) := by
  unfold commit
  refine Holds.bind (commitSandbox_holds hpl hx h0 hs) ?_
  intro r
  refine Holds.ite (fun hr => Holds.pure ?_) (fun hr => ?_)
  · intro f h
    have : r = false := by simpa using hr
    subst this; exact h
  have : r = true := by simpa using hr
  subst this
  simp only [if_true]
  refine Holds.each ?_
  rintro g ⟨⟨d, ha, hn⟩, hsb, hft, hnew, hbk⟩
  have keep : ∀ {l : Loc} {f f' : FS}, l = .sandbox ∨ l = .ftmp → Frame l f f' →
      (f' .active = f .active ∧ f' .backup = f .backup ∧ f' .inst = f .inst) := by
    rintro l f f' (rfl | rfl) h <;>
    exact ⟨h _ (by decide), h _ (by decide), h _ (by decide)⟩
  have good : ∀ f : FS, (f .active = g .active ∧ f .backup = g .backup ∧ f .inst = g .inst) →
      (∃ d, f .active = some d ∧ New e sb d) ∧ FilesNew e f0 f ∧ (e.savePrevious = true → f .backup = some old) := by
    rintro f ⟨h1, h2, h3⟩
    exact ⟨⟨d, by rw [h1]; exact ha, hn⟩, filesNew_only g f h3.symm hnew, fun h => by rw [h2]; exact hbk h⟩
  have crash : ∀ f : FS, (f .active = g .active ∧ f .backup = g .backup ∧ f .inst = g .inst) →
      Crash e f0 old sb f := by
    intro f hf
    exact ⟨Or.inl (Or.inr (good f hf).1), filesWhole_of_new (good f hf).2.1⟩
  refine Holds.bind ((removeTmp_holds (e := e) .sandbox g).conseq (fun _ h => h) (fun _ _ h => h)
    (fun f h => crash f (keep (Or.inl rfl) h))) ?_
  intro r
  refine Holds.ite (fun hr => Holds.pure ?_) (fun hr => ?_)
  · rintro f ⟨h, h'⟩
    have hg := good f (keep (Or.inl rfl) h)
    have hr : r = false := by simpa using hr
    exact Or.inr (Or.inr (Or.inr ⟨hg.1, hg.2.1, h' hr⟩))
  · refine Holds.each ?_
    rintro g' ⟨h, _⟩
    have hg' := keep (Or.inl rfl) h
    have hfr : ∀ f, Frame .ftmp g' f → (f .active = g .active ∧ f .backup = g .backup ∧ f .inst = g .inst) := by
      intro f hf
      have := keep (Or.inr rfl) hf
      exact ⟨this.1.trans hg'.1, this.2.1.trans hg'.2.1, this.2.2.trans hg'.2.2⟩
    refine (removeTmp_holds (e := e) .ftmp g').conseq (fun _ h => h) ?_ (fun f h => crash f (hfr f h))
    rintro r f ⟨hf, hr⟩
    have hg := good f (hfr f hf)
    cases r with
    | true => exact hg
    | false => exact Or.inr (Or.inr (Or.inr ⟨hg.1, hg.2.1, hr rfl⟩))

end

end Verif.Commit
