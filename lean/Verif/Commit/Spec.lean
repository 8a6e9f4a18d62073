import Verif.Commit.Model
/-!
# Specification: what a commit may leave behind
-/
namespace Verif.Commit.Spec

/-- The store a commit is to install: the sandbox with the next commit number. -/
def New (e : Env) (sb d : Dir) : Prop :=
  ∀ n, d.get n = if n = ⟨0, 0⟩ then some (e.next (sb.get ⟨0, 0⟩)) else sb.get n

/-- The active store is complete: the old or the new one. -/
def Complete (e : Env) (old sb : Dir) (f : FS) : Prop :=
  f .active = some old ∨ ∃ d, f .active = some d ∧ New e sb d

/-- The window of the exchange: no active store, but complete copies of the old
and of the new one in their places. -/
def Window (e : Env) (old sb : Dir) (f : FS) : Prop :=
  f .active = none ∧ f .backup = some old ∧ ∃ d, f .sandbox = some d ∧ New e sb d

/-- The content of an installed file. -/
def installed (f : FS) (n : Name) : Option Bytes := (f .inst).bind (·.get n)

/-- A final file that the commit installs. -/
def Installs (e : Env) (f0 : FS) (n : Name) (c : Bytes) : Prop :=
  n ∈ e.finals ∧ (f0 .ftmp).bind (·.get n) = some c ∧ ¬ (e.disableHomedirs = true ∧ n = e.homedirs)

/-- Every installed file (other than `*.tmp`) is complete: as it was, or as the
commit makes it. -/
def FilesWhole (e : Env) (f0 f : FS) : Prop :=
  ∀ n, n.tmps = 0 → installed f n = installed f0 n ∨ ∃ c, Installs e f0 n c ∧ installed f n = some c

/-- Every file is installed, and nothing else changed. -/
def FilesNew (e : Env) (f0 f : FS) : Prop :=
  ∀ n, n.tmps = 0 →
    (∀ c, Installs e f0 n c → installed f n = some c) ∧
    ((∀ c, ¬ Installs e f0 n c) → installed f n = installed f0 n)

/-- No file changed. -/
def FilesOld (f0 f : FS) : Prop := ∀ n, n.tmps = 0 → installed f n = installed f0 n

/-- Directories are renamed and not copied: `rename` never fails with `EXDEV`. -/
def NoExdev (e : Env) : Prop := ∀ k, e.out .rename k ≠ .exdev

/-- A kind of system call never fails. -/
def Never (e : Env) (c : Call) : Prop := ∀ k, e.out c k = .ok

/-- The names of final files are not names of temporary files. -/
def PlainFinals (e : Env) : Prop := ∀ n ∈ e.finals, n.tmps = 0

/-- Some call of the installation of the final files can fail. -/
def InstallFails (e : Env) : Prop :=
  ∃ c ∈ [Call.mkpath, .openR, .openW, .read, .write, .fsync, .close, .renameFile, .reload], ¬ Never e c

/-- Some renaming of a directory can fail. -/
def RenameFails (e : Env) : Prop := ¬ Never e .rename

/-- Some call of the removal of a directory can fail. -/
def CleanupFails (e : Env) : Prop :=
  ∃ c ∈ [Call.scandir, .stat, .unlink, .rmdir], ¬ Never e c

end Verif.Commit.Spec
