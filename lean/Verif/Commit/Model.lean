import Verif.Bytes
/-!
# Committing a sandbox

Models `semanage_commit_sandbox` and the file operations it is made of
(libsemanage/src/semanage_store.c:671-970, 1615-1830), and the removal of
temporary directories at the end of a commit
(libsemanage/src/direct_api.c:340-366, 1653-1656), one system call at a time:
every system call either changes the file system and adds the new state to the
trace, or fails. A crash of the process can happen after any system call, so the
states of the trace are the states a crash can leave behind.

Simplifications:
* A directory tree is the list of its regular files (names stand for paths
  relative to the top); subdirectories are not represented.
* A crash is a crash of the process, not of the machine: what `fsync` and
  `syncfs` are for is not modelled, only that they can fail.
* A failing `write` writes nothing. Labels, modes and locks other than the
  failure to take the lock are not modelled.
* The text of the commit number is abstract (`Env.next`).
-/
namespace Verif.Commit

/-- A file name; `x.tmp` is a name, too. -/
structure Name where
  base : Nat
  tmps : Nat := 0
  deriving DecidableEq, Repr

/-- The name with `.tmp` appended (semanage_store.c:681). -/
def Name.tmp (n : Name) : Name := { n with tmps := n.tmps + 1 }

/-- A directory: its files. -/
abbrev Dir := List (Name × Bytes)

/-- The content of a file. -/
def Dir.get (d : Dir) (n : Name) : Option Bytes := d.lookup n

/-- The directory without a file. -/
def Dir.del (d : Dir) (n : Name) : Dir := d.filter (fun x => x.1 ≠ n)

/-- Write a file: in its place if it exists, else at the end. -/
def Dir.put (d : Dir) (n : Name) (c : Bytes) : Dir :=
  if d.any (fun x => x.1 = n) then d.map (fun x => if x.1 = n then (n, c) else x)
  else d ++ [(n, c)]

/-- The directories: the three stores (`SEMANAGE_ACTIVE`, `_PREVIOUS`, `_TMP`)
and the two places of the final files (`SEMANAGE_FINAL_TMP`, `_SELINUX`). -/
inductive Loc | active | backup | sandbox | ftmp | inst
  deriving DecidableEq, Repr

/-- The file system: `none` is a directory that does not exist. -/
abbrev FS := Loc → Option Dir

/-- Change one directory. -/
def FS.set (f : FS) (l : Loc) (d : Option Dir) : FS := fun x => if x = l then d else f x

/-- Outcome of a system call: success, `EXDEV`, or another error. -/
inductive Sys | ok | exdev | err
  deriving DecidableEq, Repr

/-- The system calls that can fail. -/
inductive Call
  | getSerial | openW | openR | read | write | fsync | close | renameFile
  | openDir | syncfs | lock | stat | scandir | mkdir | rename | unlink | rmdir
  | mkpath | reload
  deriving DecidableEq, Repr

/-- The environment: the outcome of each system call (by kind and by number of
calls before it), the text of the next commit number given that of the present
one, `save_previous`, `disable_genhomedircon`, whether the policy has to be
loaded, and the final files. -/
structure Env where
  out : Call → Nat → Sys
  next : Option Bytes → Bytes
  savePrevious : Bool
  disableHomedirs : Bool
  reload : Bool
  finals : List Name
  homedirs : Name

/-- File system, number of calls so far, and the states so far (newest first). -/
structure St where
  fs : FS
  step : Nat
  trace : List FS

/-- Programs. -/
def M (α : Type) := Env → St → α × St

/-- Sequencing. -/
def M.bind {α β} (m : M α) (k : α → M β) : M β := fun e s =>
  k (m e s).1 e (m e s).2

instance : Monad M where
  pure a := fun _ s => (a, s)
  bind := M.bind

/-- Read the environment. -/
def ask : M Env := fun e s => (e, s)

/-- Look at the file system. -/
def look : M FS := fun _ s => (s.fs, s)

/-- A system call with effect `f` when it succeeds. -/
def sys (c : Call) (f : FS → FS) : M Sys := fun e s =>
  match e.out c s.step with
  | .ok => (.ok, { fs := f s.fs, step := s.step + 1, trace := f s.fs :: s.trace })
  | r => (r, { s with step := s.step + 1 })

/-- The outcome of a system call that cannot succeed: `EXDEV` or not. -/
def sysFail (c : Call) : M Sys := fun e s =>
  (if e.out c s.step = .exdev then .exdev else .err, { s with step := s.step + 1 })

/-- The same, as success or failure. -/
def sysOk (c : Call) (f : FS → FS) : M Bool := do
  let r ← sys c f
  pure (r == .ok)

/-- Write a file of a directory. -/
def putFile (l : Loc) (n : Name) (c : Bytes) (f : FS) : FS := f.set l ((f l).map (·.put n c))

/-- The loop of `semanage_copy_file` (semanage_store.c:701-709): `done` has been
written, `rest` is left. Returns whether the copy is complete. -/
def copyLoop (l : Loc) (t : Name) (done rest : Bytes) : M Bool := do
  if !(← sysOk .read id) then pure false
  else
    match rest with
    | [] => pure true
    | b :: bs =>
      let chunk := (b :: bs).take 4192
      if !(← sysOk .write (putFile l t (done ++ chunk))) then pure false
      else copyLoop l t (done ++ chunk) ((b :: bs).drop 4192)
termination_by rest.length
decreasing_by simp only [List.length_drop, List.length_cons]; omega

/-- `rename(tmp, dst)` of a file (semanage_store.c:725). -/
def moveFile (l : Loc) (n : Name) (f : FS) : FS :=
  match (f l).bind (·.get n.tmp) with
  | some c => f.set l ((f l).map (fun d => (d.del n.tmp).put n c))
  | none => f

/-- `semanage_copy_file` (semanage_store.c:673-732). Opening the temporary file
fails when the directory does not exist. -/
def copyFile (src dst : Loc) (n : Name) (sync : Bool) : M Bool := do
  let f ← look
  match (f src).bind (·.get n) with
  | none => pure false
  | some c =>
    if !(← sysOk .openR id) then pure false
    else if (f dst).isNone then pure false
    else if !(← sysOk .openW (putFile dst n.tmp [])) then pure false
    else do
      let ok ← copyLoop dst n.tmp [] c
      let s ← if sync then sysOk .fsync id else pure true
      let k ← sysOk .close id
      if ok && s && k then sysOk .renameFile (moveFile dst n)
      else pure false

/-- The loop of `semanage_copy_dir_flags` over the names of a directory
(semanage_store.c:781-817). -/
def copyAll (src dst : Loc) : List Name → M Bool
  | [] => pure true
  | n :: ns => do
    if !(← sysOk .stat id) then pure false
    else if !(← copyFile src dst n false) then pure false
    else copyAll src dst ns

/-- `semanage_copy_dir_flags` with `flag` 1 (semanage_store.c:760-826). -/
def copyDir (src dst : Loc) : M Bool := do
  let f ← look
  match f src with
  | none => pure false
  | some d =>
    if !(← sysOk .scandir id) then pure false
    else do
      let made ← if (f dst).isNone then sysOk .mkdir (·.set dst (some [])) else pure true
      if made then copyAll src dst (d.map (·.1)) else pure false

/-- `unlink`. -/
def delFile (l : Loc) (n : Name) (f : FS) : FS := f.set l ((f l).map (·.del n))

/-- The loop of `semanage_remove_directory` (semanage_store.c:838-859). -/
def removeAll (l : Loc) : List Name → M Int
  | [] => pure 0
  | n :: ns => do
    if !(← sysOk .stat id) then pure (-2)
    else if !(← sysOk .unlink (delFile l n)) then pure (-3)
    else removeAll l ns

/-- `semanage_remove_directory` (semanage_store.c:831-865). -/
def removeDir (l : Loc) : M Int := do
  let f ← look
  match f l with
  | none => pure (-1)
  | some d =>
    if !(← sysOk .scandir id) then pure (-1)
    else do
      let r ← removeAll l (d.map (·.1))
      if r ≠ 0 then pure r
      else if ← sysOk .rmdir (·.set l none) then pure 0
      else pure (-4)

/-- `rename(src, dst)` of a directory: the source has to exist, the destination
has to be absent or empty. Two file systems (`EXDEV`) are noticed before that. -/
def renameDir (src dst : Loc) : M Sys := do
  let f ← look
  if (f src).isNone || ((f dst).any (fun d => !d.isEmpty)) then sysFail .rename
  else sys .rename (fun f => (f.set dst (f src)).set src none)

/-- `semanage_rename` (semanage_store.c:734-748). -/
def semRename (src dst : Loc) : M Int := do
  match ← renameDir src dst with
  | .ok => pure 0
  | .err => pure (-1)
  | .exdev =>
    if !(← copyDir src dst) then pure (-1)
    else removeDir src

/-- The loop of `semanage_install_final_tmp` (semanage_store.c:1630-1657). -/
def installAll : List Name → M Bool
  | [] => pure true
  | n :: ns => do
    let e ← ask
    let f ← look
    if ((f .ftmp).bind (·.get n)).isNone then installAll ns
    else if e.disableHomedirs && n == e.homedirs then installAll ns
    else if !(← sysOk .mkpath (fun f => if (f .inst).isNone then f.set .inst (some []) else f)) then
      pure false
    else if !(← copyFile .ftmp .inst n true) then pure false
    else installAll ns

/-- `semanage_install_final_tmp` (semanage_store.c:1615-1696). -/
def installFinal : M Bool := do
  let e ← ask
  if !(← installAll e.finals) then pure false
  else if !e.reload then pure true
  else sysOk .reload id

/-- The name of the file with the commit number. -/
def commitNum : Name := ⟨0, 0⟩

/-- The first part of `semanage_commit_sandbox`, up to the lock
(semanage_store.c:1717-1768). -/
def prepare : M Bool := do
  let e ← ask
  if !(← sysOk .getSerial id) then pure false
  else do
    let f ← look
    let num := e.next ((f .sandbox).bind (·.get commitNum))
    if (f .sandbox).isNone then pure false
    else if !(← sysOk .openW (putFile .sandbox commitNum [])) then pure false
    else if !(← sysOk .write (putFile .sandbox commitNum num)) then pure false
    else if !(← sysOk .close id) then pure false
    else if !(← sysOk .openDir id) then pure false
    else if !(← sysOk .syncfs id) then pure false
    else sysOk .lock id

/-- Removal of the old backup (semanage_store.c:1770-1782). -/
def removeBackup : M Bool := do
  let f ← look
  if !(← sysOk .stat id) then pure false
  else if (f .backup).isSome then do
    let r ← removeDir .backup
    pure (r == 0)
  else pure true

/-- The restoration after a failed installation (semanage_store.c:1804-1822). -/
def rollback : M Unit := do
  let r ← semRename .active .sandbox
  if r < 0 then pure ()
  else do
    let r ← semRename .backup .active
    if r < 0 then pure ()
    else do
      let _ ← installFinal
      pure ()

/-- `semanage_commit_sandbox` (semanage_store.c:1703-1830): whether it
succeeded. -/
def commitSandbox : M Bool := do
  if !(← prepare) then pure false
  else if !(← removeBackup) then pure false
  else if (← semRename .active .backup) = -1 then pure false
  else if (← semRename .sandbox .active) = -1 then do
    let _ ← semRename .backup .active
    pure false
  else if !(← installFinal) then do
    rollback
    pure false
  else do
    let e ← ask
    if e.savePrevious then pure true
    else do
      let r ← removeDir .backup
      pure (r == 0)

/-- `semanage_remove_tmps` without a commit error (direct_api.c:340-366): a
directory that does not exist is no error. -/
def removeTmp (l : Loc) : M Bool := do
  let f ← look
  if (f l).isNone then pure true
  else do
    let r ← removeDir l
    pure (r == 0)

/-- The end of `semanage_direct_commit` (direct_api.c:1630-1660), for a policy
that has to be installed: the result of `semanage_commit`. -/
def commit : M Bool := do
  if !(← commitSandbox) then pure false
  else if !(← removeTmp .sandbox) then pure false
  else removeTmp .ftmp

/-- `semanage_make_sandbox` (semanage_store.c:935-973). -/
def makeSandbox : M Bool := do
  let f ← look
  let removed ← if (f .sandbox).isSome then do
      let r ← removeDir .sandbox
      pure (r == 0)
    else pure true
  if !removed then pure false
  else if !(← sysOk .mkdir (·.set .sandbox (some []))) then pure false
  else if ← copyDir .active .sandbox then pure true
  else do
    let _ ← removeDir .sandbox
    pure false

/-- The part of `semanage_create_store` about the active store, with `create`
(semanage_store.c:532-549). -/
def createStore : M Bool := do
  let f ← look
  if (f .active).isSome then pure true
  else sysOk .mkdir (·.set .active (some []))

/-- Run a program from a file system: result, final state and all the states
in between, the first included. -/
def run {α} (m : M α) (e : Env) (f : FS) : α × St := m e ⟨f, 0, [f]⟩

end Verif.Commit
