import Verif.Context.Props

/-!
# Model of `selinux_restorecon`

libselinux/src/selinux_restorecon.c and is_customizable_type.c.

Paths and contexts are lists of bytes.  What is given from outside is in `Env`: the lookup of labels (C60), the translation of contexts, which
calls on files fail, the list of customizable types.  The file system does not change during a call but by the call, so that `lstat64` is a
function.  The walk over the files is a tree, as `fts_read` gives it: with `FTS_PHYSICAL` each directory before what is in it; that it gives
them once more afterwards (`FTS_DP`) has no effect.  Allocations succeed.  The progress display and the number of files are left out.
-/

namespace Verif.Restore
open Verif.Context (Res Handle contextNew contextStr setter typeGet userGet roleGet allMem)

/-! ## The list of excluded directories -/

/-- `struct edir`, selinux_restorecon.c:50-55; `size` is the length of the string. -/
structure Edir where
  dir : Bytes
  caller : Bool
deriving DecidableEq

/-- `remove_exclude`, selinux_restorecon.c:133-147: the last entry takes the place of the first one with that name. -/
def removeExclude (d : Bytes) : List Edir → List Edir
  | [] => []
  | x :: l =>
    if d = x.dir ∧ x.caller = false then (match l.getLast? with | none => [] | some y => y :: l.dropLast)
    else x :: removeExclude d l

/-- The loop that leaves out slashes at the end, selinux_restorecon.c:183-184. -/
def trimEnd (d : Bytes) : Bytes :=
  if h : d.length > 1 ∧ d.getLast? = some 47 then trimEnd d.dropLast else d
termination_by d.length
decreasing_by simp; omega

/-- `add_exclude`, selinux_restorecon.c:149-201: whether it succeeds, and the list. -/
def addExclude (d : Bytes) (who : Bool) (l : List Edir) : Bool × List Edir :=
  if l.any (fun x => d = x.dir) then (true, l)
  else if d.head? ≠ some 47 then (false, l)
  else (true, l ++ [⟨trimEnd d, who⟩])

/-- `check_excluded`, selinux_restorecon.c:203-216. -/
def checkExcluded (l : List Edir) (file : Bytes) : Bool :=
  l.any fun x => decide (file.take x.dir.length = x.dir) &&
    (decide (file.length = x.dir.length) || decide (file[x.dir.length]? = some 47))

/-- `selinux_restorecon_set_exclude_list`, selinux_restorecon.c:1447-1464; `missing` says for which paths `lstat` fails with an error
other than EACCES. -/
def setExcludeList (missing : Bytes → Bool) : List Bytes → List Edir → List Edir
  | [], l => l
  | d :: ds, l => if missing d then l else setExcludeList missing ds (addExclude d true l).2

/-- The loop over /proc/mounts, selinux_restorecon.c:263-308: mount points and whether they have the option `seclabel`. -/
def excludeMounts : List (Bytes × Bool) → List Edir → List Edir
  | [], l => l
  | (d, lab) :: ms, l => excludeMounts ms (if lab then removeExclude d l else (addExclude d false (removeExclude d l)).2)

/-- `selinux_restorecon_set_alt_rootpath`, selinux_restorecon.c:1467-1487. -/
def trimRoot (d : Bytes) : Bytes :=
  if h : d.getLast? = some 47 then trimRoot d.dropLast else d
termination_by d.length
decreasing_by
  cases d with
  | nil => simp at h
  | cons a t => simp

/-! ## What surrounds the call -/

/-- The result of `selabel_lookup_raw`. -/
inductive Look
  | found (con : Bytes)
  | noMatch
  | error
deriving DecidableEq

/-- A file as `fts_read` gives it: `mode` is the kind of file. -/
structure Ent where
  path : Bytes
  mode : Nat
  dev : Nat
  ino : Nat
deriving DecidableEq

/-- The identity of a file. -/
abbrev Ent.key (e : Ent) : Nat × Nat := (e.dev, e.ino)

/-- `fts_info`: `unreadable` is a directory for which `FTS_DNR` is given after `FTS_D`; `nostat` is `FTS_NS` or `FTS_ERR`; `cycle` is
`FTS_DC`. -/
inductive Info
  | dir
  | unreadable
  | nostat
  | cycle
  | other
deriving DecidableEq

/-- What `fts_read` gives. -/
inductive Tree
  | node (e : Ent) (info : Info) (kids : List Tree)

/-- Labels by device and inode, and the digests kept with directories. -/
structure World where
  label : Nat × Nat → Option Bytes
  digest : Bytes → Option Bytes

/-- What the functions are given. -/
structure Env where
  lookup : Bytes → Nat → Look
  specDigest : Bytes → Option Bytes
  partialMatch : Bytes → Bool
  custom : Option (List Bytes)
  toRaw : Bytes → Option Bytes
  canGet : Nat × Nat → Bool
  canSet : Nat × Nat → Bytes → Bool
  inoAt : Bytes → Option Nat
  root : Option Bytes
  excl : List Edir

/-- `struct rest_flags`, selinux_restorecon.c:72-90, and the members `ignore_digest` and `setrestorecondigest` of `struct rest_state`. -/
structure Flags where
  nochange : Bool := false
  verbose : Bool := false
  specctx : Bool := false
  userRole : Bool := false
  addAssoc : Bool := false
  xdev : Bool := false
  abortOnError : Bool := false
  conflictError : Bool := false
  countErrors : Bool := false
  ignoreDigest : Bool := false
  setDigest : Bool := false
  sysfs : Bool := false
  devNum : Nat := 0

/-- `file_spec_t`, selinux_restorecon.c:421-426. -/
structure Fs where
  ino : Nat
  con : Bytes
  file : Bytes
deriving DecidableEq

/-- A message of `verbose`, selinux_restorecon.c:776-783. -/
structure Msg where
  updated : Bool
  path : Bytes
  old : Option Bytes
  new : Bytes
deriving DecidableEq

/-- `struct rest_state` and what changes during a call. -/
structure St where
  w : World
  assoc : Nat → List Fs := fun _ => []
  log : List Msg := []
  heads : List (Bytes × Bytes) := []
  error : Bool := false
  skipped : Nat := 0
  abort : Bool := false

/-! ## One file -/

/-- `is_context_customizable`, is_customizable_type.c:65-98: whether it returns 1. -/
def customizable (custom : Option (List Bytes)) (con : Bytes) : Bool :=
  match custom with
  | none => false
  | some l => match contextNew true allMem con with
    | .ok c => (match typeGet c with
      | none => false
      | some t => l.any (· = t))
    | _ => false

/-- `strcmp` of two components is not 0; `none`: one of them is NULL. -/
def differ : Option Bytes → Option Bytes → Option Bool
  | some a, some b => some (decide (a ≠ b))
  | _, _ => none

/-- `compare_portions`, selinux_restorecon.c:582-643: the context to be set, if any. -/
def comparePortions (cur new : Bytes) (userRole : Bool) : Res (Option Bytes) :=
  match contextNew true allMem cur with
  | .err => .err
  | .ub => .ub
  | .ok c => match contextNew true allMem new with
    | .err => .err
    | .ub => .ub
    | .ok n => match differ (typeGet c) (typeGet n) with
      | none => .ub
      | some dt =>
        let r1 := if dt then setter true c (.type (typeGet n)) else (c, true)
        if r1.2 = false then .err
        else
          let fin (h : Handle) (update : Bool) : Res (Option Bytes) :=
            if update then (match contextStr true h with
              | .ok s => .ok (some s)
              | .err => .err
              | .ub => .ub)
            else .ok none
          if userRole then
            match differ (userGet r1.1) (userGet n) with
            | none => .ub
            | some du =>
              let r2 := if du then setter true r1.1 (.user (userGet n)) else (r1.1, true)
              if r2.2 = false then .err
              else match differ (roleGet r2.1) (roleGet n) with
                | none => .ub
                | some dr =>
                  let r3 := if dr then setter true r2.1 (.role (roleGet n)) else (r2.1, true)
                  if r3.2 = false then .err else fin r3.1 (dt || du || dr)
          else fin r1.1 dt

/-- What is done to a file with the present context `cur`, selinux_restorecon.c:733-768: the context to be set, if any. -/
def decision (env : Env) (fl : Flags) (cur : Option Bytes) (new : Bytes) : Res (Option Bytes) :=
  match cur with
  | none => .ok (some new)
  | some c =>
    if c = new then .ok none
    else if fl.specctx then .ok (some new)
    else if customizable env.custom c then .ok none
    else comparePortions c new fl.userRole

/-- The bucket of an inode, selinux_restorecon.c:453. -/
def bucket (ino : Nat) : Nat := (ino + ino / 2 ^ 16) % 2 ^ 16

/-- What `filespec_add` returns. -/
inductive Added
  | added
  | present
  | failed
deriving DecidableEq

/-- The loop of `filespec_add` over a bucket, selinux_restorecon.c:454-510. -/
def addBucket (env : Env) (fl : Flags) (ino : Nat) (con file : Bytes) : List Fs → Added × List Fs
  | [] => (.added, [⟨ino, con, file⟩])
  | f :: l =>
    if ino = f.ino then
      if env.inoAt f.file ≠ some ino then (.present, ⟨f.ino, con, file⟩ :: l)
      else if f.con = con then (.present, f :: l)
      else (if fl.conflictError then .failed else .present, ⟨f.ino, f.con, file⟩ :: l)
    else if ino > f.ino then (.added, ⟨ino, con, file⟩ :: f :: l)
    else ((addBucket env fl ino con file l).1, f :: (addBucket env fl ino con file l).2)

/-- `filespec_add`, selinux_restorecon.c:436-529. -/
def filespecAdd (env : Env) (fl : Flags) (e : Ent) (con : Bytes) (t : Nat → List Fs) : Added × (Nat → List Fs) :=
  let r := addBucket env fl e.ino con e.path (t (bucket e.ino))
  (r.1, fun h => if h = bucket e.ino then r.2 else t h)

/-- The path that is looked up, selinux_restorecon.c:653-671. -/
def lookupPath (root : Option Bytes) (path : Bytes) : Option Bytes :=
  match root with
  | none => some path
  | some r =>
    if path.take r.length ≠ r then none
    else if path.drop r.length = [] then some [47] else some (path.drop r.length)

/-- A label is written. -/
def World.setLabel (w : World) (k : Nat × Nat) (c : Bytes) : World :=
  { w with label := fun k' => if k' = k then some c else w.label k' }

/-- The message of `verbose` for a file, selinux_restorecon.c:776-783. -/
def St.tell (s : St) (fl : Flags) (e : Ent) (old : Option Bytes) (c : Bytes) : St :=
  if fl.verbose then { s with log := s.log ++ [⟨!fl.nochange, e.path, old, c⟩] } else s

/-- The part of `restorecon_sb` after the association, selinux_restorecon.c:722-808: whether it fails, and the state; `none` is undefined
behaviour.  `lsetfilecon` translates the context, lsetfilecon.c:28-41. -/
def relabel (env : Env) (fl : Flags) (e : Ent) (new : Bytes) (s : St) : Option (Bool × St) :=
  if env.canGet e.key = false then some (true, s)
  else match decision env fl (s.w.label e.key) new with
    | .ub => none
    | .err => some (true, s)
    | .ok none => some (false, s)
    | .ok (some c) =>
      if fl.nochange then some (false, s.tell fl e (s.w.label e.key) c)
      else match env.toRaw c with
        | none => some (true, s)
        | some raw =>
          if env.canSet e.key raw = false then some (true, s)
          else some (false, { s with w := s.w.setLabel e.key raw }.tell fl e (s.w.label e.key) c)

/-- `restorecon_sb`, selinux_restorecon.c:645-808. -/
def restoreconSb (env : Env) (fl : Flags) (e : Ent) (s : St) : Option (Bool × St) :=
  match lookupPath env.root e.path with
  | none => some (true, s)
  | some p => match env.lookup p e.mode with
    | .error => some (true, s)
    | .noMatch => some (false, s)
    | .found new =>
      if fl.addAssoc then
        let r := filespecAdd env fl e new s.assoc
        let s := { s with assoc := r.2 }
        match r.1 with
        | .failed => some (true, s)
        | .present => some (false, s)
        | .added => relabel env fl e new s
      else relabel env fl e new s

/-! ## The walk -/

/-- The part of the loop from `default:` on, selinux_restorecon.c:984-1025; PATH_MAX is 4096. -/
def entry (env : Env) (fl : Flags) (e : Ent) (s : St) : Option St :=
  if e.path.length ≥ 4096 then some { s with error := true, abort := true }
  else match restoreconSb env fl e s with
    | none => none
    | some (false, s) => some s
    | some (true, s) =>
      if fl.abortOnError then some { s with error := true, abort := true }
      else if fl.countErrors then some { s with skipped := s.skipped + 1 }
      else some { s with error := true }

/-- `check_context_match_for_dir` and what follows it, selinux_restorecon.c:817-863, 958-982; label_file.c:1954-2000: whether the directory
is skipped. -/
def digestStep (env : Env) (fl : Flags) (path : Bytes) (s : St) : Bool × St :=
  if fl.setDigest = false then (false, s)
  else
    let same := decide (env.specDigest path ≠ none ∧ s.w.digest path = env.specDigest path)
    if same && !fl.ignoreDigest then (true, s)
    else match env.specDigest path with
      | none => (false, s)
      | some d => if same || s.error then (false, s) else (false, { s with heads := s.heads ++ [(path, d)] })

mutual
/-- `selinux_restorecon_thread`, selinux_restorecon.c:881-1036, with one thread. -/
def walk (env : Env) (fl : Flags) : Tree → St → Option St
  | .node e info kids, s =>
    if s.abort then some s
    else if fl.xdev && decide (e.dev ≠ fl.devNum) then some s
    else match info with
      | .cycle => some { s with error := true, abort := true }
      | .nostat => some s
      | .other => entry env fl e s
      | .dir | .unreadable =>
        if fl.sysfs && !env.partialMatch e.path then some s
        else if checkExcluded env.excl e.path then some s
        else
          let d := digestStep env fl e.path s
          if d.1 then some d.2
          else match entry env fl e d.2 with
            | none => none
            | some s => if info = .dir then walks env fl kids s else some s
/-- The entries of a directory. -/
def walks (env : Env) (fl : Flags) : List Tree → St → Option St
  | [], s => some s
  | t :: ts, s => match walk env fl t s with
    | none => none
    | some s => walks env fl ts s
end

/-! ## The call -/

/-- What `selinux_restorecon` is given besides: whether to go down, whether digests are wanted, and of the file named whether it is a
directory and on a file system in memory. -/
structure Call where
  fl : Flags
  recurse : Bool
  wantDigest : Bool
  isDir : Bool
  inMemory : Bool

/-- The flags of the walk, selinux_restorecon.c:1099-1106, 1186-1188, 1211-1214. -/
def Call.flags (c : Call) : Flags := { c.fl with setDigest := c.wantDigest && c.isDir && !c.inMemory && !c.fl.sysfs }

/-- Digests are written, selinux_restorecon.c:1294-1308. -/
def writeDigests (hs : List (Bytes × Bytes)) (w : World) : World :=
  hs.foldl (fun w h => { w with digest := fun p => if p = h.1 then some h.2 else w.digest p }) w

/-- `selinux_restorecon_common`, selinux_restorecon.c:1038-1359, for a path that is there, with one thread: whether it fails (with errors
that are counted apart), and the state. -/
def restorecon (env : Env) (c : Call) (t : Tree) (w : World) : Option St :=
  match t with
  | .node e _ _ =>
    if c.recurse = false then
      if checkExcluded env.excl e.path then some { w := w }
      else match restoreconSb env c.fl e { w := w } with
        | none => none
        | some (r, s) => some { s with error := r }
    else match walk env c.flags t { w := w } with
      | none => none
      | some s =>
        if c.flags.setDigest && !c.flags.nochange && !s.error && decide (s.skipped = 0) then some { s with w := writeDigests s.heads s.w }
        else some s

end Verif.Restore
