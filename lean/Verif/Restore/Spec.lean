import Verif.Restore.Model

/-!
# Specification: what restoring the labels of files is
-/

namespace Verif.Restore

/-! ## Contexts -/

/-- A context by its components. -/
structure Parts where
  user : Bytes
  role : Bytes
  type : Bytes
  range : Option Bytes
deriving DecidableEq

/-- The context as it is written: the components with colons between them. -/
def Parts.text (p : Parts) : Bytes :=
  p.user ++ [58] ++ p.role ++ [58] ++ p.type ++ (match p.range with | none => [] | some g => 58 :: g)

/-- A string without colons, blanks, tabs and ends of lines. -/
def Plain (s : Bytes) : Prop := ∀ x ∈ s, x ≠ 58 ∧ x ≠ 32 ∧ x ≠ 9 ∧ x ≠ 10 ∧ x ≠ 13

/-- A context as a kernel has it: user, role and type are words; the range is not empty, has no tabs and ends of lines and at most two
colons. -/
structure Parts.Good (p : Parts) : Prop where
  user : Plain p.user
  role : Plain p.role
  type : Plain p.type
  some : p.type ≠ []
  range : ∀ g, p.range = .some g → g ≠ [] ∧ (∀ x ∈ g, x ≠ 9 ∧ x ≠ 10 ∧ x ≠ 13) ∧ g.count 58 ≤ 2

/-- The types that an administrator may set by hand. -/
def Custom (l : Option (List Bytes)) (type : Bytes) : Prop := ∃ ts, l = some ts ∧ type ∈ ts

open Classical in
/-- The context that a file with the context `cur` gets if the specification has `new`: all of it if it has none or if that is asked for; if
its type is customizable it stays; otherwise the type changes, and on demand user and role, and the range stays. -/
noncomputable def newLabel (fl : Flags) (custom : Option (List Bytes)) (cur : Option Parts) (new : Parts) : Parts :=
  match cur with
  | none => new
  | some c =>
    if fl.specctx = true then new
    else if Custom custom c.type then c
    else ⟨if fl.userRole = true then new.user else c.user, if fl.userRole = true then new.role else c.role, new.type, c.range⟩

/-! ## Files -/

/-- The path is an excluded directory or is below one. -/
def Excluded (l : List Edir) (path : Bytes) : Prop := ∃ x ∈ l, path = x.dir ∨ ∃ rest, path = x.dir ++ 47 :: rest

/-- A directory has been labelled by the same specifications before: it has their digest. -/
def UpToDate (env : Env) (w : World) (path : Bytes) : Prop := ∃ d, env.specDigest path = some d ∧ w.digest path = some d

/-- A file of the tree is on the file system that is labelled. -/
def OnDevice (fl : Flags) (e : Ent) : Prop := fl.xdev = true → e.dev = fl.devNum

/-- A directory is labelled and gone into: it is not excluded, it is not skipped for its digest, and in /sys a specification may match in
it. -/
def Entered (env : Env) (fl : Flags) (w : World) (e : Ent) : Prop :=
  OnDevice fl e ∧ (fl.sysfs = true → env.partialMatch e.path = true) ∧ ¬ Excluded env.excl e.path ∧
    ¬ (fl.setDigest = true ∧ fl.ignoreDigest = false ∧ UpToDate env w e.path)

/-- The files of a tree that are to be labelled. -/
inductive Reached (env : Env) (fl : Flags) (w : World) : Tree → Ent → Prop
  | file (e : Ent) (kids : List Tree) : OnDevice fl e → Reached env fl w (.node e .other kids) e
  | dir (e : Ent) (info : Info) (kids : List Tree) : (info = .dir ∨ info = .unreadable) → Entered env fl w e → Reached env fl w (.node e info kids) e
  | inside (e : Ent) (kids : List Tree) (k : Tree) (e' : Ent) : Entered env fl w e → k ∈ kids → Reached env fl w k e' →
      Reached env fl w (.node e .dir kids) e'

/-- The files of a tree. -/
inductive In : Tree → Ent → Prop
  | here (e : Ent) (info : Info) (kids : List Tree) : In (.node e info kids) e
  | inside (e : Ent) (info : Info) (kids : List Tree) (k : Tree) (e' : Ent) : k ∈ kids → In k e' → In (.node e info kids) e'

/-- There is no directory in the tree that leads back to one above it. -/
inductive Acyclic : Tree → Prop
  | node (e : Ent) (info : Info) (kids : List Tree) : info ≠ .cycle → (∀ k ∈ kids, Acyclic k) → Acyclic (.node e info kids)

/-- The path by which a file is looked up: the one below the alternate root, if there is one. -/
def Names (root : Option Bytes) (path p : Bytes) : Prop :=
  match root with
  | none => p = path
  | some r => ∃ rest, path = r ++ rest ∧ p = if rest = [] then [47] else rest

/-- The specifications have a context for a file. -/
def Specified (env : Env) (e : Ent) (new : Bytes) : Prop := ∃ p, Names env.root e.path p ∧ env.lookup p e.mode = .found new

/-- Labelling a file with the context `cur` fails: it is not below the alternate root, the lookup fails, its context cannot be read, or the one it
should get cannot be set. -/
inductive Fails (env : Env) (fl : Flags) (cur : Option Parts) (e : Ent) : Prop
  | outside : (¬ ∃ p, Names env.root e.path p) → Fails env fl cur e
  | lookup (p : Bytes) : Names env.root e.path p → env.lookup p e.mode = .error → Fails env fl cur e
  | get (new : Bytes) : Specified env e new → env.canGet e.key = false → Fails env fl cur e
  | set (new : Parts) : new.Good → Specified env e new.text → fl.nochange = false → some (newLabel fl env.custom cur new) ≠ cur →
      env.canSet e.key (newLabel fl env.custom cur new).text = false → Fails env fl cur e

open Classical in
mutual
/-- The files of a tree that are to be labelled, in the order of the walk: a directory comes before what is in it. -/
noncomputable def files (env : Env) (fl : Flags) (w : World) : Tree → List Ent
  | .node e info kids =>
    if ¬ OnDevice fl e then []
    else if info = .other then [e]
    else if (info = .dir ∨ info = .unreadable) ∧ Entered env fl w e then e :: (if info = .dir then filess env fl w kids else [])
    else []
/-- The same for the entries of a directory. -/
noncomputable def filess (env : Env) (fl : Flags) (w : World) : List Tree → List Ent
  | [] => []
  | t :: ts => files env fl w t ++ filess env fl w ts
end

/-- What the theorems on labels are about: a tree without cycles, paths that are not too long, and contexts as a kernel has them in files and
specifications; errors do not end the walk, and the translation of contexts leaves such contexts as they are. -/
structure Normal (env : Env) (fl : Flags) (w : World) (t : Tree) : Prop where
  acyclic : Acyclic t
  short : ∀ e, Reached env fl w t e → e.path.length < 4096
  goOn : fl.abortOnError = false
  labels : ∀ k x, w.label k = some x → ∃ p : Parts, p.Good ∧ x = p.text
  specs : ∀ e x, Specified env e x → ∃ p : Parts, p.Good ∧ x = p.text
  raw : ∀ p : Parts, p.Good → env.toRaw p.text = some p.text

/-- The directories of a tree that are labelled and gone into. -/
inductive ReachedDir (env : Env) (fl : Flags) (w : World) : Tree → Ent → Prop
  | here (e : Ent) (info : Info) (kids : List Tree) : (info = .dir ∨ info = .unreadable) → Entered env fl w e → ReachedDir env fl w (.node e info kids) e
  | inside (e : Ent) (kids : List Tree) (k : Tree) (e' : Ent) : Entered env fl w e → k ∈ kids → ReachedDir env fl w k e' →
      ReachedDir env fl w (.node e .dir kids) e'

/-- The context of a file: it has none, or one as a kernel has it. -/
def Cur (w : World) (k : Nat × Nat) (cur : Option Parts) : Prop := w.label k = cur.map Parts.text ∧ ∀ c, cur = some c → c.Good

/-- There is a context for the file. -/
def HasSpec (env : Env) (e : Ent) : Prop := ∃ x, Specified env e x

/-- The files of a list for which there are contexts are different files. -/
def Different (env : Env) (es : List Ent) : Prop := es.Pairwise fun a b => a.key = b.key → ¬ (HasSpec env a ∧ HasSpec env b)

/-- What is asked of files with more than one name: without the table of inodes there are none that have contexts; with it, another context
for another name is no error, and the file system stays as it is during the walk. -/
def Apart (env : Env) (fl : Flags) (es : List Ent) : Prop :=
  (fl.addAssoc = false → Different env es) ∧ (fl.addAssoc = true → fl.conflictError = false ∧ ∀ e ∈ es, env.inoAt e.path = some e.ino)

/-- The name of a file that counts: with the table of inodes it is the first one with a context. -/
def Chosen (env : Env) (fl : Flags) (es : List Ent) (e : Ent) : Prop :=
  ∃ pre post, es = pre ++ e :: post ∧ (fl.addAssoc = true → HasSpec env e → ∀ x ∈ pre, HasSpec env x → x.ino ≠ e.ino)

end Verif.Restore
