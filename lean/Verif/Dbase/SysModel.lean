import Verif.Dbase.Spec

/-!
# Model of a libsemanage connection with one record database

`libsemanage/src/database.c` (read-only and read-write sections), the locks of `semanage_store.c`,
`semanage_connect`, `semanage_disconnect`, `semanage_begin_transaction` and `semanage_commit`
(handle.c, direct_api.c), with the active store and its commit number, which other processes change
too.

One database stands for any of the file databases (ports, interfaces, booleans, file contexts, ...).
The steps of a commit that build the policy are "something that may fail" before or after the
databases are written.  Commit numbers do not overflow.
-/

namespace Verif.Dbase
variable {R K : Type}

/-- A handle and the store.  `activeFd`, `transFd`: the handle holds the lock through the descriptor it
knows; `lostActive`, `lostTrans`: the process holds the lock through a descriptor that was overwritten
(direct_api.c:156-157). -/
structure Sys (R : Type) where
  active : List (Line R)
  num : Nat
  sandbox : List (Line R)
  snum : Nat
  connected : Bool
  inTx : Bool
  activeFd : Bool
  transFd : Bool
  lostActive : Bool
  lostTrans : Bool
  db : Llist R

/-- What can go wrong in one call of the `cache` method: reading the commit number (twice), reading
the file. -/
structure CEnv where
  s1 : Bool
  s2 : Bool
  io : Io

/-- What can go wrong in a query: the lock, both calls of `cache`, copying the record, reading the
commit number at the end. -/
structure QEnv where
  lock : Bool
  c1 : CEnv
  c2 : CEnv
  clone : Bool
  s3 : Bool

/-- What can go wrong in a change: both calls of `cache`, the memory. -/
structure MEnv where
  c1 : CEnv
  c2 : CEnv
  mem : Mem

/-- What can go wrong in a commit: a step before the databases are written (`early`), writing this
database, writing another one (`otherFlush`), a step after that including the installation (`late`),
removing the temporary directories.  `other`: something else was changed in the transaction, so that the
store is installed. -/
structure KEnv where
  early : Bool
  openOk : Bool
  fails : Option Nat
  closeOk : Bool
  otherFlush : Bool
  late : Bool
  other : Bool
  rmOk : Bool

/-- What a caller gets. -/
inductive Res (R : Type) where
  | err
  | done
  | record (r : R)
  | present (b : Bool)
  | num (n : Nat)
  | all (rs : List R)
  | visited (rs : List R)
  deriving DecidableEq

/-- `semanage_direct_get_serial`, semanage_store.c:2013-2056, reading the store of the transaction or
the active one. -/
def getSerial (ok : Bool) (s : Sys R) : Option Nat :=
  if ok then some (if s.inTx then s.snum else s.num) else none

/-- The `cache` method of a file database. -/
def cacheStep (e : CEnv) (s : Sys R) : Option (Sys R × Status) :=
  (fileCache e.io (getSerial e.s1 s) (getSerial e.s2 s) (if s.inTx then s.sandbox else s.active) s.db).map
    fun (d, st) => ({ s with db := d }, st)

/-- `semanage_get_active_lock`, semanage_store.c:1964-1979.  A lock that the process holds through
another descriptor cannot be taken (semanage_get_lock, semanage_store.c:1873-1933). -/
def getActiveLock (ok : Bool) (s : Sys R) : Option (Sys R) :=
  if s.activeFd then some s
  else if s.lostActive then none
  else if ok then some { s with activeFd := true } else none

/-- `semanage_get_trans_lock`, semanage_store.c:1941-1956. -/
def getTransLock (ok : Bool) (s : Sys R) : Option (Sys R) :=
  if s.transFd then some s
  else if s.lostTrans then none
  else if ok then some { s with transFd := true } else none

/-- `enter_ro`, database.c:23-47. -/
def enterRo (e : QEnv) (s : Sys R) : Option (Sys R × Status) :=
  if s.inTx then cacheStep e.c1 s
  else
    match getActiveLock e.lock s with
    | none => some (s, .err)
    | some s => cacheStep e.c1 s

/-- `exit_ro`, database.c:49-59. -/
def exitRo (e : QEnv) (s : Sys R) : Sys R × Status :=
  (if s.inTx then s else { s with activeFd := false },
   match getSerial e.s3 s with
   | some _ => .ok
   | none => .err)

/-- `enter_rw`, database.c:61-79, as seen by its callers. -/
def enterRw (e : MEnv) (s : Sys R) : Option (Sys R × Status) :=
  if s.inTx then cacheStep e.c1 s else some (s, .err)

/-- The end of a query that has the answer `r`: `exit_ro` decides whether the caller gets it. -/
def finish (e : QEnv) (s : Sys R) (r : Res R) : Sys R × Res R :=
  match exitRo e s with
  | (s, .ok) => (s, r)
  | (s, .err) => (s, .err)

/-- `dbase_query`, database.c:125-138 with `dbase_llist_query`, whose search calls `cache` again. -/
def dbQuery (cmp : R → K → Bool) (e : QEnv) (k : K) (s : Sys R) : Option (Sys R × Res R) :=
  match enterRo e s with
  | none => none
  | some (s, .err) => some (s, .err)
  | some (s, .ok) =>
    match cacheStep e.c2 s with
    | none => none
    | some (s, .err) => some ((exitRo e s).1, .err)
    | some (s, .ok) =>
      match query cmp e.clone s.db k with
      | none => none
      | some none => some ((exitRo e s).1, .err)
      | some (some r) => some (finish e s (.record r))

/-- `dbase_exists`, database.c:140-153. -/
def dbExists (cmp : R → K → Bool) (e : QEnv) (k : K) (s : Sys R) : Option (Sys R × Res R) :=
  match enterRo e s with
  | none => none
  | some (s, .err) => some (s, .err)
  | some (s, .ok) =>
    match cacheStep e.c2 s with
    | none => none
    | some (s, .err) => some ((exitRo e s).1, .err)
    | some (s, .ok) =>
      match exists_ cmp s.db k with
      | none => none
      | some b => some (finish e s (.present b))

/-- `dbase_count`, database.c:155-167. -/
def dbCount (e : QEnv) (s : Sys R) : Option (Sys R × Res R) :=
  match enterRo e s with
  | none => none
  | some (s, .err) => some (s, .err)
  | some (s, .ok) => some (finish e s (.num (count s.db)))

/-- `dbase_iterate`, database.c:169-183. -/
def dbIterate (fn : Nat → R → Int) (e : QEnv) (s : Sys R) : Option (Sys R × Res R) :=
  match enterRo e s with
  | none => none
  | some (s, .err) => some (s, .err)
  | some (s, .ok) =>
    match iterate fn s.db with
    | none => none
    | some (_, .err) => some ((exitRo e s).1, .err)
    | some (rs, .ok) => some (finish e s (.visited rs))

/-- `dbase_list`, database.c:185-198. -/
def dbList (e : QEnv) (s : Sys R) : Option (Sys R × Res R) :=
  match enterRo e s with
  | none => none
  | some (s, .err) => some (s, .err)
  | some (s, .ok) =>
    match list s.db with
    | none => none
    | some rs => if e.clone then some (finish e s (.all rs)) else some ((exitRo e s).1, .err)

/-- A status as a result. -/
def Status.res : Status → Res R
  | .ok => .done
  | .err => .err

/-- `dbase_modify`, database.c:81-92 with `dbase_llist_modify`. -/
def dbModify (cmp : R → K → Bool) (e : MEnv) (k : K) (r : R) (s : Sys R) : Option (Sys R × Res R) :=
  match enterRw e s with
  | none => none
  | some (s, .err) => some (s, .err)
  | some (s, .ok) =>
    match cacheStep e.c2 s with
    | none => none
    | some (s, .err) => some (s, .err)
    | some (s, .ok) => (modify cmp e.mem s.db k r).map fun (d, st) => ({ s with db := d }, st.res)

/-- `dbase_set`, database.c:94-105 with `dbase_llist_set`. -/
def dbSet (cmp : R → K → Bool) (e : MEnv) (k : K) (r : R) (s : Sys R) : Option (Sys R × Res R) :=
  match enterRw e s with
  | none => none
  | some (s, .err) => some (s, .err)
  | some (s, .ok) =>
    match cacheStep e.c2 s with
    | none => none
    | some (s, .err) => some (s, .err)
    | some (s, .ok) => (set_ cmp e.mem s.db k r).map fun (d, st) => ({ s with db := d }, st.res)

/-- `dbase_del`, database.c:107-118. -/
def dbDel (cmp : R → K → Bool) (e : MEnv) (k : K) (s : Sys R) : Option (Sys R × Res R) :=
  match enterRw e s with
  | none => none
  | some (s, .err) => some (s, .err)
  | some (s, .ok) => (del cmp s.db k).map fun d => ({ s with db := d }, .done)

/-- `semanage_begin_transaction`, handle.c:377-394 with `semanage_direct_begintrans`,
direct_api.c:408-421: `sandboxOk` is what `semanage_make_sandbox` (a copy of the active store) and
`semanage_make_final` do. -/
def begin_ (lock sandboxOk : Bool) (s : Sys R) : Sys R × Res R :=
  if s.connected = false then (s, .err)
  else if s.inTx then (s, .done)
  else
    match getTransLock lock s with
    | none => (s, .err)
    | some s =>
      if sandboxOk then ({ s with sandbox := s.active, snum := s.num, inTx := true }, .done)
      else (s, .err)

/-- What `semanage_direct_commit` does to the store and the database before it removes the temporary
directories, direct_api.c:1150-1650; `do_install` is read before the databases are written (1482-1488),
a failure to write a database drops the records of all of them (policy_components.c:238-243).
`semanage_install_sandbox` writes the next commit number, takes the active lock and releases it
(semanage_store.c:1703-1830). -/
def commitCore (e : KEnv) (s : Sys R) : Option (Sys R × Status) :=
  if e.early then some (s, .err)
  else
    let install := s.db.modified || e.other
    match flush e.openOk e.fails e.closeOk s.db s.sandbox with
    | none => none
    | some (d, file, .err) => (dropCache d).map fun d => ({ s with db := d, sandbox := file }, .err)
    | some (d, file, .ok) =>
      if e.otherFlush then (dropCache d).map fun d => ({ s with db := d, sandbox := file }, .err)
      else
        let s := { s with db := d, sandbox := file }
        if e.late then some (s, .err)
        else if install then
          if s.lostActive then some (s, .err)
          else some ({ s with active := s.sandbox, num := s.snum + 1, activeFd := false }, .ok)
        else some (s, .ok)

/-- `semanage_commit`, handle.c:396-410, with the end of `semanage_direct_commit`,
direct_api.c:1650-1662. -/
def commit (e : KEnv) (s : Sys R) : Option (Sys R × Res R) :=
  if s.inTx = false then some (s, .err)
  else
    match commitCore e s with
    | none => none
    | some (s, st) =>
      some ({ s with inTx := false, transFd := false },
        if st = .ok ∧ e.rmOk then .done else .err)

/-- `semanage_disconnect`, handle.c:346-359, with `semanage_direct_disconnect`,
direct_api.c:364-406.  The databases are freed; when the temporary directories cannot be removed the
handle stays connected with freed databases, which is not modelled further (`none`). -/
def disconnect (rmOk : Bool) (s : Sys R) : Option (Sys R × Res R) :=
  if s.connected = false then some (s, .done)
  else if s.inTx && !rmOk then none
  else
    match dropCache s.db with
    | none => none
    | some d =>
      some ({ s with db := d, transFd := if s.inTx then false else s.transFd, inTx := false,
                     connected := false }, .done)

/-- `semanage_connect`, handle.c:314-332, with `semanage_direct_connect`, direct_api.c:144-322: the
databases are created and the descriptors of the locks are forgotten. -/
def connect (s : Sys R) : Sys R × Res R :=
  ({ s with db := cacheInit s.db, connected := true, lostActive := s.lostActive || s.activeFd,
            lostTrans := s.lostTrans || s.transFd, activeFd := false, transFd := false }, .done)

/-- What happens to a store and a connection.  `other file`: another process commits; it needs both
locks. -/
inductive Ev (R K : Type) where
  | connect
  | disconnect (rmOk : Bool)
  | begin (lock sandboxOk : Bool)
  | commit (e : KEnv)
  | other (file : List (Line R))
  | query (e : QEnv) (k : K)
  | exists_ (e : QEnv) (k : K)
  | count (e : QEnv)
  | iterate (e : QEnv) (fn : Nat → R → Int)
  | list (e : QEnv)
  | modify (e : MEnv) (k : K) (r : R)
  | set (e : MEnv) (k : K) (r : R)
  | del (e : MEnv) (k : K)

/-- Nobody else can commit while this process holds a lock. -/
def Sys.holds (s : Sys R) : Bool := s.activeFd || s.transFd || s.lostActive || s.lostTrans

/-- Another process commits `file`. -/
def otherCommit (file : List (Line R)) (s : Sys R) : Sys R × Res R :=
  if s.holds then (s, .err) else ({ s with active := file, num := s.num + 1 }, .done)

/-- One step. -/
def step (cmp : R → K → Bool) : Ev R K → Sys R → Option (Sys R × Res R)
  | .connect, s => some (connect s)
  | .disconnect rm, s => disconnect rm s
  | .begin l o, s => some (begin_ l o s)
  | .commit e, s => commit e s
  | .other f, s => some (otherCommit f s)
  | .query e k, s => dbQuery cmp e k s
  | .exists_ e k, s => dbExists cmp e k s
  | .count e, s => dbCount e s
  | .iterate e fn, s => dbIterate fn e s
  | .list e, s => dbList e s
  | .modify e k r, s => dbModify cmp e k r s
  | .set e k r, s => dbSet cmp e k r s
  | .del e k, s => dbDel cmp e k s

/-- A history and its results. -/
def run (cmp : R → K → Bool) : List (Ev R K) → Sys R → Option (Sys R × List (Res R))
  | [], s => some (s, [])
  | ev :: evs, s =>
    match step cmp ev s with
    | none => none
    | some (s, r) =>
      match run cmp evs s with
      | none => none
      | some (s, rs) => some (s, r :: rs)

/-- Before the first connection, with a store that others may have written. -/
def Sys.start (file : List (Line R)) (num : Nat) : Sys R :=
  { active := file, num := num, sandbox := [], snum := 0, connected := false, inTx := false,
    activeFd := false, transFd := false, lostActive := false, lostTrans := false,
    db := { heap := fun _ => none, fresh := 0, cache := none, tail := none, sz := 0, serial := none,
            modified := false } }

end Verif.Dbase
