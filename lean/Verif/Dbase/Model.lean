import Verif.Prelude

/-!
# Model of the record databases of libsemanage

`libsemanage/src/database_llist.c` (the doubly linked list), `database_file.c` (its backing file) and
`database.c` (the functions behind the `semanage_*_query/exists/count/iterate/list/modify/set/del`
API).

Records and keys are of any type; `cmp r k` says that `rtable->compare` gives 0.  Memory is a map from
addresses to list entries; addresses are never used twice.  A function gives `none` when the code
would use memory that is not there (or would not end).
-/

namespace Verif.Dbase

/-- `cache_entry_t`, database_llist.h:10-16.  `data = none`: the record was freed. -/
structure Entry (R : Type) where
  data : Option R
  prev : Option Nat
  next : Option Nat

/-- `dbase_llist_t`, database_llist.h:18-30, with the memory.  `serial = none`: negative. -/
structure Llist (R : Type) where
  heap : Nat → Option (Entry R)
  fresh : Nat
  cache : Option Nat
  tail : Option Nat
  sz : Nat
  serial : Option Nat
  modified : Bool

/-- An update of the memory. -/
def upd {R : Type} (h : Nat → Option (Entry R)) (a : Nat) (e : Option (Entry R)) :
    Nat → Option (Entry R) := fun x => if x = a then e else h x

/-- What allocation does: succeeds, has no room for the entry, has no room for the record. -/
inductive Mem where
  | ok
  | noEntry
  | noClone
  deriving DecidableEq

/-- Results of the database functions (`STATUS_SUCCESS`, `STATUS_ERR`). -/
inductive Status where
  | ok
  | err
  deriving DecidableEq

variable {R K : Type}

/-- `dbase_llist_cache_init`, database_llist.h:34-42. -/
def cacheInit (d : Llist R) : Llist R :=
  { d with cache := none, tail := none, sz := 0, serial := none, modified := false }

/-- `dbase_llist_cache_prepend`, database_llist.c:36-67. -/
def prepend (m : Mem) (d : Llist R) (r : R) : Option (Llist R × Status) :=
  match m with
  | .noEntry => some (d, .err)
  | .noClone => some (d, .err)
  | .ok =>
    let a := d.fresh
    let h := upd d.heap a (some ⟨some r, none, d.cache⟩)
    let tail := if d.tail = none then some a else d.tail
    match d.cache with
    | none => some ({ d with heap := h, fresh := a + 1, tail := tail, cache := some a, sz := d.sz + 1 }, .ok)
    | some c =>
      match h c with
      | none => none
      | some e =>
        some ({ d with heap := upd h c (some { e with prev := some a }), fresh := a + 1, tail := tail,
                       cache := some a, sz := d.sz + 1 }, .ok)

/-- The loop of `dbase_llist_cache_locate`, database_llist.c:113-118. -/
def locate (cmp : R → K → Bool) (h : Nat → Option (Entry R)) (k : K) :
    Nat → Option Nat → Option (Option Nat)
  | _, none => some none
  | 0, some _ => none
  | f + 1, some a =>
    match h a with
    | none => none
    | some e =>
      match e.data with
      | none => none
      | some r => if cmp r k then some (some a) else locate cmp h k f e.next

/-- The loops that free all entries, database_llist.c:75-81, 317-323. -/
def freeAll : Nat → (Nat → Option (Entry R)) → Option Nat → Option (Nat → Option (Entry R))
  | _, h, none => some h
  | 0, _, some _ => none
  | f + 1, h, some a =>
    match h a with
    | none => none
    | some e =>
      match e.data with
      | none => none
      | some _ => freeAll f (upd h a none) e.next

/-- `dbase_llist_drop_cache`, database_llist.c:69-85. -/
def dropCache (d : Llist R) : Option (Llist R) :=
  match d.serial with
  | none => some d
  | some _ =>
    match freeAll d.fresh d.heap d.cache with
    | none => none
    | some h => some { d with heap := h, serial := none, modified := false }

/-- `dbase_llist_needs_resync`, database_llist.c:16-33; `serial` is what `get_serial` gives. -/
def needsResync (serial : Option Nat) (d : Llist R) : Option (Llist R × Bool) :=
  match d.serial with
  | none => some (d, true)
  | some s =>
    match serial with
    | none => some (d, true)
    | some t =>
      if t ≠ s then
        match dropCache d with
        | none => none
        | some d => some ({ d with serial := none }, true)
      else some (d, false)

/-- `dbase_llist_set_serial`, database_llist.c:87-98. -/
def setSerial (serial : Option Nat) (d : Llist R) : Llist R × Status :=
  match serial with
  | none => (d, .err)
  | some s => ({ d with serial := some s }, .ok)

/-- A record of a file, or a line that `parse` refuses. -/
inductive Line (R : Type) where
  | record (r : R)
  | bad
  deriving DecidableEq

/-- What can go wrong while a file is read: `parse_init`/`parse_open` (database_file.c:62-66), and for
each record the memory. -/
structure Io where
  openOk : Bool
  createOk : Nat → Bool
  mem : Nat → Mem

/-- The loop of `dbase_file_cache`, database_file.c:69-96. -/
def readLoop (io : Io) : Nat → List (Line R) → Llist R → Option (Llist R × Status)
  | i, ls, d =>
    if io.createOk i = false then some (d, .err)
    else
      match ls with
      | [] => some (d, .ok)
      | .bad :: _ => some (d, .err)
      | .record r :: ls =>
        match prepend (io.mem i) d r with
        | none => none
        | some (d, .err) => some (d, .err)
        | some (d, .ok) => readLoop io (i + 1) ls d

/-- `dbase_file_cache`, database_file.c:40-114: `file` is the file of the active store or of the
sandbox; a missing file is an empty one (parse_utils.c:48-58).  The commit number is read twice: `s1`
for `dbase_llist_needs_resync`, `s2` for `dbase_llist_set_serial`. -/
def fileCache (io : Io) (s1 s2 : Option Nat) (file : List (Line R)) (d : Llist R) :
    Option (Llist R × Status) :=
  match needsResync s1 d with
  | none => none
  | some (d, false) => some (d, .ok)
  | some (d, true) =>
    let d := cacheInit d
    match setSerial s2 d with
    | (d, .err) => (dropCache d).map (·, .err)
    | (d, .ok) =>
      if io.openOk = false then (dropCache d).map (·, .err)
      else
        match readLoop io 0 file d with
        | none => none
        | some (d, .ok) => some (d, .ok)
        | some (d, .err) => (dropCache d).map (·, .err)

/-- `dbase_llist_exists`, database_llist.c:127-146, after the cache was filled. -/
def exists_ (cmp : R → K → Bool) (d : Llist R) (k : K) : Option Bool :=
  (locate cmp d.heap k d.fresh d.cache).map (·.isSome)

/-- `dbase_llist_add`, database_llist.c:148-163. -/
def add (m : Mem) (d : Llist R) (r : R) : Option (Llist R × Status) :=
  match prepend m d r with
  | none => none
  | some (d, .err) => some (d, .err)
  | some (d, .ok) => some ({ d with modified := true }, .ok)

/-- The replacement of the record of an entry, database_llist.c:181-183, 212-214: the old record is
freed first. -/
def replaceAt (m : Mem) (d : Llist R) (a : Nat) (r : R) : Option (Llist R × Status) :=
  match d.heap a with
  | none => none
  | some e =>
    match m with
    | .ok => some ({ d with heap := upd d.heap a (some { e with data := some r }), modified := true }, .ok)
    | _ => some ({ d with heap := upd d.heap a (some { e with data := none }) }, .err)

/-- `dbase_llist_set`, database_llist.c:165-193. -/
def set_ (cmp : R → K → Bool) (m : Mem) (d : Llist R) (k : K) (r : R) : Option (Llist R × Status) :=
  match locate cmp d.heap k d.fresh d.cache with
  | none => none
  | some none => some (d, .err)
  | some (some a) => replaceAt m d a r

/-- `dbase_llist_modify`, database_llist.c:195-222. -/
def modify (cmp : R → K → Bool) (m : Mem) (d : Llist R) (k : K) (r : R) : Option (Llist R × Status) :=
  match locate cmp d.heap k d.fresh d.cache with
  | none => none
  | some none =>
    match prepend m d r with
    | none => none
    | some (d, .err) => some (d, .err)
    | some (d, .ok) => some ({ d with modified := true }, .ok)
  | some (some a) => replaceAt m d a r

/-- `dbase_llist_count`, database_llist.c:224-230. -/
def count (d : Llist R) : Nat := d.sz

/-- `dbase_llist_query`, database_llist.c:232-253: `some none` is an error (no such record, or no
memory). -/
def query (cmp : R → K → Bool) (cloneOk : Bool) (d : Llist R) (k : K) : Option (Option R) :=
  match locate cmp d.heap k d.fresh d.cache with
  | none => none
  | some none => some none
  | some (some a) =>
    match d.heap a with
    | none => none
    | some e =>
      match e.data with
      | none => none
      | some r => some (if cloneOk then some r else none)

/-- The loop of `dbase_llist_iterate`, database_llist.c:263-271: the records that were handed to `fn`
and the status.  What `fn` gives may depend on how often it was called. -/
def iterLoop (fn : Nat → R → Int) (h : Nat → Option (Entry R)) :
    Nat → Nat → Option Nat → Option (List R × Status)
  | _, _, none => some ([], .ok)
  | _, 0, some _ => none
  | i, f + 1, some a =>
    match h a with
    | none => none
    | some e =>
      match e.data with
      | none => none
      | some r =>
        if fn i r < 0 then some ([r], .err)
        else if fn i r > 0 then some ([r], .ok)
        else
          match iterLoop fn h (i + 1) f e.prev with
          | none => none
          | some (rs, s) => some (r :: rs, s)

/-- `dbase_llist_iterate`, database_llist.c:255-278. -/
def iterate (fn : Nat → R → Int) (d : Llist R) : Option (List R × Status) :=
  iterLoop fn d.heap 0 d.fresh d.tail

/-- The walk from the end of the list to its head. -/
def walkBack (h : Nat → Option (Entry R)) : Nat → Option Nat → Option (List R)
  | _, none => some []
  | 0, some _ => none
  | f + 1, some a =>
    match h a with
    | none => none
    | some e =>
      match e.data with
      | none => none
      | some r => (walkBack h f e.prev).map (r :: ·)

/-- `dbase_llist_list`, database_llist.c:336-376: the array has `cache_sz` places; more entries would
overrun it, fewer leave null pointers (`none`).  Running out of memory is an error without effect and is
not modelled. -/
def list (d : Llist R) : Option (List R) :=
  if d.sz > 0 then
    match walkBack d.heap d.fresh d.tail with
    | none => none
    | some rs => if rs.length = d.sz then some rs else none
  else some []

/-- The search of `dbase_llist_del`, database_llist.c:286-303: the entry and its predecessor. -/
def delFind (cmp : R → K → Bool) (h : Nat → Option (Entry R)) (k : K) :
    Nat → Option Nat → Option Nat → Option (Option (Option Nat × Nat))
  | _, _, none => some none
  | 0, _, some _ => none
  | f + 1, prev, some a =>
    match h a with
    | none => none
    | some e =>
      match e.data with
      | none => none
      | some r => if cmp r k then some (some (prev, a)) else delFind cmp h k f (some a) e.next

/-- `x->next = v`. -/
def setNext (h : Nat → Option (Entry R)) (x : Nat) (v : Option Nat) : Option (Nat → Option (Entry R)) :=
  match h x with
  | none => none
  | some e => some (upd h x (some { e with next := v }))

/-- `x->prev = v`. -/
def setPrev (h : Nat → Option (Entry R)) (x : Nat) (v : Option Nat) : Option (Nat → Option (Entry R)) :=
  match h x with
  | none => none
  | some e => some (upd h x (some { e with prev := v }))

/-- The first pointer that `dbase_llist_del` changes, database_llist.c:288-291: the memory and
`dbase->cache`. -/
def unlink1 (d : Llist R) (prev next : Option Nat) : Option ((Nat → Option (Entry R)) × Option Nat) :=
  match prev with
  | some p => (setNext d.heap p next).map (fun h => (h, d.cache))
  | none => some (d.heap, next)

/-- The second one, database_llist.c:293-296: the memory and `dbase->cache_tail`. -/
def unlink2 (d : Llist R) (h : Nat → Option (Entry R)) (eprev next : Option Nat) :
    Option ((Nat → Option (Entry R)) × Option Nat) :=
  match next with
  | some n => (setPrev h n eprev).map (fun h => (h, d.tail))
  | none => some (h, eprev)

/-- `dbase_llist_del`, database_llist.c:280-305. -/
def del (cmp : R → K → Bool) (d : Llist R) (k : K) : Option (Llist R) :=
  match delFind cmp d.heap k d.fresh none d.cache with
  | none => none
  | some none => some d
  | some (some (prev, a)) =>
    match d.heap a with
    | none => none
    | some e =>
      match unlink1 d prev e.next with
      | none => none
      | some (h, cache) =>
        match unlink2 d h e.prev e.next with
        | none => none
        | some (h, tail) =>
          some { d with heap := upd h a none, cache := cache, tail := tail, sz := d.sz - 1, modified := true }

/-- `dbase_llist_clear`, database_llist.c:307-334. -/
def clear (serial : Option Nat) (d : Llist R) : Option (Llist R × Status) :=
  match setSerial serial d with
  | (d', .err) => some (d', .err)
  | (d', .ok) =>
    let h := match d.serial with
      | some _ => freeAll d.fresh d.heap d.cache
      | none => some d.heap
    match h with
    | none => none
    | some h => some ({ d' with heap := h, cache := none, tail := none, sz := 0, modified := true }, .ok)

/-- `dbase_file_flush`, database_file.c:117-163: the new file.  `fails = some n`: an error after `n`
records (the file was truncated when it was opened); an error in `fopen` leaves the file. -/
def flush (openOk : Bool) (fails : Option Nat) (closeOk : Bool) (d : Llist R) (file : List (Line R)) :
    Option (Llist R × List (Line R) × Status) :=
  if d.modified = false then some (d, file, .ok)
  else if openOk = false then some (d, file, .err)
  else
    match walkBack d.heap d.fresh d.tail with
    | none => none
    | some rs =>
      match fails with
      | some n => some (d, (rs.take n).map .record, .err)
      | none =>
        some ({ d with modified := false }, rs.map .record, if closeOk then .ok else .err)

end Verif.Dbase
