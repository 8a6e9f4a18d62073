import Verif.Mls.Context

/-!
# Model of libsepol/src/sidtab.c

128 hash buckets, each a chain sorted by SID.  SIDs are `uint32_t`; the only
arithmetic on them (`sid + 1`) is modelled with wrap-around.  `malloc` and
`context_cpy` succeed.
-/

namespace Verif.Sidtab
open Verif.Policy Verif.Mls

/-- SIDTAB_SIZE, sidtab.h:27-31. -/
def size : Nat := 128

/-- `SIDTAB_HASH`, sidtab.c:20-21. -/
def hash (sid : Nat) : Nat := sid % size

/-- UINT_MAX. -/
def uintMax : Nat := 2 ^ 32 - 1

/-- SECINITSID_UNLABELED, flask.h:10. -/
def UNLABELED : Nat := 3

/-- `sidtab_t`, sidtab.h:33-41. -/
structure Sidtab where
  htable : Nat → List (Nat × Context)
  nel : Nat
  nextSid : Nat
  shutdown : Bool

/-- `sepol_sidtab_init`, sidtab.c:26-37. -/
def init : Sidtab := ⟨fun _ => [], 0, 1, false⟩

/-- The walk `while (cur != NULL && sid > cur->sid)`, sidtab.c:52-55, 92-93, 101-103: the
nodes passed and the rest of the chain. -/
def walk (sid : Nat) : List (Nat × Context) → List (Nat × Context) × List (Nat × Context)
  | [] => ([], [])
  | n :: l => if sid > n.1 then let r := walk sid l; (n :: r.1, r.2) else ([], n :: l)

/-- `sepol_sidtab_insert`, sidtab.c:39-82; `none` is -EEXIST. -/
def insert (s : Sidtab) (sid : Nat) (c : Context) : Option Sidtab :=
  let w := walk sid (s.htable (hash sid))
  if (w.2.head?.map (·.1)) = some sid then none
  else some { s with
    htable := fun i => if i = hash sid then w.1 ++ (sid, contextCpy c) :: w.2 else s.htable i
    nel := s.nel + 1
    nextSid := if sid ≥ s.nextSid then (sid + 1) % 2 ^ 32 else s.nextSid }

/-- One chain lookup of `sepol_sidtab_search`, sidtab.c:91-95. -/
def lookup (s : Sidtab) (sid : Nat) : Option Context :=
  match (walk sid (s.htable (hash sid))).2 with
  | [] => none
  | n :: _ => if sid = n.1 then some n.2 else none

/-- `sepol_sidtab_search`, sidtab.c:84-109; `none` is NULL. -/
def search (s : Sidtab) (sid : Nat) : Option Context :=
  match lookup s sid with
  | some c => some c
  | none => lookup s UNLABELED

/-- All nodes in the order of the bucket loops, sidtab.c:121-130, 179-186. -/
def nodes (s : Sidtab) : List (Nat × Context) := (List.range size).flatMap s.htable

/-- `sepol_sidtab_search_context`, sidtab.c:172-188. -/
def searchContext (s : Sidtab) (c : Context) : Nat :=
  match (nodes s).find? (fun n => contextCmp n.2 c) with
  | some n => n.1
  | none => 0

/-- `sepol_sidtab_context_to_sid`, sidtab.c:190-224: new table and SID; `none` is an
error return (the table is then unchanged). -/
def contextToSid (s : Sidtab) (c : Context) : Option (Sidtab × Nat) :=
  let sid := searchContext s c
  if sid ≠ 0 then some (s, sid)
  else if s.nextSid = uintMax ∨ s.shutdown = true then none
  else
    let sid := s.nextSid
    match insert { s with nextSid := s.nextSid + 1 } sid c with
    | none => none
    | some s' => some (s', sid)

/-- `sepol_sidtab_map_remove_on_error`, sidtab.c:134-170: `apply` gives the modified
context, `none` is a non-zero return. -/
def mapRemove (s : Sidtab) (apply : Context → Option Context) : Sidtab :=
  let f := fun i => (s.htable i).filterMap (fun n => (apply n.2).map (fun c => (n.1, c)))
  { s with
    htable := fun i => if i < size then f i else s.htable i
    nel := s.nel - ((nodes s).countP (fun n => (apply n.2).isNone)) }

/-- `sepol_sidtab_map` with `clone_sid`, sidtab.c:111-132, services.c:1593-1600: insert all
nodes into another table; `none` if an insertion fails. -/
def cloneInto : List (Nat × Context) → Sidtab → Option Sidtab
  | [], t => some t
  | n :: l, t => match insert t n.1 n.2 with
    | none => none
    | some t => cloneInto l t

/-- `sepol_sidtab_shutdown`, sidtab.c:287-292. -/
def setShutdown (s : Sidtab) : Sidtab := { s with shutdown := true }

/-- `sepol_sidtab_set`, sidtab.c:277-285. -/
def setFrom (src : Sidtab) : Sidtab := { src with shutdown := false }

end Verif.Sidtab
