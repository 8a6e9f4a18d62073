import Verif.FileLabel.Model
/-!
# The database of users, joined from two files

Models `dbase_join_cache`, `dbase_join_flush` (libsemanage/src/database_join.c) and
`semanage_user_join`, `semanage_user_split` (libsemanage/src/user_record.c).

Simplifications:
* A database is the list of its records in the order in which they are listed, which
  is the one in which they were added (the linked list itself is the area `Dbase`).
* Memory does not run out, the files can be read; serial numbers are left out.
* `qsort` is a parameter for each of the databases.
-/
namespace Verif.UserJoin
open Verif.FileLabel (strcmp)

/-- `semanage_user_base_t` (`struct sepol_user`, libsepol/src/user_record.c:9-24). -/
structure Base where
  name : Bytes
  roles : List Bytes
  level : Option Bytes
  range : Option Bytes
  deriving DecidableEq, Repr

/-- `semanage_user_extra_t` (user_extra_record.c:26-32). -/
structure Extra where
  name : Bytes
  pfx : Bytes
  deriving DecidableEq, Repr

/-- `semanage_user_t` (user_record.c:26-30). -/
structure User where
  name : Bytes
  base : Base
  extra : Extra
  deriving DecidableEq, Repr

/-- `"user"` -/
def dfltPrefix : Bytes := [117, 115, 101, 114]

/-- `semanage_user_set_name` (user_record.c:97-122). -/
def setName (u : User) (n : Bytes) : User := { name := n, base := { u.base with name := n }, extra := { u.extra with name := n } }

/-- `semanage_user_join` (user_record.c:294-355); without both records it is not
called. -/
def join (r1 : Option Base) (r2 : Option Extra) : User :=
  let name := match r1, r2 with
    | some b, _ => b.name
    | none, some e => e.name
    | none, none => []
  setName { name := [],
            base := r1.getD { name := name, roles := [], level := none, range := none },
            extra := r2.getD { name := name, pfx := dfltPrefix } } name

/-- The loop of `dbase_join_cache` (database_join.c:87-141). -/
def merge : List Base → List Extra → List User
  | [], [] => []
  | [], e :: es => join none (some e) :: merge [] es
  | b :: bs, [] => join (some b) none :: merge bs []
  | b :: bs, e :: es =>
    if strcmp e.name b.name < 0 then join none (some e) :: merge (b :: bs) es
    else if strcmp e.name b.name > 0 then join (some b) none :: merge bs (e :: es)
    else join (some b) (some e) :: merge bs es
termination_by bs es => bs.length + es.length

/-- `dbase_join_cache` (database_join.c:37-168). -/
def cache (q1 : List Base → List Base) (q2 : List Extra → List Extra) (bs : List Base) (es : List Extra) : List User :=
  merge (if bs.length > 1 then q1 bs else bs) (if es.length > 1 then q2 es else es)

/-- `semanage_user_split` (user_record.c:357-383). -/
def split (u : User) : Base × Extra := (u.base, u.extra)

/-- The loop of `dbase_join_flush` over the records, in which each part is added to
its database (database_join.c:203-225). -/
def flushFrom (bs : List Base) (es : List Extra) : List User → List Base × List Extra
  | [] => (bs, es)
  | u :: us => flushFrom (bs ++ [(split u).1]) (es ++ [(split u).2]) us

/-- `dbase_join_flush` (database_join.c:171-238): both databases are cleared first,
if the joined one was modified. -/
def flush (modified : Bool) (us : List User) (bs : List Base) (es : List Extra) : List Base × List Extra :=
  if modified then flushFrom [] [] us else (bs, es)

end Verif.UserJoin
