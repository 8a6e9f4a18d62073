import Verif.Ebitmap.Model

/-!
# Policy data used by contexts, MLS and the security server

Models the parts of `policydb_t` (libsepol/include/sepol/policydb/policydb.h:86-330,
470-600) read by context.c, mls.c and services.c.

* Symbol tables (`p_users.table`, ...) are lookup functions `Str → Option datum`;
  that the hash table implementation is such a map is property C24.
* The index arrays `p_*_val_to_name`, `*_val_to_struct` are functions from the
  array index; `none` is a NULL entry.
* C strings are lists of characters without the terminating NUL.
-/

namespace Verif.Policy

abbrev Str := List Char

/-- `mls_level_t`, mls_types.h:44-47. -/
structure Level where
  sens : Nat
  cat : Ebitmap.Ebitmap
deriving DecidableEq, Repr

/-- `mls_range_t`, mls_types.h:49-51 (`level[0]`, `level[1]`). -/
structure Range where
  low : Level
  high : Level
deriving DecidableEq, Repr

/-- `context_struct_t`, context.h:33-38. -/
structure Context where
  user : Nat
  role : Nat
  type : Nat
  range : Range
deriving DecidableEq, Repr

/-- `user_datum_t`, policydb.h:205-214 (only the fields read at run time). -/
structure UserDatum where
  value : Nat
  cache : Ebitmap.Ebitmap
  expRange : Range
  expDfltLevel : Level
deriving DecidableEq, Repr

/-- `role_datum_t`, policydb.h:138-148. -/
structure RoleDatum where
  value : Nat
  cache : Ebitmap.Ebitmap
  dominates : Ebitmap.Ebitmap
deriving DecidableEq, Repr

/-- TYPE_ATTRIB, policydb.h:182. -/
def TYPE_ATTRIB : Nat := 1

/-- `type_datum_t`, policydb.h:178-193. -/
structure TypeDatum where
  value : Nat
  flavor : Nat
  bounds : Nat
deriving DecidableEq, Repr

/-- OBJECT_R_VAL, policydb.h. -/
def OBJECT_R_VAL : Nat := 1

/-- The symbol tables and index arrays of `policydb_t`. -/
structure Policy where
  mls : Bool
  nUsers : Nat
  nRoles : Nat
  nTypes : Nat
  nLevels : Nat
  nCats : Nat
  users : Str → Option UserDatum
  roles : Str → Option RoleDatum
  types : Str → Option TypeDatum
  /-- `p_levels.table`: the `level` member of the found `level_datum_t`. -/
  levels : Str → Option Level
  /-- `p_cats.table`: the value of the found `cat_datum_t`. -/
  cats : Str → Option Nat
  userName : Nat → Option Str
  roleName : Nat → Option Str
  typeName : Nat → Option Str
  sensName : Nat → Option Str
  catName : Nat → Option Str
  userStruct : Nat → Option UserDatum
  roleStruct : Nat → Option RoleDatum

end Verif.Policy
