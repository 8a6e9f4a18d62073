import Verif.FileLabel.Spec
/-! # Specification: the lines of files for media, X and database objects -/
namespace Verif.LabelObj.Spec
open Verif.FileLabel.Spec (words text)

/-- The bytes of a name. -/
def name (s : String) : Bytes := s.toList.map (fun c => UInt8.ofNat c.toNat)

/-- The lines for media: a name and a context. Further words do not matter, lines
that start with `#` are comments. -/
def media (lines : List Bytes) : List (Bytes × Bytes) :=
  lines.filterMap fun l =>
    match words (text l) with
    | k :: c :: _ => if k.head? = some 35 then none else some (k, c)
    | _ => none

/-- The names of the types of X objects, from 1 on. -/
def xNames : List Bytes :=
  ["property", "extension", "client", "event", "selection", "poly_property", "poly_selection"].map name

/-- The names of the types of database objects, from 1 on. -/
def dbNames : List Bytes :=
  ["db_database", "db_schema", "db_table", "db_column", "db_sequence", "db_view", "db_procedure", "db_blob",
    "db_tuple", "db_language", "db_exception", "db_datatype"].map name

/-- The lines for X: a type that exists, a pattern and a context. -/
def x (lines : List Bytes) : List (Nat × Bytes × Bytes) :=
  lines.filterMap fun l =>
    match words (text l) with
    | t :: k :: c :: _ => if t ∈ xNames then some (xNames.idxOf t + 1, k, c) else none
    | _ => none

/-- The lines for databases: exactly a type that exists, a pattern and a context,
before the first `#`. -/
def db (lines : List Bytes) : List (Nat × Bytes × Bytes) :=
  lines.filterMap fun l =>
    match words ((text l).takeWhile (· ≠ 35)) with
    | [t, k, c] => if t ∈ dbNames then some (dbNames.idxOf t + 1, k, c) else none
    | _ => none

end Verif.LabelObj.Spec
