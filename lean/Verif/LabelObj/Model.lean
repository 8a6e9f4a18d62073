import Verif.FileLabel.Model
/-!
# The labels of media, X and database objects

Models the backends of `selabel_open` and `selabel_lookup` for removable media
(libselinux/src/label_media.c), the X server (libselinux/src/label_x.c) and
databases (libselinux/src/label_db.c).

Simplifications:
* A file is the list of the lines that `getline` returns.
* `fnmatch` with no flags is a parameter; it gives true for a match.
* Memory does not run out; files can be read, sought and are regular.
* `matches`, the counter of the statistics, digests and messages are left out.
* A pattern that is not set is not the empty one: an entry of an array is `none`
  until it is written.
-/
namespace Verif.LabelObj
open Verif.FileLabel (isspace)

/-- The bytes of a C string literal. -/
def str (s : String) : Bytes := s.toList.map (fun c => UInt8.ofNat c.toNat)

/-- `spec_t` (label_media.c:22-26, label_x.c:23-28, label_db.c:71-76). The type is 0
for media. -/
structure Entry where
  type : Nat
  key : Bytes
  ctx : Bytes
  deriving DecidableEq, Repr

/-- The C string that a buffer holds. -/
def cstr (l : Bytes) : Bytes := l.takeWhile (· != 0)

/-- `sscanf` with as many `%ms`: the words that are stored. -/
def scan : Nat → Bytes → List Bytes
  | 0, _ => []
  | k + 1, s =>
    if (s.dropWhile isspace).takeWhile (fun b => !isspace b) = [] then []
    else (s.dropWhile isspace).takeWhile (fun b => !isspace b) ::
      scan k ((s.dropWhile isspace).dropWhile (fun b => !isspace b))

/-- Whether a line is empty or a comment (label_media.c:41-46, label_x.c:43-48). -/
def skipped (l : Bytes) : Bool :=
  match (cstr l).dropWhile isspace with
  | [] => true
  | b :: _ => b == 35

/-- The words of a line for media; `none`: the line does not count
(label_media.c:41-55). -/
def mediaLine (l : Bytes) : Option (Bytes × Bytes) :=
  if skipped l then none
  else match scan 2 (cstr l) with
    | [k, c] => some (k, c)
    | _ => none

/-- The words of a line for X; `none`: the line does not count (label_x.c:43-59). -/
def xLine (l : Bytes) : Option (Bytes × Bytes × Bytes) :=
  if skipped l then none
  else match scan 3 (cstr l) with
    | [t, k, c] => some (t, k, c)
    | _ => none

/-- The types of X objects (label_x.c:62-82). -/
def xType (t : Bytes) : Option Nat :=
  if t = str "property" then some 1
  else if t = str "extension" then some 2
  else if t = str "client" then some 3
  else if t = str "event" then some 4
  else if t = str "selection" then some 5
  else if t = str "poly_property" then some 6
  else if t = str "poly_selection" then some 7
  else none

/-- What is stored for a line for media in the second pass (label_media.c:57-60). -/
def mediaEntry (w : Bytes × Bytes) : Option Entry := some ⟨0, w.1, w.2⟩

/-- What is stored for a line for X in the second pass (label_x.c:61-86). -/
def xEntry (w : Bytes × Bytes × Bytes) : Option Entry := (xType w.1).map fun t => ⟨t, w.2.1, w.2.2⟩

/-- The first pass over the lines: how many count (label_media.c:122-130,
label_x.c:149-157 with `pass == 0`). -/
def count {α : Type} (line : Bytes → Option α) (max : Nat) : Nat → List Bytes → Nat
  | n, [] => n
  | n, l :: ls => if n < max then count line max (if (line l).isSome then n + 1 else n) ls else n

/-- What is behind `rec->data`: the number of specifications and the array. -/
structure Saved where
  nspec : Nat
  arr : List (Option Entry)
  deriving DecidableEq, Repr

/-- The second pass (label_media.c:122-130, label_x.c:149-157 with `pass == 1`);
`none`: a write outside of the array. -/
def fill {α : Type} (line : Bytes → Option α) (entry : α → Option Entry) (max : Nat) : Saved → List Bytes → Option Saved
  | d, [] => some d
  | d, l :: ls =>
    if d.nspec < max then
      match (line l).bind entry with
      | none => fill line entry max d ls
      | some e => if d.nspec < d.arr.length then fill line entry max ⟨d.nspec + 1, d.arr.set d.nspec (some e)⟩ ls else none
    else some d

/-- `init` (label_media.c:70-158, label_x.c:97-185), from the passes on; the
greatest number of specifications is `UINT_MAX / sizeof(spec_t)`. -/
def init {α : Type} (line : Bytes → Option α) (entry : α → Option Entry) (max : Nat) (ls : List Bytes) : Option Saved :=
  if count line max 0 ls = 0 then some ⟨0, []⟩
  else fill line entry (count line max 0 ls) ⟨0, List.replicate (count line max 0 ls) none⟩ ls

/-- The types of database objects (label_db.c:123-152). -/
def dbType (t : Bytes) : Option Nat :=
  if t = str "db_database" then some 1
  else if t = str "db_schema" then some 2
  else if t = str "db_table" then some 3
  else if t = str "db_column" then some 4
  else if t = str "db_sequence" then some 5
  else if t = str "db_view" then some 6
  else if t = str "db_procedure" then some 7
  else if t = str "db_blob" then some 8
  else if t = str "db_tuple" then some 9
  else if t = str "db_language" then some 10
  else if t = str "db_exception" then some 11
  else if t = str "db_datatype" then some 12
  else none

/-- `process_line` (label_db.c:90-169): what is stored for a line. -/
def dbLine (l : Bytes) : Option Entry :=
  match scan 4 ((cstr l).takeWhile (· != 35)) with
  | [t, k, c] => (dbType t).map fun t => ⟨t, k, c⟩
  | _ => none

/-- The loop over the lines (label_db.c:318-343): the array is made twice as large
if it is full. Its size is an `unsigned int`; `none`: a write outside of it. -/
def dbFill : Saved → List Bytes → Option Saved
  | d, [] => some d
  | d, l :: ls =>
    let arr := if d.arr.length = d.nspec then
        (d.arr ++ List.replicate d.arr.length none).take (2 * d.arr.length % 2 ^ 32) else d.arr
    match dbLine l with
    | none => dbFill ⟨d.nspec, arr⟩ ls
    | some e => if d.nspec < arr.length then dbFill ⟨d.nspec + 1, arr.set d.nspec (some e)⟩ ls else none

/-- `db_init` (label_db.c:240-368). -/
def dbInit (ls : List Bytes) : Option Saved := dbFill ⟨0, List.replicate 32 none⟩ ls

/-- What a lookup does. -/
inductive Ans
  | found (ctx : Bytes)
  | noent
  | bad  -- an entry is read that was not written
  deriving DecidableEq, Repr

/-- The loop of the three lookups, with the condition for which it ends, from an
index on for at most so many entries. -/
def search (p : Entry → Bool) (arr : List (Option Entry)) : Nat → Nat → Ans
  | _, 0 => .noent
  | i, k + 1 =>
    match arr[i]? with
    | some (some e) => if p e then .found e.ctx else search p arr (i + 1) k
    | _ => .bad

/-- `strncmp` is 0 for two C strings: they do not differ in so many characters,
their ends included. -/
def strneq (a b : Bytes) (n : Nat) : Bool := (a ++ [0]).take n == (b ++ [0]).take n

/-- `lookup` for media (label_media.c:189-212). -/
def mediaLookup (d : Saved) (key : Bytes) : Ans :=
  search (fun e => strneq e.key key (key.length + 1) || strneq e.key (str "*") 2) d.arr 0 d.nspec

/-- `lookup` for X and `db_lookup` (label_x.c:216-238, label_db.c:197-219). -/
def patLookup (fn : Bytes → Bytes → Bool) (d : Saved) (key : Bytes) (type : Nat) : Ans :=
  search (fun e => if e.type ≠ type then false else fn e.key key) d.arr 0 d.nspec

end Verif.LabelObj
