import Verif.LabelObj.Media
/-!
# The request for the context of a new object

Models `object_name_encode` and what `security_compute_create_name_raw` writes to the
kernel (libselinux/src/compute_create.c).

Simplifications:
* The file `create` can be opened and written, and memory does not run out.
* The number of the class is the one of the kernel already (`unmap_class` is C33).
* The locale is C (`isalnum`).
-/
namespace Verif.CreateName
open Verif.LabelObj (str cstr)

/-- `isalnum` -/
def isalnum (b : UInt8) : Bool :=
  (48 ≤ b.toNat && b.toNat ≤ 57) || (65 ≤ b.toNat && b.toNat ≤ 90) || (97 ≤ b.toNat && b.toNat ≤ 122)

/-- How a request ends. -/
inductive Res
  | ok (b : Bytes)
  /-- `EOVERFLOW` -/
  | overflow
  /-- `ENAMETOOLONG` -/
  | toolong
  /-- a write outside of the buffer -/
  | oob
  deriving DecidableEq, Repr

/-- `buflen - offset`, in numbers of 64 bits. -/
def room (buflen offset : Nat) : Nat := (buflen + 2 ^ 64 - offset) % 2 ^ 64

/-- `table[i]` (compute_create.c:35) -/
def hexDigit (i : Nat) : UInt8 := (str "0123456789ABCDEF").getD i 0

/-- Writes some bytes after those in the buffer. -/
def put (buflen : Nat) (out bs : Bytes) (k : Bytes → Res) : Res :=
  if out.length + bs.length > buflen then .oob else k (out ++ bs)

/-- The loop of `object_name_encode` (compute_create.c:23-46), for a name without the
zero byte that ends it. -/
def encLoop (buflen : Nat) : Bytes → Bytes → Res
  | [], out => if room buflen out.length < 1 then .toolong else put buflen out [0] .ok
  | c :: cs, out =>
    if isalnum c || c == 45 || c == 46 || c == 95 || c == 126 then
      if room buflen out.length < 1 then .toolong else put buflen out [c] (encLoop buflen cs)
    else if c = 32 then
      if room buflen out.length < 1 then .toolong else put buflen out [43] (encLoop buflen cs)
    else
      if room buflen out.length < 3 then .toolong
      else put buflen out [37, hexDigit (c.toNat / 16), hexDigit (c.toNat % 16)] (encLoop buflen cs)

/-- `object_name_encode` (compute_create.c:14-49). -/
def encode (buflen : Nat) (name : Bytes) : Res :=
  if room buflen 0 < 1 then .toolong else put buflen [] [32] (encLoop buflen name)

/-- Writes what was put after `head` in the page (compute_create.c:97). -/
def written (head : Bytes) : Res → Res
  | .ok b => .ok (cstr (head ++ b))
  | .overflow => .overflow
  | .toolong => .toolong
  | .oob => .oob

/-- The name, after what `snprintf` wrote (compute_create.c:83-97). -/
def withName (page : Nat) (head : Bytes) (name : Option Bytes) : Res :=
  if head.length ≥ page then .overflow
  else match name with
    | none => .ok (cstr (head ++ [0]))
    | some n => written head (encode (page - head.length) n)

/-- What `security_compute_create_name_raw` writes (compute_create.c:77-97), with pages
of `page` bytes. -/
def request (page : Nat) (scon tcon : Bytes) (cls : Nat) (name : Option Bytes) : Res :=
  withName page (scon ++ [32] ++ tcon ++ [32] ++ str (toString cls)) name

end Verif.CreateName
