import Verif.LabelObj.Media
/-!
# The contexts that the kernel gives for a user

Models how `security_compute_user_raw` reads the answer of the kernel
(libselinux/src/compute_user.c).

Simplifications:
* The file `user` can be opened, written and read, and memory does not run out.
* A copy of a string is the string.
-/
namespace Verif.ComputeUser
open Verif.LabelObj (cstr)

/-- `isspace` -/
def isSpace (b : UInt8) : Bool := b == 32 || (9 ≤ b.toNat && b.toNat ≤ 13)

/-- `isdigit` -/
def isDig (b : UInt8) : Bool := 48 ≤ b.toNat && b.toNat ≤ 57

/-- The number some digits are. -/
def value (ds : Bytes) : Nat := ds.foldl (fun a b => 10 * a + (b.toNat - 48)) 0

/-- `sscanf(s, "%u", &n)` as in glibc: spaces, a sign and digits; the largest number of 64
bits if the number is larger, of which 32 bits are kept. -/
def scanU (s : Bytes) : Option Nat :=
  let s := s.dropWhile isSpace
  let neg := s.head? == some 45
  let s := if neg || s.head? == some 43 then s.tail else s
  let ds := s.takeWhile isDig
  if ds = [] then none
  else
    let v := min (value ds) (2 ^ 64 - 1)
    some ((if neg then 2 ^ 64 - v else v) % 2 ^ 32)

/-- How reading the answer ends. -/
inductive Res
  | ok (cons : List Bytes)
  /-- returns -1 -/
  | error
  /-- memory outside of the page or the array is used -/
  | oob
  deriving DecidableEq, Repr

/-- The page after `memset` and `read` (compute_user.c:53-54). -/
def page (size : Nat) (reply : Bytes) : Bytes :=
  reply.take (size - 1) ++ List.replicate (size - (reply.take (size - 1)).length) 0

/-- The loop over the contexts (compute_user.c:70-79); `rest` is the page from `ptr` on,
`ary` the entries written so far to the array of `alloc` entries. -/
def loop (alloc : Nat) : Nat → Bytes → List Bytes → Res
  | 0, _, ary => if ary.length < alloc then .ok ary else .oob
  | n + 1, rest, ary =>
    if rest.all (· != 0) then .oob
    else if ary.length < alloc then loop alloc n (rest.drop ((cstr rest).length + 1)) (ary ++ [cstr rest])
    else .oob

/-- Reading the answer (compute_user.c:53-81). The number of entries of the array is
computed in numbers of 32 bits. -/
def answer (size : Nat) (reply : Bytes) : Res :=
  match scanU (cstr (page size reply)) with
  | none => .error
  | some nel => loop ((nel + 1) % 2 ^ 32) nel ((page size reply).drop ((cstr (page size reply)).length + 1)) []

end Verif.ComputeUser
