import Verif.ComputeUser.Model
/-!
# The answer of the kernel about an access

Models how `security_compute_av_flags_raw` reads the answer of the kernel
(libselinux/src/compute_av.c).

Simplifications:
* The file `access` can be opened, written and read, and memory does not run out.
* The translation of permissions that follows is C33.
-/
namespace Verif.ComputeAv
open Verif.LabelObj (cstr)
open Verif.ComputeUser (isSpace page)

/-- The value of a digit; 16 if it is none. -/
def digit (b : UInt8) : Nat :=
  if 48 ≤ b.toNat && b.toNat ≤ 57 then b.toNat - 48
  else if 97 ≤ b.toNat && b.toNat ≤ 102 then b.toNat - 87
  else if 65 ≤ b.toNat && b.toNat ≤ 70 then b.toNat - 55
  else 16

/-- `%x` and `%u` of `sscanf` as in glibc: spaces, a sign, `0x` for `%x`, and digits; the largest number
of 64 bits if the number is larger, of which 32 bits are kept. Gives the number and what is left. -/
def scan (base : Nat) (s : Bytes) : Option (Nat × Bytes) :=
  let s := s.dropWhile isSpace
  let neg := s.head? == some 45
  let s := if neg || s.head? == some 43 then s.tail else s
  let s := if base == 16 && s.head? == some 48 && (s.tail.head? == some 120 || s.tail.head? == some 88) then s.drop 2 else s
  let ds := s.takeWhile (fun b => decide (digit b < base))
  if ds = [] then none
  else
    let v := min (ds.foldl (fun a b => base * a + digit b) 0) (2 ^ 64 - 1)
    some ((if neg then 2 ^ 64 - v else v) % 2 ^ 32, s.dropWhile (fun b => decide (digit b < base)))

/-- `sscanf` of several numbers, as many as there are. -/
def scanAll : List Nat → Bytes → List Nat
  | [], _ => []
  | b :: bs, s =>
    match scan b s with
    | none => []
    | some (n, s) => n :: scanAll bs s

/-- `struct av_decision` -/
structure Avd where
  allowed : Nat
  decided : Nat
  auditallow : Nat
  auditdeny : Nat
  seqno : Nat
  flags : Nat
  deriving DecidableEq, Repr

/-- Reading the answer (compute_av.c:56-69); `none`: returns -1. -/
def answer (size : Nat) (reply : Bytes) : Option Avd :=
  match scanAll [16, 16, 16, 16, 10, 16] (cstr (page size reply)) with
  | [a, d, aa, ad, s, f] => some ⟨a, d, aa, ad, s, f⟩
  | [a, d, aa, ad, s] => some ⟨a, d, aa, ad, s, 0⟩
  | _ => none

end Verif.ComputeAv
