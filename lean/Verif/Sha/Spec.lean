import Verif.Bytes

/-!
# SHA-1 and SHA-256, as in FIPS 180-4

Messages are byte strings.  Section numbers are those of FIPS 180-4.
-/

namespace Verif.Sha

/-- A 32-bit word. -/
abbrev Word := BitVec 32

/-- ROTL (section 2.2.2, 3.2). -/
def rotl (n : Nat) (x : Word) : Word := (x <<< n) ||| (x >>> (32 - n))
/-- ROTR. -/
def rotr (n : Nat) (x : Word) : Word := (x >>> n) ||| (x <<< (32 - n))

/-- Ch (4.1.1, 4.1.2). -/
def ch (x y z : Word) : Word := (x &&& y) ^^^ (~~~x &&& z)
/-- Parity (4.1.1). -/
def parity (x y z : Word) : Word := x ^^^ y ^^^ z
/-- Maj (4.1.1, 4.1.2). -/
def maj (x y z : Word) : Word := (x &&& y) ^^^ (x &&& z) ^^^ (y &&& z)

/-- Four bytes as a word, the first one the most significant (3.1). -/
def beWord (b0 b1 b2 b3 : UInt8) : Word :=
  b0.toBitVec ++ b1.toBitVec ++ b2.toBitVec ++ b3.toBitVec

/-- The bytes of a word, the most significant one first. -/
def wordBytes (x : Word) : Bytes :=
  [UInt8.ofNat (x.toNat / 2 ^ 24), UInt8.ofNat (x.toNat / 2 ^ 16), UInt8.ofNat (x.toNat / 2 ^ 8),
    UInt8.ofNat x.toNat]

/-- A number on eight bytes, the most significant one first. -/
def be64 (n : Nat) : Bytes :=
  [UInt8.ofNat (n / 2 ^ 56), UInt8.ofNat (n / 2 ^ 48), UInt8.ofNat (n / 2 ^ 40),
    UInt8.ofNat (n / 2 ^ 32), UInt8.ofNat (n / 2 ^ 24), UInt8.ofNat (n / 2 ^ 16),
    UInt8.ofNat (n / 2 ^ 8), UInt8.ofNat n]

/-- Word `i` of a block (5.2.1). -/
def blockWord (block : Bytes) (i : Nat) : Word :=
  beWord (block.getD (4 * i) 0) (block.getD (4 * i + 1) 0) (block.getD (4 * i + 2) 0)
    (block.getD (4 * i + 3) 0)

/-- Padding (5.1.1): a byte 0x80, zeros up to a multiple of 64 bytes minus 8, the length in bits. -/
def pad (m : Bytes) : Bytes :=
  m ++ [0x80] ++ List.replicate ((119 - m.length % 64) % 64) 0 ++ be64 (8 * m.length)

/-- The hash computation over the 64-byte blocks of a string (6.1.2, 6.2.2), for a compression
function; bytes after the last whole block are not used. -/
def hashBlocks {H : Type} (compress : H → Bytes → H) (h : H) (m : Bytes) : H :=
  if m.length < 64 then h else hashBlocks compress (compress h (m.take 64)) (m.drop 64)
termination_by m.length
decreasing_by simp; omega

/-! ### SHA-1 -/

/-- Five words: the hash value, or the working variables. -/
structure H5 where
  a : Word
  b : Word
  c : Word
  d : Word
  e : Word
  deriving DecidableEq, Repr

/-- Initial hash value (5.3.1). -/
def init1 : H5 := ⟨0x67452301, 0xefcdab89, 0x98badcfe, 0x10325476, 0xc3d2e1f0⟩

/-- Functions (4.1.1). -/
def f1 (t : Nat) (x y z : Word) : Word :=
  if t < 20 then ch x y z else if t < 40 then parity x y z else if t < 60 then maj x y z
  else parity x y z

/-- Constants (4.2.1). -/
def k1 (t : Nat) : Word :=
  if t < 20 then 0x5a827999 else if t < 40 then 0x6ed9eba1 else if t < 60 then 0x8f1bbcdc
  else 0xca62c1d6

/-- Message schedule (6.1.2 step 1): the first `16 + n` words. -/
def sched1 (block : Bytes) : Nat → List Word
  | 0 => (List.range 16).map (blockWord block)
  | n + 1 =>
    let w := sched1 block n
    let t := 16 + n
    w ++ [rotl 1 (w.getD (t - 3) 0 ^^^ w.getD (t - 8) 0 ^^^ w.getD (t - 14) 0 ^^^ w.getD (t - 16) 0)]

/-- One round (6.1.2 step 3). -/
def round1 (w : List Word) (h : H5) (t : Nat) : H5 :=
  let T := rotl 5 h.a + f1 t h.b h.c h.d + h.e + k1 t + w.getD t 0
  ⟨T, h.a, rotl 30 h.b, h.c, h.d⟩

/-- Processing of a block (6.1.2). -/
def compress1 (h : H5) (block : Bytes) : H5 :=
  let r := (List.range 80).foldl (round1 (sched1 block 64)) h
  ⟨r.a + h.a, r.b + h.b, r.c + h.c, r.d + h.d, r.e + h.e⟩

/-- SHA-1 of a message. -/
def sha1 (m : Bytes) : Bytes :=
  let h := hashBlocks compress1 init1 (pad m)
  wordBytes h.a ++ wordBytes h.b ++ wordBytes h.c ++ wordBytes h.d ++ wordBytes h.e

/-! ### SHA-256 -/

/-- Eight words. -/
structure H8 where
  a : Word
  b : Word
  c : Word
  d : Word
  e : Word
  f : Word
  g : Word
  h : Word
  deriving DecidableEq, Repr

/-- Initial hash value (5.3.3). -/
def init256 : H8 :=
  ⟨0x6a09e667, 0xbb67ae85, 0x3c6ef372, 0xa54ff53a, 0x510e527f, 0x9b05688c, 0x1f83d9ab, 0x5be0cd19⟩

/-- Functions (4.1.2). -/
def Sigma0 (x : Word) : Word := rotr 2 x ^^^ rotr 13 x ^^^ rotr 22 x
def Sigma1 (x : Word) : Word := rotr 6 x ^^^ rotr 11 x ^^^ rotr 25 x
def sigma0 (x : Word) : Word := rotr 7 x ^^^ rotr 18 x ^^^ (x >>> 3)
def sigma1 (x : Word) : Word := rotr 17 x ^^^ rotr 19 x ^^^ (x >>> 10)

/-- The first 64 primes. -/
def primes : List Nat :=
  [2, 3, 5, 7, 11, 13, 17, 19, 23, 29, 31, 37, 41, 43, 47, 53, 59, 61, 67, 71, 73, 79, 83, 89, 97, 101,
   103, 107, 109, 113, 127, 131, 137, 139, 149, 151, 157, 163, 167, 173, 179, 181, 191, 193, 197, 199,
   211, 223, 227, 229, 233, 239, 241, 251, 257, 263, 269, 271, 277, 281, 283, 293, 307, 311]

/-- `k` is the first 32 bits of the fractional part of the cube root of `p` (4.2.2): with
`q` the integer part, `q + k/2^32 ≤ ∛p < q + (k+1)/2^32`. -/
def IsCubeFrac (p : Nat) (k : Word) : Prop :=
  ∃ q < 7, (q * 2 ^ 32 + k.toNat) ^ 3 ≤ p * 2 ^ 96 ∧ p * 2 ^ 96 < (q * 2 ^ 32 + k.toNat + 1) ^ 3

/-- Message schedule (6.2.2 step 1): the first `16 + n` words. -/
def sched256 (block : Bytes) : Nat → List Word
  | 0 => (List.range 16).map (blockWord block)
  | n + 1 =>
    let w := sched256 block n
    let t := 16 + n
    w ++ [sigma1 (w.getD (t - 2) 0) + w.getD (t - 7) 0 + sigma0 (w.getD (t - 15) 0) + w.getD (t - 16) 0]

/-- One round (6.2.2 step 3), for the constants `k`. -/
def round256 (k w : List Word) (s : H8) (t : Nat) : H8 :=
  let T1 := s.h + Sigma1 s.e + ch s.e s.f s.g + k.getD t 0 + w.getD t 0
  let T2 := Sigma0 s.a + maj s.a s.b s.c
  ⟨T1 + T2, s.a, s.b, s.c, s.d + T1, s.e, s.f, s.g⟩

/-- Processing of a block (6.2.2). -/
def compress256 (k : List Word) (s : H8) (block : Bytes) : H8 :=
  let r := (List.range 64).foldl (round256 k (sched256 block 48)) s
  ⟨r.a + s.a, r.b + s.b, r.c + s.c, r.d + s.d, r.e + s.e, r.f + s.f, r.g + s.g, r.h + s.h⟩

/-- SHA-256 of a message, for the constants `k`. -/
def sha256 (k : List Word) (m : Bytes) : Bytes :=
  let h := hashBlocks (compress256 k) init256 (pad m)
  wordBytes h.a ++ wordBytes h.b ++ wordBytes h.c ++ wordBytes h.d ++ wordBytes h.e ++
    wordBytes h.f ++ wordBytes h.g ++ wordBytes h.h

/-- `k` is the list of constants of SHA-256 (4.2.2). -/
def IsK256 (k : List Word) : Prop :=
  k.length = 64 ∧ ∀ (i p : Nat), primes[i]? = some p → ∃ x : Word, k[i]? = some x ∧ IsCubeFrac p x

end Verif.Sha
