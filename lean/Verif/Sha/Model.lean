import Verif.Sha.Spec
import Verif.Prelude

/-!
# Model of `libselinux/src/sha1.c` and `libsemanage/src/sha256.c`

Words are 32 bits, buffers are lists of bytes.  A copy outside of an object is the result `none`.
The host is little-endian: `blk0` of sha1.c swaps the bytes of every word it loads.
-/

namespace Verif.Sha

/-! ### SHA-1 -/

/-- `rol`, sha1.c:45. -/
def rol (v : Word) (n : Nat) : Word := (v <<< n) ||| (v >>> (32 - n))

/-- A word of the union `CHAR64LONG16` (sha1.c:35-39) after `memcpy` (sha1.c:84), on a
little-endian host. -/
def leWord (b0 b1 b2 b3 : UInt8) : Word :=
  b3.toBitVec ++ b2.toBitVec ++ b1.toBitVec ++ b0.toBitVec

/-- The sixteen words of the workspace, sha1.c:81-84. -/
def loadBlock (buffer : Bytes) : List Word :=
  (List.range 16).map fun i =>
    leWord (buffer.getD (4 * i) 0) (buffer.getD (4 * i + 1) 0) (buffer.getD (4 * i + 2) 0)
      (buffer.getD (4 * i + 3) 0)

/-- `blk0`, sha1.c:48-49: the value, which is also stored. -/
def blk0 (l : List Word) (i : Nat) : Word :=
  (rol (l.getD i 0) 24 &&& 0xFF00FF00#32) ||| (rol (l.getD i 0) 8 &&& 0x00FF00FF#32)

/-- `blk`, sha1.c:51-52 (`x & 15` is `x % 16`). -/
def blk (l : List Word) (i : Nat) : Word :=
  rol (l.getD ((i + 13) % 16) 0 ^^^ l.getD ((i + 8) % 16) 0 ^^^ l.getD ((i + 2) % 16) 0 ^^^
    l.getD (i % 16) 0) 1

/-- What `R0` to `R4` (sha1.c:55-59) add to `z`, apart from `rol(v,5)`, and which macro is used
for which number (sha1.c:94-113). -/
def rterm (i : Nat) (w x y blkv : Word) : Word :=
  if i < 20 then ((w &&& (x ^^^ y)) ^^^ y) + blkv + 0x5A827999#32
  else if i < 40 then (w ^^^ x ^^^ y) + blkv + 0x6ED9EBA1#32
  else if i < 60 then (((w ||| x) &&& y) ||| (w &&& x)) + blkv + 0x8F1BBCDC#32
  else (w ^^^ x ^^^ y) + blkv + 0xCA62C1D6#32

/-- The variables `a` to `e` and the workspace. -/
structure St1 where
  r : H5
  l : List Word

/-- One macro call of sha1.c:94-113.  The arguments of call number `i` are `a..e` rotated by `i`;
`z += ...` and `w = rol(w,30)` (sha1.c:55-59). -/
def macro1 (s : St1) (i : Nat) : St1 :=
  let b := if i < 16 then blk0 s.l i else blk s.l i
  let l := s.l.set (i % 16) b
  let r := s.r
  match i % 5 with
  | 0 => ⟨{ r with e := r.e + (rterm i r.b r.c r.d b + rol r.a 5), b := rol r.b 30 }, l⟩
  | 1 => ⟨{ r with d := r.d + (rterm i r.a r.b r.c b + rol r.e 5), a := rol r.a 30 }, l⟩
  | 2 => ⟨{ r with c := r.c + (rterm i r.e r.a r.b b + rol r.d 5), e := rol r.e 30 }, l⟩
  | 3 => ⟨{ r with b := r.b + (rterm i r.d r.e r.a b + rol r.c 5), d := rol r.d 30 }, l⟩
  | _ => ⟨{ r with a := r.a + (rterm i r.c r.d r.e b + rol r.b 5), c := rol r.c 30 }, l⟩

/-- `TransformFunction`, sha1.c:67-121. -/
def transform1 (st : H5) (buffer : Bytes) : H5 :=
  let s := (List.range 80).foldl macro1 ⟨st, loadBlock buffer⟩
  ⟨st.a + s.r.a, st.b + s.r.b, st.c + s.r.c, st.d + s.r.d, st.e + s.r.e⟩

/-- `Sha1Context` (libselinux/src/sha1.h). -/
structure Ctx1 where
  st : H5
  c0 : BitVec 32
  c1 : BitVec 32
  buf : Bytes

/-- `Sha1Initialise`, sha1.c:132-146; the buffer keeps what was in memory. -/
def sha1Init (mem : Bytes) : Ctx1 :=
  ⟨⟨0x67452301, 0xEFCDAB89, 0x98BADCFE, 0x10325476, 0xC3D2E1F0⟩, 0, 0, mem⟩

/-- `memcpy(&buf[j], src, length src)` into a buffer of 64 bytes. -/
def store (buf : Bytes) (j : Nat) (src : Bytes) : Option Bytes :=
  if j + src.length ≤ 64 then some (buf.take j ++ src ++ buf.drop (j + src.length)) else none

/-- The loop over whole blocks of the argument, sha1.c:177-180; `i + 63` is computed with 32 bits. -/
def blocks1 (data : Bytes) (st : H5) (i : Nat) : Option (H5 × Nat) :=
  if (i + 63) % 2 ^ 32 < data.length then
    if i + 64 ≤ data.length then
      blocks1 data (transform1 st ((data.drop i).take 64)) (i + 64)
    else none
  else some (st, i)
termination_by data.length - i

/-- `Sha1Update`, sha1.c:154-189, for a buffer of fewer than 2^32 bytes. -/
def sha1Update (c : Ctx1) (data : Bytes) : Option Ctx1 :=
  let n : BitVec 32 := BitVec.ofNat 32 data.length
  let j := ((c.c0 >>> 3) &&& 63#32).toNat
  let c0 := c.c0 + (n <<< 3)
  let c1 := (if c0 < n <<< 3 then c.c1 + 1 else c.c1) + (n >>> 29)
  if (j + data.length) % 2 ^ 32 > 63 then
    let i := 64 - j
    if data.length < i then none
    else
      match store c.buf j (data.take i) with
      | none => none
      | some buf =>
        match blocks1 data (transform1 c.st buf) i with
        | none => none
        | some (st, i) =>
          match store buf 0 (data.drop i) with
          | none => none
          | some buf => some ⟨st, c0, c1, buf⟩
  else
    match store c.buf j data with
    | none => none
    | some buf => some ⟨c.st, c0, c1, buf⟩

/-- A history of `Sha1Update` calls. -/
def sha1Updates (c : Ctx1) : List Bytes → Option Ctx1
  | [] => some c
  | d :: ds =>
    match sha1Update c d with
    | none => none
    | some c => sha1Updates c ds

/-- The byte `(x >> (8*(3-k))) & 255`, sha1.c:209-210, 221. -/
def byteOf (x : Word) (k : Nat) : UInt8 := UInt8.ofNat ((x >>> (8 * (3 - k))) &&& 255#32).toNat

/-- The four bytes of a word as stored by the loops sha1.c:207-211, 219-222. -/
def bytesOf (x : Word) : Bytes := [byteOf x 0, byteOf x 1, byteOf x 2, byteOf x 3]

/-- The padding loop, sha1.c:213-216.  `fuel` bounds the number of rounds. -/
def padLoop : Nat → Ctx1 → Option Ctx1
  | 0, _ => none
  | fuel + 1, c =>
    if c.c0 &&& 504#32 ≠ 448#32 then
      match sha1Update c [0] with
      | none => none
      | some c => padLoop fuel c
    else some c

/-- `Sha1Finalise`, sha1.c:197-223. -/
def sha1Final (c : Ctx1) : Option Bytes :=
  let finalcount := bytesOf c.c1 ++ bytesOf c.c0
  match sha1Update c [0x80] with
  | none => none
  | some c =>
    match padLoop 65 c with
    | none => none
    | some c =>
      match sha1Update c finalcount with
      | none => none
      | some c =>
        some (bytesOf c.st.a ++ bytesOf c.st.b ++ bytesOf c.st.c ++ bytesOf c.st.d ++ bytesOf c.st.e)

/-! ### SHA-256 -/

/-- The array `K`, sha256.c:47-61. -/
def K256 : List Word := [
    0x428a2f98, 0x71374491, 0xb5c0fbcf, 0xe9b5dba5, 0x3956c25b,
    0x59f111f1, 0x923f82a4, 0xab1c5ed5, 0xd807aa98, 0x12835b01,
    0x243185be, 0x550c7dc3, 0x72be5d74, 0x80deb1fe, 0x9bdc06a7,
    0xc19bf174, 0xe49b69c1, 0xefbe4786, 0x0fc19dc6, 0x240ca1cc,
    0x2de92c6f, 0x4a7484aa, 0x5cb0a9dc, 0x76f988da, 0x983e5152,
    0xa831c66d, 0xb00327c8, 0xbf597fc7, 0xc6e00bf3, 0xd5a79147,
    0x06ca6351, 0x14292967, 0x27b70a85, 0x2e1b2138, 0x4d2c6dfc,
    0x53380d13, 0x650a7354, 0x766a0abb, 0x81c2c92e, 0x92722c85,
    0xa2bfe8a1, 0xa81a664b, 0xc24b8b70, 0xc76c51a3, 0xd192e819,
    0xd6990624, 0xf40e3585, 0x106aa070, 0x19a4c116, 0x1e376c08,
    0x2748774c, 0x34b0bcb5, 0x391c0cb3, 0x4ed8aa4a, 0x5b9cca4f,
    0x682e6ff3, 0x748f82ee, 0x78a5636f, 0x84c87814, 0x8cc70208,
    0x90befffa, 0xa4506ceb, 0xbef9a3f7, 0xc67178f2]

/-- `ror`, sha256.c:22. -/
def ror (v : Word) (n : Nat) : Word := (v >>> n) ||| (v <<< (32 - n))

/-- `Ch`, `Maj`, `Sigma0/1`, `Gamma0/1`, sha256.c:70-77. -/
def Ch (x y z : Word) : Word := z ^^^ (x &&& (y ^^^ z))
def Maj (x y z : Word) : Word := ((x ||| y) &&& z) ||| (x &&& y)
def CSigma0 (x : Word) : Word := ror x 2 ^^^ ror x 13 ^^^ ror x 22
def CSigma1 (x : Word) : Word := ror x 6 ^^^ ror x 11 ^^^ ror x 25
def Gamma0 (x : Word) : Word := ror x 7 ^^^ ror x 18 ^^^ ((x &&& 0xFFFFFFFF#32) >>> 3)
def Gamma1 (x : Word) : Word := ror x 17 ^^^ ror x 19 ^^^ ((x &&& 0xFFFFFFFF#32) >>> 10)

/-- `LOAD32H`, sha256.c:30-34. -/
def load32h (b0 b1 b2 b3 : UInt8) : Word :=
  ((b0.toBitVec &&& 255#8).setWidth 32 <<< 24) ||| ((b1.toBitVec &&& 255#8).setWidth 32 <<< 16) |||
    ((b2.toBitVec &&& 255#8).setWidth 32 <<< 8) ||| (b3.toBitVec &&& 255#8).setWidth 32

/-- `W[0..15]`, sha256.c:112-115. -/
def loadW (buffer : Bytes) : List Word :=
  (List.range 16).map fun i =>
    load32h (buffer.getD (4 * i) 0) (buffer.getD (4 * i + 1) 0) (buffer.getD (4 * i + 2) 0)
      (buffer.getD (4 * i + 3) 0)

/-- The loop that fills `W[16..63]`, sha256.c:118-121: the array after `n` rounds. -/
def fillW (buffer : Bytes) : Nat → List Word
  | 0 => loadW buffer
  | n + 1 =>
    let w := fillW buffer n
    let i := 16 + n
    w ++ [Gamma1 (w.getD (i - 2) 0) + w.getD (i - 7) 0 + Gamma0 (w.getD (i - 15) 0) + w.getD (i - 16) 0]

/-- One round of the compression loop, sha256.c:79-83, 124-136: `Sha256Round`, then the rotation of
`S`. -/
def step256 (W : List Word) (s : H8) (i : Nat) : H8 :=
  let t0 := s.h + CSigma1 s.e + Ch s.e s.f s.g + K256.getD i 0 + W.getD i 0
  let t1 := CSigma0 s.a + Maj s.a s.b s.c
  let d := s.d + t0
  let h := t0 + t1
  ⟨h, s.a, s.b, s.c, d, s.e, s.f, s.g⟩

/-- `TransformFunction`, sha256.c:90-143 (on the state only). -/
def transform256 (s : H8) (buffer : Bytes) : H8 :=
  let r := (List.range 64).foldl (step256 (fillW buffer 48)) s
  ⟨s.a + r.a, s.b + r.b, s.c + r.c, s.d + r.d, s.e + r.e, s.f + r.f, s.g + r.g, s.h + r.h⟩

/-- `Sha256Context` (libsemanage/src/sha256.h). -/
structure Ctx256 where
  length : BitVec 64
  st : H8
  curlen : Nat
  buf : Bytes

/-- `Sha256Initialise`, sha256.c:154-170. -/
def sha256Init (mem : Bytes) : Ctx256 :=
  ⟨0, ⟨0x6A09E667, 0xBB67AE85, 0x3C6EF372, 0xA54FF53A, 0x510E527F, 0x9B05688C, 0x1F83D9AB, 0x5BE0CD19⟩,
    0, mem⟩

/-- The loop of `Sha256Update`, sha256.c:193-216.  `curlen` is 64 at the start of no round, so each
one takes at least one byte; a round that took none would not end (`none`). -/
def loop256 (c : Ctx256) (data : Bytes) : Option Ctx256 :=
  if h : data.length = 0 then some c
  else if c.curlen = 0 ∧ data.length ≥ 64 then
    loop256 { c with st := transform256 c.st (data.take 64), length := c.length + 512 } (data.drop 64)
  else
    let n := min data.length (64 - c.curlen)
    if hn : n = 0 then none
    else
      match store c.buf c.curlen (data.take n) with
      | none => none
      | some buf =>
        if c.curlen + n = 64 then
          loop256 { c with buf := buf, st := transform256 c.st buf, length := c.length + 512, curlen := 0 }
            (data.drop n)
        else loop256 { c with buf := buf, curlen := c.curlen + n } (data.drop n)
termination_by data.length
decreasing_by all_goals simp; omega

/-- `Sha256Update`, sha256.c:178-217. -/
def sha256Update (c : Ctx256) (data : Bytes) : Option Ctx256 :=
  if c.curlen > 64 then some c else loop256 c data

/-- A history of `Sha256Update` calls. -/
def sha256Updates (c : Ctx256) : List Bytes → Option Ctx256
  | [] => some c
  | d :: ds =>
    match sha256Update c d with
    | none => none
    | some c => sha256Updates c ds

/-- The loops that append zeros up to `upto`, sha256.c:250-253, 259-262. -/
def zeros (c : Ctx256) (upto : Nat) : Ctx256 :=
  if c.curlen < upto then
    zeros { c with buf := c.buf.set c.curlen 0, curlen := c.curlen + 1 } upto
  else c
termination_by upto - c.curlen

/-- `STORE64H`, sha256.c:36-40. -/
def store64h (x : BitVec 64) : Bytes :=
  [56, 48, 40, 32, 24, 16, 8, 0].map fun n => UInt8.ofNat ((x >>> n) &&& 255#64).toNat

/-- `STORE32H`, sha256.c:26-28. -/
def store32h (x : Word) : Bytes :=
  [24, 16, 8, 0].map fun n => UInt8.ofNat ((x >>> n) &&& 255#32).toNat

/-- `Sha256Finalise`, sha256.c:225-273; `none` when it returns without a digest or copies outside of
the buffer. -/
def sha256Final (c : Ctx256) : Option Bytes :=
  if c.curlen ≥ 64 then none
  else
    let c := { c with length := c.length + BitVec.ofNat 64 (c.curlen * 8) }
    let c := { c with buf := c.buf.set c.curlen 0x80, curlen := c.curlen + 1 }
    let c :=
      if c.curlen > 56 then
        let c := zeros c 64
        { c with st := transform256 c.st c.buf, curlen := 0 }
      else c
    let c := zeros c 56
    match store c.buf 56 (store64h c.length) with
    | none => none
    | some buf =>
      let s := transform256 c.st buf
      some (store32h s.a ++ store32h s.b ++ store32h s.c ++ store32h s.d ++ store32h s.e ++
        store32h s.f ++ store32h s.g ++ store32h s.h)

end Verif.Sha
