/-!
# Byte streams

Shared by every area that models a `*_read` / `*_write` pair.

Models the parts of `struct policy_file` used by the binary readers and
writers: `next_entry` (libsepol/src/services.c:1699-1724, the `PF_USE_MEMORY`
branch: fail if fewer than `bytes` bytes remain, otherwise copy and advance)
and `put_entry` (libsepol/src/services.c:1726-1757, append), and the
little-endian conversions `le32_to_cpu`/`cpu_to_le32` etc.
(libsepol/src/private.h:23-37).  Simplification: the stream is the list of the
remaining bytes; the `size_t` overflow checks of `put_entry` are not modelled.
-/

namespace Verif

abbrev Byte := UInt8
abbrev Bytes := List UInt8

/-- Little-endian encoding of `v` on `k` bytes (`cpu_to_le16/32/64`,
libsepol/src/private.h:23-37, followed by a raw copy of the integer). -/
def leBytes : Nat → Nat → Bytes
  | 0, _ => []
  | k+1, v => UInt8.ofNat (v % 256) :: leBytes k (v / 256)

/-- Value of a little-endian byte string (`le16/32/64_to_cpu`,
libsepol/src/private.h:23-37). -/
def leVal : Bytes → Nat
  | [] => 0
  | b :: bs => b.toNat + 256 * leVal bs

/-- `next_entry` for one `k`-byte little-endian integer
(libsepol/src/services.c:1699-1724): `none` when the stream is too short. -/
def nextLE (k : Nat) (bs : Bytes) : Option (Nat × Bytes) :=
  if bs.length < k then none else some (leVal (bs.take k), bs.drop k)

theorem leBytes_length (k v : Nat) : (leBytes k v).length = k := by
  induction k generalizing v with
  | zero => rfl
  | succ k ih => simp [leBytes, ih]

theorem leVal_leBytes (k v : Nat) (h : v < 256 ^ k) : leVal (leBytes k v) = v := by
  induction k generalizing v with
  | zero => simp at h; simp [leBytes, leVal, h]
  | succ k ih =>
    have hv : v / 256 < 256 ^ k := by
      rw [Nat.div_lt_iff_lt_mul (by decide)]
      rw [Nat.pow_succ] at h; exact h
    have hm : v % 256 < 256 := Nat.mod_lt _ (by decide)
    simp only [leBytes, leVal, ih _ hv, UInt8.toNat_ofNat']
    omega

theorem leVal_lt (bs : Bytes) : leVal bs < 256 ^ bs.length := by
  induction bs with
  | nil => simp [leVal]
  | cons b bs ih =>
    have := b.toNat_lt
    simp only [leVal, List.length_cons, Nat.pow_succ]
    omega

theorem nextLE_leBytes (k v : Nat) (rest : Bytes) (h : v < 256 ^ k) :
    nextLE k (leBytes k v ++ rest) = some (v, rest) := by
  have hl := leBytes_length k v
  unfold nextLE
  rw [if_neg (by simp [hl])]
  have h1 : (leBytes k v ++ rest).take k = leBytes k v := by
    rw [List.take_append_of_le_length (by omega)]
    exact List.take_of_length_le (by omega)
  have h2 : (leBytes k v ++ rest).drop k = rest := by
    rw [List.drop_append_of_le_length (by omega), List.drop_of_length_le (by omega)]
    rfl
  rw [h1, h2, leVal_leBytes k v h]

theorem nextLE_lt {k : Nat} {bs : Bytes} {v : Nat} {r : Bytes}
    (h : nextLE k bs = some (v, r)) : v < 256 ^ k := by
  unfold nextLE at h
  split at h
  · cases h
  · simp only [Option.some.injEq, Prod.mk.injEq] at h
    obtain ⟨h1, _⟩ := h
    subst h1
    have := leVal_lt (bs.take k)
    have hl : (bs.take k).length = k := by simp; omega
    rwa [hl] at this

end Verif
