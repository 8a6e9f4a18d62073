import Verif.Sha.Lemmas

/-!
# C34, C56: digests

For any way of cutting a message into calls of the update function, the digest is the one of
FIPS 180-4 (`Verif.Sha.Spec`).
-/

namespace Verif.Sha

/-! ### SHA-1 -/

/-- The context `c` stands for the message `P`. -/
def Inv1 (c : Ctx1) (P : Bytes) : Prop :=
  Rep compress1 init1 c.st c.buf P ∧ c.c1.toNat * 2 ^ 32 + c.c0.toNat = (8 * P.length) % 2 ^ 64

theorem inv1_init (mem : Bytes) (h : mem.length = 64) : Inv1 (sha1Init mem) [] := by
  refine ⟨⟨[], [], rfl, rfl, by simp, ?_, h, rfl⟩, by simp [sha1Init]⟩
  rw [hashBlocks_short _ _ (by simp)]
  rfl

theorem blocks1_spec (data : Bytes) (h0 : H5) (hd : data.length + 64 ≤ 2 ^ 32) :
    ∀ (k i : Nat) (X : Bytes), data.length - i = k → i ≤ data.length → X.length % 64 = 0 →
      ∃ i' ≤ data.length, data.length - i' < 64 ∧ i ≤ i' ∧ (i' - i) % 64 = 0 ∧
        blocks1 data (hashBlocks compress1 h0 X) i
          = some (hashBlocks compress1 h0 (X ++ (data.drop i).take (i' - i)), i') := by
  intro k
  induction k using Nat.strongRecOn with
  | _ k ih =>
    intro i X hk hi hX
    rw [blocks1]
    by_cases hc : (i + 63) % 2 ^ 32 < data.length
    · rw [if_pos hc]
      have h64 : i + 64 ≤ data.length := by
        rw [Nat.mod_eq_of_lt (by omega)] at hc; omega
      rw [if_pos h64, transform1_eq]
      have hb : ((data.drop i).take 64).length = 64 := by simp; omega
      rw [← hashBlocks_one compress1 h0 X _ hX hb]
      obtain ⟨i', h1, h2, h3, h4, h5⟩ := ih (data.length - (i + 64)) (by omega) (i + 64)
        (X ++ (data.drop i).take 64) rfl h64 (by rw [List.length_append, hb]; omega)
      refine ⟨i', h1, h2, by omega, by omega, ?_⟩
      rw [h5]
      rw [List.append_assoc]
      congr 4
      rw [show i' - i = 64 + (i' - (i + 64)) by omega, List.take_add, List.drop_drop]
    · rw [if_neg hc]
      refine ⟨i, hi, ?_, Nat.le_refl _, by simp, ?_⟩
      · by_cases h : i + 63 < 2 ^ 32
        · rw [Nat.mod_eq_of_lt h] at hc; omega
        · omega
      · simp

theorem count_j (c : Ctx1) (P : Bytes)
    (h : c.c1.toNat * 2 ^ 32 + c.c0.toNat = (8 * P.length) % 2 ^ 64) :
    ((c.c0 >>> 3) &&& 63#32).toNat = P.length % 64 := by
  have h0 := c.c0.isLt
  rw [BitVec.toNat_and, BitVec.toNat_ushiftRight, Nat.shiftRight_eq_div_pow,
    show (63#32).toNat = 2 ^ 6 - 1 from rfl, Nat.and_two_pow_sub_one_eq_mod]
  omega

/-- Two words as a counter: `k` is the carry. -/
theorem carry_add (c0 c1 p n k : Nat) (h0 : c0 < 4294967296)
    (h : c1 * 4294967296 + c0 = (8 * p) % 18446744073709551616)
    (hc : c0 + 8 * n % 4294967296 = 4294967296 * k + (c0 + 8 * n % 4294967296) % 4294967296) :
    ((c1 + k) % 4294967296 + n / 536870912) % 4294967296 * 4294967296 +
        (c0 + 8 * n % 4294967296) % 4294967296
      = (8 * (p + n)) % 18446744073709551616 := by
  rw [Nat.mod_add_mod]
  have hx : 8 * n = 4294967296 * (n / 536870912) + 8 * n % 4294967296 := by omega
  have hz2 : (c0 + 8 * n % 4294967296) % 4294967296 < 4294967296 := by omega
  generalize n / 536870912 = y at *
  generalize 8 * n % 4294967296 = x at *
  generalize (c0 + x) % 4294967296 = z at *
  have hp := Nat.mod_add_div (8 * p) 18446744073709551616
  rw [← h] at hp
  generalize (8 * p) / 18446744073709551616 = a at *
  have hw := Nat.mod_add_div (c1 + k + y) 4294967296
  have hw2 := Nat.mod_lt (c1 + k + y) (by omega : 4294967296 > 0)
  generalize (c1 + k + y) / 4294967296 = b at *
  generalize (c1 + k + y) % 4294967296 = w at *
  have : 8 * (p + n) = (w * 4294967296 + z) + 18446744073709551616 * (a + b) := by omega
  rw [this, Nat.add_mul_mod_self_left, Nat.mod_eq_of_lt]
  omega

theorem count_step (c0 c1 : Word) (p n : Nat) (hn : n < 2 ^ 32)
    (h : c1.toNat * 2 ^ 32 + c0.toNat = (8 * p) % 2 ^ 64) :
    ((if c0 + (BitVec.ofNat 32 n <<< 3) < BitVec.ofNat 32 n <<< 3 then c1 + 1 else c1) +
        (BitVec.ofNat 32 n >>> 29)).toNat * 2 ^ 32 + (c0 + (BitVec.ofNat 32 n <<< 3)).toNat
      = (8 * (p + n)) % 2 ^ 64 := by
  have h0 := c0.isLt
  have h1 := c1.isLt
  have e1 : (BitVec.ofNat 32 n <<< 3).toNat = (8 * n) % 2 ^ 32 := by
    rw [BitVec.toNat_shiftLeft, BitVec.toNat_ofNat, Nat.shiftLeft_eq, Nat.mod_eq_of_lt hn]
    congr 1
    omega
  have e2 : (BitVec.ofNat 32 n >>> 29).toNat = n / 2 ^ 29 := by
    rw [BitVec.toNat_ushiftRight, BitVec.toNat_ofNat, Nat.shiftRight_eq_div_pow, Nat.mod_eq_of_lt hn]
  have e3 : (1 : Word).toNat = 1 := rfl
  by_cases hc : c0 + (BitVec.ofNat 32 n <<< 3) < BitVec.ofNat 32 n <<< 3
  · rw [if_pos hc]
    rw [BitVec.lt_def, BitVec.toNat_add, e1] at hc
    rw [BitVec.toNat_add, BitVec.toNat_add, BitVec.toNat_add, e1, e2, e3]
    exact carry_add _ _ _ _ 1 h0 h (by omega)
  · rw [if_neg hc]
    rw [BitVec.lt_def, BitVec.toNat_add, e1] at hc
    rw [BitVec.toNat_add, BitVec.toNat_add, e1, e2]
    have := carry_add _ _ p n 0 h0 h (by omega)
    rwa [Nat.add_zero, Nat.mod_eq_of_lt h1] at this

theorem update1_spec (c : Ctx1) (P data : Bytes) (h : Inv1 c P) (hd : data.length + 64 ≤ 2 ^ 32) :
    ∃ c', sha1Update c data = some c' ∧ Inv1 c' (P ++ data) := by
  obtain ⟨⟨Q, T, hP, hQ, hT, hst, hbuf, htk⟩, hc⟩ := h
  have hcount := count_step c.c0 c.c1 P.length data.length (by omega) hc
  have hj : ((c.c0 >>> 3) &&& 63#32).toNat = T.length := by
    rw [count_j c P hc, hP, List.length_append]; omega
  rw [← List.length_append] at hcount
  unfold sha1Update
  dsimp only
  rw [hj, Nat.mod_eq_of_lt (by omega : T.length + data.length < 2 ^ 32)]
  by_cases hgt : T.length + data.length > 63
  · rw [if_pos hgt, if_neg (by omega)]
    have htl : (data.take (64 - T.length)).length = 64 - T.length := by simp; omega
    obtain ⟨buf', hs, hbl, hbt⟩ := store_some (j := T.length) (src := data.take (64 - T.length)) hbuf
      (by rw [htl]; omega)
    rw [hs]
    dsimp only
    have hbe : buf' = T ++ data.take (64 - T.length) := by
      rw [htl, htk, List.take_of_length_le (by omega)] at hbt
      exact hbt
    have hX : (Q ++ buf').length % 64 = 0 := by rw [List.length_append, hbl]; omega
    rw [transform1_eq, hst, ← hashBlocks_one compress1 init1 Q buf' hQ hbl]
    obtain ⟨i', h1, h2, h3, h4, h5⟩ := blocks1_spec data init1 hd _ (64 - T.length) (Q ++ buf') rfl
      (by omega) hX
    rw [h5]
    dsimp only
    obtain ⟨buf2, hs2, hbl2, hbt2⟩ := store_some (j := 0) (src := data.drop i') hbl
      (by simp; omega)
    rw [hs2]
    refine ⟨_, rfl, ⟨_, data.drop i', ?_, ?_, ?_, rfl, hbl2, ?_⟩, hcount⟩
    · rw [hP, hbe]
      have e1 : data.take (64 - T.length) ++ (data.drop (64 - T.length)).take (i' - (64 - T.length))
          = data.take i' := by
        rw [← List.take_add]; congr 1; omega
      simp only [List.append_assoc]
      rw [← List.append_assoc (List.take _ _) (List.take _ _), e1, List.take_append_drop]
    · rw [List.length_append, List.length_take, List.length_drop]
      have : min (i' - (64 - T.length)) (data.length - (64 - T.length)) = i' - (64 - T.length) := by
        omega
      rw [this]; omega
    · simp; omega
    · rw [Nat.zero_add] at hbt2
      simpa using hbt2
  · rw [if_neg hgt]
    obtain ⟨buf', hs, hbl, hbt⟩ := store_some (j := T.length) (src := data) hbuf (by omega)
    rw [hs]
    refine ⟨_, rfl, ⟨Q, T ++ data, ?_, hQ, ?_, hst, hbl, ?_⟩, hcount⟩
    · rw [hP, List.append_assoc]
    · rw [List.length_append]; omega
    · rw [List.length_append, hbt, htk]

theorem updates1_spec (ds : List Bytes) : ∀ (c : Ctx1) (P : Bytes), Inv1 c P →
    (∀ d ∈ ds, d.length + 64 ≤ 2 ^ 32) → ∃ c', sha1Updates c ds = some c' ∧ Inv1 c' (P ++ ds.flatten) := by
  induction ds with
  | nil => intro c P h _; exact ⟨c, rfl, by simpa using h⟩
  | cons d ds ih =>
    intro c P h hd
    obtain ⟨c1, h1, h2⟩ := update1_spec c P d h (hd d (by simp))
    obtain ⟨c2, h3, h4⟩ := ih c1 _ h2 (fun x hx => hd x (by simp [hx]))
    refine ⟨c2, ?_, by simpa using h4⟩
    unfold sha1Updates
    rw [h1]
    exact h3

theorem mask_504 (x : Word) : (x &&& 504#32 ≠ 448#32) ↔ ((x >>> 3) &&& 63#32).toNat ≠ 56 := by
  have e : x &&& 504#32 = ((x >>> 3) &&& 63#32) <<< 3 := by
    apply BitVec.eq_of_getLsbD_eq
    intro i hi
    have hm : ∀ i < 32, (504#32).getLsbD i = (decide (3 ≤ i) && (63#32).getLsbD (i - 3)) := by decide
    rw [BitVec.getLsbD_and, hm i hi, BitVec.getLsbD_shiftLeft, BitVec.getLsbD_and,
      BitVec.getLsbD_ushiftRight]
    by_cases h3 : 3 ≤ i
    · rw [show 3 + (i - 3) = i by omega]
      simp [h3, hi]
    · simp [h3]
  have hlt : ((x >>> 3) &&& 63#32).toNat < 64 := by
    rw [BitVec.toNat_and, show (63#32).toNat = 2 ^ 6 - 1 from rfl, Nat.and_two_pow_sub_one_eq_mod]
    omega
  rw [e, ne_eq, ne_eq, not_iff_not, ← BitVec.toNat_inj, BitVec.toNat_shiftLeft, Nat.shiftLeft_eq]
  rw [show (448#32).toNat = 448 from rfl]
  omega

theorem padLoop_spec (fuel : Nat) : ∀ (c : Ctx1) (P : Bytes), Inv1 c P →
    (120 - P.length % 64) % 64 < fuel →
    ∃ c', padLoop fuel c = some c' ∧
      Inv1 c' (P ++ List.replicate ((120 - P.length % 64) % 64) 0) := by
  induction fuel with
  | zero => intro c P _ h; omega
  | succ fuel ih =>
    intro c P h hf
    unfold padLoop
    have hm := mask_504 c.c0
    rw [count_j c P h.2] at hm
    by_cases h56 : P.length % 64 = 56
    · rw [if_neg (by rw [hm]; simpa using h56)]
      exact ⟨c, rfl, by simpa [h56] using h⟩
    · rw [if_pos (by rw [hm]; exact h56)]
      obtain ⟨c1, h1, h2⟩ := update1_spec c P [0] h (by simp)
      rw [h1]
      dsimp only
      have hl : (P ++ [(0 : UInt8)]).length = P.length + 1 := by simp
      obtain ⟨c2, h3, h4⟩ := ih c1 _ h2 (by rw [hl]; omega)
      refine ⟨c2, h3, ?_⟩
      rw [hl] at h4
      rw [show (120 - P.length % 64) % 64 = (120 - (P.length + 1) % 64) % 64 + 1 by omega,
        List.replicate_succ]
      simpa using h4

theorem be64_mod (n : Nat) : be64 (n % 2 ^ 64) = be64 n := by
  unfold be64
  simp only [List.cons.injEq, and_true]
  refine ⟨?_, ?_, ?_, ?_, ?_, ?_, ?_, ?_⟩ <;> (apply ofNat_mod; omega)

theorem be64_length (n : Nat) : (be64 n).length = 8 := rfl

theorem final1_spec (c : Ctx1) (P : Bytes) (h : Inv1 c P) : sha1Final c = some (sha1 P) := by
  unfold sha1Final
  dsimp only
  obtain ⟨c1, h1, h2⟩ := update1_spec c P [0x80] h (by simp)
  rw [h1]
  dsimp only
  have hl : (P ++ [(0x80 : UInt8)]).length = P.length + 1 := by simp
  obtain ⟨c2, h3, h4⟩ := padLoop_spec 65 c1 _ h2 (by omega)
  rw [h3]
  dsimp only
  have hcnt : bytesOf c.c1 ++ bytesOf c.c0 = be64 (8 * P.length) := by
    rw [count_bytes, h.2, be64_mod]
  obtain ⟨c3, h5, h6⟩ := update1_spec c2 _ (bytesOf c.c1 ++ bytesOf c.c0) h4
    (by rw [hcnt, be64_length]; omega)
  rw [h5]
  dsimp only
  have hp : P ++ [(0x80 : UInt8)] ++ List.replicate ((120 - (P ++ [(0x80 : UInt8)]).length % 64) % 64) 0 ++
      (bytesOf c.c1 ++ bytesOf c.c0) = pad P := by
    unfold pad
    rw [hcnt, hl, show (120 - (P.length + 1) % 64) % 64 = (119 - P.length % 64) % 64 by omega]
  rw [hp] at h6
  unfold sha1
  dsimp only
  rw [← h6.1.state]
  simp only [bytesOf_eq]

/-- **C34** (digest).  However a message is cut into calls of the update function of
`libselinux/src/sha1.c`, each of at most `2^32 - 64` bytes, no call leaves the buffers, and the
digest is the SHA-1 of the message. -/
theorem C34_digest_partial (mem : Bytes) (hm : mem.length = 64) (ds : List Bytes)
    (hd : ∀ d ∈ ds, d.length + 64 ≤ 2 ^ 32) :
    (sha1Updates (sha1Init mem) ds).bind sha1Final = some (sha1 ds.flatten) := by
  obtain ⟨c, h1, h2⟩ := updates1_spec ds (sha1Init mem) [] (inv1_init mem hm) hd
  rw [h1]
  exact final1_spec c _ (by simpa using h2)

/-- `C34_digest_partial` applies to non-trivial messages. -/
example : ∃ ds : List Bytes, (∀ d ∈ ds, d.length + 64 ≤ 2 ^ 32) ∧ ds.length = 3 ∧
    ds.flatten.length = 300 :=
  ⟨[List.replicate 1 97, List.replicate 199 98, List.replicate 100 99], by
    intro d hd
    have : d.length = 1 ∨ d.length = 199 ∨ d.length = 100 := by
      simp only [List.mem_cons, List.not_mem_nil, or_false] at hd
      rcases hd with rfl | rfl | rfl
      · exact Or.inl List.length_replicate
      · exact Or.inr (Or.inl List.length_replicate)
      · exact Or.inr (Or.inr List.length_replicate)
    omega, rfl, by
    rw [List.length_flatten]
    simp only [List.map_cons, List.map_nil, List.length_replicate]
    rfl⟩

/-- The specification gives the digest of "abc" printed in FIPS 180-4. -/
example : sha1 [0x61, 0x62, 0x63] =
    [0xa9, 0x99, 0x3e, 0x36, 0x47, 0x06, 0x81, 0x6a, 0xba, 0x3e, 0x25, 0x71, 0x78, 0x50, 0xc2, 0x6c,
      0x9c, 0xd0, 0xd8, 0x9d] := by decide +kernel

/-- **C34** (refuted for the longest arguments).  After one byte, a call with `2^32 - 1` bytes,
which the type of the argument allows, copies all of them over the 64-byte buffer: the sum
`j + BufferSize` wraps to 0. -/
theorem C34_digest_refuted (mem : Bytes) (hm : mem.length = 64) (b : UInt8) (d : Bytes)
    (hd : d.length = 2 ^ 32 - 1) : sha1Updates (sha1Init mem) [[b], d] = none := by
  obtain ⟨c, h1, h2⟩ := update1_spec (sha1Init mem) [] [b] (inv1_init mem hm) (by simp)
  have hj : ((c.c0 >>> 3) &&& 63#32).toNat = 1 := by
    rw [count_j c _ h2.2]; rfl
  unfold sha1Updates
  rw [h1]
  dsimp only
  unfold sha1Updates
  have : sha1Update c d = none := by
    unfold sha1Update
    dsimp only
    rw [hj, hd, if_neg (by omega)]
    unfold store
    rw [if_neg (by omega)]
  rw [this]

/-- There is such an argument. -/
example : ∃ d : Bytes, d.length = 2 ^ 32 - 1 ∧ d.length < 2 ^ 32 :=
  ⟨List.replicate (2 ^ 32 - 1) 0, List.length_replicate, by rw [List.length_replicate]; omega⟩

/-! ### SHA-256 -/

/-- The context `c` stands for the message `P`. -/
def Inv256 (c : Ctx256) (P : Bytes) : Prop :=
  ∃ Q T, P = Q ++ T ∧ Q.length % 64 = 0 ∧ T.length < 64 ∧
    c.st = hashBlocks (compress256 K256) init256 Q ∧ c.buf.length = 64 ∧ c.buf.take T.length = T ∧
    c.curlen = T.length ∧ c.length = BitVec.ofNat 64 (8 * Q.length)

theorem inv256_init (mem : Bytes) (h : mem.length = 64) : Inv256 (sha256Init mem) [] := by
  refine ⟨[], [], rfl, rfl, by simp, ?_, h, rfl, rfl, rfl⟩
  rw [hashBlocks_short _ _ (by simp)]
  rfl

theorem length_step (q : Nat) : BitVec.ofNat 64 (8 * q) + 512 = BitVec.ofNat 64 (8 * (q + 64)) := by
  rw [show (512 : BitVec 64) = BitVec.ofNat 64 512 from rfl, ← BitVec.ofNat_add]
  congr 1

theorem loop256_spec (k : Nat) : ∀ (c : Ctx256) (P data : Bytes), data.length = k → Inv256 c P →
    ∃ c', loop256 c data = some c' ∧ Inv256 c' (P ++ data) := by
  induction k using Nat.strongRecOn with
  | _ k ih =>
    intro c P data hk h
    rw [loop256]
    by_cases h0 : data.length = 0
    · rw [dif_pos h0]
      have := List.length_eq_zero_iff.1 h0
      subst this
      exact ⟨c, rfl, by simpa using h⟩
    · rw [dif_neg h0]
      obtain ⟨Q, T, hP, hQ, hT, hst, hbuf, htk, hcur, hlen⟩ := h
      by_cases hb : c.curlen = 0 ∧ data.length ≥ 64
      · rw [if_pos hb]
        have hT0 : T = [] := by
          apply List.length_eq_zero_iff.1; omega
        subst hT0
        have htl : (data.take 64).length = 64 := by simp; omega
        obtain ⟨c', h1, h2⟩ := ih (data.drop 64).length (by simp; omega)
          { c with st := transform256 c.st (data.take 64), length := c.length + 512 }
          (Q ++ data.take 64) (data.drop 64) rfl
          ⟨Q ++ data.take 64, [], by simp, by rw [List.length_append, htl]; omega, by simp, by
            rw [transform256_eq, hst, hashBlocks_one _ _ Q _ hQ htl], hbuf, rfl, hcur, by
            show c.length + 512 = _
            rw [hlen, length_step, List.length_append, htl]⟩
        refine ⟨c', h1, ?_⟩
        rw [hP]
        simpa using h2
      · rw [if_neg hb]
        dsimp only
        have hn0 : ¬ min data.length (64 - c.curlen) = 0 := by omega
        rw [dif_neg hn0]
        have htl : (data.take (min data.length (64 - c.curlen))).length
            = min data.length (64 - c.curlen) := by
          rw [List.length_take]; omega
        obtain ⟨buf', hs, hbl, hbt⟩ := store_some (j := c.curlen)
          (src := data.take (min data.length (64 - c.curlen))) hbuf (by rw [htl]; omega)
        rw [hs]
        dsimp only
        rw [htl] at hbt
        rw [hcur, htk, ← hcur] at hbt
        have hdl : (data.drop (min data.length (64 - c.curlen))).length < k := by
          rw [List.length_drop]; omega
        by_cases hf : c.curlen + min data.length (64 - c.curlen) = 64
        · rw [if_pos hf]
          rw [hf, List.take_of_length_le (by omega)] at hbt
          have hbe : Q ++ buf' = P ++ data.take (min data.length (64 - c.curlen)) := by
            rw [hbt, hP, List.append_assoc]
          obtain ⟨c', h1, h2⟩ := ih _ hdl
            { c with buf := buf', st := transform256 c.st buf', length := c.length + 512, curlen := 0 }
            (Q ++ buf') _ rfl
            ⟨Q ++ buf', [], by simp, by rw [List.length_append, hbl]; omega, by simp, by
              rw [transform256_eq, hst, hashBlocks_one _ _ Q _ hQ hbl], hbl, rfl, rfl, by
              show c.length + 512 = _
              rw [hlen, length_step, List.length_append, hbl]⟩
          refine ⟨c', h1, ?_⟩
          rw [hbe, List.append_assoc, List.take_append_drop] at h2
          exact h2
        · rw [if_neg hf]
          obtain ⟨c', h1, h2⟩ := ih _ hdl
            { c with buf := buf', curlen := c.curlen + min data.length (64 - c.curlen) }
            (P ++ data.take (min data.length (64 - c.curlen))) _ rfl
            ⟨Q, T ++ data.take (min data.length (64 - c.curlen)), by rw [hP, List.append_assoc], hQ, by
              rw [List.length_append, htl]; omega, hst, hbl, by
              rw [List.length_append, htl, ← hcur]; exact hbt, by
              rw [List.length_append, htl, ← hcur], hlen⟩
          refine ⟨c', h1, ?_⟩
          rw [List.append_assoc, List.take_append_drop] at h2
          exact h2

theorem update256_spec (c : Ctx256) (P data : Bytes) (h : Inv256 c P) :
    ∃ c', sha256Update c data = some c' ∧ Inv256 c' (P ++ data) := by
  unfold sha256Update
  have : ¬ c.curlen > 64 := by
    obtain ⟨Q, T, _, _, hT, _, _, _, hc, _⟩ := h
    omega
  rw [if_neg this]
  exact loop256_spec _ c P data rfl h

theorem updates256_spec (ds : List Bytes) : ∀ (c : Ctx256) (P : Bytes), Inv256 c P →
    ∃ c', sha256Updates c ds = some c' ∧ Inv256 c' (P ++ ds.flatten) := by
  induction ds with
  | nil => intro c P h; exact ⟨c, rfl, by simpa using h⟩
  | cons d ds ih =>
    intro c P h
    obtain ⟨c1, h1, h2⟩ := update256_spec c P d h
    obtain ⟨c2, h3, h4⟩ := ih c1 _ h2
    refine ⟨c2, ?_, by simpa using h4⟩
    unfold sha256Updates
    rw [h1]
    exact h3

theorem zeros_spec (k : Nat) : ∀ (c : Ctx256) (upto : Nat), upto - c.curlen = k → c.curlen ≤ upto →
    upto ≤ 64 → c.buf.length = 64 →
    (zeros c upto).st = c.st ∧ (zeros c upto).length = c.length ∧ (zeros c upto).curlen = upto ∧
      (zeros c upto).buf.length = 64 ∧
      (zeros c upto).buf.take upto = c.buf.take c.curlen ++ List.replicate k 0 := by
  induction k with
  | zero =>
    intro c upto hk h1 h2 h3
    have : c.curlen = upto := by omega
    rw [zeros, if_neg (by omega)]
    exact ⟨rfl, rfl, this, h3, by simp [this]⟩
  | succ k ih =>
    intro c upto hk h1 h2 h3
    rw [zeros, if_pos (by omega)]
    obtain ⟨e1, e2, e3, e4, e5⟩ := ih { c with buf := c.buf.set c.curlen 0, curlen := c.curlen + 1 } upto
      (by show upto - (c.curlen + 1) = k; omega) (by show c.curlen + 1 ≤ upto; omega) h2 (by simp [h3])
    refine ⟨e1, e2, e3, e4, ?_⟩
    rw [e5]
    show (c.buf.set c.curlen 0).take (c.curlen + 1) ++ _ = _
    rw [List.take_add_one, List.take_set_of_le (Nat.le_refl _), List.getElem?_set_self (by omega),
      List.replicate_succ]
    simp

theorem set_take (buf : Bytes) (j : Nat) (b : UInt8) (h : j < buf.length) :
    (buf.set j b).take (j + 1) = buf.take j ++ [b] := by
  rw [List.take_add_one, List.take_set_of_le (Nat.le_refl _), List.getElem?_set_self h]
  rfl

/-- The end of `sha256Final`, from the last run of zeros on. -/
theorem final_tail (c : Ctx256) (Q : Bytes) (hQ : Q.length % 64 = 0)
    (hst : c.st = hashBlocks (compress256 K256) init256 Q) (hb : c.buf.length = 64)
    (hc : c.curlen ≤ 56) :
    ∃ buf', store (zeros c 56).buf 56 (store64h (zeros c 56).length) = some buf' ∧
      transform256 (zeros c 56).st buf' = hashBlocks (compress256 K256) init256
        (Q ++ (c.buf.take c.curlen ++ List.replicate (56 - c.curlen) 0 ++ be64 c.length.toNat)) := by
  obtain ⟨e1, e2, e3, e4, e5⟩ := zeros_spec _ c 56 rfl hc (by omega) hb
  rw [store64h_eq, e2]
  obtain ⟨buf', hs, hbl, hbt⟩ := store_some (j := 56) (src := be64 c.length.toNat) e4
    (by rw [be64_length])
  refine ⟨buf', hs, ?_⟩
  rw [be64_length, List.take_of_length_le (by omega), e5] at hbt
  rw [← hbt, hashBlocks_one _ _ Q buf' hQ hbl, e1, hst, transform256_eq]

theorem final256_spec (c : Ctx256) (P : Bytes) (h : Inv256 c P) :
    sha256Final c = some (sha256 K256 P) := by
  obtain ⟨Q, T, hP, hQ, hT, hst, hbuf, htk, hcur, hlen⟩ := h
  have hlenP : (c.length + BitVec.ofNat 64 (c.curlen * 8)) = BitVec.ofNat 64 (8 * P.length) := by
    rw [hlen, ← BitVec.ofNat_add, hP, List.length_append, hcur]
    congr 1; omega
  have hbe : be64 (BitVec.ofNat 64 (8 * P.length)).toNat = be64 (8 * P.length) := by
    rw [BitVec.toNat_ofNat, be64_mod]
  have hPl : P.length % 64 = T.length := by rw [hP, List.length_append]; omega
  have hst1 : (c.buf.set c.curlen 0x80).take (c.curlen + 1) = T ++ [0x80] := by
    rw [set_take _ _ _ (by omega), hcur, htk]
  unfold sha256Final
  rw [if_neg (by omega)]
  dsimp only
  rw [hlenP]
  by_cases hgt : c.curlen + 1 > 56
  · rw [if_pos hgt]
    obtain ⟨e1, e2, e3, e4, e5⟩ := zeros_spec (64 - (c.curlen + 1))
      { c with length := BitVec.ofNat 64 (8 * P.length), buf := c.buf.set c.curlen 0x80, curlen := c.curlen + 1 }
      64 rfl (by show c.curlen + 1 ≤ 64; omega) (Nat.le_refl _) (by simp [hbuf])
    rw [List.take_of_length_le (by omega)] at e5
    change _ = (c.buf.set c.curlen 0x80).take (c.curlen + 1) ++ _ at e5
    rw [hst1] at e5
    obtain ⟨buf', hs, ht⟩ := final_tail
      { zeros { c with length := BitVec.ofNat 64 (8 * P.length), buf := c.buf.set c.curlen 0x80, curlen := c.curlen + 1 } 64 with
        st := transform256 (zeros { c with length := BitVec.ofNat 64 (8 * P.length), buf := c.buf.set c.curlen 0x80, curlen := c.curlen + 1 } 64).st
          (zeros { c with length := BitVec.ofNat 64 (8 * P.length), buf := c.buf.set c.curlen 0x80, curlen := c.curlen + 1 } 64).buf,
        curlen := 0 }
      (Q ++ (zeros { c with length := BitVec.ofNat 64 (8 * P.length), buf := c.buf.set c.curlen 0x80, curlen := c.curlen + 1 } 64).buf)
      (by rw [List.length_append, e4]; omega)
      (by rw [hashBlocks_one _ _ Q _ hQ e4, transform256_eq, e1, hst])
      e4 (Nat.zero_le _)
    rw [hs]
    dsimp only
    rw [ht]
    have hp : Q ++ (zeros { c with length := BitVec.ofNat 64 (8 * P.length), buf := c.buf.set c.curlen 0x80, curlen := c.curlen + 1 } 64).buf ++
        ([] ++ List.replicate 56 0 ++ be64 (8 * P.length)) = pad P := by
      unfold pad
      rw [hPl, e5, show (119 - T.length) % 64 = (64 - (c.curlen + 1)) + 56 by omega,
        ← List.replicate_append_replicate, hP]
      simp
    dsimp only
    rw [e2]
    dsimp only
    rw [hbe, List.take_zero, Nat.sub_zero, hp]
    unfold sha256
    simp only [store32h_eq]
  · rw [if_neg hgt]
    obtain ⟨buf', hs, ht⟩ := final_tail
      { c with length := BitVec.ofNat 64 (8 * P.length), buf := c.buf.set c.curlen 0x80, curlen := c.curlen + 1 }
      Q hQ hst (by simp [hbuf]) (by show c.curlen + 1 ≤ 56; omega)
    rw [hs]
    dsimp only
    rw [ht]
    dsimp only
    have hp : Q ++ ((c.buf.set c.curlen 0x80).take (c.curlen + 1) ++
        List.replicate (56 - (c.curlen + 1)) 0 ++ be64 (BitVec.ofNat 64 (8 * P.length)).toNat) = pad P := by
      unfold pad
      rw [hPl, hst1, hbe, show (119 - T.length) % 64 = 56 - (c.curlen + 1) by omega, hP]
      simp
    rw [hp]
    unfold sha256
    simp only [store32h_eq]

/-- **C56** (constants).  The table of `libsemanage/src/sha256.c` is the one of FIPS 180-4: the
first 32 bits of the fractional parts of the cube roots of the first 64 primes. -/
theorem C56_constants : IsK256 K256 := by
  refine ⟨by decide, ?_⟩
  have key : ∀ i < 64, ∀ p, primes[i]? = some p → ∃ q < 7,
      (q * 2 ^ 32 + (K256.getD i 0).toNat) ^ 3 ≤ p * 2 ^ 96 ∧
        p * 2 ^ 96 < (q * 2 ^ 32 + (K256.getD i 0).toNat + 1) ^ 3 := by
    have : ∀ i < 64, ∃ q < 7, (q * 2 ^ 32 + (K256.getD i 0).toNat) ^ 3 ≤ primes.getD i 0 * 2 ^ 96 ∧
        primes.getD i 0 * 2 ^ 96 < (q * 2 ^ 32 + (K256.getD i 0).toNat + 1) ^ 3 := by decide +kernel
    intro i hi p hp
    have h := this i hi
    have e : primes.getD i 0 = p := by rw [List.getD, hp]; rfl
    rwa [e] at h
  intro i p hp
  have hi : i < 64 := (List.getElem?_eq_some_iff.1 hp).1
  refine ⟨K256.getD i 0, ?_, key i hi p hp⟩
  have hl : K256.length = 64 := by decide
  rw [List.getD, List.getElem?_eq_getElem (by omega)]
  rfl

/-- `primes` is the list of the primes below 312. -/
example : primes = (List.range 312).filter (fun n => decide (2 ≤ n ∧ ∀ d < n, 2 ≤ d → n % d ≠ 0)) := by
  decide +kernel

/-- **C56** (digest).  However a message is cut into calls of the update function of
`libsemanage/src/sha256.c`, every call ends, none leaves the buffers, and the digest is the SHA-256
of the message. -/
theorem C56_digest (mem : Bytes) (hm : mem.length = 64) (ds : List Bytes) :
    (sha256Updates (sha256Init mem) ds).bind sha256Final = some (sha256 K256 ds.flatten) := by
  obtain ⟨c, h1, h2⟩ := updates256_spec ds (sha256Init mem) [] (inv256_init mem hm)
  rw [h1]
  exact final256_spec c _ (by simpa using h2)

/-- The specification gives the digest of "abc" printed in FIPS 180-4. -/
example : sha256 K256 [0x61, 0x62, 0x63] =
    [0xba, 0x78, 0x16, 0xbf, 0x8f, 0x01, 0xcf, 0xea, 0x41, 0x41, 0x40, 0xde, 0x5d, 0xae, 0x22, 0x23,
      0xb0, 0x03, 0x61, 0xa3, 0x96, 0x17, 0x7a, 0x9c, 0xb4, 0x10, 0xff, 0x61, 0xf2, 0x00, 0x15, 0xad] := by
  decide +kernel

end Verif.Sha
