import Verif.Sha.Model
import Mathlib.Tactic.IntervalCases

/-!
# Lemmas for the hash functions
-/

namespace Verif.Sha

/-! ### Words -/

theorem rol_eq (v : Word) (n : Nat) : rol v n = rotl n v := rfl
theorem ror_eq (v : Word) (n : Nat) : ror v n = rotr n v := rfl

theorem ch_xor (w x y : Word) : (w &&& (x ^^^ y)) ^^^ y = ch w x y := by
  unfold ch
  apply BitVec.eq_of_getLsbD_eq
  intro i hi
  simp only [BitVec.getLsbD_xor, BitVec.getLsbD_and, BitVec.getLsbD_not, hi, decide_true, Bool.true_and]
  cases w.getLsbD i <;> cases x.getLsbD i <;> cases y.getLsbD i <;> rfl

theorem maj_or (w x y : Word) : ((w ||| x) &&& y) ||| (w &&& x) = maj w x y := by
  unfold maj
  apply BitVec.eq_of_getLsbD_eq
  intro i hi
  simp only [BitVec.getLsbD_xor, BitVec.getLsbD_and, BitVec.getLsbD_or]
  cases w.getLsbD i <;> cases x.getLsbD i <;> cases y.getLsbD i <;> rfl

theorem Ch_eq (x y z : Word) : Ch x y z = ch x y z := by
  unfold Ch ch
  apply BitVec.eq_of_getLsbD_eq
  intro i hi
  simp only [BitVec.getLsbD_xor, BitVec.getLsbD_and, BitVec.getLsbD_not, hi, decide_true, Bool.true_and]
  cases x.getLsbD i <;> cases y.getLsbD i <;> cases z.getLsbD i <;> rfl

theorem Maj_eq (x y z : Word) : Maj x y z = maj x y z := maj_or x y z

theorem bytes4_bit (b0 b1 b2 b3 : BitVec 8) (i : Nat) :
    BitVec.getLsbD (w := 32) (b0 ++ b1 ++ b2 ++ b3) i =
      if i < 8 then b3.getLsbD i else if i < 16 then b2.getLsbD (i - 8)
      else if i < 24 then b1.getLsbD (i - 16) else b0.getLsbD (i - 24) := by
  show BitVec.getLsbD (b0 ++ b1 ++ b2 ++ b3) i = _
  rw [BitVec.getLsbD_append, BitVec.getLsbD_append, BitVec.getLsbD_append]
  by_cases h1 : i < 8
  · rw [if_pos h1, if_pos h1]
  · rw [if_neg h1, if_neg h1]
    by_cases h2 : i < 16
    · rw [if_pos h2, if_pos (by omega)]
    · rw [if_neg h2, if_neg (by omega)]
      by_cases h3 : i < 24
      · rw [if_pos h3, if_pos (by omega)]; congr 1
      · rw [if_neg h3, if_neg (by omega)]; congr 1

theorem swap_eq (b0 b1 b2 b3 : UInt8) :
    (rol (leWord b0 b1 b2 b3) 24 &&& 0xFF00FF00#32) ||| (rol (leWord b0 b1 b2 b3) 8 &&& 0x00FF00FF#32)
      = beWord b0 b1 b2 b3 := by
  apply BitVec.eq_of_getLsbD_eq
  intro i hi
  unfold rol
  simp only [BitVec.getLsbD_or, BitVec.getLsbD_and, BitVec.getLsbD_shiftLeft,
      BitVec.getLsbD_ushiftRight]
  unfold leWord beWord
  simp only [bytes4_bit]
  interval_cases i <;> simp

theorem load32h_eq (b0 b1 b2 b3 : UInt8) : load32h b0 b1 b2 b3 = beWord b0 b1 b2 b3 := by
  apply BitVec.eq_of_getLsbD_eq
  intro i hi
  unfold load32h beWord
  simp only [BitVec.getLsbD_or, BitVec.getLsbD_and, BitVec.getLsbD_shiftLeft,
      BitVec.getLsbD_setWidth, bytes4_bit]
  interval_cases i <;> simp

theorem and_ones (x : Word) : x &&& 0xFFFFFFFF#32 = x := by
  have : (0xFFFFFFFF#32) = BitVec.allOnes 32 := by decide
  rw [this, BitVec.and_allOnes]

theorem and255 (n : Nat) : UInt8.ofNat (n &&& 255) = UInt8.ofNat n := by
  have : n &&& 255 = n % 256 := Nat.and_two_pow_sub_one_eq_mod n 8
  rw [this]
  apply UInt8.toNat_inj.1
  simp

theorem byteOf_eq (x : Word) (k : Nat) : byteOf x k = UInt8.ofNat (x.toNat / 2 ^ (8 * (3 - k))) := by
  unfold byteOf
  rw [BitVec.toNat_and, BitVec.toNat_ushiftRight, Nat.shiftRight_eq_div_pow]
  exact and255 _

theorem bytesOf_eq (x : Word) : bytesOf x = wordBytes x := by
  unfold bytesOf wordBytes
  simp [byteOf_eq]

theorem store32h_eq (x : Word) : store32h x = wordBytes x := by
  unfold store32h wordBytes
  simp only [List.map_cons, List.map_nil, BitVec.toNat_and, BitVec.toNat_ushiftRight,
    Nat.shiftRight_eq_div_pow]
  have h : (255#32).toNat = 255 := by decide
  simp only [h, and255]
  simp

theorem store64h_eq (x : BitVec 64) : store64h x = be64 x.toNat := by
  unfold store64h be64
  simp only [List.map_cons, List.map_nil, BitVec.toNat_and, BitVec.toNat_ushiftRight,
    Nat.shiftRight_eq_div_pow]
  have h : (255#64).toNat = 255 := by decide
  simp only [h, and255]
  simp

theorem ofNat_mod (m n : Nat) (h : m % 256 = n % 256) : UInt8.ofNat m = UInt8.ofNat n := by
  apply UInt8.toNat_inj.1
  simpa using h

theorem count_bytes (c1 c0 : Word) :
    bytesOf c1 ++ bytesOf c0 = be64 (c1.toNat * 2 ^ 32 + c0.toNat) := by
  rw [bytesOf_eq, bytesOf_eq]
  have h0 := c0.isLt
  have h1 := c1.isLt
  unfold wordBytes be64
  simp only [List.cons_append, List.nil_append, List.cons.injEq, and_true]
  refine ⟨?_, ?_, ?_, ?_, ?_, ?_, ?_, ?_⟩ <;> (apply ofNat_mod; omega)

/-! ### Blocks -/

theorem hashBlocks_short {H : Type} (f : H → Bytes → H) (h : H) {m : Bytes} (hm : m.length < 64) :
    hashBlocks f h m = h := by
  rw [hashBlocks, if_pos hm]

theorem hashBlocks_append {H : Type} (f : H → Bytes → H) (h : H) (p q : Bytes)
    (hp : p.length % 64 = 0) : hashBlocks f h (p ++ q) = hashBlocks f (hashBlocks f h p) q := by
  induction hn : p.length using Nat.strongRecOn generalizing p h with
  | _ n ih =>
    subst hn
    by_cases h0 : p.length < 64
    · have : p = [] := by
        apply List.length_eq_zero_iff.1; omega
      subst this
      rw [hashBlocks_short f h (m := []) (by simp)]
      rfl
    · rw [hashBlocks, if_neg (by simp; omega)]
      rw [hashBlocks.eq_def f h p, if_neg h0]
      rw [List.take_append_of_le_length (by omega), List.drop_append_of_le_length (by omega)]
      exact ih (p.drop 64).length (by simp; omega) _ (p.drop 64) (by simp; omega) rfl

theorem hashBlocks_one {H : Type} (f : H → Bytes → H) (h : H) (p b : Bytes)
    (hp : p.length % 64 = 0) (hb : b.length = 64) :
    hashBlocks f h (p ++ b) = f (hashBlocks f h p) b := by
  rw [hashBlocks_append f h p b hp, hashBlocks, if_neg (by omega)]
  rw [hashBlocks_short _ _ (by simp [hb])]
  rw [List.take_of_length_le (by omega)]

/-- The state `st` and the buffer `buf` stand for the message `P`. -/
def Rep {H : Type} (f : H → Bytes → H) (h0 : H) (st : H) (buf : Bytes) (P : Bytes) : Prop :=
  ∃ Q T, P = Q ++ T ∧ Q.length % 64 = 0 ∧ T.length < 64 ∧ st = hashBlocks f h0 Q ∧
    buf.length = 64 ∧ buf.take T.length = T

theorem Rep.state {H : Type} {f : H → Bytes → H} {h0 st : H} {buf P : Bytes}
    (h : Rep f h0 st buf P) : st = hashBlocks f h0 P := by
  obtain ⟨Q, T, rfl, hq, ht, rfl, _, _⟩ := h
  rw [hashBlocks_append f h0 Q T hq, hashBlocks_short f _ ht]

theorem store_some {buf : Bytes} {j : Nat} {src : Bytes} (hb : buf.length = 64)
    (h : j + src.length ≤ 64) :
    ∃ buf', store buf j src = some buf' ∧ buf'.length = 64 ∧
      buf'.take (j + src.length) = buf.take j ++ src := by
  refine ⟨buf.take j ++ src ++ buf.drop (j + src.length), ?_, ?_, ?_⟩
  · unfold store; rw [if_pos h]
  · simp; omega
  · rw [List.take_append_of_le_length (by simp; omega)]
    apply List.take_of_length_le
    simp

/-! ### The compression function of SHA-1 -/

theorem sched1_length (b : Bytes) (n : Nat) : (sched1 b n).length = 16 + n := by
  induction n with
  | zero => simp [sched1]
  | succ n ih => simp [sched1, ih]; omega

theorem sched1_stable (b : Bytes) (n k t : Nat) (h : t < 16 + n) :
    (sched1 b (n + k)).getD t 0 = (sched1 b n).getD t 0 := by
  induction k with
  | zero => rfl
  | succ k ih =>
    rw [← ih, show n + (k + 1) = (n + k) + 1 from rfl]
    simp only [sched1]
    rw [List.getD, List.getElem?_append_left (by rw [sched1_length]; omega), ← List.getD]

theorem sched1_head (b : Bytes) (t : Nat) (h : t < 16) :
    (sched1 b 64).getD t 0 = blockWord b t := by
  rw [show (64 : Nat) = 0 + 64 from rfl, sched1_stable b 0 64 t (by omega)]
  simp [sched1, List.getD, h]

theorem sched1_rec (b : Bytes) (t : Nat) (h : 16 ≤ t) (h' : t < 80) :
    (sched1 b 64).getD t 0 = rotl 1 ((sched1 b 64).getD (t - 3) 0 ^^^ (sched1 b 64).getD (t - 8) 0 ^^^
      (sched1 b 64).getD (t - 14) 0 ^^^ (sched1 b 64).getD (t - 16) 0) := by
  obtain ⟨n, rfl⟩ : ∃ n, t = 16 + n := ⟨t - 16, by omega⟩
  have e : ∀ s, s < 16 + n → (sched1 b 64).getD s 0 = (sched1 b n).getD s 0 := by
    intro s hs
    have := sched1_stable b n (64 - n) s hs
    rwa [show n + (64 - n) = 64 by omega] at this
  have e' : (sched1 b 64).getD (16 + n) 0 = (sched1 b (n + 1)).getD (16 + n) 0 := by
    have := sched1_stable b (n + 1) (63 - n) (16 + n) (by omega)
    rwa [show n + 1 + (63 - n) = 64 by omega] at this
  rw [e', e _ (by omega), e _ (by omega), e _ (by omega), e _ (by omega)]
  simp only [sched1]
  rw [List.getD, List.getElem?_append_right (by rw [sched1_length]), sched1_length, Nat.sub_self]
  rfl

/-- The working variables as call number `i` sees them. -/
def view (i : Nat) (r : H5) : H5 :=
  match i % 5 with
  | 0 => r
  | 1 => ⟨r.e, r.a, r.b, r.c, r.d⟩
  | 2 => ⟨r.d, r.e, r.a, r.b, r.c⟩
  | 3 => ⟨r.c, r.d, r.e, r.a, r.b⟩
  | _ => ⟨r.b, r.c, r.d, r.e, r.a⟩

theorem rterm_eq (i : Nat) (w x y v : Word) : rterm i w x y v = f1 i w x y + v + k1 i := by
  unfold rterm f1 k1 parity
  rw [ch_xor, maj_or]
  split
  · rfl
  · split
    · rfl
    · split <;> rfl

/-- The workspace before call number `t`. -/
def BInv (b : Bytes) (t : Nat) (l : List Word) : Prop :=
  l.length = 16 ∧ (∀ s, s < t → t ≤ s + 16 → l.getD (s % 16) 0 = (sched1 b 64).getD s 0) ∧
    ∀ s, t ≤ s → s < 16 → l.getD s 0 = (loadBlock b).getD s 0

theorem macro1_blk (b : Bytes) (t : Nat) (l : List Word) (h : BInv b t l) (ht : t < 80) :
    (if t < 16 then blk0 l t else blk l t) = (sched1 b 64).getD t 0 := by
  by_cases h16 : t < 16
  · rw [if_pos h16, sched1_head b t h16]
    unfold blk0
    rw [h.2.2 t (Nat.le_refl _) h16]
    have : (loadBlock b).getD t 0 = leWord (b.getD (4 * t) 0) (b.getD (4 * t + 1) 0)
        (b.getD (4 * t + 2) 0) (b.getD (4 * t + 3) 0) := by
      simp [loadBlock, List.getD, h16]
    rw [this, swap_eq]
    rfl
  · rw [if_neg h16, sched1_rec b t (by omega) ht]
    unfold blk
    have e3 := h.2.1 (t - 3) (by omega) (by omega)
    have e8 := h.2.1 (t - 8) (by omega) (by omega)
    have e14 := h.2.1 (t - 14) (by omega) (by omega)
    have e16 := h.2.1 (t - 16) (by omega) (by omega)
    rw [show (t - 3) % 16 = (t + 13) % 16 by omega] at e3
    rw [show (t - 8) % 16 = (t + 8) % 16 by omega] at e8
    rw [show (t - 14) % 16 = (t + 2) % 16 by omega] at e14
    rw [show (t - 16) % 16 = t % 16 by omega] at e16
    rw [e3, e8, e14, e16]
    rfl

theorem macro1_l (s : St1) (i : Nat) :
    (macro1 s i).l = s.l.set (i % 16) (if i < 16 then blk0 s.l i else blk s.l i) := by
  unfold macro1
  dsimp only
  split <;> rfl

theorem getD_set (l : List Word) (i j : Nat) (v : Word) (hi : i < l.length) :
    (l.set i v).getD j 0 = if i = j then v else l.getD j 0 := by
  simp only [List.getD, List.getElem?_set]
  split
  · simp_all
  · rfl

theorem macro1_BInv (b : Bytes) (t : Nat) (s : St1) (h : BInv b t s.l) (ht : t < 80) :
    BInv b (t + 1) (macro1 s t).l := by
  rw [macro1_l, macro1_blk b t s.l h ht]
  have hl := h.1
  refine ⟨by simp [hl], ?_, ?_⟩
  · intro u h1 h2
    rw [getD_set _ _ _ _ (by omega)]
    by_cases e : u = t
    · subst e; rw [if_pos rfl]
    · rw [if_neg (by omega)]
      exact h.2.1 u (by omega) (by omega)
  · intro u h1 h2
    rw [getD_set _ _ _ _ (by omega), if_neg (by omega)]
    exact h.2.2 u (by omega) h2

theorem macro1_r (s : St1) (i : Nat) (b : Bytes) (h : BInv b i s.l) (hi : i < 80) :
    view (i + 1) (macro1 s i).r = round1 (sched1 b 64) (view i s.r) i := by
  have hb := macro1_blk b i s.l h hi
  have key : ∀ (z w x y v u : Word), z + (rterm i w x y u + rol v 5) = rotl 5 v + f1 i w x y + z + k1 i + u := by
    intro z w x y v u
    rw [rterm_eq, rol_eq]
    ac_rfl
  have h5 : i % 5 = 0 ∨ i % 5 = 1 ∨ i % 5 = 2 ∨ i % 5 = 3 ∨ i % 5 = 4 := by omega
  unfold macro1 view round1
  dsimp only
  rw [hb]
  rcases h5 with e | e | e | e | e
  · rw [e, show (i + 1) % 5 = 1 by omega]; simp only [key]; rfl
  · rw [e, show (i + 1) % 5 = 2 by omega]; simp only [key]; rfl
  · rw [e, show (i + 1) % 5 = 3 by omega]; simp only [key]; rfl
  · rw [e, show (i + 1) % 5 = 4 by omega]; simp only [key]; rfl
  · rw [e, show (i + 1) % 5 = 0 by omega]; simp only [key]; rfl

theorem macros1 (b : Bytes) (st : H5) (n : Nat) (hn : n ≤ 80) :
    BInv b n ((List.range n).foldl macro1 ⟨st, loadBlock b⟩).l ∧
    view n ((List.range n).foldl macro1 ⟨st, loadBlock b⟩).r =
      (List.range n).foldl (round1 (sched1 b 64)) st := by
  induction n with
  | zero =>
    refine ⟨⟨by simp [loadBlock], ?_, ?_⟩, rfl⟩
    · intro s hs; omega
    · intro s _ _; rfl
  | succ n ih =>
    obtain ⟨h1, h2⟩ := ih (by omega)
    rw [List.range_succ, List.foldl_append, List.foldl_append]
    simp only [List.foldl_cons, List.foldl_nil]
    refine ⟨macro1_BInv b n _ h1 (by omega), ?_⟩
    rw [macro1_r _ n b h1 (by omega), h2]

theorem transform1_eq (st : H5) (b : Bytes) : transform1 st b = compress1 st b := by
  have h := (macros1 b st 80 (Nat.le_refl _)).2
  unfold transform1 compress1
  dsimp only
  rw [show ∀ r, view 80 r = r from fun r => rfl] at h
  rw [h]
  simp only [H5.mk.injEq]
  refine ⟨?_, ?_, ?_, ?_, ?_⟩ <;> exact BitVec.add_comm _ _

/-! ### The compression function of SHA-256 -/

theorem Gamma0_eq (x : Word) : Gamma0 x = sigma0 x := by
  unfold Gamma0 sigma0; rw [and_ones]; rfl

theorem Gamma1_eq (x : Word) : Gamma1 x = sigma1 x := by
  unfold Gamma1 sigma1; rw [and_ones]; rfl

theorem fillW_eq (b : Bytes) (n : Nat) : fillW b n = sched256 b n := by
  induction n with
  | zero => simp only [fillW, sched256, loadW, load32h_eq]; rfl
  | succ n ih => simp only [fillW, sched256, ih, Gamma0_eq, Gamma1_eq]

theorem transform256_eq (s : H8) (b : Bytes) : transform256 s b = compress256 K256 s b := by
  have : step256 = round256 K256 := by
    funext W s i
    unfold step256 round256
    dsimp only
    rw [Ch_eq, Maj_eq]
    rfl
  unfold transform256 compress256
  dsimp only
  rw [fillW_eq, this]
  simp only [H8.mk.injEq]
  refine ⟨?_, ?_, ?_, ?_, ?_, ?_, ?_, ?_⟩ <;> exact BitVec.add_comm _ _

end Verif.Sha
