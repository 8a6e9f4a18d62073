import Verif.Ebitmap.Lemmas3

/-!
# Properties of extensible bitmaps (C01 – C05)

`getBit` models `ebitmap_get_bit`, the observation a client has.  `Built` is the
set of all bitmaps reachable through the API.
-/

namespace Verif.Ebitmap

/-! ## Reachable bitmaps are well formed -/

theorem cpy_eq (e : Ebitmap) : cpy e = e := by
  cases e with
  | mk n h => simp [cpy]

private theorem built_inv {e : Ebitmap} (h : Built e) : Inv e := by
  induction h with
  | init => exact inv_init
  | setBit bit v _ hb hs ih =>
    by_cases c : bit < 2^32 - 64
    · obtain ⟨e'', h1, h2, _⟩ := setBit_ok ih v c
      rw [h1] at hs; cases hs; exact h2
    · rw [setBit_none v (by omega) hb] at hs; cases hs
  | range lo hi h1 h2 h3 => exact (initRange_spec h1 h2 h3).1
  | or _ _ i1 i2 => exact inv_or i1 i2
  | union _ _ i1 i2 => exact inv_or i1 i2
  | and _ _ i1 i2 => exact inv_and i1 i2
  | xor _ _ i1 i2 => exact inv_xor i1 i2
  | not fuel maxbit _ hm hr ih => exact (notFuel_inv ih hm hr).1
  | andnot fuel maxbit _ _ hm hr i1 i2 =>
    unfold andnotFuel at hr
    split at hr
    · cases hr
    · rename_i e3 h3
      cases hr
      exact inv_and i1 (notFuel_inv i2 hm h3).1
  | cpy _ ih => rw [cpy_eq]; exact ih
  | read bs rest hr => exact read_inv hr

/-- Every bitmap obtainable through the API satisfies the representation
invariant. -/
theorem built_wf {e : Ebitmap} (h : Built e) : WF e := (wf_iff_inv e).2 (built_inv h)

/-! ## C01: point updates -/

/-- C01 (one step): a bitmap accepts a write to any bit outside the last 64-bit
word of the 32-bit range; afterwards that bit has the written value and every
other bit is unchanged.  Writes in the last word are refused. -/
theorem C01_set_bit {e : Ebitmap} (h : WF e) (bit : Nat) (hbit : bit < 2^32) (v : Bool) :
    (bit < 2^32 - 64 → ∃ e', setBit e bit v = some e' ∧ WF e' ∧
        ∀ b, getBit e' b = if b = bit then v else getBit e b) ∧
    (2^32 - 64 ≤ bit → setBit e bit v = none) := by
  constructor
  · intro hb
    obtain ⟨e', h1, h2, h3⟩ := setBit_ok ((wf_iff_inv e).1 h) v hb
    exact ⟨e', h1, (wf_iff_inv e').2 h2, h3⟩
  · intro hb; exact setBit_none v hb hbit

/-- C01 (histories): after any history of `ebitmap_set_bit` calls on any
API-built bitmap, `ebitmap_get_bit` returns for each bit the value of the last
accepted write to it, or its initial value. -/
theorem C01_history {e : Ebitmap} (h : WF e) (ws : List Write) (hws : ∀ w ∈ ws, w.bit < 2^32) (b : Nat) :
    WF (runWrites e ws) ∧ getBit (runWrites e ws) b = specWrites (getBit e) ws b := by
  induction ws generalizing e with
  | nil => exact ⟨h, rfl⟩
  | cons w ws ih =>
    have hw := hws w (by simp)
    have hws' := fun w' hw' => hws w' (List.mem_cons_of_mem _ hw')
    by_cases hr : w.bit < 2^32 - 64
    · obtain ⟨e', h1, h2, h3⟩ := (C01_set_bit h w.bit hw w.value).1 hr
      have hn : w.refused = false := by simp [Write.refused]; omega
      simp only [runWrites, specWrites, h1, Option.getD_some, hn]
      refine ⟨(ih h2 hws').1, ?_⟩
      rw [(ih h2 hws').2]
      congr 1
      funext c; rw [h3 c]
      by_cases hc : c = w.bit <;> simp [hc]
    · have h1 := (C01_set_bit h w.bit hw w.value).2 (by omega)
      have hn : w.refused = true := by simp [Write.refused]; omega
      simp only [runWrites, specWrites, h1, Option.getD_none, hn]
      refine ⟨(ih h hws').1, ?_⟩
      rw [(ih h hws').2]
      congr 1
      funext c; simp

/-- C01 (ranges): `ebitmap_init_range(lo, hi)` succeeds exactly for ranges
`lo ≤ hi` outside the last word and then contains exactly the bits lo..hi. -/
theorem C01_init_range (lo hi : Nat) (hlo : lo < 2^32) (hhi : hi < 2^32) :
    ((initRange lo hi).isSome = true ↔ lo ≤ hi ∧ hi < 2^32 - 64) ∧
    ∀ e, initRange lo hi = some e → WF e ∧ ∀ b, getBit e b = true ↔ lo ≤ b ∧ b ≤ hi := by
  refine ⟨initRange_some_iff lo hi hlo hhi, ?_⟩
  intro e he
  obtain ⟨h1, h2⟩ := initRange_spec hlo hhi he
  refine ⟨(wf_iff_inv e).2 h1, ?_⟩
  intro b; rw [h2]; simp

/-- Non-vacuity for C01: a history that creates, merges into and removes nodes. -/
example : ∃ e, Built e ∧ getBit e 5 = true ∧ getBit e 200 = true ∧ getBit e 70 = false := by
  refine ⟨runWrites init [⟨200, true⟩, ⟨5, true⟩, ⟨70, true⟩, ⟨70, false⟩], ?_, by decide, by decide, by decide⟩
  have h1 : Built (runWrites init [⟨200, true⟩]) := Built.setBit 200 true Built.init (by decide) (by decide)
  have h2 : Built (runWrites init [⟨200, true⟩, ⟨5, true⟩]) := Built.setBit 5 true h1 (by decide) (by decide)
  have h3 : Built (runWrites init [⟨200, true⟩, ⟨5, true⟩, ⟨70, true⟩]) := Built.setBit 70 true h2 (by decide) (by decide)
  exact Built.setBit 70 false h3 (by decide) (by decide)

/-! ## C02: set algebra -/

/-- C02: or / union / and / xor compute union, intersection and symmetric
difference bit for bit, with well-formed results. -/
theorem C02_or_and_xor {e1 e2 : Ebitmap} (h1 : WF e1) (h2 : WF e2) :
    (WF (or e1 e2) ∧ ∀ b, getBit (or e1 e2) b = (getBit e1 b || getBit e2 b)) ∧
    (WF (union e1 e2) ∧ ∀ b, getBit (union e1 e2) b = (getBit e1 b || getBit e2 b)) ∧
    (WF (and e1 e2) ∧ ∀ b, getBit (and e1 e2) b = (getBit e1 b && getBit e2 b)) ∧
    (WF (xor e1 e2) ∧ ∀ b, getBit (xor e1 e2) b = Bool.xor (getBit e1 b) (getBit e2 b)) := by
  have i1 := (wf_iff_inv e1).1 h1
  have i2 := (wf_iff_inv e2).1 h2
  have hor : WF (or e1 e2) ∧ ∀ b, getBit (or e1 e2) b = (getBit e1 b || getBit e2 b) := by
    refine ⟨(wf_iff_inv _).2 (inv_or i1 i2), fun b => ?_⟩
    rw [getBit_eq (inv_or i1 i2), getBit_eq i1, getBit_eq i2]
    exact bits_or _ _ b
  refine ⟨hor, hor, ⟨(wf_iff_inv _).2 (inv_and i1 i2), fun b => ?_⟩,
    ⟨(wf_iff_inv _).2 (inv_xor i1 i2), fun b => ?_⟩⟩
  · rw [getBit_eq (inv_and i1 i2), getBit_eq i1, getBit_eq i2]
    exact bits_and i1.nodes i2.nodes b
  · rw [getBit_eq (inv_xor i1 i2), getBit_eq i1, getBit_eq i2]
    exact bits_xor i1.nodes i2.nodes b

/-- C02, complement and difference, `_partial`: the full property also asks for
termination for every `maxbit`, which is false (see `C02_not_diverges`).  For
every `maxbit ≤ 2^32 - 64` the complement loop terminates within
⌈maxbit/64⌉ + 1 steps, and `ebitmap_not` / `ebitmap_andnot` compute complement
below `maxbit` and difference below `maxbit`. -/
theorem C02_not_andnot_partial {e1 e2 : Ebitmap} (h1 : WF e1) (h2 : WF e2) {maxbit fuel : Nat}
    (hm : maxbit ≤ 2^32 - 64) (hf : (maxbit + 63) / 64 + 1 ≤ fuel) :
    (∃ r, notFuel fuel e2 maxbit = some r ∧ WF r ∧
      ∀ b, getBit r b = (decide (b < maxbit) && !getBit e2 b)) ∧
    (∃ r, andnotFuel fuel e1 e2 maxbit = some r ∧ WF r ∧
      ∀ b, getBit r b = (getBit e1 b && (decide (b < maxbit) && !getBit e2 b))) := by
  have i1 := (wf_iff_inv e1).1 h1
  have i2 := (wf_iff_inv e2).1 h2
  obtain ⟨r, hr1, hr2, hr3⟩ := notFuel_spec i2 hm hf
  refine ⟨⟨r, hr1, (wf_iff_inv r).2 hr2, hr3⟩, and e1 r, by simp [andnotFuel, hr1],
    (wf_iff_inv _).2 (inv_and i1 hr2), fun b => ?_⟩
  rw [getBit_eq (inv_and i1 hr2), ← hr3, getBit_eq i1, getBit_eq hr2]
  exact bits_and i1.nodes hr2.nodes b

/-- C02 is refuted for large `maxbit`: whatever the input bitmap, the complement
loop of `ebitmap_not` never ends when `maxbit > 2^32 - 64`, since its `uint32_t`
counter wraps to 0 (finding F1). -/
theorem C02_not_diverges (e : Ebitmap) (maxbit : Nat) (h : 2^32 - 64 < maxbit) (fuel : Nat) :
    notFuel fuel e maxbit = none := notFuel_diverges e h fuel

/-- Any *finished* run of `ebitmap_not` is correct, whatever `maxbit`. -/
theorem C02_not_sound {e r : Ebitmap} (h : WF e) {maxbit fuel : Nat} (hm : maxbit < 2^32)
    (hr : notFuel fuel e maxbit = some r) :
    WF r ∧ ∀ b, getBit r b = (decide (b < maxbit) && !getBit e b) := by
  obtain ⟨h1, h2⟩ := notFuel_inv ((wf_iff_inv e).1 h) hm hr
  exact ⟨(wf_iff_inv r).2 h1, h2⟩

/-- Non-vacuity for C02: two overlapping two-node bitmaps and their complement. -/
example : ∃ e1 e2, WF e1 ∧ WF e2 ∧ getBit (and e1 e2) 64 = true ∧ getBit (xor e1 e2) 64 = false ∧
    getBit (or e1 e2) 3 = true ∧ (notFuel 4 e1 130).isSome = true := by
  have w : ∀ a b : Nat, a < 2^32 → b < 2^32 → ∀ e, initRange a b = some e → WF e := fun a b ha hb e he =>
    ((C01_init_range a b ha hb).2 e he).1
  exact ⟨(initRange 3 64).get (by decide), (initRange 64 70).get (by decide),
    w 3 64 (by decide) (by decide) _ (by simp), w 64 70 (by decide) (by decide) _ (by simp),
    by decide +kernel, by decide +kernel, by decide +kernel, by decide +kernel⟩

/-! ## C03: relations and counting -/

/-- C03: `ebitmap_cmp`, `ebitmap_contains`, `ebitmap_match_any` decide equality,
inclusion and intersection of the represented sets. -/
theorem C03_relations {e1 e2 : Ebitmap} (h1 : WF e1) (h2 : WF e2) :
    (cmp e1 e2 = true ↔ ∀ b, getBit e1 b = getBit e2 b) ∧
    (contains e1 e2 = true ↔ ∀ b, getBit e2 b = true → getBit e1 b = true) ∧
    (matchAny e1 e2 = true ↔ ∃ b, getBit e1 b = true ∧ getBit e2 b = true) := by
  have i1 := (wf_iff_inv e1).1 h1
  have i2 := (wf_iff_inv e2).1 h2
  refine ⟨cmp_iff_bits i1 i2, contains_iff_bits i1 i2, ?_⟩
  unfold matchAny
  rw [matchAnyNodes_iff i1.nodes i2.nodes]
  constructor
  · rintro ⟨b, a1, a2⟩; exact ⟨b, by rw [getBit_eq i1]; exact a1, by rw [getBit_eq i2]; exact a2⟩
  · rintro ⟨b, a1, a2⟩
    rw [getBit_eq i1] at a1; rw [getBit_eq i2] at a2
    exact ⟨b, a1, a2⟩

/-- C03: the representation is canonical — a bitmap is determined by its bits. -/
theorem C03_canonical {e1 e2 : Ebitmap} (h1 : WF e1) (h2 : WF e2)
    (h : ∀ b, getBit e1 b = getBit e2 b) : e1 = e2 :=
  eq_of_getBit ((wf_iff_inv e1).1 h1) ((wf_iff_inv e2).1 h2) h

/-- C03: `ebitmap_cardinality` is the number of set bits among all 2^32 bit
numbers. -/
theorem C03_cardinality {e : Ebitmap} (h : WF e) :
    cardinality e = (List.range (2^32)).countP (getBit e) :=
  cardinality_spec' ((wf_iff_inv e).1 h)

/-- C03: `ebitmap_hamming_distance` is the number of differing bits, provided it
fits an `int`. -/
theorem C03_hamming {e1 e2 : Ebitmap} (h1 : WF e1) (h2 : WF e2)
    (hfit : (List.range (2^32)).countP (fun b => getBit e1 b != getBit e2 b) < 2^31) :
    hammingDistance e1 e2 = ((List.range (2^32)).countP (fun b => getBit e1 b != getBit e2 b) : Nat) := by
  have hx := (C02_or_and_xor h1 h2).2.2.2
  have hc := C03_cardinality hx.1
  have heq : getBit (xor e1 e2) = fun b => getBit e1 b != getBit e2 b := by
    funext b; rw [hx.2 b]
  rw [heq] at hc
  unfold hammingDistance
  split
  · rename_i hcmp
    have hb := (C03_relations h1 h2).1.1 hcmp
    have : (List.range (2^32)).countP (fun b => getBit e1 b != getBit e2 b) = 0 := by
      rw [List.countP_eq_zero]; intro a _; simp [hb a]
    rw [this]; rfl
  · rw [hc]; unfold toInt32; rw [if_pos hfit]

/-- C03: on a non-empty bitmap `ebitmap_highest_set_bit` is the largest member. -/
theorem C03_highest {e : Ebitmap} (h : WF e) (hne : ∃ b, getBit e b = true) :
    getBit e (highestSetBit e) = true ∧ ∀ b, getBit e b = true → b ≤ highestSetBit e := by
  apply highest_spec ((wf_iff_inv e).1 h)
  obtain ⟨b, hb⟩ := hne
  intro hc
  unfold getBit at hb
  rw [hc] at hb
  simp [getBitNodes] at hb

/-- Non-vacuity for C03. -/
example : ∃ e1 e2, WF e1 ∧ WF e2 ∧ contains e1 e2 = true ∧ cmp e1 e2 = false ∧ matchAny e1 e2 = true ∧
    cardinality e1 = 62 ∧ highestSetBit e1 = 64 ∧ hammingDistance e1 e2 = 61 := by
  have w : ∀ a b : Nat, a < 2^32 → b < 2^32 → ∀ e, initRange a b = some e → WF e := fun a b ha hb e he =>
    ((C01_init_range a b ha hb).2 e he).1
  exact ⟨(initRange 3 64).get (by decide), (initRange 64 64).get (by decide),
    w 3 64 (by decide) (by decide) _ (by simp), w 64 64 (by decide) (by decide) _ (by simp),
    by decide +kernel, by decide +kernel, by decide +kernel, by decide +kernel, by decide +kernel, by decide +kernel⟩

/-! ## C04: iteration -/

/-- C04: `ebitmap_for_each_positive_bit` terminates and visits exactly the set
bits, each once, in increasing order. -/
theorem C04_for_each_positive_bit {e : Ebitmap} (h : WF e) {fuel : Nat} (hf : e.highbit + 1 ≤ fuel) :
    forEachPositiveBit fuel e = some ((List.range (2^32)).filter (getBit e)) := by
  have i := (wf_iff_inv e).1 h
  unfold forEachPositiveBit
  rw [forEachBit_eq i hf]
  simp only [Option.map_some, Option.some.injEq]
  apply sorted_ext_nat
  · rw [List.pairwise_map]
    exact (visits_sorted i.nodes).filter _
  · exact List.pairwise_lt_range.filter _
  · intro x
    simp only [List.mem_map, List.mem_filter, mem_visits i.nodes, List.mem_range]
    constructor
    · rintro ⟨⟨y, v⟩, ⟨⟨hv, _⟩, hp⟩, rfl⟩
      simp only at hv hp ⊢
      have hg : getBit e y = true := by rw [getBit_eq i, ← hv, hp]
      exact ⟨Nat.lt_trans (getBit_lt_high i hg) i.small, hg⟩
    · rintro ⟨_, hx⟩
      refine ⟨(x, true), ⟨⟨?_, ?_⟩, rfl⟩, rfl⟩
      · simp only; rw [← getBit_eq i, hx]
      · rw [getBit_eq i] at hx
        clear h hf
        have hn := i.nodes
        revert hx hn
        generalize e.node = l
        generalize 0 = lo
        intro hx hn
        induction l generalizing lo with
        | nil => simp [bits] at hx
        | cons n t ih =>
          simp only [bits, Bool.or_eq_true] at hx
          rcases hx with hx | hx
          · refine ⟨n, by simp, ?_, ?_⟩
            · simp [inNode] at hx; exact hx.1
            · simp only
              by_contra hc
              rw [inNode_ge (by omega)] at hx; cases hx
          · obtain ⟨m, hm, hm'⟩ := ih _ hx hn.2.2.2
            exact ⟨m, by simp [hm], hm'⟩

/-- C04: `ebitmap_for_each_bit` terminates, visits bit numbers in strictly
increasing order, each tagged with its true membership, and visits every set bit. -/
theorem C04_for_each_bit {e : Ebitmap} (h : WF e) {fuel : Nat} (hf : e.highbit + 1 ≤ fuel) :
    ∃ l, forEachBit fuel e = some l ∧ l.Pairwise (fun a b => a.1 < b.1) ∧
      (∀ x ∈ l, x.2 = getBit e x.1) ∧ (∀ b, getBit e b = true → (b, true) ∈ l) ∧
      (∀ b v, (b, v) ∈ l ↔ v = getBit e b ∧ ∃ c, getBit e c = true ∧ c / 64 = b / 64) := by
  have i := (wf_iff_inv e).1 h
  have hall : ∀ b v, (b, v) ∈ visitsAll e.node ↔ v = getBit e b ∧ ∃ c, getBit e c = true ∧ c / 64 = b / 64 := by
    intro b v
    rw [mem_visits i.nodes]
    simp only
    rw [getBit_eq i]
    refine and_congr Iff.rfl ?_
    have hws := (WFN_iff _ _).1 i.nodes
    constructor
    · rintro ⟨n, hn, h1, h2⟩
      obtain ⟨k, hk, hb⟩ := exists_bit (hws.2.2.1 n hn)
      have hal := hws.2.1 n hn
      refine ⟨n.startbit + k, ?_, by omega⟩
      rw [getBit_eq i]
      have : ∀ l : List Node, n ∈ l → bits l (n.startbit + k) = true := by
        intro l hl
        induction l with
        | nil => cases hl
        | cons m t ih =>
          rw [List.mem_cons] at hl
          simp only [bits, Bool.or_eq_true]
          rcases hl with rfl | hl
          · left; simp [inNode, hb]
          · right; exact ih hl
      exact this _ hn
    · rintro ⟨c, hc, hcb⟩
      rw [getBit_eq i] at hc
      have : ∀ l : List Node, bits l c = true → ∃ n ∈ l, n.startbit ≤ c ∧ c < n.startbit + 64 := by
        intro l hl
        induction l with
        | nil => simp [bits] at hl
        | cons m t ih =>
          simp only [bits, Bool.or_eq_true] at hl
          rcases hl with hl | hl
          · refine ⟨m, by simp, ?_, ?_⟩
            · simp [inNode] at hl; exact hl.1
            · by_contra hcc
              rw [inNode_ge (by omega)] at hl; cases hl
          · obtain ⟨n, hn, hn'⟩ := ih hl
            exact ⟨n, by simp [hn], hn'⟩
      obtain ⟨n, hn, h1, h2⟩ := this _ hc
      have hal := hws.2.1 n hn
      exact ⟨n, hn, by omega, by omega⟩
  refine ⟨_, forEachBit_eq i hf, visits_sorted i.nodes, ?_, ?_, hall⟩
  · intro x hx; exact ((hall x.1 x.2).1 hx).1
  · intro b hb; exact (hall b true).2 ⟨hb.symm, b, hb, rfl⟩

/-- Non-vacuity for C04. -/
example : forEachPositiveBit 200 (runWrites init [⟨130, true⟩, ⟨3, true⟩, ⟨64, true⟩]) = some [3, 64, 130] := by
  decide +kernel

/-! ## C05: binary format -/

/-- C05: whatever bytes are presented, `ebitmap_read` either fails or returns a
well-formed bitmap. -/
theorem C05_read_wf {bs rest : Bytes} {e : Ebitmap} (h : read bs = some (e, rest)) : WF e :=
  (wf_iff_inv e).2 (read_inv h)

/-- C05: reading back what `ebitmap_write` wrote gives the same bitmap and leaves
the rest of the stream untouched. -/
theorem C05_round_trip {e : Ebitmap} (h : WF e) (rest : Bytes) :
    read (write e ++ rest) = some (e, rest) := read_write ((wf_iff_inv e).1 h) rest

/-- Non-vacuity for C05, and a rejected non-canonical encoding (nodes out of
order). -/
example : (read (write (runWrites init [⟨130, true⟩, ⟨3, true⟩]))).isSome = true ∧
    read (leBytes 4 64 ++ leBytes 4 192 ++ leBytes 4 2 ++ leBytes 4 128 ++ leBytes 8 1 ++ leBytes 4 0 ++ leBytes 8 1)
      = none := by decide +kernel

end Verif.Ebitmap
