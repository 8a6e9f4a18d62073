import Verif.CilCon.Lemmas2

/-!
# C73: no two context rules of a compiled policy are for the same object

The rules of each kind are sorted with `qsort`, the duplicates are removed and rules for the same
object with different contexts are errors.  The theorems hold for whatever order `qsort` chooses
for rules that compare equal (`SortedBy`).
-/

namespace Verif.CilCon

/-- The comparison functions of the kinds of rules: each orders the rules, and two rules compare
equal exactly if they are for the same object; contexts compare equal exactly if they agree in
user, role, type and sensitivities and in whether they have categories.  For `genfscon` the object
leaves out the kind of file (see `C73_genfs_refuted`); `filecon` is the subject of `C73_filecon`. -/
theorem C73_lawful : Lawful ibpkeyconTable ∧ Lawful portconTable ∧ Lawful genfsconTable ∧ Lawful netifconTable ∧
    Lawful ibendportconTable ∧ Lawful nodeconTable ∧ Lawful numconTable ∧ Lawful (ioconTable 64) ∧
    Lawful (ioconTable 32) ∧ Lawful devicetreeconTable ∧ Lawful fsuseTable :=
  ⟨ibpkeycon_lawful, portcon_lawful, genfscon_lawful, netifcon_lawful, ibendportcon_lawful, nodecon_lawful,
    numcon_lawful, iocon_lawful 64, iocon_lawful 32, devicetreecon_lawful, fsuse_lawful⟩

/-- C73: exactly one rule is kept for each object, in order, and there is an error exactly if two
rules for the same object differ in their contexts other than in categories, or at all if multiple
declarations are not allowed. -/
theorem C73_exact {α β : Type} {t : Table α β} (ht : Lawful t) (multiple : Bool) {rules sorted : List α}
    (hs : SortedBy t.cmp rules sorted) :
    ∃ ok kept, process t.cmp t.con multiple sorted = some (ok, kept) ∧ Kept t rules kept ∧
      (ok = true ↔ rules.Pairwise fun a b => t.object a = t.object b → multiple = true ∧ AlmostSameContexts t a b) := by
  have hk : Known t.cmp t.con (AlmostSameContexts t) multiple sorted :=
    List.pairwise_iff_forall_sublist.2 fun _ _ _ => (ht.contexts _ _).2
  obtain ⟨ok, kept, h1, h2, h3, h4, h5⟩ := process_spec ht.isCmp
    (almost_trans fun a b => (ht.contexts a b).1) hs.pairwise hk
  refine ⟨ok, kept, h1, ⟨h2, fun r hr => hs.perm.mem_iff.1 (h3 r hr), fun r hr => ?_⟩, ?_⟩
  · obtain ⟨k, hk1, hk2⟩ := h4 r (hs.perm.mem_iff.2 hr)
    exact ⟨k, hk1, (ht.object k r).1 hk2⟩
  · rw [h5]
    unfold Free
    simp only [ht.object]
    refine hs.perm.pairwise_iff fun h he => ?_
    have := h he.symm
    exact ⟨this.1, almost_symm _ _ this.2⟩

/-- C73, in part: if no two rules for the same object have contexts that differ in the categories
alone, then there is an error exactly if two rules for the same object have different contexts, or
at all if multiple declarations are not allowed.  Without the hypothesis this is wrong:
`C73_categories_refuted`. -/
theorem C73_partial {α β : Type} {t : Table α β} (ht : Lawful t) (multiple : Bool) {rules sorted : List α}
    (hs : SortedBy t.cmp rules sorted)
    (hc : rules.Pairwise fun a b => t.object a = t.object b → (AlmostSameContexts t a b ↔ SameContexts t a b)) :
    ∃ ok kept, process t.cmp t.con multiple sorted = some (ok, kept) ∧ Kept t rules kept ∧
      (ok = true ↔ rules.Pairwise fun a b => t.object a = t.object b → multiple = true ∧ SameContexts t a b) := by
  obtain ⟨ok, kept, h1, h2, h3⟩ := C73_exact ht multiple hs
  refine ⟨ok, kept, h1, h2, h3.trans ⟨fun h => ?_, fun h => ?_⟩⟩
  · exact (h.and hc).imp fun h he => ⟨(h.1 he).1, (h.2 he).1 (h.1 he).2⟩
  · exact (h.and hc).imp fun h he => ⟨(h.1 he).1, (h.2 he).2 (h.1 he).2⟩

/-- C73 for `filecon`: the same, if rules for the same path and kind of file have contexts (are
not `()`) where multiple declarations are allowed.  Without that a null pointer is dereferenced:
`C73_filecon_refuted`. -/
theorem C73_filecon (multiple : Bool) {rules sorted : List Filecon} (hs : SortedBy fileconCompare rules sorted)
    (hn : rules.Pairwise fun a b => (a.path, a.type) = (b.path, b.type) → multiple = true →
      a.context ≠ none ∧ b.context ≠ none) :
    ∃ ok kept, process fileconTable.cmp fileconTable.con multiple sorted = some (ok, kept) ∧
      Kept fileconTable rules kept ∧
      (ok = true ↔ rules.Pairwise fun a b => (a.path, a.type) = (b.path, b.type) → multiple = true ∧
        ∃ x y, a.context = some x ∧ b.context = some y ∧ AlmostSame x y) := by
  let E : Filecon → Filecon → Prop := fun a b => ∃ x y, a.context = some x ∧ b.context = some y ∧ AlmostSame x y
  have hcmp : ∀ a b, fileconTable.cmp a b = 0 ↔ (a.path, a.type) = (b.path, b.type) := filecon_isCmp.2
  have hn' : sorted.Pairwise fun a b => (a.path, a.type) = (b.path, b.type) → multiple = true →
      a.context ≠ none ∧ b.context ≠ none :=
    (hs.perm.pairwise_iff fun h he hm => (h he.symm hm).symm).2 hn
  have hk : Known fileconTable.cmp fileconTable.con E multiple sorted := by
    refine hn'.imp fun {a b} h he hm => ?_
    obtain ⟨h1, h2⟩ := h ((hcmp a b).1 he) hm
    rcases ha : a.context with _ | x
    · exact absurd ha h1
    · rcases hb : b.context with _ | y
      · exact absurd hb h2
      · refine ⟨contextCompare x y, by simp [fileconTable, ha, hb, contextComparePtr], ?_⟩
        rw [contextCompare_eq]
        constructor
        · exact fun h => ⟨x, y, ha, hb, h⟩
        · rintro ⟨x', y', h1, h2, h3⟩
          rw [ha] at h1; rw [hb] at h2
          cases h1; cases h2
          exact h3
  have hE : ∀ a b c, E a b → E b c → E a c := by
    rintro a b c ⟨x, y, h1, h2, h3⟩ ⟨y', z, h4, h5, h6⟩
    rw [h2] at h4
    cases h4
    exact ⟨x, z, h1, h5, h3.trans h6⟩
  obtain ⟨ok, kept, h1, h2, h3, h4, h5⟩ := process_spec (cmp := fileconTable.cmp) filecon_isCmp.1 hE hs.pairwise hk
  refine ⟨ok, kept, h1, ⟨h2, fun r hr => hs.perm.mem_iff.1 (h3 r hr), fun r hr => ?_⟩, ?_⟩
  · obtain ⟨k, hk1, hk2⟩ := h4 r (hs.perm.mem_iff.2 hr)
    exact ⟨k, hk1, (hcmp k r).1 hk2⟩
  · rw [h5]
    unfold Free
    simp only [hcmp]
    refine hs.perm.pairwise_iff fun h he => ?_
    obtain ⟨h1, x, y, h2, h3, h4⟩ := h he.symm
    exact ⟨h1, y, x, h3, h2, h4.symm⟩

/-- C73: with the rules that are kept, the first rule for the protocol that has a port in its range
is one with the narrowest range of all rules given that have the port; there is none only if no
rule has the port. -/
theorem C73_ports (multiple : Bool) {rules sorted kept : List Portcon} (hs : SortedBy portconCompare rules sorted)
    (h : process portconTable.cmp portconTable.con multiple sorted = some (true, kept)) (proto : Nat) (port : BitVec 32) :
    let has := fun r : Portcon => r.proto = proto ∧ r.low ≤ port ∧ port ≤ r.high
    match kept.find? fun r => has r with
    | none => ∀ r ∈ rules, ¬ has r
    | some r => r ∈ rules ∧ has r ∧ ∀ r' ∈ rules, has r' → r.high - r.low ≤ r'.high - r'.low := by
  intro has
  obtain ⟨ok, kept', h1, hk, -⟩ := C73_exact portcon_lawful multiple hs
  rw [h] at h1
  cases h1
  have same : ∀ r ∈ rules, has r → ∃ k ∈ kept, has k ∧ k.high = r.high ∧ k.low = r.low := by
    intro r hr hh
    obtain ⟨k, hk1, hk2⟩ := hk.one r hr
    have hk2 : (k.proto, k.low, k.high) = (r.proto, r.low, r.high) := hk2
    simp only [Prod.mk.injEq] at hk2
    obtain ⟨e1, e2, e3⟩ := hk2
    refine ⟨k, hk1, ?_, e3, e2⟩
    show k.proto = proto ∧ k.low ≤ port ∧ port ≤ k.high
    rw [e1, e2, e3]
    exact hh
  split
  · rename_i hf
    intro r hr hh
    obtain ⟨k, hk1, hk2, -⟩ := same r hr hh
    exact absurd hk2 (by simpa using List.find?_eq_none.1 hf k hk1)
  · rename_i r hf
    refine ⟨hk.sub r (List.mem_of_find?_eq_some hf), by simpa using List.find?_some hf, fun r' hr' hh => ?_⟩
    obtain ⟨k, hk1, hk2, e1, e2⟩ := same r' hr' hh
    have hle := find_least portcon_lawful.isCmp hk.sorted hf k hk1 (by simpa using hk2)
    rw [← e1, ← e2]
    have hle : portconCompare r k ≤ 0 := hle
    by_contra hgt
    have hgt : (k.high - k.low).toNat < (r.high - r.low).toNat := by
      simpa [BitVec.le_def] using hgt
    unfold portconCompare at hle
    have : spaceship (r.high - r.low) (k.high - k.low) = 1 := by
      unfold spaceship
      rw [if_neg (by rw [BitVec.lt_def]; omega), if_pos (by rw [BitVec.lt_def]; omega)]
    rw [this] at hle
    simp at hle

/-- C73: with the rules that are kept, the first rule of the family whose masked address matches is
one with the greatest mask of all rules given that match. -/
theorem C73_nodes (multiple : Bool) {rules sorted kept : List Nodecon} (hs : SortedBy nodeconCompare rules sorted)
    (h : process nodeconTable.cmp nodeconTable.con multiple sorted = some (true, kept)) (v6 : Bool) (addr : Str) :
    let has := fun r : Nodecon => r.v6 = v6 ∧ List.zipWith (· &&& ·) addr r.mask = r.addr
    match kept.find? fun r => has r with
    | none => ∀ r ∈ rules, ¬ has r
    | some r => r ∈ rules ∧ has r ∧ ∀ r' ∈ rules, has r' → strcmp r'.mask r.mask ≤ 0 := by
  intro has
  obtain ⟨ok, kept', h1, hk, -⟩ := C73_exact nodecon_lawful multiple hs
  rw [h] at h1
  cases h1
  have same : ∀ r ∈ rules, has r → ∃ k ∈ kept, has k ∧ k.mask = r.mask := by
    intro r hr hh
    obtain ⟨k, hk1, hk2⟩ := hk.one r hr
    have hk2 : (k.v6, k.addr, k.mask) = (r.v6, r.addr, r.mask) := hk2
    simp only [Prod.mk.injEq] at hk2
    obtain ⟨e1, e2, e3⟩ := hk2
    refine ⟨k, hk1, ?_, e3⟩
    show k.v6 = v6 ∧ List.zipWith (· &&& ·) addr k.mask = k.addr
    rw [e1, e2, e3]
    exact hh
  split
  · rename_i hf
    intro r hr hh
    obtain ⟨k, hk1, hk2, -⟩ := same r hr hh
    exact absurd hk2 (by simpa using List.find?_eq_none.1 hf k hk1)
  · rename_i r hf
    have hr : has r := by simpa using List.find?_some hf
    refine ⟨hk.sub r (List.mem_of_find?_eq_some hf), hr, fun r' hr' hh => ?_⟩
    obtain ⟨k, hk1, hk2, e1⟩ := same r' hr' hh
    have hle := find_least nodecon_lawful.isCmp hk.sorted hf k hk1 (by simpa using hk2)
    rw [← e1]
    have hle : nodeconCompare r k ≤ 0 := hle
    unfold nodeconCompare at hle
    rw [if_neg (by rw [hr.1, hk2.1]; simp)] at hle
    rw [strcmp_swap r.mask k.mask]
    split at hle
    · omega
    · rename_i h0
      simp at h0
      omega

/-- C73: the `filecon` rules that are kept go from less to more specific paths; the last rule that
matches a file is used. -/
theorem C73_files (multiple : Bool) {rules sorted : List Filecon} (hs : SortedBy fileconCompare rules sorted)
    (hn : rules.Pairwise fun a b => (a.path, a.type) = (b.path, b.type) → multiple = true →
      a.context ≠ none ∧ b.context ≠ none) :
    ∃ ok kept, process fileconTable.cmp fileconTable.con multiple sorted = some (ok, kept) ∧
      kept.Pairwise fun a b => LessSpecific a.path b.path := by
  obtain ⟨ok, kept, h1, h2, -⟩ := C73_filecon multiple hs hn
  refine ⟨ok, kept, h1, h2.sorted.imp fun {a b} h => filecon_lessSpecific ?_⟩
  have h : fileconCompare a b < 0 := h
  omega

/-- Non-vacuity: `/a.*` is less specific than `/a\\.b`, whose dot has a backslash. -/
example : LessSpecific [47, 97, 46, 42] [47, 97, 92, 46, 98] ∧ ¬ LessSpecific [47, 97, 92, 46, 98] [47, 97, 46, 42] := by
  have h1 : IsPattern [47, 97, 46, 42] := ⟨(false, 46), by decide, by decide⟩
  have h2 : ¬ IsPattern [47, 97, 92, 46, 98] := by rw [isPattern_iff]; decide
  exact ⟨Or.inl ⟨h1, h2⟩, by simp [LessSpecific, h1, h2]⟩

/-! ### Examples and refutations -/

/-- A context: user, role, type `u`, `r`, `t`, one sensitivity `s`. -/
def exContext (t : Nat) (cats : Option (List Str)) : Context := ⟨[117], [114], [t], ⟨[115], cats⟩, ⟨[115], cats⟩⟩

/-- Non-vacuity: three rules for ports, two of which are the same, are accepted and sorted. -/
example : process portconTable.cmp portconTable.con true
    [⟨2, 80#32, 80#32, exContext 1 none⟩, ⟨2, 80#32, 80#32, exContext 1 none⟩, ⟨2, 1#32, 1023#32, exContext 2 none⟩] =
    some (true, [⟨2, 80#32, 80#32, exContext 1 none⟩, ⟨2, 1#32, 1023#32, exContext 2 none⟩]) := by decide +kernel

/-- Rules with different types for the same port are an error. -/
example : (process portconTable.cmp portconTable.con true
    [⟨2, 80#32, 80#32, exContext 1 none⟩, ⟨2, 80#32, 80#32, exContext 2 none⟩]).map (·.1) = some false := by decide +kernel

/-- The sorted order of `C73_ports`: the narrower range first. -/
example : SortedBy portconCompare [⟨2, 1#32, 1023#32, exContext 2 none⟩, ⟨2, 80#32, 80#32, exContext 1 none⟩]
    [⟨2, 80#32, 80#32, exContext 1 none⟩, ⟨2, 1#32, 1023#32, exContext 2 none⟩] :=
  ⟨List.Perm.swap _ _ _, by decide +kernel⟩

/-- C73 is refuted for categories: two rules for the same port whose contexts have different
categories are accepted, in either order, and only one is kept, depending on the order. -/
theorem C73_categories_refuted : ∃ a b : Portcon, portconTable.object a = portconTable.object b ∧
    ¬ SameContexts portconTable a b ∧
    SortedBy portconCompare [a, b] [a, b] ∧ SortedBy portconCompare [a, b] [b, a] ∧
    process portconTable.cmp portconTable.con true [a, b] = some (true, [b]) ∧
    process portconTable.cmp portconTable.con true [b, a] = some (true, [a]) := by
  refine ⟨⟨2, 80#32, 80#32, exContext 1 (some [[99, 48]])⟩, ⟨2, 80#32, 80#32, exContext 1 (some [[99, 49]])⟩, rfl, ?_,
    ⟨List.Perm.refl _, by decide +kernel⟩, ⟨List.Perm.swap _ _ _, by decide +kernel⟩, by decide +kernel, by decide +kernel⟩
  intro h
  have := (h _ (List.mem_singleton.2 rfl)).2.2.2.1.2 [99, 48]
  simp [portconTable, exContext, Level.categories] at this

/-- C73 is refuted for `genfscon`: rules for directories and for files of the same path are an
error; if their contexts are the same one of them is dropped. -/
theorem C73_genfs_refuted : ∃ a b c : Genfscon, a.fileType ≠ b.fileType ∧ a.fileType ≠ c.fileType ∧
    (process genfsconTable.cmp genfsconTable.con true [a, b]).map (·.1) = some false ∧
    process genfsconTable.cmp genfsconTable.con true [a, c] = some (true, [c]) := by
  exact ⟨⟨[1], [47], 1, exContext 1 none⟩, ⟨[1], [47], 2, exContext 2 none⟩, ⟨[1], [47], 2, exContext 1 none⟩,
    by decide, by decide, by decide +kernel, by decide +kernel⟩

/-- C73 is refuted for `filecon` with `()`: two rules for the same path and kind of file one of
which has no context make the program dereference a null pointer, if multiple declarations are
allowed. -/
theorem C73_filecon_refuted (path : Str) (type : Nat) (c d : Option Context) (h : c = none ∨ d = none) :
    process fileconTable.cmp fileconTable.con true [⟨path, type, c⟩, ⟨path, type, d⟩] = none := by
  have he : fileconTable.cmp ⟨path, type, c⟩ ⟨path, type, d⟩ = 0 := (filecon_isCmp.2 _ _).2 rfl
  have hn : fileconTable.con ⟨path, type, c⟩ ⟨path, type, d⟩ = none := by
    rcases h with rfl | rfl
    · rfl
    · cases c <;> rfl
  rw [process, processLoop, if_neg (by simp [he])]
  simp [hn]

/-- Non-vacuity of `C73_filecon`: a path with `()` and another with a context. -/
example : process fileconTable.cmp fileconTable.con true
    [⟨[47, 46, 42], 0, none⟩, ⟨[47, 97], 0, some (exContext 1 none)⟩, ⟨[47, 97], 0, some (exContext 1 none)⟩] =
    some (true, [⟨[47, 46, 42], 0, none⟩, ⟨[47, 97], 0, some (exContext 1 none)⟩]) := by decide +kernel

end Verif.CilCon
