import Verif.Expand.Lemmas5

/-!
# From pairs of types to the types of a rule
-/

namespace Verif.Expand
open Avtab (Key XPerms Datum hits)
open Ebitmap (Ebitmap getBit WF)

theorem stands_lt {p : Types} (hp : TypesOk p) {v x : Nat} (hx : IsType p x) (h : Stands p v x) : v < p.nprim := by
  rcases h with rfl | ⟨t, h, _⟩
  · exact isType_lt hp hx
  · exact (hp.used v).2 ⟨t, h⟩

theorem self_iff (f : BitVec 32) : anyBit f RULE_SELF = true ↔ f.getLsbD 0 = true := by
  unfold anyBit RULE_SELF
  rw [bne_iff_ne, ne_eq]
  constructor
  · intro h
    cases hb : f.getLsbD 0 with
    | true => rfl
    | false =>
      exfalso
      apply h
      apply BitVec.eq_of_getLsbD_eq
      intro i hi
      rcases Nat.eq_zero_or_pos i with rfl | hp
      · rw [BitVec.getLsbD_and, hb]; simp
      · rw [BitVec.getLsbD_and]
        have : (1#32).getLsbD i = false := by
          rw [BitVec.getLsbD_one]
          simp only [Bool.and_eq_false_imp, decide_eq_false_iff_not]
          intro _; omega
        rw [this]; simp
  · intro h h0
    have := congrArg (fun v => v.getLsbD 0) h0
    simp only [BitVec.getLsbD_and, h] at this
    revert this
    decide

theorem mem_pairs {r : Rule} {a b : Ebitmap} (ha : WF a) (hb : WF b) (i j : Nat) :
    (i, j) ∈ pairs r a b ↔ getBit a i = true ∧ (getBit b j = true ∨ r.flags.getLsbD 0 = true ∧ i = j) := by
  have hf := self_iff r.flags
  unfold pairs
  simp only [List.mem_flatMap, mem_bits ha, List.mem_append, List.mem_map, mem_bits hb, Prod.mk.injEq]
  constructor
  · rintro ⟨i', h1, h2 | ⟨j', h2, rfl, rfl⟩⟩
    · split at h2
      · rename_i hs
        simp only [List.mem_cons, Prod.mk.injEq, List.not_mem_nil, or_false] at h2
        obtain ⟨rfl, rfl⟩ := h2
        exact ⟨h1, .inr ⟨hf.1 hs, rfl⟩⟩
      · simp at h2
    · exact ⟨h1, .inl h2⟩
  · rintro ⟨h1, h2 | ⟨h2, rfl⟩⟩
    · exact ⟨i, h1, .inr ⟨j, h2, rfl, rfl⟩⟩
    · exact ⟨i, h1, .inl (by rw [if_pos (hf.2 h2)]; simp)⟩

/-- The pairs of a rule stand for the types it is about. -/
theorem pairsOf_about {p : Types} (hp : TypesOk p) {map : List Nat} (hm : MapOk p map) {r : Rule} (hr : RuleOk map r) :
    (∀ ij ∈ pairsOf p map r, ij.1 < p.nprim ∧ ij.2 < p.nprim) ∧
    ∀ x y, IsType p x → IsType p y →
      ((∃ ij ∈ pairsOf p map r, Stands p ij.1 x ∧ Stands p ij.2 y) ↔ About p map r x y) := by
  obtain ⟨a, ha, wa, la, ta, ea⟩ := convertTypeSet_ok hp hm hr.source (anyBit r.specified AVRULE_TYPE || anyBit r.flags RULE_SELF)
  obtain ⟨b, hb, wb, lb, tb, eb⟩ := convertTypeSet_ok hp hm hr.target (anyBit r.specified AVRULE_TYPE || anyBit r.flags RULE_SELF)
  have hpo : pairsOf p map r = pairs r a b := by simp only [pairsOf, ha, hb]
  have hself := (self_iff r.flags).2
  rw [hpo]
  refine ⟨?_, ?_⟩
  · rintro ⟨i, j⟩ hij
    obtain ⟨h1, h2⟩ := (mem_pairs wa wb i j).1 hij
    refine ⟨la i h1, ?_⟩
    rcases h2 with h2 | ⟨_, rfl⟩
    · exact lb j h2
    · exact la i h1
  · intro x y hx hy
    unfold About
    rw [← ea x hx, ← eb y hy]
    constructor
    · rintro ⟨⟨i, j⟩, hij, s1, s2⟩
      obtain ⟨h1, h2⟩ := (mem_pairs wa wb i j).1 hij
      refine ⟨⟨i, h1, s1⟩, ?_⟩
      rcases h2 with h2 | ⟨h2, rfl⟩
      · exact .inl ⟨j, h2, s2⟩
      · have hi := ta (by rw [hself h2]; simp) i h1
        refine .inr ⟨h2, ?_⟩
        rw [← (stands_type hi).1 s1, ← (stands_type hi).1 s2]
    · rintro ⟨⟨i, h1, s1⟩, ⟨j, h2, s2⟩ | ⟨h2, rfl⟩⟩
      · exact ⟨(i, j), (mem_pairs wa wb i j).2 ⟨h1, .inl h2⟩, s1, s2⟩
      · exact ⟨(i, i), (mem_pairs wa wb i i).2 ⟨h1, .inr ⟨h2, rfl⟩⟩, s1, s1⟩

/-- A query about the nodes of a place and its keys. -/
theorem nodesAt_asks {X : Prop} {Z : Nat → Prop} {d : Dest} {st : State} (hi : Inv X Z d st) (place : Option Nat) (p : Types)
    (kind : BitVec 16) (x y c : Nat) (P : Datum → Prop) :
    (∃ n ∈ nodesAt st place, Applies p n kind x y c ∧ P n.datum) ↔
      ∃ v w, Stands p v x ∧ Stands p w y ∧ Asks st place (v + 1, w + 1, c, kind) P := by
  have hmem : ∀ n, n ∈ nodesAt st place ↔ n ∈ (tabAt st place).nodes ∧ n.ctx = place := by
    intro n
    cases place with
    | none =>
      refine ⟨fun h => ⟨h, (hi.te.place n h).1 rfl⟩, fun h => h.1⟩
    | some c =>
      simp only [nodesAt, tabAt, List.mem_filter, decide_eq_true_eq]
      refine and_congr_right fun hn => ?_
      rw [hi.cond.lists]
      constructor
      · rintro ⟨m, hm, he, hc⟩
        rw [← eq_of_id hi.cond hm hn he]; exact hc
      · intro hc
        exact ⟨n, hn, rfl, hc⟩
  constructor
  · rintro ⟨n, hn, ⟨h1, h2, ⟨v, h3, h4⟩, w, h5, h6⟩, h7⟩
    obtain ⟨m1, m2⟩ := (hmem n).1 hn
    exact ⟨v, w, h4, h6, n, m1, m2, by simp [core, h1, h2, h3, h5], h7⟩
  · rintro ⟨v, w, h4, h6, n, m1, m2, hc, h7⟩
    simp only [core, Prod.mk.injEq] at hc
    exact ⟨n, (hmem n).2 ⟨m1, m2⟩, ⟨hc.2.2.2, hc.2.2.1, ⟨v, hc.1, h4⟩, w, hc.2.1, h6⟩, h7⟩

theorem core_mkKey {p : Types} (hp : TypesOk p) {s : BitVec 32} (hs : s ∈ avKinds ++ xKinds ++ typeKinds) {i j cls : Nat} (hi : i < p.nprim)
    (hj : j < p.nprim) (hc : cls < 2 ^ 16) : core (mkKey s i j cls) = (i + 1, j + 1, cls, avtabSpec s) := by
  have := hp.few
  unfold core mkKey
  simp only [Prod.mk.injEq]
  refine ⟨Nat.mod_eq_of_lt (by omega), Nat.mod_eq_of_lt (by omega), Nat.mod_eq_of_lt hc, tabKinds_mask (spec_tabKinds hs)⟩

/-- A rule for access vectors or extended permissions and a query about types. -/
theorem avAdds_about {p : Types} (hp : TypesOk p) {map : List Nat} (hm : MapOk p map) {r : Rule} (hr : RuleOk map r) (nd : Bool)
    {x y : Nat} (hx : IsType p x) (hy : IsType p y) (c : Nat) (kind : BitVec 16) (N : BitVec 32 → Option XPerms → ClassPerm → Prop) :
    (∃ v w, Stands p v x ∧ Stands p w y ∧ AvAdds p nd map (v + 1, w + 1, c, kind) N r) ↔
      r.specified ∈ avKinds ++ xKinds ∧ skipped nd r.specified = false ∧ avtabSpec r.specified = kind ∧ About p map r x y ∧
        ∃ cp ∈ r.perms, cp.tclass = c ∧ N r.specified r.xperms cp := by
  obtain ⟨hlt, hab⟩ := pairsOf_about hp hm hr
  constructor
  · rintro ⟨v, w, s1, s2, h1, h2, ij, h3, cp, h4, h5, h6⟩
    rw [core_mkKey hp (List.mem_append_left _ h1) (hlt ij h3).1 (hlt ij h3).2 (hr.classes cp h4).2] at h5
    simp only [Prod.mk.injEq, Nat.add_right_cancel_iff] at h5
    obtain ⟨rfl, rfl, rfl, rfl⟩ := h5
    exact ⟨h1, h2, rfl, (hab x y hx hy).1 ⟨ij, h3, s1, s2⟩, cp, h4, rfl, h6⟩
  · rintro ⟨h1, h2, rfl, h3, cp, h4, rfl, h6⟩
    obtain ⟨ij, h3, s1, s2⟩ := (hab x y hx hy).2 h3
    exact ⟨ij.1, ij.2, s1, s2, h1, h2, ij, h3, cp, h4,
      (core_mkKey hp (List.mem_append_left _ h1) (hlt ij h3).1 (hlt ij h3).2 (hr.classes cp h4).2).symm, h6⟩

theorem typeAdds_about {p : Types} (hp : TypesOk p) {map : List Nat} (hm : MapOk p map) {r : Rule} (hr : RuleOk map r)
    {x y : Nat} (hx : IsType p x) (hy : IsType p y) (c : Nat) (kind : BitVec 16) (u : BitVec 32) :
    (∃ v w, Stands p v x ∧ Stands p w y ∧ TypeAdds p map (v + 1, w + 1, c, kind) u r) ↔
      r.specified ∈ typeKinds ∧ avtabSpec r.specified = kind ∧ About p map r x y ∧
        ∃ cp ∈ r.perms, cp.tclass = c ∧ ∃ v, map[(cp.data - 1#32).toNat]? = some v ∧ u = BitVec.ofNat 32 v := by
  obtain ⟨hlt, hab⟩ := pairsOf_about hp hm hr
  constructor
  · rintro ⟨v, w, s1, s2, h1, ij, h3, cp, h4, h5, h6⟩
    rw [core_mkKey hp (List.mem_append_right _ h1) (hlt ij h3).1 (hlt ij h3).2 (hr.classes cp h4).2] at h5
    simp only [Prod.mk.injEq, Nat.add_right_cancel_iff] at h5
    obtain ⟨rfl, rfl, rfl, rfl⟩ := h5
    exact ⟨h1, rfl, (hab x y hx hy).1 ⟨ij, h3, s1, s2⟩, cp, h4, rfl, h6⟩
  · rintro ⟨h1, rfl, h3, cp, h4, rfl, h6⟩
    obtain ⟨ij, h3, s1, s2⟩ := (hab x y hx hy).2 h3
    exact ⟨ij.1, ij.2, s1, s2, h1, ij, h3, cp, h4,
      (core_mkKey hp (List.mem_append_right _ h1) (hlt ij h3).1 (hlt ij h3).2 (hr.classes cp h4).2).symm, h6⟩

theorem asks_empty (c : Option Nat) (q : Nat × Nat × Nat × BitVec 16) (P : Datum → Prop) : ¬ Asks emptyState c q P := by
  rintro ⟨n, hn, _⟩
  cases c <;> simp [tabAt, emptyState, emptyTab] at hn

/-- The effect of all steps on a query about access vectors or extended permissions. -/
theorem all_av {p : Types} {map : List Nat} {steps : List Step} (hin : Input p map steps) {nd : Bool} {st : State}
    (h : expandAll p nd map steps = .ok st) {place : Option Nat} {kind : BitVec 16} {P : Datum → Prop}
    {N : BitVec 32 → Option XPerms → ClassPerm → Prop} (hk : kind ∉ tKinds) (hcomp : Compat kind P N)
    (hX : kind ∈ [0x100#16, 0x200#16, 0x400#16] → (condsOf steps).Nodup ∨ place = none)
    {x y : Nat} (hx : IsType p x) (hy : IsType p y) (c : Nat) :
    (∃ n ∈ nodesAt st place, Applies p n kind x y c ∧ P n.datum) ↔
      ∃ r, RuleAt steps place r ∧ r.specified ∈ avKinds ++ xKinds ∧ skipped nd r.specified = false ∧ avtabSpec r.specified = kind ∧
        About p map r x y ∧ ∃ cp ∈ r.perms, cp.tclass = c ∧ N r.specified r.xperms cp := by
  have key : ∀ q : Nat × Nat × Nat × BitVec 16, q.2.2.2 = kind →
      (∃ X Z, Inv X Z .te st) ∧ (Asks st place q P ↔ ∃ r, RuleAt steps place r ∧ AvAdds p nd map q N r) := by
    intro q hq
    have := steps_effect (p := p) (map := map) (nd := nd) (X := (condsOf steps).Nodup) (B := True) (c := place) (Q := fun st => Asks st place q P)
      (C := AvAdds p nd map q N) (steps := steps) (Z := fun _ => True) (st := emptyState) (st' := st)
      (fun pl r hr d Z st st' _ hd hz hi hok => expandRule_av hin.types hin.copies (hin.rules pl r hr) nd hd hz hi hok (by rw [hq]; exact hk)
        (by rw [hq]; exact hcomp) (by rw [hq]; exact hX) True)
      (fun hn => ⟨hn, fun _ _ => ⟨trivial, trivial⟩⟩) (inv_empty _ _) h
    obtain ⟨⟨Z', hi⟩, he⟩ := this
    refine ⟨⟨_, Z', hi⟩, fun h => ?_, fun h => he.2 trivial (.inr h)⟩
    rcases he.1 h with h | h
    · exact absurd h (asks_empty _ _ _)
    · exact h
  obtain ⟨⟨X, Z, hi⟩, _⟩ := key (0, 0, 0, kind) rfl
  rw [nodesAt_asks hi]
  constructor
  · rintro ⟨v, w, s1, s2, ha⟩
    obtain ⟨r, hr, ha⟩ := (key _ rfl).2.1 ha
    exact ⟨r, hr, (avAdds_about hin.types hin.copies (hin.rules _ r hr) nd hx hy c kind N).1 ⟨v, w, s1, s2, ha⟩⟩
  · rintro ⟨r, hr, ha⟩
    obtain ⟨v, w, s1, s2, ha⟩ := (avAdds_about hin.types hin.copies (hin.rules _ r hr) nd hx hy c kind N).2 ha
    exact ⟨v, w, s1, s2, (key _ rfl).2.2 ⟨r, hr, ha⟩⟩

/-- The effect of all steps on a query about types, by keys. -/
theorem type_key {p : Types} {map : List Nat} {steps : List Step} (hin : Input p map steps) {nd : Bool} {st : State}
    (h : expandAll p nd map steps = .ok st) {place : Option Nat} {kind : BitVec 16} (hk : kind ∈ tKinds) (u : BitVec 32)
    {q : Nat × Nat × Nat × BitVec 16} (hq : q.2.2.2 = kind) :
    (∃ X Z, Inv X Z .te st) ∧ Effect (((condsOf steps).Nodup ∨ place = none) ∧ (∀ pl r, RuleAt steps pl r → r.specified ∈ typeKinds → r.perms.length ≤ 1))
      (Asks st place q fun x => x.data = u) False (∃ r, RuleAt steps place r ∧ TypeAdds p map q u r) := by
  have := steps_effect (p := p) (map := map) (nd := nd) (X := (condsOf steps).Nodup)
    (B := ((condsOf steps).Nodup ∨ place = none) ∧ (∀ pl r, RuleAt steps pl r → r.specified ∈ typeKinds → r.perms.length ≤ 1))
    (c := place) (Q := fun st => Asks st place q fun x => x.data = u)
    (C := TypeAdds p map q u) (steps := steps) (Z := fun _ => True) (st := emptyState) (st' := st)
    (fun pl r hr d Z st st' _ hd hz hi hok => expandRule_type hin.types hin.copies (hin.rules pl r hr) nd hd hz hi hok (by rw [hq]; exact hk)
      u (fun hb => ⟨hb.1, hb.2 pl r hr⟩))
    (fun hn => ⟨hn, fun _ _ => ⟨trivial, trivial⟩⟩) (inv_empty _ _) h
  obtain ⟨⟨Z', hi⟩, he⟩ := this
  refine ⟨⟨_, Z', hi⟩, fun h => ?_, fun hb h => he.2 hb (.inr (h.resolve_left id))⟩
  rcases he.1 h with h | h
  · exact absurd h (asks_empty _ _ _)
  · exact .inr h

/-- The effect of all steps on a query about types. -/
theorem all_type {p : Types} {map : List Nat} {steps : List Step} (hin : Input p map steps) {nd : Bool} {st : State}
    (h : expandAll p nd map steps = .ok st) (place : Option Nat) {kind : BitVec 16} (hk : kind ∈ tKinds) (u : BitVec 32)
    {x y : Nat} (hx : IsType p x) (hy : IsType p y) (c : Nat) :
    ((∃ n ∈ nodesAt st place, Applies p n kind x y c ∧ n.datum.data = u) →
      ∃ r, RuleAt steps place r ∧ r.specified ∈ typeKinds ∧ avtabSpec r.specified = kind ∧
        About p map r x y ∧ ∃ cp ∈ r.perms, cp.tclass = c ∧ ∃ v, map[(cp.data - 1#32).toNat]? = some v ∧ u = BitVec.ofNat 32 v) ∧
    ((condsOf steps).Nodup ∨ place = none → (∀ pl r, RuleAt steps pl r → r.specified ∈ typeKinds → r.perms.length ≤ 1) →
      (∃ r, RuleAt steps place r ∧ r.specified ∈ typeKinds ∧ avtabSpec r.specified = kind ∧
        About p map r x y ∧ ∃ cp ∈ r.perms, cp.tclass = c ∧ ∃ v, map[(cp.data - 1#32).toNat]? = some v ∧ u = BitVec.ofNat 32 v) →
      (∃ n ∈ nodesAt st place, Applies p n kind x y c ∧ n.datum.data = u)) := by
  have key := fun q hq => type_key hin h (place := place) (kind := kind) hk u (q := q) hq
  obtain ⟨⟨X, Z, hi⟩, _⟩ := key (0, 0, 0, kind) rfl
  rw [nodesAt_asks hi (P := fun x => x.data = u)]
  constructor
  · rintro ⟨v, w, s1, s2, ha⟩
    obtain ⟨r, hr, ha⟩ := ((key _ rfl).2.1 ha).resolve_left id
    exact ⟨r, hr, (typeAdds_about hin.types hin.copies (hin.rules _ r hr) hx hy c kind u).1 ⟨v, w, s1, s2, ha⟩⟩
  · rintro h1 h2 ⟨r, hr, ha⟩
    obtain ⟨v, w, s1, s2, ha⟩ := (typeAdds_about hin.types hin.copies (hin.rules _ r hr) hx hy c kind u).2 ha
    exact ⟨v, w, s1, s2, (key _ rfl).2.2 ⟨h1, h2⟩ (.inr ⟨r, hr, ha⟩)⟩

/-- What is true of the tables at the end. -/
theorem all_inv {p : Types} {map : List Nat} {steps : List Step} (hin : Input p map steps) {nd : Bool} {st : State}
    (h : expandAll p nd map steps = .ok st) : ∃ X Z, Inv X Z .te st := by
  obtain ⟨⟨Z', hi⟩, _⟩ := steps_effect (p := p) (map := map) (nd := nd) (X := False) (B := False) (c := none)
      (Q := fun st => Asks st none (0, 0, 0, 0x10#16) fun x => x.data = 0)
      (C := TypeAdds p map (0, 0, 0, 0x10#16) 0) (steps := steps) (Z := fun _ => False) (st := emptyState) (st' := st)
      (fun pl r hr d Z st st' _ hd hz hi hok => expandRule_type hin.types hin.copies (hin.rules pl r hr) nd hd hz hi hok (by decide)
        0 (fun hb => hb.elim)) (fun h => h.elim) (inv_empty _ _) h
  exact ⟨_, Z', hi⟩

end Verif.Expand
