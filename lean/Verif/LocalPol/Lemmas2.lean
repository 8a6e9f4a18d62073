import Verif.LocalPol.Lemmas

namespace Verif.LocalPol
open Verif.Policy Verif.Mls Verif.Services Verif.ObjStmt

/-! ## Nodes -/

def n4 (cfg : Cfg) : NodeRec → Option (Ocon (BitVec 32 × BitVec 32))
  | .v4 a m (some c) => some (entry (stored cfg a, stored cfg m) c)
  | _ => none

def n6 (cfg : Cfg) : NodeRec → Option (Ocon (Words × Words))
  | .v6 a m (some c) => some (entry (stored6 cfg a, stored6 cfg m) c)
  | _ => none

theorem load_node {cfg : Cfg} : ∀ (rs : List NodeRec) (ob ob' : Objects),
    loadRecords (nodeModify cfg) rs ob = some ob' ↔ (∀ r ∈ rs, ∃ c, r.con = some c) ∧
      ob' = { ob with node := (rs.filterMap (n4 cfg)).reverse ++ ob.node, node6 := (rs.filterMap (n6 cfg)).reverse ++ ob.node6 } := by
  intro rs
  induction rs with
  | nil =>
    intro ob ob'
    rw [loadRecords]
    constructor
    · intro h; cases h; exact ⟨by simp, rfl⟩
    · rintro ⟨_, rfl⟩; rfl
  | cons r rs ih =>
    intro ob ob'
    rw [loadRecords]
    rcases r with ⟨a, m, _ | c⟩ | ⟨a, m, _ | c⟩
    · simp [nodeModify, NodeRec.con]
    · simp only [nodeModify, Option.map_some]
      rw [ih]
      simp [NodeRec.con, List.filterMap_cons, n4, n6]
    · simp [nodeModify, NodeRec.con]
    · simp only [nodeModify, Option.map_some]
      rw [ih]
      simp [NodeRec.con, List.filterMap_cons, n4, n6]

theorem covers4 {cfg : Cfg} {r : NodeRec} (hc : ∃ c, r.con = some c) (a : BitVec 32) :
    (∃ e, n4 cfg r = some e ∧ ∀ i < 32, e.key.1.getLsbD i = ((stored cfg a).getLsbD i && e.key.2.getLsbD i)) ↔ r.Covers4 a := by
  have key : ∀ x m : BitVec 32, (∀ i < 32, (stored cfg x).getLsbD i = ((stored cfg a).getLsbD i && (stored cfg m).getLsbD i)) ↔
      ∀ i < 32, x.getMsbD i = (a.getMsbD i && m.getMsbD i) := by
    intro x m
    have h1 : (∀ i < 32, (stored cfg x).getLsbD i = ((stored cfg a).getLsbD i && (stored cfg m).getLsbD i)) ↔
        stored cfg x = stored cfg a &&& stored cfg m := by
      constructor
      · intro h
        apply BitVec.eq_of_getLsbD_eq
        intro i hi
        rw [BitVec.getLsbD_and]
        exact h i hi
      · intro h i hi
        rw [h, BitVec.getLsbD_and]
    rw [h1, ← stored_and, stored_inj, ext4]
    simp only [BitVec.getMsbD_and]
  obtain ⟨c, hc⟩ := hc
  rcases r with ⟨x, m, con⟩ | ⟨x, m, con⟩
  · simp only [NodeRec.con] at hc
    subst hc
    simp only [n4, Option.some.injEq, exists_eq_left', NodeRec.Covers4, entry]
    exact key x m
  · simp [n4, NodeRec.Covers4]

theorem covers6 {cfg : Cfg} {r : NodeRec} (hc : ∃ c, r.con = some c) (a : Words) :
    (∃ e, n6 cfg r = some e ∧ e.key.1 = ⟨(stored6 cfg a).w0 &&& e.key.2.w0, (stored6 cfg a).w1 &&& e.key.2.w1,
      (stored6 cfg a).w2 &&& e.key.2.w2, (stored6 cfg a).w3 &&& e.key.2.w3⟩) ↔ r.Covers6 a := by
  obtain ⟨c, hc⟩ := hc
  rcases r with ⟨x, m, con⟩ | ⟨x, m, con⟩
  · simp [n6, NodeRec.Covers6]
  · simp only [NodeRec.con] at hc
    subst hc
    simp only [n6, Option.some.injEq, exists_eq_left', NodeRec.Covers6, entry]
    have h2 : (Words.mk ((stored6 cfg a).w0 &&& (stored6 cfg m).w0) ((stored6 cfg a).w1 &&& (stored6 cfg m).w1)
      ((stored6 cfg a).w2 &&& (stored6 cfg m).w2) ((stored6 cfg a).w3 &&& (stored6 cfg m).w3)) =
        stored6 cfg (applyMask a m) := by rw [stored6_and]; rfl
    rw [h2, stored6_inj, ext6]
    constructor
    · intro h i hi; rw [h i hi, and6_bit a m hi]
    · intro h i hi; rw [h i hi, and6_bit a m hi]

theorem memcmp4_le {a b : BitVec 32} (h : memcmp4 a b ≤ 0) : a.toNat ≤ b.toNat := by
  unfold memcmp4 at h
  split at h
  · omega
  · split at h <;> omega

theorem mask4_lt {m m' : BitVec 32} (h : ∀ i < 32, m.getMsbD i = true → m'.getMsbD i = true) (h' : ∃ i < 32, m'.getMsbD i = true ∧ m.getMsbD i ≠ true) :
    m.toNat < m'.toNat := by
  have e : m = m &&& m' := by
    rw [ext4]; intro i hi; rw [BitVec.getMsbD_and]
    have := h i hi
    cases hm : m.getMsbD i <;> simp_all
  have hne : m ≠ m' := by
    rintro rfl
    obtain ⟨i, _, a, b⟩ := h'
    exact b a
  have := stored_lt (cfg := ⟨false, false, fun _ => none⟩) e hne
  simpa [stored] using this

theorem node_order4 {cfg : Cfg} {s t : NodeRec} (hc : nodeCompare cfg t s ≤ 0) {a : BitVec 32} (hs : s.Covers4 a) (ht : t.Covers4 a) :
    ¬ t.More s := by
  rcases s with ⟨x, m, con⟩ | ⟨x, m, con⟩
  · rcases t with ⟨x', m', con'⟩ | ⟨x', m', con'⟩
    · rintro ⟨h1, i, h2, h3⟩
      have hlt : m.toNat < m'.toNat := by
        apply mask4_lt
        · intro i hi h; exact (h1 i ⟨hi, h⟩).2
        · exact ⟨i, h2.1, h2.2, fun h => h3 ⟨h2.1, h⟩⟩
      have hle : m'.toNat ≤ m.toNat := by
        apply memcmp4_le
        rw [nodeCompare] at hc
        by_cases h0 : memcmp4 m' m = 0
        · omega
        · rw [if_pos h0] at hc; exact hc
      omega
    · cases ht
  · cases hs

theorem node_order6 {cfg : Cfg} {s t : NodeRec} (hc : nodeCompare cfg t s ≤ 0) {a : Words} (hs : s.Covers6 a) (ht : t.Covers6 a) :
    ¬ t.More s := by
  rcases s with ⟨x, m, con⟩ | ⟨x, m, con⟩
  · cases hs
  · rcases t with ⟨x', m', con'⟩ | ⟨x', m', con'⟩
    · cases ht
    · rintro ⟨h1, i, h2, h3⟩
      have e : m = applyMask m m' := by
        rw [ext6]; intro i hi; rw [and6_bit m m' hi]
        have := fun h => (h1 i ⟨hi, h⟩).2
        cases hm : bit6 m i <;> simp_all
      have hne : stored6 cfg m ≠ stored6 cfg m' := by
        rw [Ne, stored6_inj]; rintro rfl; exact h3 h2
      have e' : stored6 cfg m = applyMask (stored6 cfg m) (stored6 cfg m') := by rw [← stored6_and, ← e]
      have hlt := val6_lt cfg e' hne
      have hle : ¬ memcmp6 cfg (stored6 cfg m') (stored6 cfg m) > 0 := by
        simp only [nodeCompare] at hc
        by_cases h0 : memcmp6 cfg (stored6 cfg m') (stored6 cfg m) = 0
        · omega
        · rw [if_pos h0] at hc; omega
      rw [(memcmp6_spec cfg _ _).2] at hle
      omega

/-! ## Merge -/

theorem merge_inv {cfg : Cfg} {sort : List NodeRec → List NodeRec} {loc : Local} {ob ob' : Objects}
    (h : mergeObjects cfg sort loc ob = some ob') :
    (∀ r ∈ loc.ports, portEntry r ≠ none) ∧ (∀ r ∈ loc.pkeys, pkeyEntry r ≠ none) ∧ (∀ r ∈ loc.endports, endportEntry r ≠ none) ∧
    (∀ r ∈ sort loc.nodes, ∃ c, r.con = some c) ∧
    ∃ netif, loadRecords ifaceModify loc.ifaces ob.netif = some netif ∧
    ob' = { ob with
      port := (loc.ports.filterMap portEntry).reverse ++ ob.port, netif := netif,
      node := ((sort loc.nodes).filterMap (n4 cfg)).reverse ++ ob.node,
      node6 := ((sort loc.nodes).filterMap (n6 cfg)).reverse ++ ob.node6,
      ibpkey := (loc.pkeys.filterMap pkeyEntry).reverse ++ ob.ibpkey,
      ibendport := (loc.endports.filterMap endportEntry).reverse ++ ob.ibendport } := by
  unfold mergeObjects at h
  cases h1 : loadRecords (pushEntry portEntry) loc.ports ob.port with
  | none => rw [h1] at h; cases h
  | some port =>
    rw [h1] at h
    cases h2 : loadRecords ifaceModify loc.ifaces ob.netif with
    | none => rw [h2] at h; cases h
    | some netif =>
      rw [h2] at h
      dsimp only at h
      cases h3 : loadRecords (nodeModify cfg) (sort loc.nodes) { ob with port := port, netif := netif } with
      | none => rw [h3] at h; cases h
      | some ob1 =>
        rw [h3] at h
        dsimp only at h
        rw [load_node] at h3
        obtain ⟨h3, rfl⟩ := h3
        dsimp only at h
        cases h4 : loadRecords (pushEntry pkeyEntry) loc.pkeys ob.ibpkey with
        | none => rw [h4] at h; cases h
        | some pk =>
          rw [h4] at h
          dsimp only at h
          cases h5 : loadRecords (pushEntry endportEntry) loc.endports ob.ibendport with
          | none => rw [h5] at h; cases h
          | some ep =>
            rw [h5] at h
            dsimp only at h
            cases h
            rw [load_push] at h1 h4 h5
            obtain ⟨a1, rfl⟩ := h1
            obtain ⟨a4, rfl⟩ := h4
            obtain ⟨a5, rfl⟩ := h5
            exact ⟨a1, a4, a5, h3, netif, rfl, rfl⟩

theorem load_push_ne {ρ κ : Type} {mk : ρ → Option (Ocon κ)} {rs : List ρ} {l : List (Ocon κ)} (h : ∀ r ∈ rs, mk r ≠ none) :
    loadRecords (pushEntry mk) rs l = some ((rs.filterMap mk).reverse ++ l) := (load_push mk rs l _).mpr ⟨h, rfl⟩

theorem merge_ok {cfg : Cfg} {sort : List NodeRec → List NodeRec} {loc : Local} {ob : Objects}
    (h1 : ∀ r ∈ loc.ports, portEntry r ≠ none) (h2 : ∀ r ∈ loc.pkeys, pkeyEntry r ≠ none) (h3 : ∀ r ∈ loc.endports, endportEntry r ≠ none)
    (h4 : ∀ r ∈ sort loc.nodes, ∃ c, r.con = some c) (h5 : ∀ r ∈ loc.ifaces, ifaceEntry r ≠ none) :
    ∃ ob', mergeObjects cfg sort loc ob = some ob' := by
  obtain ⟨netif, hn⟩ := ne_none.mp (load_iface_ok (l := ob.netif).mpr h5)
  unfold mergeObjects
  rw [load_push_ne h1, hn]
  dsimp only
  rw [(load_node _ _ _).mpr ⟨h4, rfl⟩]
  dsimp only
  rw [load_push_ne h2]
  dsimp only
  rw [load_push_ne h3]
  exact ⟨_, rfl⟩

theorem fresh_merge {cfg : Cfg} {sort : List NodeRec → List NodeRec} {loc : Local} {ob ob' : Objects}
    (h : mergeObjects cfg sort loc ob = some ob') (hs : Sorts (nodeCompare cfg) sort) (hf : FreshObjects ob) (hw : loc.WF) :
    FreshObjects ob' := by
  obtain ⟨_, _, _, _, netif, hn, rfl⟩ := merge_inv h
  refine ⟨hf.fs, fresh_iface hn hf.netif hw.netif, hf.fsuse, fresh_push hf.port ?_, fresh_push hf.ibpkey ?_, fresh_push hf.ibendport ?_,
    fresh_push hf.node ?_, fresh_push hf.node6 ?_, hf.genfs⟩
  · intro r hr e he
    obtain ⟨ip, c, _, _, h, rfl⟩ := portEntry_some.mp he
    exact ⟨_, c, rfl, hw.port r hr c h⟩
  · intro r hr e he
    obtain ⟨c, _, h, rfl⟩ := pkeyEntry_some.mp he
    exact ⟨_, c, rfl, hw.pkey r hr c h⟩
  · intro r hr e he
    obtain ⟨c, h, rfl⟩ := endportEntry_some.mp he
    exact ⟨_, c, rfl, hw.endport r hr c h⟩
  · intro r hr e he
    have hr := (hs _).1.mem_iff.mp hr
    rcases r with ⟨a, m, _ | c⟩ | ⟨a, m, _ | c⟩ <;> simp only [n4, Option.some.injEq, reduceCtorEq] at he
    exact ⟨_, c, he.symm, hw.node _ hr c rfl⟩
  · intro r hr e he
    have hr := (hs _).1.mem_iff.mp hr
    rcases r with ⟨a, m, _ | c⟩ | ⟨a, m, _ | c⟩ <;> simp only [n6, Option.some.injEq, reduceCtorEq] at he
    exact ⟨_, c, he.symm, hw.node _ hr c rfl⟩

/-- The last one of a sorted list is the best one. -/
theorem last_best {α : Type} {R : α → α → Prop} {l : List α} (h : l.Pairwise R) {P : α → Prop} {s : α} (hl : LastRec l P s) :
    ∀ t ∈ l, P t → t ≠ s → R t s := by
  obtain ⟨pre, post, rfl, hp, hn⟩ := hl
  intro t ht hpt hne
  rw [List.pairwise_append] at h
  rcases List.mem_append.mp ht with h1 | h1
  · exact h.2.2 t h1 s (by simp)
  · rcases List.mem_cons.mp h1 with h1 | h1
    · exact absurd h1 hne
    · exact absurd hpt (hn t h1)

/-! ## Overlap -/

theorem validate_iff {α κ : Type} (key : α → κ) [DecidableEq κ] (low high : α → Int) {f : List α → Bool} (hnil : f [] = true)
    (hcons : ∀ p rest, f (p :: rest) = match rest.find? (fun q => decide (key p = key q)) with
      | none => f rest
      | some q => if low q ≤ high p then false else f rest) :
    ∀ l : List α, l.Pairwise (fun a b => key a = key b → low a ≤ low b) →
      (f l = true ↔ l.Pairwise (fun a b => key a = key b → high a < low b)) := by
  intro l
  induction l with
  | nil => intro _; simp [hnil]
  | cons p rest ih =>
    intro hs
    rw [List.pairwise_cons] at hs
    rw [hcons, List.pairwise_cons]
    cases hf : rest.find? (fun q => decide (key p = key q)) with
    | none =>
      rw [List.find?_eq_none] at hf
      dsimp only
      rw [ih hs.2]
      constructor
      · exact fun h => ⟨fun b hb e => absurd e (by simpa using hf b hb), h⟩
      · exact fun h => h.2
    | some q =>
      rw [List.find?_eq_some_iff_append] at hf
      obtain ⟨hq, pre, post, rfl, hpre⟩ := hf
      have hq : key p = key q := by simpa using hq
      dsimp only
      by_cases hle : low q ≤ high p
      · rw [if_pos hle]
        simp only [Bool.false_eq_true, false_iff, not_and]
        intro h
        have := h q (by simp) hq
        omega
      · rw [if_neg hle, ih hs.2]
        constructor
        · refine fun h => ⟨fun b hb e => ?_, h⟩
          rcases List.mem_append.mp hb with hb | hb
          · have := hpre b hb; simp [e] at this
          · rcases List.mem_cons.mp hb with rfl | hb
            · omega
            · have h2 := hs.2
              rw [List.pairwise_append, List.pairwise_cons] at h2
              have := h2.2.1.1 b hb (hq ▸ e)
              omega
        · exact fun h => h.2

theorem ports_sorted {a b : PortRec} (h : portCompare a b ≤ 0) : a.low ≤ b.low := by
  unfold portCompare at h
  split at h
  · omega
  · split at h
    · omega
    · split at h
      · omega
      · omega

theorem pkeys_sorted {a b : PkeyRec} (h : pkeyCompare a b ≤ 0) (he : a.subnet = b.subnet) : a.low ≤ b.low := by
  unfold pkeyCompare at h
  rw [he] at h
  simp only [Nat.lt_irrefl, if_false] at h
  split at h
  · omega
  · split at h <;> omega

end Verif.LocalPol
