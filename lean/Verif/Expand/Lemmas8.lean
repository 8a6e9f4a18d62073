import Verif.Expand.Lemmas7

/-!
# Permissions of nodes and of rules; type rules
-/

namespace Verif.Expand
open Avtab (Key XPerms Datum hits)
open Ebitmap (Ebitmap getBit WF)

theorem spec_inv {s : BitVec 32} (hs : s ∈ avKinds ++ xKinds) :
    (avtabSpec s = 0x1#16 ↔ s = 0x1#32) ∧ (avtabSpec s = 0x2#16 ↔ s = 0x2#32) ∧
    (avtabSpec s = 0x4#16 ↔ s = 0x4#32 ∨ s = 0x8#32) ∧
    (avtabSpec s = 0x100#16 ↔ s = 0x100#32) ∧ (avtabSpec s = 0x200#16 ↔ s = 0x200#32) ∧ (avtabSpec s = 0x400#16 ↔ s = 0x400#32) := by
  simp only [avKinds, xKinds, List.mem_cons, List.mem_append, List.not_mem_nil, or_false] at hs
  rcases hs with (rfl | rfl | rfl | rfl) | rfl | rfl | rfl <;> decide

theorem spec_inv_type {s : BitVec 32} (hs : s ∈ typeKinds) :
    (avtabSpec s = 0x10#16 ↔ s = 0x10#32) ∧ (avtabSpec s = 0x20#16 ↔ s = 0x20#32) ∧ (avtabSpec s = 0x40#16 ↔ s = 0x40#32) := by
  simp only [typeKinds, List.mem_cons, List.not_mem_nil, or_false] at hs
  rcases hs with rfl | rfl | rfl <;> decide

theorem compat_grant {kind : BitVec 16} (hk : kind = 0x1#16 ∨ kind = 0x2#16) (b : Nat) :
    Compat kind (fun d => d.data.getLsbD b = true) (fun _ _ cp => cp.data.getLsbD b = true) := by
  refine ⟨?_, ?_⟩
  · intro s x cp d d' hs hspec _ hu
    have : s = ALLOWED ∨ s = AUDITALLOW := by
      rcases hk with rfl | rfl
      · exact .inl ((spec_inv hs).1.1 hspec)
      · exact .inr ((spec_inv hs).2.1.1 hspec)
    have hc : s = ALLOWED ∨ s = AUDITALLOW ∨ s = NEVERALLOW := by rcases this with h | h <;> simp [h]
    simp only [avUpdate, if_pos hc, Option.some.injEq] at hu
    subst hu
    simp [BitVec.getLsbD_or]
  · intro s k _ _ hks
    have : (k.specified == Avtab.AUDITDENY) = false := by
      rw [hks]
      rcases hk with rfl | rfl <;> decide
    simp [freshDatum, this]

theorem compat_deny {b : Nat} (hb : b < 32) :
    Compat 0x4#16 (fun d => d.data.getLsbD b = false)
      (fun s _ cp => s = 0x8#32 ∧ cp.data.getLsbD b = true ∨ s = 0x4#32 ∧ cp.data.getLsbD b = false) := by
  refine ⟨?_, ?_⟩
  · intro s x cp d d' hs hspec _ hu
    rcases (spec_inv hs).2.2.1.1 hspec with rfl | rfl
    · simp only [avUpdate, ALLOWED, AUDITALLOW, NEVERALLOW, DONTAUDIT, AUDITDENY, BitVec.reduceEq, or_self, if_false, if_true, Option.some.injEq] at hu
      subst hu
      simp only [BitVec.getLsbD_and, Bool.and_eq_false_iff]
      simp
    · simp only [avUpdate, ALLOWED, AUDITALLOW, NEVERALLOW, DONTAUDIT, BitVec.reduceEq, or_self, if_false, if_true, Option.some.injEq] at hu
      subst hu
      simp only [BitVec.getLsbD_and, BitVec.getLsbD_not, hb, decide_true, Bool.true_and, Bool.and_eq_false_iff]
      simp
  · intro s k _ _ hks
    have : (k.specified == Avtab.AUDITDENY) = true := by rw [hks]; decide
    simp only [freshDatum, this, if_true, BitVec.getLsbD_not, hb, decide_true, Bool.true_and]
    simp

theorem xbit_or {a b : List (BitVec 32)} (h : a.length = b.length) (i : Nat) : XBit (orPerms a b) i ↔ XBit a i ∨ XBit b i := by
  unfold XBit orPerms
  simp only [List.getElem?_zipWith]
  by_cases hi : i / 32 < a.length
  · rw [List.getElem?_eq_getElem hi, List.getElem?_eq_getElem (h ▸ hi)]
    simp [BitVec.getLsbD_or]
  · rw [List.getElem?_eq_none (by omega), List.getElem?_eq_none (by omega)]
    simp

theorem xbit_zero (i : Nat) : ¬ XBit XPerms.zero.perms i := by
  rintro ⟨v, h, hb⟩
  have : v ∈ XPerms.zero.perms := List.mem_of_getElem? h
  have hz : ∀ v ∈ XPerms.zero.perms, v = 0#32 := by
    intro v hv
    simp only [XPerms.zero, List.mem_replicate] at hv
    exact hv.2
  rw [hz v this] at hb
  simp at hb

theorem compat_x {s0 : BitVec 32} (hs0 : s0 ∈ xKinds) {xkind : BitVec 8} (driver : BitVec 8) (b : Nat) :
    Compat (s0.truncate 16) (fun d => ∃ w, d.xperms = some ⟨xkind, driver, w⟩ ∧ XBit w b)
      (fun s x _ => s = s0 ∧ ∃ w, x = some ⟨xkind, driver, w⟩ ∧ XBit w b) := by
  have hinv : ∀ s, s ∈ avKinds ++ xKinds → avtabSpec s = s0.truncate 16 → s = s0 := by
    intro s hs h
    simp only [xKinds, List.mem_cons, List.not_mem_nil, or_false] at hs0
    obtain ⟨_, _, _, h4, h5, h6⟩ := spec_inv hs
    rcases hs0 with rfl | rfl | rfl
    · exact h4.1 h
    · exact h5.1 h
    · exact h6.1 h
  refine ⟨?_, ?_⟩
  · intro s x cp d d' hs hspec hx hu
    have := hinv s hs hspec
    subst this
    obtain ⟨x', y, rfl, hl, hy, hyl, hor⟩ := hx hs0
    have hu' : allocateXperms d x' = some d' := by
      simp only [xKinds, List.mem_cons, List.not_mem_nil, or_false] at hs0
      rcases hs0 with rfl | rfl | rfl <;>
        simpa [avUpdate, ALLOWED, AUDITALLOW, NEVERALLOW, DONTAUDIT, AUDITDENY, X_ALLOWED, X_AUDITALLOW, X_DONTAUDIT, X_NEVERALLOW] using hu
    simp only [allocateXperms, hy, Option.getD_some] at hu'
    split at hu'
    · rename_i hk
      simp only [Option.some.injEq] at hu'
      subst hu'
      obtain ⟨xs, xd, xp⟩ := x'
      obtain ⟨ys, yd, yp⟩ := y
      simp only [Option.some.injEq, XPerms.mk.injEq, true_and, hy]
      simp only at hl hyl hor hk
      constructor
      · rintro ⟨w, ⟨rfl, rfl, rfl⟩, hw⟩
        rcases (xbit_or (by omega) b).1 hw with hw | hw
        · rcases hor with hz | ⟨rfl, rfl⟩
          · exact absurd hw (by rw [show yp = XPerms.zero.perms by rw [← hz]]; exact xbit_zero b)
          · exact .inl ⟨yp, ⟨rfl, rfl, rfl⟩, hw⟩
        · exact .inr ⟨xp, ⟨rfl, rfl, rfl⟩, hw⟩
      · rintro (⟨w, ⟨rfl, rfl, rfl⟩, hw⟩ | ⟨w, ⟨rfl, rfl, rfl⟩, hw⟩)
        · rcases hor with hz | ⟨rfl, rfl⟩
          · exact absurd hw (by rw [show yp = XPerms.zero.perms by rw [← hz]]; exact xbit_zero b)
          · exact ⟨_, ⟨rfl, rfl, rfl⟩, (xbit_or (by omega) b).2 (.inl hw)⟩
        · exact ⟨_, ⟨rfl, rfl, rfl⟩, (xbit_or (by omega) b).2 (.inr hw)⟩
    · cases hu'
  · rintro s k hs hspec hks ⟨w, h1, h2⟩
    simp only [freshDatum] at h1
    split at h1
    · simp only [Option.some.injEq] at h1
      have : w = XPerms.zero.perms := by rw [h1]
      rw [this] at h2
      exact xbit_zero b h2
    · cases h1

theorem x_not_type {s : BitVec 32} (hs : s ∈ xKinds) : (s.truncate 16 : BitVec 16) ∉ tKinds ∧ avtabSpec s = s.truncate 16 := by
  simp only [xKinds, List.mem_cons, List.not_mem_nil, or_false] at hs
  rcases hs with rfl | rfl | rfl <;> decide

theorem skip_eq_x {s : BitVec 32} (hs : s ∈ xKinds) (nd : Bool) : skipped nd s = false ↔ (nd = true → s ≠ 0x400#32) := by
  simp only [xKinds, List.mem_cons, List.not_mem_nil, or_false] at hs
  rcases hs with rfl | rfl | rfl <;> cases nd <;> decide

/-- Extended permissions. -/
theorem all_x {p : Types} {map : List Nat} {steps : List Step} (hin : Input p map steps) {nd : Bool} {st : State}
    (h : expandAll p nd map steps = .ok st) {place : Option Nat} (hX : (condsOf steps).Nodup ∨ place = none)
    {s : BitVec 32} (hs : s ∈ xKinds) {x y : Nat} (hx : IsType p x) (hy : IsType p y) (c : Nat) (xkind driver : BitVec 8) (b : Nat) :
    XGrants p (nodesAt st place) (s.truncate 16) x y c xkind driver b ↔
      ∃ r, RuleAt steps place r ∧ r.specified = s ∧ (nd = true → s ≠ 0x400#32) ∧ About p map r x y ∧ (∃ cp ∈ r.perms, cp.tclass = c) ∧
        ∃ w, r.xperms = some ⟨xkind, driver, w⟩ ∧ XBit w b := by
  unfold XGrants
  rw [all_av hin h (P := fun d => ∃ w, d.xperms = some ⟨xkind, driver, w⟩ ∧ XBit w b) (x_not_type hs).1 (compat_x hs driver b) (fun _ => hX) hx hy]
  constructor
  · rintro ⟨r, h1, h2, h3, h4, h5, cp, h6, h7, rfl, h8⟩
    exact ⟨r, h1, rfl, (skip_eq_x hs nd).1 h3, h5, ⟨cp, h6, h7⟩, h8⟩
  · rintro ⟨r, h1, rfl, h3, h5, ⟨cp, h6, h7⟩, h8⟩
    exact ⟨r, h1, List.mem_append_right _ hs, (skip_eq_x hs nd).2 h3, (x_not_type hs).2, h5, cp, h6, h7, rfl, h8⟩

/-- The pairs of a type rule are types. -/
theorem pairsOf_types {p : Types} (hp : TypesOk p) {map : List Nat} (hm : MapOk p map) {r : Rule} (hr : RuleOk map r) (hs : r.specified ∈ typeKinds) :
    ∀ ij ∈ pairsOf p map r, IsType p ij.1 ∧ IsType p ij.2 := by
  obtain ⟨a, ha, wa, la, ta, ea⟩ := convertTypeSet_ok hp hm hr.source (anyBit r.specified AVRULE_TYPE || anyBit r.flags RULE_SELF)
  obtain ⟨b, hb, wb, lb, tb, eb⟩ := convertTypeSet_ok hp hm hr.target (anyBit r.specified AVRULE_TYPE || anyBit r.flags RULE_SELF)
  have hpo : pairsOf p map r = pairs r a b := by simp only [pairsOf, ha, hb]
  have hal : (anyBit r.specified AVRULE_TYPE || anyBit r.flags RULE_SELF) = true := by rw [(type_not_av hs).2]; rfl
  rw [hpo]
  rintro ⟨i, j⟩ hij
  obtain ⟨h1, h2⟩ := (mem_pairs wa wb i j).1 hij
  refine ⟨ta hal i h1, ?_⟩
  rcases h2 with h2 | ⟨_, rfl⟩
  · exact tb hal j h2
  · exact ta hal i h1

/-- The nodes of type rules are about types. -/
theorem type_node {p : Types} {map : List Nat} {steps : List Step} (hin : Input p map steps) {nd : Bool} {st : State}
    (h : expandAll p nd map steps = .ok st) {place : Option Nat} {n : ENode} (hn : n ∈ (tabAt st place).nodes) (hc : n.ctx = place)
    (hk : (core n.key).2.2.2 ∈ tKinds) : ∃ i j, n.key.source = i + 1 ∧ n.key.target = j + 1 ∧ IsType p i ∧ IsType p j := by
  obtain ⟨_, he⟩ := type_key hin h (place := place) hk n.datum.data (q := core n.key) rfl
  obtain ⟨r, hr, h1, ij, h2, cp, h3, h4, _⟩ := (he.1 ⟨n, hn, hc, rfl, rfl⟩).resolve_left id
  obtain ⟨t1, t2⟩ := pairsOf_types hin.types hin.copies (hin.rules _ r hr) h1 ij h2
  rw [core_mkKey hin.types (List.mem_append_right _ h1) (isType_lt hin.types t1) (isType_lt hin.types t2) ((hin.rules _ r hr).classes cp h3).2] at h4
  simp only [core, Prod.mk.injEq] at h4
  exact ⟨ij.1, ij.2, h4.1, h4.2.1, t1, t2⟩

theorem mem_nodesAt {X : Prop} {Z : Nat → Prop} {d : Dest} {st : State} (hi : Inv X Z d st) (place : Option Nat) (n : ENode) :
    n ∈ nodesAt st place ↔ n ∈ (tabAt st place).nodes ∧ n.ctx = place := by
  cases place with
  | none => exact ⟨fun h => ⟨h, (hi.te.place n h).1 rfl⟩, fun h => h.1⟩
  | some c =>
    simp only [nodesAt, tabAt, List.mem_filter, decide_eq_true_eq]
    refine and_congr_right fun hn => ?_
    rw [hi.cond.lists]
    constructor
    · rintro ⟨m, hm, he, hc⟩
      rw [← eq_of_id hi.cond hm hn he]; exact hc
    · intro hc
      exact ⟨n, hn, rfl, hc⟩

/-- Two nodes of type rules that both apply. -/
theorem type_unique {p : Types} {map : List Nat} {steps : List Step} (hin : Input p map steps) {nd : Bool} {st : State}
    (h : expandAll p nd map steps = .ok st) {pa pb : Option Nat} (hpl : ∀ a b, pa = some a → pb = some b → a / 2 = b / 2 → a = b)
    {n m : ENode} (hn : n ∈ nodesAt st pa) (hm : m ∈ nodesAt st pb) {kind : BitVec 16} (hk : kind ∈ tKinds) {x y c : Nat}
    (h1 : Applies p n kind x y c) (h2 : Applies p m kind x y c) : pa = pb ∧ n = m := by
  obtain ⟨X, Z, hi⟩ := all_inv hin h
  obtain ⟨n1, n2⟩ := (mem_nodesAt hi pa n).1 hn
  obtain ⟨m1, m2⟩ := (mem_nodesAt hi pb m).1 hm
  have key : ∀ {n : ENode} {place}, n ∈ (tabAt st place).nodes → n.ctx = place → Applies p n kind x y c → core n.key = (x + 1, y + 1, c, kind) := by
    rintro n place hn hc ⟨a1, a2, ⟨v, a3, a4⟩, w, a5, a6⟩
    obtain ⟨i, j, e1, e2, e3, e4⟩ := type_node hin h hn hc (by simp only [core, a1]; exact hk)
    have hv : v = i := by omega
    have hw : w = j := by omega
    subst hv hw
    rw [(stands_type e3).1 a4] at a3
    rw [(stands_type e4).1 a6] at a5
    simp [core, a1, a2, a3, a5]
  have k1 := key n1 n2 h1
  have k2 := key m1 m2 h2
  have hkk : core n.key = core m.key := by rw [k1, k2]
  have hty : IsTypeKind n := by unfold IsTypeKind; rw [k1]; exact hk
  have hty' : IsTypeKind m := by unfold IsTypeKind; rw [k2]; exact hk
  have ht := hi.types
  cases pa with
  | none =>
    cases pb with
    | none => exact ⟨rfl, ht.te n n1 m m1 hty hkk⟩
    | some b => exact absurd hkk (ht.apart n n1 m m1 hty)
  | some a =>
    cases pb with
    | none => exact absurd hkk.symm (ht.apart m m1 n n1 hty')
    | some b =>
      have := hpl a b rfl rfl (ht.sib n n1 m m1 hty hkk a b n2 m2)
      subst this
      exact ⟨rfl, ht.cond n n1 m m1 hty hkk (by rw [n2, m2])⟩

end Verif.Expand
