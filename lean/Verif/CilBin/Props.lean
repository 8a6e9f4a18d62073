import Verif.CilBin.Lemmas4

/-!
# Access vector rules of CIL (C75)
-/

namespace Verif.CilBin
open Ebitmap (Ebitmap)
open CilDeny (CP MP)
open Avtab (Avtab Key Datum Node)

/-- C75 (decisions).  If a policy with fewer than 2^16 types and attributes compiles and is loaded, the type
enforcement part of an access decision for two types and a class allows a permission exactly if some active allow rule of the
CIL policy covers the two types and has the permission; it is audited when granted exactly if an active auditallow rule says so, and it is
not audited when denied exactly if an active dontaudit rule says so and dontaudit rules are not disabled.

What is missing of the property: policies with more types, see `C75_decisions_refuted`. -/
theorem C75_decisions_partial {db : Db} (ok : DbOk db) {decls : List Sym} {rules : List Rule} (hk : Complete db decls rules) {P : Policy}
    (hc : compile db decls rules = some P) (hlen : P.tab.length < 2 ^ 16) {chosen : Branch → Bool} {p : Services.SPolicy}
    (hl : Loaded P chosen p) {s t c pm sv tv cv pv : Nat} (hsv : typeDatum P.tab (.type s) = some sv)
    (htv : typeDatum P.tab (.type t) = some tv) (hcv : db.classVal c = some cv) (hpv : db.permVal c pm = some pv) :
    ∃ sattr tattr sbits tbits, p.typeAttr (sv - 1) = some sattr ∧ p.typeAttr (tv - 1) = some tattr ∧
      Ebitmap.forEachPositiveBit (sattr.highbit + 1) sattr = some sbits ∧
      Ebitmap.forEachPositiveBit (tattr.highbit + 1) tattr = some tbits ∧
      ((Services.tePass p cv sbits tbits).allowed.getLsbD (pv - 1) = true ↔ Active db rules chosen .allowed s t c pm) ∧
      ((Services.tePass p cv sbits tbits).auditallow.getLsbD (pv - 1) = true ↔ Active db rules chosen .auditallow s t c pm) ∧
      ((Services.tePass p cv sbits tbits).auditdeny.getLsbD (pv - 1) = false ↔
        Active db rules chosen .dontaudit s t c pm ∧ db.disableDontaudit = false) := by
  obtain ⟨sattr, tattr, sbits, tbits, h1, h2, h3, h4, h5⟩ := decisions ok hk hc hlen hl hsv htv hcv hpv
  refine ⟨sattr, tattr, sbits, tbits, h1, h2, h3, h4, ?_, ?_, ?_⟩
  · have := h5 .allowed
    simpa [vkind, Services.Vec.changed] using this
  · have := h5 .auditallow
    simpa [vkind, Services.Vec.changed] using this
  · have := h5 .auditdeny
    simpa [vkind, Services.Vec.changed] using this

/-- C75 (compilation).  A policy of access vector rules compiles, if no symbol is declared twice, the classes and permissions of its
rules have values, and no neverallow rule is in a conditional; every type gets a value, and no two get the same. -/
theorem C75_compiles {db : Db} (ok : DbOk db) {decls : List Sym} {rules : List Rule} (hk : Complete db decls rules) (hn : decls.Nodup)
    (hr : ∀ r ∈ rules, ∃ a, r = .av a ∧ Known db a.perms ∧ (a.kind = .neverallow → a.cond = none)) :
    ∃ P, compile db decls rules = some P ∧ P.tab.length ≤ decls.length ∧
      (∀ v < db.numTypes, ∃ w, typeDatum P.tab (.type v) = some w) ∧
      ∀ v v' w, typeDatum P.tab (.type v) = some w → typeDatum P.tab (.type v') = some w → v = v' := by
  obtain ⟨tab, hd⟩ := declare_total (db := db) (tab := []) (l := decls) (by simpa using hn)
  have hm := declare_mem hd
  simp only [List.not_mem_nil, false_or] at hm
  have hty : ∀ v < db.numTypes, Sym.type v ∈ tab := fun v hv => (hm _).2 ⟨hk.types v hv, rfl⟩
  obtain ⟨m, hmap⟩ := attrMap_total (db := db) (tab := tab) (l := decls) (mapInit tab.length) hk.syms
    (fun x hx hkp => (hm x).2 ⟨hx, hkp⟩) hty
  have hz : rules.filter Rule.second = [] := by
    rw [List.filter_eq_nil_iff]
    intro r hr'
    obtain ⟨a, rfl, -⟩ := hr r hr'
    simp [Rule.second]
  obtain ⟨st, hst⟩ := avrules_total ok hd (rules := rules.filter fun r => !r.second)
    ⟨hk.types, hk.syms, fun r hx => hk.rules r (List.mem_filter.1 hx).1⟩ (fun r hx => hr r (List.mem_filter.1 hx).1) start_inv
  refine ⟨⟨tab, m, st⟩, ?_, ?_, fun v hv => typeDatum_mem.2 (hty v hv), ?_⟩
  · unfold compile
    simp only [hd, hmap, hz, forM, hst, Option.bind_some]
  · exact declare_length hd
  · intro v v' w h1 h2
    cases typeDatum_inj h1 h2
    rfl

/-- C75 (loading).  Whatever branches the booleans choose, a compiled policy can be loaded; the conditional table as compiled is the one
with no branch chosen. -/
theorem C75_loadable {db : Db} (ok : DbOk db) {decls : List Sym} {rules : List Rule} (hk : Complete db decls rules) {P : Policy}
    (hc : compile db decls rules = some P) :
    (∀ chosen, ∃ p, Loaded P chosen p) ∧ Flagged P.rules.cond P.rules.lists (fun _ => false) := by
  obtain ⟨-, -, T, hi⟩ := compile_inv ok hk hc
  constructor
  · intro chosen
    obtain ⟨t, ht⟩ := loadable hi chosen
    exact ⟨⟨⟨false, 0, 0, 0, 0, 0, fun _ => none, fun _ => none, fun _ => none, fun _ => none, fun _ => none, fun _ => none, fun _ => none,
      fun _ => none, fun _ => none, fun _ => none, fun _ => none, fun _ => none⟩, 0, fun _ => none, P.map, fun _ => none, P.rules.te, t, 0,
      0#32, []⟩, rfl, ht, rfl⟩
  · obtain ⟨log, clog, hsh, -⟩ := hi
    refine ⟨clog, fun k => Avtab.enumerate_of_rel hsh.cond k, fun n => ?_⟩
    rw [hsh.lists]
    simp [flag]

/-! ### A policy that meets the hypotheses -/

/-- The bitmap of types 0 and 1. -/
def exBits : Ebitmap := ((Ebitmap.setBit Ebitmap.init 0 true).bind (Ebitmap.setBit · 1 true)).getD Ebitmap.init

/-- Three types, one attribute that is kept and others that are not. -/
def exDb : Db :=
  ⟨3, fun a => ⟨a = 0, exBits⟩, 1, false, fun c => if c ≤ 1 then some (c + 1) else none, fun _ p => if p < 32 then some (p + 1) else none⟩

def exDecls : List Sym := [.type 2, .attr 0, .type 0, .attr 1, .type 1]

def exRules : List Rule :=
  [.av ⟨none, .allowed, .attr 0, .sym (.type 2), [.cls 0 [0], .map 9 [.mk 0 [.cls 1 [3]]]]⟩,
   .av ⟨some (0, true), .allowed, .attr 1, .self, [.cls 0 [1, 2]]⟩,
   .av ⟨none, .dontaudit, .attr 0, .notself, [.cls 0 [5]]⟩]

theorem exBits_ok : Ebitmap.WF exBits ∧ ∀ t, Ebitmap.getBit exBits t = true → t < 3 := by
  obtain ⟨e1, h1, h2⟩ := setTrue_ok CilDeny.init_ok (v := 0) (by decide)
  obtain ⟨e2, h3, h4⟩ := setTrue_ok h2 (v := 1) (by decide)
  have : exBits = e2 := by simp [exBits, h1, h3]
  rw [this]
  refine ⟨h4.1, fun t ht => ?_⟩
  rcases (h4.2 t).1 ht with (h | h) | h
  · exact absurd h (by simp)
  · omega
  · omega

theorem exDb_ok : DbOk exDb := by
  refine ⟨by decide, ?_, ?_, ?_, ?_⟩
  · intro c v h; simp only [exDb] at h; split at h <;> simp at h; omega
  · intro c c' v h h'; simp only [exDb] at h h'; split at h <;> split at h' <;> simp at h h'; omega
  · intro c p v h; simp only [exDb] at h; split at h <;> simp at h; omega
  · intro c p p' v h h'; simp only [exDb] at h h'; split at h <;> split at h' <;> simp at h h'; omega

theorem ex_complete : Complete exDb exDecls exRules := by
  refine ⟨by decide, ?_, ?_⟩
  · intro x hx
    simp only [exDecls, List.mem_cons, List.not_mem_nil, or_false] at hx
    rcases hx with rfl | rfl | rfl | rfl | rfl
    · exact (by decide : 2 < 3)
    · exact exBits_ok
    · exact (by decide : 0 < 3)
    · exact exBits_ok
    · exact (by decide : 1 < 3)
  · intro r hr
    simp only [exRules, List.mem_cons, List.not_mem_nil, or_false] at hr
    rcases hr with rfl | rfl | rfl
    · exact ⟨by decide, fun y h => by cases h; decide⟩
    · exact ⟨by decide, fun y h => by cases h⟩
    · exact ⟨by decide, fun y h => by cases h⟩

/-- The policy compiles, can be loaded with any branches chosen, and there are decisions both ways: type 0 may use permission 0 of class 0
on type 2 but not on type 1. -/
example : DbOk exDb ∧ Complete exDb exDecls exRules ∧
    ∃ P, compile exDb exDecls exRules = some P ∧ P.tab.length < 2 ^ 16 ∧ (∀ chosen, ∃ p, Loaded P chosen p) ∧
      typeDatum P.tab (.type 0) = some 3 ∧ typeDatum P.tab (.type 2) = some 1 ∧ typeDatum P.tab (.type 1) = some 4 ∧
      (∀ chosen, Active exDb exRules chosen .allowed 0 2 0 0) ∧ ∀ chosen, ¬ Active exDb exRules chosen .allowed 0 1 0 0 := by
  have h1 : (compile exDb exDecls exRules).isSome = true := by decide +kernel
  have h2 : (compile exDb exDecls exRules).map (fun P => P.tab) = some [.type 2, .attr 0, .type 0, .type 1] := by decide +kernel
  obtain ⟨P, hP⟩ := Option.isSome_iff_exists.1 h1
  rw [hP, Option.map_some, Option.some.injEq] at h2
  refine ⟨exDb_ok, ex_complete, P, hP, by rw [h2]; decide, (C75_loadable exDb_ok ex_complete hP).1, by rw [h2]; decide, by rw [h2]; decide,
    by rw [h2]; decide, ?_, ?_⟩
  · intro chosen
    refine ⟨_, List.mem_cons_self, rfl, by simp, ⟨?_, rfl⟩, ?_⟩
    · show Ebitmap.getBit exBits 0 = true
      decide
    · exact CilDeny.perms_iff.2 (by decide)
  · rintro chosen ⟨r, hr, hk, -, hc, hp⟩
    simp only [exRules, List.mem_cons, List.not_mem_nil, or_false, Rule.av.injEq] at hr
    rcases hr with rfl | rfl | rfl
    · have : (1 : Nat) = 2 := hc.2
      omega
    · have : (1 : Nat) = 0 := hc.2
      omega
    · cases hk

/-! ### Too many types -/

theorem declare_types {db : Db} (l : List Nat) (tab : List Sym) (h : (tab ++ l.map Sym.type).Nodup) :
    declare db (l.map Sym.type) tab = some (tab ++ l.map Sym.type) := by
  induction l generalizing tab with
  | nil => simp [declare]
  | cons v l ih =>
    have h1 : Sym.type v ∉ tab := by
      intro hm
      rw [List.nodup_append] at h
      exact h.2.2 _ hm _ (by simp) rfl
    simp only [List.map_cons, declare, symtabInsert, if_neg h1]
    rw [ih]
    · simp
    · simpa using h

theorem typeDatum_range (s n i : Nat) (h : i < n) : typeDatum ((List.range' s n).map Sym.type) (.type (s + i)) = some (i + 1) := by
  induction n generalizing s i with
  | zero => omega
  | succ n ih =>
    rw [List.range'_succ, List.map_cons, typeDatum]
    cases i with
    | zero => simp
    | succ i =>
      have : (Sym.type s = Sym.type (s + (i + 1))) = False := by
        simp only [Sym.type.injEq, eq_iff_iff, iff_false]; omega
      simp only [this, if_false]
      have e : s + (i + 1) = s + 1 + i := by omega
      rw [e, ih (s + 1) i (by omega)]
      rfl

/-- A policy of 65537 types. -/
def wrapDb : Db :=
  ⟨65537, fun _ => ⟨false, Ebitmap.init⟩, 0, false, fun c => if c = 0 then some 1 else none, fun _ p => if p < 32 then some (p + 1) else none⟩

def wrapDecls : List Sym := (List.range' 0 65537).map Sym.type

/-- The last type may use permission 0 of class 0 on itself. -/
def wrapRules : List Rule := [.av ⟨none, .allowed, .type 65536, .self, [.cls 0 [0]]⟩]

theorem wrapDb_ok : DbOk wrapDb := by
  refine ⟨by decide, ?_, ?_, ?_, ?_⟩
  · intro c v h; simp only [wrapDb] at h; split at h <;> simp at h; omega
  · intro c c' v h h'; simp only [wrapDb] at h h'; split at h <;> split at h' <;> simp at h h'; omega
  · intro c p v h; simp only [wrapDb] at h; split at h <;> simp at h; omega
  · intro c p p' v h h'; simp only [wrapDb] at h h'; split at h <;> split at h' <;> simp at h h'; omega

theorem mem_wrapDecls (x : Sym) : x ∈ wrapDecls ↔ ∃ v < 65537, x = .type v := by
  unfold wrapDecls
  rw [List.mem_map]
  constructor
  · rintro ⟨v, hv, rfl⟩
    rw [List.mem_range'_1] at hv
    exact ⟨v, by omega, rfl⟩
  · rintro ⟨v, hv, rfl⟩
    exact ⟨v, by rw [List.mem_range'_1]; omega, rfl⟩

theorem wrapDecls_nodup : wrapDecls.Nodup := by
  unfold wrapDecls List.Nodup
  rw [List.pairwise_map]
  have : (List.range' 0 65537).Nodup := List.nodup_range' (step := 1) (by decide)
  exact List.Pairwise.imp (fun {a b} h e => h (by cases e; rfl)) this

theorem wrap_complete : Complete wrapDb wrapDecls wrapRules := by
  refine ⟨fun v hv => (mem_wrapDecls _).2 ⟨v, hv, rfl⟩, ?_, ?_⟩
  · intro x hx
    obtain ⟨v, hv, rfl⟩ := (mem_wrapDecls x).1 hx
    exact hv
  · intro r hr
    simp only [wrapRules, List.mem_cons, List.not_mem_nil, or_false] at hr
    subst hr
    exact ⟨(mem_wrapDecls _).2 ⟨65536, by omega, rfl⟩, fun y h => by cases h⟩

/-- C75 (too many types).  The statement is false without the bound on the number of types: a policy with 65537 types compiles,
and the only rule of it, which is for the last type, applies to the first. -/
theorem C75_decisions_refuted : ∃ (db : Db) (decls : List Sym) (rules : List Rule) (P : Policy) (p : Services.SPolicy) (s c pm sv cv pv : Nat)
    (attr : Ebitmap) (bits : List Nat),
    DbOk db ∧ Complete db decls rules ∧ decls.Nodup ∧ compile db decls rules = some P ∧ Loaded P (fun _ => false) p ∧
    typeDatum P.tab (.type s) = some sv ∧ db.classVal c = some cv ∧ db.permVal c pm = some pv ∧
    p.typeAttr (sv - 1) = some attr ∧ Ebitmap.forEachPositiveBit (attr.highbit + 1) attr = some bits ∧
    (Services.tePass p cv bits bits).allowed.getLsbD (pv - 1) = true ∧ ¬ ∃ chosen, Active db rules chosen .allowed s s c pm := by
  have hkn : ∀ r ∈ wrapRules, ∃ a, r = .av a ∧ Known wrapDb a.perms ∧ (a.kind = .neverallow → a.cond = none) := by
    intro r hr
    simp only [wrapRules, List.mem_cons, List.not_mem_nil, or_false] at hr
    subst hr
    refine ⟨_, rfl, ?_, fun _ => rfl⟩
    intro x hx c ps hl
    simp only [List.mem_cons, List.not_mem_nil, or_false] at hx
    subst hx
    cases hl
    refine ⟨⟨1, rfl⟩, fun p hp => ?_⟩
    simp only [List.mem_cons, List.not_mem_nil, or_false] at hp
    subst hp
    exact ⟨1, rfl⟩
  obtain ⟨P, hP, -⟩ := C75_compiles wrapDb_ok wrap_complete wrapDecls_nodup hkn
  obtain ⟨p, hp⟩ := (C75_loadable wrapDb_ok wrap_complete hP).1 (fun _ => false)
  obtain ⟨hd, hm, T, log, clog, hsh, hav, -⟩ := compile_inv wrapDb_ok wrap_complete hP
  have htab : P.tab = wrapDecls := by
    have := declare_types (db := wrapDb) (List.range' 0 65537) [] (by
      rw [List.nil_append]; exact wrapDecls_nodup)
    rw [List.nil_append] at this
    exact Option.some.inj (hd.symm.trans this)
  have hfirst : typeDatum P.tab (.type 0) = some 1 := by
    rw [htab]; exact typeDatum_range 0 65537 0 (by omega)
  have hlast : typeDatum P.tab (.type 65536) = some 65537 := by
    rw [htab]
    have := typeDatum_range 0 65537 65536 (by omega)
    rwa [Nat.zero_add] at this
  have hlen : P.tab.length < 2 ^ 31 := by rw [htab]; simp [wrapDecls]
  obtain ⟨attr, a1, a2, a3, a4⟩ := map_iff wrap_complete.syms hlen hd hm hfirst
  obtain ⟨bs, b1, b2⟩ := bits_ok (a := attr) (S := fun n => Ebitmap.getBit attr n = true) ⟨a2, fun _ => Iff.rfl⟩
  have h0 : 0 ∈ bs := (b2 0).2 ((a4 (.type 0) 1 hfirst).2 rfl)
  refine ⟨wrapDb, wrapDecls, wrapRules, P, p, 0, 0, 0, 1, 1, 1, attr, bs, wrapDb_ok, wrap_complete, wrapDecls_nodup, hP, hp, hfirst, rfl, rfl,
    by rw [hp.attr]; exact a1, b1, ?_, ?_⟩
  · have hch : Services.Vec.changed 0 (Services.tePass p 1 bs bs) .allowed := by
      rw [Services.tePass_iff p .allowed 1 0 (by decide)]
      refine ⟨0, h0, 0, h0, Or.inl ?_⟩
      have hadd : AllAdds wrapDb P.tab wrapRules none ⟨1, 1, 1, Avtab.ALLOWED⟩ 0 := by
        refine ⟨_, List.mem_cons_self, by simp, .type 65536, .type 65536, ⟨65536, rfl, rfl, rfl⟩, rfl, rfl, 65537, 65537, 0, 1, 0, ?_, hlast, hlast, rfl,
          rfl, rfl⟩
        simp [CilDeny.flat, CilDeny.flatItem]
      obtain ⟨n, h1, h2, h3⟩ := (hav none ⟨1, 1, 1, Avtab.ALLOWED⟩ 0 (Or.inl rfl) (by decide)).2 hadd
      refine ⟨n, ?_, by rw [h2]; rfl, h3⟩
      rw [hp.te]
      refine (Services.mem_enumerate (fun k => Avtab.enumerate_of_rel hsh.te k) _ n).2 ⟨h1, ?_⟩
      unfold Avtab.Answers
      rw [h2]
      exact ⟨rfl, rfl, rfl, 0, by decide, by decide, by decide⟩
    exact hch
  · rintro ⟨chosen, r, hr, -, -, hc, -⟩
    simp only [wrapRules, List.mem_cons, List.not_mem_nil, or_false, Rule.av.injEq] at hr
    subst hr
    have : (0 : Nat) = 65536 := hc.1
    omega

end Verif.CilBin
