import Verif.CilBin.Lemmas6
import Verif.CilBin.SpecType
import Verif.CilBin.Props

/-!
# Type rules of CIL (C76)
-/

namespace Verif.CilBin
open Avtab (Avtab Key Datum Node)

theorem key_inj {db : Db} (ok : DbOk db) {tab : List Sym} (hlen : tab.length < 2 ^ 16) {s t c sv tv cv s' t' c' sv' tv' cv' : Nat} {kind kind' : TKind}
    (h1 : typeDatum tab (.type s) = some sv) (h2 : typeDatum tab (.type t) = some tv) (h3 : db.classVal c = some cv)
    (h1' : typeDatum tab (.type s') = some sv') (h2' : typeDatum tab (.type t') = some tv') (h3' : db.classVal c' = some cv')
    (he : key sv tv cv kind.spec = key sv' tv' cv' kind'.spec) : s = s' ∧ t = t' ∧ c = c' ∧ kind = kind' := by
  unfold key at he
  simp only [Key.mk.injEq] at he
  obtain ⟨e1, e2, e3, e4⟩ := he
  have b1 := typeDatum_pos h1
  have b2 := typeDatum_pos h2
  have b1' := typeDatum_pos h1'
  have b2' := typeDatum_pos h2'
  have b3 := ok.cls _ _ h3
  have b3' := ok.cls _ _ h3'
  have e1' : sv = sv' := by omega
  have e2' : tv = tv' := by omega
  have e3' : cv = cv' := by omega
  subst e1' e2' e3'
  refine ⟨?_, ?_, ok.clsInj _ _ _ h3 h3', tkind_inj e4⟩
  · have := typeDatum_inj h1 h1'; cases this; rfl
  · have := typeDatum_inj h2 h2'; cases this; rfl

theorem allReq_iff {db : Db} (ok : DbOk db) {decls : List Sym} {rules : List Rule} (hk : Complete db decls rules) {tab : List Sym}
    (hlen : tab.length < 2 ^ 16) {s t c sv tv cv : Nat} (hsv : typeDatum tab (.type s) = some sv)
    (htv : typeDatum tab (.type t) = some tv) (hcv : db.classVal c = some cv) (kind : TKind) (cond : Option Branch) (d : BitVec 32) :
    AllReq db tab rules cond (key sv tv cv kind.spec) d ↔
      ∃ res rv, Says db rules cond kind s t c res ∧ typeDatum tab (.type res) = some rv ∧ d = BitVec.ofNat 32 rv := by
  constructor
  · rintro ⟨r, hr, hc, rv, s', t', c', sv', tv', cv', h1, h2, h3, h4, h5, h6, h7, rfl⟩
    obtain ⟨rfl, rfl, rfl, hkd⟩ := key_inj ok hlen hsv htv hcv h4 h5 h6 h7
    obtain ⟨res, hres, -⟩ := (hk.rules _ hr).2.2
    refine ⟨res, rv, ⟨r, hr, hc, hkd.symm, h2, h3, hres⟩, by rw [← hres]; exact h1, rfl⟩
  · rintro ⟨res, rv, ⟨r, hr, hc, hkd, h2, h3, hres⟩, h1, rfl⟩
    exact ⟨r, hr, hc, rv, s, t, c, sv, tv, cv, by rw [hres]; exact h1, h2, h3, hsv, htv, hcv, by rw [hkd], rfl⟩

theorem datum_inj {tab : List Sym} (hlen : tab.length < 2 ^ 16) {x y v w : Nat} (h1 : typeDatum tab (.type x) = some v)
    (h2 : typeDatum tab (.type y) = some w) (he : BitVec.ofNat 32 v = BitVec.ofNat 32 w) : x = y := by
  have b1 := typeDatum_pos h1
  have b2 := typeDatum_pos h2
  have := congrArg BitVec.toNat he
  simp only [BitVec.toNat_ofNat] at this
  have e : v = w := by omega
  subst e
  have := typeDatum_inj h1 h2
  cases this
  rfl

theorem says_value {db : Db} {decls : List Sym} {rules : List Rule} (hk : Complete db decls rules) {tab : List Sym} (hd : declare db decls [] = some tab)
    {cond : Option Branch} {kind : TKind} {s t c res : Nat} (h : Says db rules cond kind s t c res) : ∃ rv, typeDatum tab (.type res) = some rv := by
  obtain ⟨r, hr, -, -, -, -, hres⟩ := h
  obtain ⟨v, hv, hv'⟩ := (hk.rules _ hr).2.2
  rw [hres] at hv'
  exact typeDatum_mem.2 ((declare_mem hd _).2 (Or.inr ⟨hv', rfl⟩))

section
variable {db : Db} (ok : DbOk db) {decls : List Sym} {rules : List Rule} (hk : Complete db decls rules) {P : Policy}
  (hc : compile db decls rules = some P) (hlen : P.tab.length < 2 ^ 16) {s t c sv tv cv : Nat} (hsv : typeDatum P.tab (.type s) = some sv)
  (htv : typeDatum P.tab (.type t) = some tv) (hcv : db.classVal c = some cv) (kind : TKind)
include ok hk hc hlen hsv htv hcv

/-- C76 (outside of conditionals).  The result that the unconditional table of a compiled policy has for two types, a class and
a kind of rule is the one that a rule outside of conditionals says, and there is none if no such rule says one. -/
theorem C76_unconditional (d : Datum) : Avtab.search P.rules.te (key sv tv cv kind.spec) = some d ↔
    ∃ res rv, Says db rules none kind s t c res ∧ typeDatum P.tab (.type res) = some rv ∧ d = ⟨BitVec.ofNat 32 rv, none⟩ := by
  obtain ⟨hd, G, T, ⟨log, clog, hsh, -, hT⟩, w⟩ := compile_types ok hk hc
  have hty : TyK (key sv tv cv kind.spec).specified := tkind_tyK kind
  have hu : ∀ x, (⟨key sv tv cv kind.spec, ⟨x, none⟩⟩ : Node) ∈ log ↔
      ∃ res rv, Says db rules none kind s t c res ∧ typeDatum P.tab (.type res) = some rv ∧ x = BitVec.ofNat 32 rv := fun x =>
    ((hT none _ x hty).trans (w.uncond _ x)).trans (allReq_iff ok hk hlen hsv htv hcv kind none x)
  rcases search_te hsh (Or.inr hty) with ⟨h1, h2⟩ | ⟨x, h1, h2⟩
  · rw [h1]
    constructor
    · intro h; cases h
    · rintro ⟨res, rv, h3, h4, -⟩
      exact absurd rfl (h2 _ ((hu _).2 ⟨res, rv, h3, h4, rfl⟩))
  · rw [h1]
    constructor
    · intro h
      cases h
      obtain ⟨res, rv, h3, h4, h5⟩ := (hu x).1 h2
      exact ⟨res, rv, h3, h4, by rw [h5]⟩
    · rintro ⟨res, rv, h3, h4, rfl⟩
      have h5 := (hu _).2 ⟨res, rv, h3, h4, rfl⟩
      have h6 := hsh.unique h2 h5 rfl
      simp only [Node.mk.injEq, Datum.mk.injEq] at h6
      rw [h6.2.1]

/-- C76 (conflicts).  If a policy compiles, then what a rule outside of conditionals says for two types, a class and a kind of rule, all
other rules for these also say, wherever they are. -/
theorem C76_no_conflict {res res' : Nat} {cond : Option Branch} (h : Says db rules none kind s t c res)
    (h' : Says db rules cond kind s t c res') : res = res' := by
  obtain ⟨hd, G, T, ⟨log, clog, hsh, -, hT⟩, w⟩ := compile_types ok hk hc
  have hty : TyK (key sv tv cv kind.spec).specified := tkind_tyK kind
  obtain ⟨v, hv⟩ := says_value hk hd h
  obtain ⟨v', hv'⟩ := says_value hk hd h'
  have hU := (allReq_iff ok hk hlen hsv htv hcv kind none _).2 ⟨res, v, h, hv, rfl⟩
  have hQ := (allReq_iff ok hk hlen hsv htv hcv kind cond _).2 ⟨res', v', h', hv', rfl⟩
  have hU' : AllReq db P.tab rules none (key sv tv cv kind.spec) (BitVec.ofNat 32 v') := by
    cases cond with
    | none => exact hQ
    | some b =>
      rcases w.some_ b _ _ hQ with h1 | ⟨h1, -⟩
      · exact h1
      · exact absurd hU (h1 _)
  have a1 := (hT none _ _ hty).2 ((w.uncond _ _).2 hU)
  have a2 := (hT none _ _ hty).2 ((w.uncond _ _).2 hU')
  have := hsh.unique a1 a2 rfl
  simp only [Node.mk.injEq, Datum.mk.injEq] at this
  exact datum_inj hlen hv hv' this.2.1

/-- C76 (branches).  A rule in a branch of a compiled policy is one that the branch says; no rule outside of conditionals says
anything for it.  If the branch says something and no rule outside does, there is a rule in the branch. -/
theorem C76_branch_sound (b : Branch) :
    (∀ n ∈ P.rules.lists b, n.key = key sv tv cv kind.spec → (∀ res, ¬ Says db rules none kind s t c res) ∧
      ∃ res rv, Says db rules (some b) kind s t c res ∧ typeDatum P.tab (.type res) = some rv ∧ n.datum = ⟨BitVec.ofNat 32 rv, none⟩) ∧
    (∀ res, Says db rules (some b) kind s t c res → (∀ res, ¬ Says db rules none kind s t c res) →
      ∃ n ∈ P.rules.lists b, n.key = key sv tv cv kind.spec) := by
  obtain ⟨hd, G, T, ⟨log, clog, hsh, -, hT⟩, w⟩ := compile_types ok hk hc
  have hty : TyK (key sv tv cv kind.spec).specified := tkind_tyK kind
  have hiff := fun cond d => allReq_iff ok hk hlen hsv htv hcv kind cond d
  constructor
  · intro n hn he
    have hx := (hsh.six n (Or.inr ((hsh.lists n).2 ⟨b, hn⟩))).2
    obtain ⟨k, x, o⟩ := n
    simp only at he hx
    subst he hx
    obtain ⟨h1, h2⟩ := w.sound b _ _ ((hT (some b) _ x hty).1 hn)
    refine ⟨fun res hs => ?_, ?_⟩
    · obtain ⟨v, hv⟩ := says_value hk hd hs
      exact h2 _ ((hiff none _).2 ⟨res, v, hs, hv, rfl⟩)
    · obtain ⟨res, rv, h3, h4, h5⟩ := (hiff (some b) _).1 h1
      exact ⟨res, rv, h3, h4, by rw [h5]⟩
  · intro res hs hno
    obtain ⟨v, hv⟩ := says_value hk hd hs
    rcases w.some_ b _ _ ((hiff (some b) _).2 ⟨res, v, hs, hv, rfl⟩) with h1 | ⟨-, d, h1⟩
    · obtain ⟨res', rv, h3, -⟩ := (hiff none _).1 h1
      exact absurd h3 (hno _)
    · exact ⟨_, (hT (some b) _ d hty).2 h1, rfl⟩

/-- C76 (exact branches).  If no conditional has rules for the two types, class and kind in both branches, or only one conditional has rules
for them, and no rule outside of conditionals does, the branch has exactly the results that the policy says.

What is missing of the property: several conditionals, one of them with rules in both branches; see `C76_dropped_refuted`. -/
theorem C76_branch_partial (h1 : OneSided db rules kind s t c ∨ OneCond db rules kind s t c) (hno : ∀ res, ¬ Says db rules none kind s t c res)
    (b : Branch) (d : Datum) : ⟨key sv tv cv kind.spec, d⟩ ∈ P.rules.lists b ↔
      ∃ res rv, Says db rules (some b) kind s t c res ∧ typeDatum P.tab (.type res) = some rv ∧ d = ⟨BitVec.ofNat 32 rv, none⟩ := by
  constructor
  · intro h
    exact ((C76_branch_sound ok hk hc hlen hsv htv hcv kind b).1 _ h rfl).2
  · rintro ⟨res, rv, hs, hv, rfl⟩
    obtain ⟨hd, G, T, ⟨log, clog, hsh, -, hT⟩, w⟩ := compile_types ok hk hc
    have hty : TyK (key sv tv cv kind.spec).specified := tkind_tyK kind
    have hiff := fun cond d => allReq_iff ok hk hlen hsv htv hcv kind cond d
    refine (hT (some b) _ _ hty).2 (w.exact_ _ ?_ b _ ((hiff (some b) _).2 ⟨res, rv, hs, hv, rfl⟩) ?_)
    · rcases h1 with h1 | h1
      · left
        rintro n d d' ⟨a1, a2⟩
        obtain ⟨r1, v1, s1, -⟩ := (hiff _ _).1 a1
        obtain ⟨r2, v2, s2, -⟩ := (hiff _ _).1 a2
        exact h1 n r1 r2 ⟨s1, s2⟩
      · right
        intro b b' d d' a1 a2
        obtain ⟨r1, v1, s1, -⟩ := (hiff _ _).1 a1
        obtain ⟨r2, v2, s2, -⟩ := (hiff _ _).1 a2
        exact h1 b b' r1 r2 s1 s2
    · intro d h
      obtain ⟨r1, v1, s1, -⟩ := (hiff _ _).1 h
      exact hno _ s1

/-- C76 (conflicts in branches).  If no conditional has rules for the two types, class and kind in both branches, all
conditional rules for them say the same.

What is missing of the property: conditionals with rules in both branches, see `C76_conflict_refuted`. -/
theorem C76_branch_conflict_partial (h1 : OneSided db rules kind s t c) {b b' : Branch} {res res' : Nat}
    (h : Says db rules (some b) kind s t c res) (h' : Says db rules (some b') kind s t c res') : res = res' := by
  by_cases hno : ∃ r, Says db rules none kind s t c r
  · obtain ⟨r, hr⟩ := hno
    rw [← C76_no_conflict ok hk hc hlen hsv htv hcv kind hr h, ← C76_no_conflict ok hk hc hlen hsv htv hcv kind hr h']
  · have hno : ∀ r, ¬ Says db rules none kind s t c r := fun r hr => hno ⟨r, hr⟩
    obtain ⟨hd, G, T, ⟨log, clog, hsh, -, hT⟩, w⟩ := compile_types ok hk hc
    have hty : TyK (key sv tv cv kind.spec).specified := tkind_tyK kind
    obtain ⟨v, hv⟩ := says_value hk hd h
    obtain ⟨v', hv'⟩ := says_value hk hd h'
    have hx := fun b d => C76_branch_partial ok hk hc hlen hsv htv hcv kind (Or.inl h1) hno b d
    have a1 := (hT (some b) _ _ hty).1 ((hx b _).2 ⟨res, v, h, hv, rfl⟩)
    have a2 := (hT (some b') _ _ hty).1 ((hx b' _).2 ⟨res', v', h', hv', rfl⟩)
    refine datum_inj hlen hv hv' (w.agree _ ?_ _ _ _ _ a1 a2)
    rintro n d d' ⟨a1, a2⟩
    obtain ⟨r1, v1, s1, -⟩ := (allReq_iff ok hk hlen hsv htv hcv kind _ _).1 a1
    obtain ⟨r2, v2, s2, -⟩ := (allReq_iff ok hk hlen hsv htv hcv kind _ _).1 a2
    exact h1 n r1 r2 ⟨s1, s2⟩

end

/-- C76 (compilation).  A policy with fewer than 2^16 declarations compiles if no symbol is declared twice, the classes and
permissions of its rules have values, no neverallow rule is in a conditional and no two type rules of the same kind say different
results for the same types and class. -/
theorem C76_compiles {db : Db} (ok : DbOk db) {decls : List Sym} {rules : List Rule} (hk : Complete db decls rules) (hn : decls.Nodup)
    (hlen : decls.length < 2 ^ 16) (hr : ∀ r ∈ rules, r.Known db)
    (hag : ∀ cond cond' kind s t c res res', Says db rules cond kind s t c res → Says db rules cond' kind s t c res' → res = res') :
    ∃ P, compile db decls rules = some P := by
  obtain ⟨tab, hd⟩ := declare_total (db := db) (tab := []) (l := decls) (by simpa using hn)
  have hm := declare_mem hd
  simp only [List.not_mem_nil, false_or] at hm
  have hty : ∀ v < db.numTypes, Sym.type v ∈ tab := fun v hv => (hm _).2 ⟨hk.types v hv, rfl⟩
  obtain ⟨m, hmap⟩ := attrMap_total (db := db) (tab := tab) (l := decls) (mapInit tab.length) hk.syms
    (fun x hx hkp => (hm x).2 ⟨hx, hkp⟩) hty
  have hlen' : tab.length < 2 ^ 16 := Nat.lt_of_le_of_lt (declare_length hd) hlen
  have hA : ∀ k d d', (∃ cond, AllReq db tab rules cond k d) → (∃ cond, AllReq db tab rules cond k d') → d = d' := by
    rintro k d d' ⟨cond, h⟩ ⟨cond', h'⟩
    have h0 := h
    obtain ⟨r, -, -, rv, s, t, c, sv, tv, cv, -, -, -, h4, h5, h6, h7, -⟩ := h
    subst h7
    obtain ⟨r1, v1, s1, e1, rfl⟩ := (allReq_iff ok hk hlen' h4 h5 h6 _ _ _).1 h0
    obtain ⟨r2, v2, s2, e2, rfl⟩ := (allReq_iff ok hk hlen' h4 h5 h6 _ _ _).1 h'
    have := hag _ _ _ _ _ _ _ _ s1 s2
    subst this
    rw [e1] at e2
    cases e2
    rfl
  have hf : ∀ f : Rule → Bool, Complete db decls (rules.filter f) := fun f =>
    ⟨hk.types, hk.syms, fun r hx => hk.rules r (List.mem_filter.1 hx).1⟩
  have hq : ∀ f : Rule → Bool, ∀ cond k d, AllReq db tab (rules.filter f) cond k d → ∃ cond, AllReq db tab rules cond k d := by
    rintro f cond k d ⟨r, h1, h2⟩
    exact ⟨cond, r, (List.mem_filter.1 h1).1, h2⟩
  obtain ⟨st1, G1, T1, e1, i1, t1⟩ := total_rules ok hd (hf _) (fun r hx => hr r (List.mem_filter.1 hx).1) hA (hq Rule.second) start_inv (by simp)
  obtain ⟨st2, G2, T2, e2, i2, t2⟩ := total_rules ok hd (hf _) (fun r hx => hr r (List.mem_filter.1 hx).1) hA (hq fun r => !r.second) i1 t1
  refine ⟨⟨tab, m, st2⟩, ?_⟩
  unfold compile
  simp only [hd, hmap, e1, e2, Option.bind_some]

/-! ### Policies that meet the hypotheses -/

/-- A transition for an attribute and its own types, one in a conditional, and one that both a rule and a conditional one have. -/
def tyRules : List Rule :=
  [.type ⟨none, .transition, .attr 0, none, [0], .type 2⟩, .type ⟨some (0, true), .transition, .type 2, some (.attr 1), [0, 1], .type 0⟩,
   .type ⟨some (1, false), .transition, .type 0, some (.type 0), [0], .type 2⟩]

theorem ty_complete : Complete exDb exDecls tyRules := by
  refine ⟨ex_complete.types, ex_complete.syms, ?_⟩
  intro r hr
  simp only [tyRules, List.mem_cons, List.not_mem_nil, or_false] at hr
  rcases hr with rfl | rfl | rfl
  · exact ⟨by decide, (fun y h => by cases h), 2, rfl, by decide⟩
  · exact ⟨by decide, (fun y h => by cases h; decide), 0, rfl, by decide⟩
  · exact ⟨by decide, (fun y h => by cases h; decide), 2, rfl, by decide⟩

example : DbOk exDb ∧ Complete exDb exDecls tyRules ∧ ∃ P, compile exDb exDecls tyRules = some P ∧ P.tab.length < 2 ^ 16 ∧
    typeDatum P.tab (.type 0) = some 3 ∧ typeDatum P.tab (.type 2) = some 1 ∧ typeDatum P.tab (.type 1) = some 4 ∧
    Says exDb tyRules none .transition 1 1 0 2 ∧ Avtab.search P.rules.te (key 4 4 1 TKind.transition.spec) = some ⟨1#32, none⟩ ∧
    (P.rules.lists (0, true)).length = 4 ∧ P.rules.lists (1, false) = [] := by
  have h1 : (compile exDb exDecls tyRules).isSome = true := by decide +kernel
  obtain ⟨P, hP⟩ := Option.isSome_iff_exists.1 h1
  have h2 : (compile exDb exDecls tyRules).map (fun P => (P.tab, (P.rules.lists (0, true)).length, P.rules.lists (1, false))) =
      some ([.type 2, .attr 0, .type 0, .type 1], 4, []) := by decide +kernel
  rw [hP, Option.map_some, Option.some.injEq, Prod.mk.injEq, Prod.mk.injEq] at h2
  have hs : Says exDb tyRules none .transition 1 1 0 2 := by
    refine ⟨_, List.mem_cons_self, rfl, rfl, ⟨?_, rfl⟩, by decide, rfl⟩
    show Ebitmap.getBit exBits 1 = true
    decide
  refine ⟨exDb_ok, ty_complete, P, hP, by rw [h2.1]; decide, by rw [h2.1]; decide, by rw [h2.1]; decide, by rw [h2.1]; decide, hs, ?_, h2.2.1, h2.2.2⟩
  exact (C76_unconditional exDb_ok ty_complete hP (by rw [h2.1]; decide) (s := 1) (t := 1) (c := 0) (by rw [h2.1]; decide) (by rw [h2.1]; decide) rfl
    .transition _).2 ⟨2, 1, hs, by rw [h2.1]; decide, rfl⟩

/-- `C76_compiles` has such a policy, too. -/
example : ∃ rules, Complete exDb exDecls rules ∧ (∀ r ∈ rules, r.Known exDb) ∧ rules.length = 1 ∧
    (∀ cond cond' kind s t c res res', Says exDb rules cond kind s t c res → Says exDb rules cond' kind s t c res' → res = res') := by
  refine ⟨[.type ⟨some (0, true), .transition, .type 2, some (.attr 1), [0, 1], .type 0⟩], ?_, ?_, rfl, ?_⟩
  · exact ⟨ty_complete.types, ty_complete.syms, fun r hr => ty_complete.rules r (by
      simp only [List.mem_cons, List.not_mem_nil, or_false] at hr; subst hr; simp [tyRules])⟩
  · intro r hr
    simp only [List.mem_cons, List.not_mem_nil, or_false] at hr
    subst hr
    intro c hc
    simp only [List.mem_cons, List.not_mem_nil, or_false] at hc
    rcases hc with rfl | rfl
    · exact ⟨1, rfl⟩
    · exact ⟨2, rfl⟩
  · rintro cond cond' kind s t c res res' ⟨r, hr, -, -, -, -, h⟩ ⟨r', hr', -, -, -, -, h'⟩
    simp only [List.mem_cons, List.not_mem_nil, or_false, Rule.type.injEq] at hr hr'
    subst hr hr'
    cases h
    cases h'
    rfl

/-! ### Conflicts that are not found -/

/-- A rule of conditional `n` for type 0 on itself with the result. -/
def condRule (n : Nat) (b : Bool) (res : Nat) : Rule := .type ⟨some (n, b), .transition, .type 0, none, [0], .type res⟩

theorem condRules_complete {l : List (Nat × Bool × Nat)} (h : ∀ x ∈ l, x.2.2 < 3) :
    Complete exDb exDecls (l.map fun x => condRule x.1 x.2.1 x.2.2) := by
  refine ⟨ex_complete.types, ex_complete.syms, ?_⟩
  intro r hr
  obtain ⟨⟨n, b, res⟩, hx, rfl⟩ := List.mem_map.1 hr
  have := h _ hx
  refine ⟨(by decide : Sym.type 0 ∈ exDecls), (fun y h => by cases h), res, rfl, ?_⟩
  have : res = 0 ∨ res = 1 ∨ res = 2 := by simp at this; omega
  show Sym.type res ∈ exDecls
  rcases this with rfl | rfl | rfl <;> decide

theorem condRule_says (n : Nat) (b : Bool) (res : Nat) {rules : List Rule} (h : condRule n b res ∈ rules) :
    Says exDb rules (some (n, b)) .transition 0 0 0 res :=
  ⟨_, h, rfl, rfl, ⟨rfl, rfl⟩, by simp, rfl⟩

/-- C76 (conflicts in branches).  Two rules of one branch that say different results for the same types and class are not always
found: the policy compiles, and the branch has both. -/
theorem C76_conflict_refuted : ∃ (db : Db) (decls : List Sym) (rules : List Rule) (P : Policy) (b : Branch) (res res' : Nat) (n n' : Node),
    DbOk db ∧ Complete db decls rules ∧ compile db decls rules = some P ∧ P.tab.length < 2 ^ 16 ∧
    Says db rules (some b) .transition 0 0 0 res ∧ Says db rules (some b) .transition 0 0 0 res' ∧ res ≠ res' ∧
    n ∈ P.rules.lists b ∧ n' ∈ P.rules.lists b ∧ n.key = n'.key ∧ n.datum ≠ n'.datum := by
  let l : List (Nat × Bool × Nat) := [(0, true, 0), (0, false, 1), (0, true, 2)]
  have h2 : (compile exDb exDecls (l.map fun x => condRule x.1 x.2.1 x.2.2)).map (fun P => (P.tab.length, P.rules.lists (0, true))) =
    some (4, [⟨key 3 3 1 TKind.transition.spec, ⟨1#32, none⟩⟩, ⟨key 3 3 1 TKind.transition.spec, ⟨3#32, none⟩⟩]) := by decide +kernel
  obtain ⟨P, hP, h3⟩ := Option.map_eq_some_iff.1 h2
  rw [Prod.mk.injEq] at h3
  refine ⟨exDb, exDecls, _, P, (0, true), 0, 2, ⟨key 3 3 1 TKind.transition.spec, ⟨1#32, none⟩⟩, ⟨key 3 3 1 TKind.transition.spec, ⟨3#32, none⟩⟩,
    exDb_ok, condRules_complete (l := l) (by decide), hP, by rw [h3.1]; decide, condRule_says 0 true 0 ?_, condRule_says 0 true 2 ?_, by decide,
    by rw [h3.2]; simp, by rw [h3.2]; simp, rfl, by simp⟩
  · simp [l]
  · simp [l]

/-- C76 (dropped rules).  A rule of a branch may be dropped without an error: the policy compiles, the branch says result 1 for the types
and class, no rule outside of conditionals says anything, and the branch has only a rule with another result. -/
theorem C76_dropped_refuted : ∃ (db : Db) (decls : List Sym) (rules : List Rule) (P : Policy) (b : Branch) (rv : Nat),
    DbOk db ∧ Complete db decls rules ∧ compile db decls rules = some P ∧ P.tab.length < 2 ^ 16 ∧
    typeDatum P.tab (.type 0) = some 3 ∧ db.classVal 0 = some 1 ∧
    Says db rules (some b) .transition 0 0 0 1 ∧ (∀ res, ¬ Says db rules none .transition 0 0 0 res) ∧ typeDatum P.tab (.type 1) = some rv ∧
    ⟨key 3 3 1 TKind.transition.spec, ⟨BitVec.ofNat 32 rv, none⟩⟩ ∉ P.rules.lists b := by
  let l : List (Nat × Bool × Nat) := [(0, true, 0), (1, true, 0), (1, false, 1), (0, true, 1)]
  have h2 : (compile exDb exDecls (l.map fun x => condRule x.1 x.2.1 x.2.2)).map (fun P => (P.tab, P.rules.lists (0, true))) =
    some ([.type 2, .attr 0, .type 0, .type 1], [⟨key 3 3 1 TKind.transition.spec, ⟨3#32, none⟩⟩]) := by decide +kernel
  obtain ⟨P, hP, h3⟩ := Option.map_eq_some_iff.1 h2
  rw [Prod.mk.injEq] at h3
  refine ⟨exDb, exDecls, _, P, (0, true), 4, exDb_ok, condRules_complete (l := l) (by decide), hP, by rw [h3.1]; decide, by rw [h3.1]; decide, rfl,
    condRule_says 0 true 1 ?_, ?_, by rw [h3.1]; decide, by rw [h3.2]; simp⟩
  · simp [l]
  · rintro res ⟨r, hr, hc, -⟩
    obtain ⟨x, -, hx⟩ := List.mem_map.1 hr
    unfold condRule at hx
    cases hx
    cases hc

end Verif.CilBin
