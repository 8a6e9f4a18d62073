import Verif.Expand.Lemmas2

/-!
# The expansion of a rule for access vectors or extended permissions
-/

namespace Verif.Expand
open Avtab (Key XPerms Datum hits)
open Ebitmap (Ebitmap getBit WF)

/-- How rules change a property of nodes of one kind. -/
structure Compat (kind : BitVec 16) (P : Datum → Prop) (N : BitVec 32 → Option XPerms → ClassPerm → Prop) : Prop where
  upd : ∀ s x cp d d', s ∈ avKinds ++ xKinds → avtabSpec s = kind →
    (s ∈ xKinds → ∃ x' y, x = some x' ∧ x'.perms.length = 8 ∧ d.xperms = some y ∧ y.perms.length = 8 ∧
      (y = XPerms.zero ∨ y.specified = x'.specified ∧ y.driver = x'.driver)) →
    avUpdate s cp.data x d = some d' → (P d' ↔ P d ∨ N s x cp)
  fresh : ∀ (s : BitVec 32) (k : Key), s ∈ avKinds ++ xKinds → avtabSpec s = kind → k.specified = kind → ¬ P (freshDatum k)

theorem spec_tabKinds {s : BitVec 32} (hs : s ∈ avKinds ++ xKinds ++ typeKinds) : avtabSpec s ∈ tabKinds := by
  simp only [avKinds, xKinds, typeKinds, List.mem_cons, List.mem_append, List.not_mem_nil, or_false] at hs
  rcases hs with ((rfl | rfl | rfl | rfl) | rfl | rfl | rfl) | rfl | rfl | rfl <;> decide

theorem spec_x {s : BitVec 32} (hs : s ∈ avKinds ++ xKinds ++ typeKinds) (a b c : Nat) :
    Avtab.isXperm (mkKey s a b c) = true ↔ s ∈ xKinds := by
  simp only [avKinds, xKinds, typeKinds, List.mem_cons, List.mem_append, List.not_mem_nil, or_false] at hs
  unfold Avtab.isXperm mkKey
  rcases hs with ((rfl | rfl | rfl | rfl) | rfl | rfl | rfl) | rfl | rfl | rfl <;> simp [xKinds] <;> decide

/-- The kinds of type rules in the table. -/
def tKinds : List (BitVec 16) := [0x10#16, 0x20#16, 0x40#16]

/-- The node is of a type rule. -/
def IsTypeKind (n : ENode) : Prop := (core n.key).2.2.2 ∈ tKinds

theorem av_not_type {s : BitVec 32} (hs : s ∈ avKinds ++ xKinds) : avtabSpec s ∉ tKinds := by
  simp only [avKinds, xKinds, List.mem_cons, List.mem_append, List.not_mem_nil, or_false] at hs
  rcases hs with (rfl | rfl | rfl | rfl) | rfl | rfl | rfl <;> decide

/-- For a type rule there is one node for a key and a place, and only the two branches of one
conditional may both have one. -/
structure TypeInv (st : State) : Prop where
  te : ∀ n ∈ st.te.nodes, ∀ m ∈ st.te.nodes, IsTypeKind n → core n.key = core m.key → n = m
  cond : ∀ n ∈ st.cond.nodes, ∀ m ∈ st.cond.nodes, IsTypeKind n → core n.key = core m.key → n.ctx = m.ctx → n = m
  apart : ∀ n ∈ st.te.nodes, ∀ m ∈ st.cond.nodes, IsTypeKind n → core n.key ≠ core m.key
  sib : ∀ n ∈ st.cond.nodes, ∀ m ∈ st.cond.nodes, IsTypeKind n → core n.key = core m.key →
    ∀ a b, n.ctx = some a → m.ctx = some b → a / 2 = b / 2

theorem typeInv_same {st st' : State} (h : TypeInv st) (h1 : ∀ m, IsTypeKind m → (m ∈ st'.te.nodes ↔ m ∈ st.te.nodes))
    (h2 : ∀ m, IsTypeKind m → (m ∈ st'.cond.nodes ↔ m ∈ st.cond.nodes)) : TypeInv st' := by
  have ht : ∀ {n m : ENode}, IsTypeKind n → core n.key = core m.key → IsTypeKind m := fun hn he => by
    unfold IsTypeKind at hn ⊢; rwa [← he]
  refine ⟨?_, ?_, ?_, ?_⟩
  · intro n hn m hm k e
    exact h.te n ((h1 n k).1 hn) m ((h1 m (ht k e)).1 hm) k e
  · intro n hn m hm k e
    exact h.cond n ((h2 n k).1 hn) m ((h2 m (ht k e)).1 hm) k e
  · intro n hn m hm k e
    exact h.apart n ((h1 n k).1 hn) m ((h2 m (ht k e)).1 hm) k e
  · intro n hn m hm k e
    exact h.sib n ((h2 n k).1 hn) m ((h2 m (ht k e)).1 hm) k e

theorem any_x {s : BitVec 32} (hs : s ∈ avKinds ++ xKinds) : anyBit s AVRULE_XPERMS = true ↔ s ∈ xKinds := by
  simp only [avKinds, xKinds, List.mem_cons, List.mem_append, List.not_mem_nil, or_false] at hs
  rcases hs with (rfl | rfl | rfl | rfl) | rfl | rfl | rfl <;> decide

/-- The extended permissions of a rule that has them. -/
def XOk (s : BitVec 32) (x : Option XPerms) : Prop :=
  s ∈ xKinds → ∃ x', x = some x' ∧ x'.specified ∈ [1#8, 2#8, 3#8] ∧ x'.perms.length = 8

theorem avUpdate_ok {s : BitVec 32} (hs : s ∈ avKinds ++ xKinds) {x : Option XPerms} (hx : XOk s x) (data : BitVec 32) (d : Datum)
    (hd : s ∈ xKinds → ∃ y, d.xperms = some y ∧ y.perms.length = 8) :
    ∃ d', avUpdate s data x d = some d' ∧ (s ∈ xKinds → ∃ y, d'.xperms = some y ∧ y.perms.length = 8) ∧
      (s ∉ xKinds → d'.xperms = d.xperms) := by
  by_cases h : s ∈ xKinds
  · obtain ⟨x', rfl, hk, hl⟩ := hx h
    obtain ⟨y, hy, hyl⟩ := hd h
    have hk' : x'.specified = 1#8 ∨ x'.specified = 2#8 ∨ x'.specified = 3#8 := by simpa using hk
    refine ⟨⟨d.data, some ⟨x'.specified, x'.driver, orPerms y.perms x'.perms⟩⟩, ?_, fun _ => ⟨_, rfl, ?_⟩, fun hn => absurd h hn⟩
    · simp only [xKinds, List.mem_cons, List.not_mem_nil, or_false] at h
      rcases h with rfl | rfl | rfl <;>
        simp [avUpdate, ALLOWED, AUDITALLOW, NEVERALLOW, DONTAUDIT, AUDITDENY, X_ALLOWED, X_AUDITALLOW, X_DONTAUDIT,
          X_NEVERALLOW, allocateXperms, hk', hy]
    · simp only [orPerms, List.length_zipWith]; omega
  · rw [List.mem_append] at hs
    have hs' := hs.resolve_right h
    simp only [avKinds, List.mem_cons, List.not_mem_nil, or_false] at hs'
    rcases hs' with rfl | rfl | rfl | rfl <;>
      simp [avUpdate, ALLOWED, AUDITALLOW, NEVERALLOW, DONTAUDIT, AUDITDENY, xKinds]

theorem mkKey_spec (s : BitVec 32) (a b c : Nat) : (mkKey s a b c).specified = avtabSpec s := rfl

/-- The node of `find_avtab_node` has permissions of eight words. -/
theorem theNode_xs {t : Tab} {te : Bool} (hi : TabInv t te) {k : Key} (hk : k.specified ∈ tabKinds) {c : Option Nat}
    (hc : te = true ↔ c = none) {x : Option XPerms} {n : ENode} (h : TheNode t k c x n) (hx : Avtab.isXperm k = true) :
    ∃ y, n.datum.xperms = some y ∧ y.perms.length = 8 := by
  rcases h with h | ⟨_, rfl⟩
  · obtain ⟨h1, h2, _⟩ := findNode_some hi hk hc h
    exact hi.xs n h1 (by rw [isXperm_core, h2, ← isXperm_core]; exact hx)
  · exact ⟨XPerms.zero, by simp [freshDatum, hx], rfl⟩

theorem avClass_spec {s : BitVec 32} (hs : s ∈ avKinds ++ xKinds) {x : Option XPerms} (hx : XOk s x) {t : Tab} {te : Bool}
    (hi : TabInv t te) {c : Option Nat} (hc : te = true ↔ c = none) (enabled : Bool) (i j : Nat) (cp : ClassPerm) :
    ∃ t', avClass s c enabled x i j t cp = .ok t' ∧ TabInv t' te ∧ (∀ c', c = some c' → Front t c' → Front t' c') ∧
      (∀ m ∈ t'.nodes, m.ctx = c ∨ ∃ m' ∈ t.nodes, m'.ctx = m.ctx) ∧
      (∀ m, IsTypeKind m → (m ∈ t'.nodes ↔ m ∈ t.nodes)) ∧
      ∀ c' q P N, Compat q.2.2.2 P N → (c' = c → s ∈ xKinds → q.2.2.2 = avtabSpec s → ∀ c', c = some c' → Front t c') →
        (Ex t' c' q P ↔ Ex t c' q P ∨ (c' = c ∧ q = core (mkKey s i j cp.tclass) ∧ N s x cp)) := by
  have hs3 : s ∈ avKinds ++ xKinds ++ typeKinds := List.mem_append_left _ hs
  have hk : (mkKey s i j cp.tclass).specified ∈ tabKinds := spec_tabKinds hs3
  obtain ⟨n, h1, h2, h3, h4, h5, h6, h7, h8, h9⟩ := findAvtabNode_spec hi hk hc x
  have hxn : s ∈ xKinds → ∃ y, n.datum.xperms = some y ∧ y.perms.length = 8 := fun h =>
    theNode_xs hi hk hc h1 ((spec_x hs3 _ _ _).2 h)
  obtain ⟨d, hd, hdx, _⟩ := avUpdate_ok hs hx cp.data n.datum hxn
  have hub : (anyBit s AVRULE_XPERMS && x.isNone) = false := by
    cases h : anyBit s AVRULE_XPERMS with
    | false => rfl
    | true => obtain ⟨x', rfl, _⟩ := hx ((any_x hs).1 h); rfl
  have huniq : ∀ m, TheNode t (mkKey s i j cp.tclass) c x m → m = n := by
    intro m hm
    rcases h1 with h1 | ⟨h1, rfl⟩ <;> rcases hm with hm | ⟨hm, rfl⟩
    · rw [h1] at hm; simpa using hm.symm
    · rw [h1] at hm; cases hm
    · rw [h1] at hm; cases hm
    · rfl
  have hkeep : ∀ m, TheNode t (mkKey s i j cp.tclass) c x m → Keeps m (setEnabled enabled { m with datum := d }) := by
    intro m hm
    rw [huniq m hm]
    refine ⟨rfl, rfl, ?_, fun hxp => ?_⟩
    · exact core_setEnabled enabled { n with datum := d }
    · rw [isXperm_core, h4, ← isXperm_core] at hxp
      exact hdx ((spec_x hs3 _ _ _).1 hxp)
  obtain ⟨u1, u2, u3, ⟨n', v1, v2, v3, v4⟩, u4⟩ := upd_spec hi hk hc x hkeep
  refine ⟨_, ?_, u1, u2, u3, ?_, ?_⟩
  · simp only [avClass, hub, Bool.false_eq_true, if_false, h2, find_id h6 h3, hd]
  · intro m hm
    have hkn : ∀ m', core m'.key = core (mkKey s i j cp.tclass) → ¬ IsTypeKind m' := by
      intro m' he ht
      unfold IsTypeKind at ht
      rw [he] at ht
      exact av_not_type hs (by rwa [show (core (mkKey s i j cp.tclass)).2.2.2 = avtabSpec s from tabKinds_mask hk] at ht)
    rw [v4]
    constructor
    · rintro (h | rfl)
      · exact h.1
      · exact absurd hm (hkn _ (by rw [(hkeep n' v1).core, v2]))
    · intro h
      exact .inl ⟨h, fun he => hkn m (by rw [he, v2]) hm⟩
  · intro c' q P N hcomp hfront
    rw [u4 c' q P (N s x cp)]
    rintro rfl rfl
    have hkind : (core (mkKey s i j cp.tclass)).2.2.2 = avtabSpec s := tabKinds_mask hk
    rw [hkind] at hcomp hfront
    refine ⟨fun hp => absurd hp (hcomp.fresh s _ hs rfl rfl), fun m hm => ?_⟩
    rw [huniq m hm]
    refine hcomp.upd s x cp n.datum d hs rfl (fun hsx => ?_) hd
    obtain ⟨x', rfl, _, hl⟩ := hx hsx
    obtain ⟨y, hy, hyl⟩ := hxn hsx
    refine ⟨x', y, rfl, hl, hy, hyl, ?_⟩
    have hxp := (spec_x hs3 i j cp.tclass).2 hsx
    have hsame : ∀ m, sameX x' m = true → ∀ y, m.datum.xperms = some y → y.specified = x'.specified ∧ y.driver = x'.driver := by
      intro m hm y hy
      simpa [sameX, hy] using hm
    rcases h1 with h1 | ⟨_, rfl⟩
    · right
      cases c' with
      | none => exact hsame n (findNode_x_te hxp h1) y hy
      | some c => exact hsame n (findNode_x_cond hxp (hfront rfl hsx rfl c rfl) h1) y hy
    · left
      simpa [freshDatum, hxp] using hy.symm

/-- The table of a place. -/
def tabAt (st : State) : Option Nat → Tab
  | none => st.te
  | some _ => st.cond

/-- What is true of the tables during the expansion of rules for `d`.  `X`: extended permissions of a
branch are asked for; `Z`: branches that have no rules yet. -/
structure Inv (X : Prop) (Z : Nat → Prop) (d : Dest) (st : State) : Prop where
  te : TabInv st.te true
  cond : TabInv st.cond false
  front : X → ∀ c, d.ctx = some c → Front st.cond c
  none : ∀ n ∈ st.cond.nodes, ∀ c, Z c → n.ctx ≠ some c
  types : TypeInv st

theorem inv_put {X : Prop} {Z : Nat → Prop} {d : Dest} {st : State} (hi : Inv X Z d st) (hz : ∀ c, d.ctx = some c → ¬ Z c) {t' : Tab}
    (h1 : TabInv t' (decide (d.ctx = none))) (h2 : ∀ c', d.ctx = some c' → Front (d.tab st) c' → Front t' c')
    (h3 : ∀ m ∈ t'.nodes, m.ctx = d.ctx ∨ ∃ m' ∈ (d.tab st).nodes, m'.ctx = m.ctx)
    (h4 : TypeInv (d.put st t')) : Inv X Z d (d.put st t') := by
  cases d with
  | te => exact ⟨h1, hi.cond, fun _ c hc => (by cases hc), hi.none, h4⟩
  | cond c o e =>
    refine ⟨hi.te, h1, fun hx c' hc' => h2 c' hc' (hi.front hx c' hc'), fun n hn c' hz' hcc => ?_, h4⟩
    rcases h3 n hn with h | ⟨m, hm, h⟩
    · exact hz c' (by rw [← h, hcc]) hz'
    · exact hi.none m hm c' hz' (by rw [h, hcc])

theorem tab_inv {X : Prop} {Z : Nat → Prop} {d : Dest} {st : State} (hi : Inv X Z d st) : TabInv (d.tab st) (decide (d.ctx = Option.none)) := by
  cases d with
  | te => exact hi.te
  | cond c o e => exact hi.cond

/-- What rules of these kinds add for a query. -/
def skipped (noDontaudit : Bool) (s : BitVec 32) : Bool := noDontaudit && (s == 0x8#32 || s == 0x400#32)

theorem skip_eq {s : BitVec 32} (hs : s ∈ avKinds ++ xKinds) (nd : Bool) :
    (anyBit s (DONTAUDIT ||| X_DONTAUDIT) && nd) = skipped nd s := by
  simp only [avKinds, xKinds, List.mem_cons, List.mem_append, List.not_mem_nil, or_false] at hs
  rcases hs with (rfl | rfl | rfl | rfl) | rfl | rfl | rfl <;> cases nd <;> decide

/-- A query: is there a node of the place with key `q` and the property `P`? -/
def Asks (st : State) (c : Option Nat) (q : Nat × Nat × Nat × BitVec 16) (P : Datum → Prop) : Prop := Ex (tabAt st c) c q P

theorem ctx_ne {X : Prop} {Z : Nat → Prop} {d : Dest} {st : State} (hi : Inv X Z d st) {c : Option Nat} {q : Nat × Nat × Nat × BitVec 16}
    {P : Datum → Prop} (t' : Tab) {New : Prop} (h : Ex t' c q P ↔ Ex (d.tab st) c q P ∨ (c = d.ctx ∧ New)) :
    Asks (d.put st t') c q P ↔ Asks st c q P ∨ (c = d.ctx ∧ New) := by
  unfold Asks
  cases d with
  | te =>
    cases c with
    | none => exact h
    | some c =>
      simp only [tabAt, Dest.put, Dest.ctx, reduceCtorEq, false_and, or_false]
  | cond c' o e =>
    cases c with
    | none => simp only [tabAt, Dest.put, Dest.ctx, reduceCtorEq, false_and, or_false]
    | some c => exact h

/-- A rule for access vectors or extended permissions and one pair of types. -/
theorem onePair_av {X : Prop} {Z : Nat → Prop} {d : Dest} {st : State} (hi : Inv X Z d st) (hz : ∀ c, d.ctx = some c → ¬ Z c)
    (nd : Bool) (map : List Nat) {r : Rule} (hs : r.specified ∈ avKinds ++ xKinds) (hx : XOk r.specified r.xperms) (ij : Nat × Nat)
    {c : Option Nat} {q : Nat × Nat × Nat × BitVec 16} {P : Datum → Prop} {N : BitVec 32 → Option XPerms → ClassPerm → Prop}
    (hcomp : Compat q.2.2.2 P N) (hX : c = d.ctx → r.specified ∈ xKinds → q.2.2.2 = avtabSpec r.specified → X ∨ d.ctx = none) :
    ∃ st', onePair nd map d r st ij = .ok st' ∧ Inv X Z d st' ∧
      (Asks st' c q P ↔ Asks st c q P ∨ (c = d.ctx ∧ skipped nd r.specified = false ∧
        ∃ cp ∈ r.perms, q = core (mkKey r.specified ij.1 ij.2 cp.tclass) ∧ N r.specified r.xperms cp)) := by
  have hav : anyBit r.specified (AVRULE_AV ||| AVRULE_XPERMS) = true := by
    simp only [avKinds, xKinds, List.mem_cons, List.mem_append, List.not_mem_nil, or_false] at hs
    rcases hs with (h | h | h | h) | h | h | h <;> rw [h] <;> decide
  simp only [onePair, hav, if_true, avruleHelper, skip_eq hs]
  cases hsk : skipped nd r.specified with
  | true =>
    refine ⟨st, ?_, hi, by simp⟩
    simp only [if_true, Res.bind]
    cases d <;> rfl
  | false =>
    simp only [Bool.false_eq_true, if_false, true_and]
    suffices hl : ∀ (l : List ClassPerm) (t : Tab), Inv X Z d (d.put st t) →
        ∃ t', forM (avClass r.specified d.ctx d.enabled r.xperms ij.1 ij.2) t l = .ok t' ∧ Inv X Z d (d.put st t') ∧
          (Ex t' c q P ↔ Ex t c q P ∨ (c = d.ctx ∧ ∃ cp ∈ l, q = core (mkKey r.specified ij.1 ij.2 cp.tclass) ∧ N r.specified r.xperms cp)) by
      have hput : d.put st (d.tab st) = st := by cases d <;> rfl
      obtain ⟨t', h1, h2, h3⟩ := hl r.perms (d.tab st) (by rw [hput]; exact hi)
      exact ⟨_, by rw [h1]; rfl, h2, ctx_ne hi t' h3⟩
    intro l
    induction l with
    | nil => intro t ht; exact ⟨t, rfl, ht, by simp⟩
    | cons cp l ih =>
      intro t ht
      have htab : d.tab (d.put st t) = t := by cases d <;> rfl
      have hput2 : ∀ t', d.put (d.put st t) t' = d.put st t' := fun t' => by cases d <;> rfl
      have hti := tab_inv ht
      rw [htab] at hti
      obtain ⟨t1, g1, g2, g3, g4, g6, g5⟩ := avClass_spec hs hx hti (c := d.ctx) (by simp) d.enabled ij.1 ij.2 cp
      have hinv := inv_put ht hz g2 (by rw [htab]; exact g3) (by rw [htab]; exact g4) (typeInv_same ht.types
          (by cases d with
              | te => exact g6
              | cond _ _ _ => exact fun _ _ => Iff.rfl)
          (by cases d with
              | te => exact fun _ _ => Iff.rfl
              | cond _ _ _ => exact g6))
      rw [hput2] at hinv
      obtain ⟨t2, k1, k2, k3⟩ := ih t1 hinv
      refine ⟨t2, by simp only [forM, g1, Res.bind]; exact k1, k2, ?_⟩
      have hfr : c = d.ctx → r.specified ∈ xKinds → q.2.2.2 = avtabSpec r.specified → ∀ c', d.ctx = some c' → Front t c' := by
        intro h0 h1 h2 c' hc'
        rcases hX h0 h1 h2 with h | h
        · have := ht.front h c' hc'
          cases d with
          | te => cases hc'
          | cond _ _ _ => exact this
        · rw [h] at hc'; cases hc'
      rw [k3, g5 c q P N hcomp hfr, or_assoc]
      simp only [List.mem_cons, exists_eq_or_imp, ← and_or_left]

end Verif.Expand
