import Verif.Bounds.Lemmas4
import Verif.Assertion.Props

/-!
# C67, C68: bounded types, roles and users
-/

namespace Verif.Bounds
open Verif.Avtab Verif.Policy Verif.Optimize Verif.Assertion
open Verif.Services (word word_wf)

/-! ## Data for the examples -/

/-- Types `a` (1) and `b` (2), attributes 3 = {a} and 4 = {a, b}; `b` has the given name and bound. The role 2 is bounded by role 1. -/
def exH (name : Str) (bound : Nat) (rules crules : List Avtab.Node) (conds : List Cond.Node) (rset uset : BitVec 64) : HPolicy :=
  { op := exA rules crules conds
    types := [("a".toList, ⟨1, 0, true, 0, Ebitmap.init⟩), (name, ⟨2, bound, true, 0, Ebitmap.init⟩),
      ("at".toList, ⟨3, 0, true, 1, Ebitmap.init⟩), ("all".toList, ⟨4, 0, true, 1, Ebitmap.init⟩)]
    roles := [("r".toList, ⟨1, 0, true, 0, word 3#64⟩), ("s".toList, ⟨2, 1, true, 0, word rset⟩)]
    users := [("u".toList, ⟨1, 0, true, 0, word 3#64⟩), ("u.v".toList, ⟨2, 0, true, 0, word uset⟩)] }

theorem init_wf : Ebitmap.WF Ebitmap.init := (Ebitmap.wf_iff_inv _).2 ⟨trivial, rfl, by decide⟩

theorem exH_ok {name : Str} {bound : Nat} {rules crules : List Avtab.Node} {conds : List Cond.Node} {rset uset : BitVec 64}
    (hn : name ∉ ["a".toList, "at".toList, "all".toList]) (hb : bound ≤ 4) (hr : rset ≠ 0#64) (hu : uset ≠ 0#64)
    {σ0 : Cond.State} (ok : AssertOk (exA rules crules conds) σ0) : HOk (exH name bound rules crules conds rset uset) σ0 := by
  refine ⟨?_, ?_, ?_, ?_, ?_⟩
  · apply wt_ok (p := exA rules crules conds) _ ok
    intro i
    by_cases h : i < 4
    · have : i = 0 ∨ i = 1 ∨ i = 2 ∨ i = 3 := by omega
      rcases this with rfl | rfl | rfl | rfl <;> simp [exH, Table.structOf, exA, exSp, Sym.typeDatum]
    · have e : (exA rules crules conds).sp.typeStruct i = none := by
        have h0 : i ≠ 0 := by omega
        have h1 : i ≠ 1 := by omega
        have h2 : i ≠ 2 := by omega
        have h3 : i ≠ 3 := by omega
        simp [exA, exSp, h0, h1, h2, h3]
      rw [e]
      have h0 : ¬ 0 = i := by omega
      have h1 : ¬ 1 = i := by omega
      have h2 : ¬ 2 = i := by omega
      have h3 : ¬ 3 = i := by omega
      simp [exH, Table.structOf]
      omega
  · have hn' : name ≠ "a".toList ∧ name ≠ "at".toList ∧ name ≠ "all".toList := by simpa using hn
    obtain ⟨n1, n2, n3⟩ := hn'
    refine ⟨?_, ?_, ?_, ?_⟩
    · intro n d d' h h'
      simp only [exH, List.mem_cons, Prod.mk.injEq, List.not_mem_nil, or_false] at h h'
      rcases h with ⟨rfl, rfl⟩ | ⟨rfl, rfl⟩ | ⟨rfl, rfl⟩ | ⟨rfl, rfl⟩ <;> rcases h' with ⟨h, rfl⟩ | ⟨h, rfl⟩ | ⟨h, rfl⟩ | ⟨h, rfl⟩ <;>
        first
        | rfl
        | exact absurd h n1
        | exact absurd h n2
        | exact absurd h n3
        | exact absurd h.symm n1
        | exact absurd h.symm n2
        | exact absurd h.symm n3
        | exact absurd h (by decide)
    · intro e he e' he' _ _ hv
      simp only [exH, List.mem_cons, List.not_mem_nil, or_false] at he he'
      rcases he with rfl | rfl | rfl | rfl <;> rcases he' with rfl | rfl | rfl | rfl <;> first | rfl | (exact absurd hv (by simp))
    · intro e he
      refine ⟨e, he, ?_, rfl⟩
      simp only [exH, List.mem_cons, List.not_mem_nil, or_false] at he
      rcases he with rfl | rfl | rfl | rfl <;> rfl
    · intro e he
      simp only [exH, List.mem_cons, List.not_mem_nil, or_false] at he
      rcases he with rfl | rfl | rfl | rfl <;> exact init_wf
  · refine ⟨?_, ?_, ?_, ?_⟩
    · intro n d d' h h'
      simp only [exH, List.mem_cons, Prod.mk.injEq, List.not_mem_nil, or_false] at h h'
      rcases h with ⟨rfl, rfl⟩ | ⟨rfl, rfl⟩ <;> rcases h' with ⟨h, rfl⟩ | ⟨h, rfl⟩ <;> first | rfl | exact absurd h (by decide)
    · intro e he e' he' _ _ hv
      simp only [exH, List.mem_cons, List.not_mem_nil, or_false] at he he'
      rcases he with rfl | rfl <;> rcases he' with rfl | rfl <;> first | rfl | (exact absurd hv (by simp))
    · intro e he
      refine ⟨e, he, ?_, rfl⟩
      simp only [exH, List.mem_cons, List.not_mem_nil, or_false] at he
      rcases he with rfl | rfl <;> rfl
    · intro e he
      simp only [exH, List.mem_cons, List.not_mem_nil, or_false] at he
      rcases he with rfl | rfl
      · exact word_wf (by decide)
      · exact word_wf hr
  · refine ⟨?_, ?_, ?_, ?_⟩
    · intro n d d' h h'
      simp only [exH, List.mem_cons, Prod.mk.injEq, List.not_mem_nil, or_false] at h h'
      rcases h with ⟨rfl, rfl⟩ | ⟨rfl, rfl⟩ <;> rcases h' with ⟨h, rfl⟩ | ⟨h, rfl⟩ <;> first | rfl | exact absurd h (by decide)
    · intro e he e' he' _ _ hv
      simp only [exH, List.mem_cons, List.not_mem_nil, or_false] at he he'
      rcases he with rfl | rfl <;> rcases he' with rfl | rfl <;> first | rfl | (exact absurd hv (by simp))
    · intro e he
      refine ⟨e, he, ?_, rfl⟩
      simp only [exH, List.mem_cons, List.not_mem_nil, or_false] at he
      rcases he with rfl | rfl <;> rfl
    · intro e he
      simp only [exH, List.mem_cons, List.not_mem_nil, or_false] at he
      rcases he with rfl | rfl
      · exact word_wf (by decide)
      · exact word_wf hu
  · intro e he
    simp only [exH, List.mem_cons, List.not_mem_nil, or_false] at he
    rcases he with rfl | rfl | rfl | rfl
    · exact ⟨⟨by decide, by show 1 ≤ 4; decide⟩, by show 0 ≤ 4; decide⟩
    · exact ⟨⟨by show 1 ≤ 2; decide, by show 2 ≤ 4; decide⟩, hb⟩
    · exact ⟨⟨by decide, by show 3 ≤ 4; decide⟩, by show 0 ≤ 4; decide⟩
    · exact ⟨⟨by decide, by show 4 ≤ 4; decide⟩, by show 0 ≤ 4; decide⟩

/-! ## C67: bounded types -/

/-- If the check accepts the policy then no bounded type has a permission, under any value of the booleans, that its bounding type
does not have. -/
theorem C67_partial {h h' : HPolicy} {σ0 : Cond.State} (ok : HOk h σ0) (cdef : CondsDefined h.pol)
    (acc : checkConstraints h = some (h', true)) {name : Str} {d : Sym} (he : (name, d) ∈ h'.types) (hb : d.bounds ≠ 0)
    (hp : PlainType h'.pol d.value) (only : OnlyAllow h'.pol d.bounds) (σ : Cond.State) : Within h'.pol σ d.value d.bounds := by
  obtain ⟨h1, r, k1, k2, k3⟩ := checkConstraints_spec ok
  rw [acc] at k1
  cases k1
  have ok' := completedPolicy_ok ok k2
  have kt := (k3.1 rfl).2.2.2 _ he hb
  obtain ⟨bad, m1, m2, _⟩ := checkType_iff ok'.pol (boundsOk_of ok') hp (Nat.one_le_iff_ne_zero.2 hb)
  rw [kt] at m1
  cases m1
  refine within_of_accepts ok'.pol ?_ only (m2 rfl) σ
  intro c hc
  have : c ∈ h.pol.conds := by
    have e : h'.pol.conds = h.pol.conds := by
      show h'.op.conds = h.op.conds
      rw [k2.op]
    rw [← e]; exact hc
  exact cdef c this

/-- What the check of one type decides, conditionals included. -/
theorem C67_exact {h : HPolicy} {σ0 : Cond.State} (ok : HOk h σ0) {child parent : Nat} (hc : PlainType h.pol child)
    (hp : PlainType h.pol parent) (hl : ∀ t, PlainType h.pol t → PlainType h.pol (lowered h.pol t)) :
    ∃ bad, checkType h.pol child parent = some bad ∧ (bad = [] ↔ Accepts h.pol child parent) := by
  obtain ⟨bad, m1, m2, m3⟩ := checkType_iff ok.pol (boundsOk_of ok) hc hp.1
  exact ⟨bad, m1, m2, m3 hp hl⟩

/-- In a policy without conditionals the check of a type finds nothing iff the type is within its bound. -/
theorem C67_unconditional {h : HPolicy} {σ0 : Cond.State} (ok : HOk h σ0) {child parent : Nat} (hc : PlainType h.pol child)
    (hp : PlainType h.pol parent) (hl : ∀ t, PlainType h.pol t → PlainType h.pol (lowered h.pol t)) (hn : h.pol.conds = []) (σ : Cond.State) :
    ∃ bad, checkType h.pol child parent = some bad ∧ (bad = [] ↔ Within h.pol σ child parent) := by
  obtain ⟨bad, m1, m2⟩ := C67_exact ok hc hp hl
  refine ⟨bad, m1, ?_⟩
  rw [m2]
  have dec : ∀ s t cls b, Decides h.pol σ s t cls (.allow b) ↔ TeAllows h.pol s t cls b := by
    intro s t cls b
    constructor
    · rintro (k | ⟨id, ⟨c, hc, _⟩, _⟩)
      · exact k
      · rw [hn] at hc; cases hc
    · exact Or.inl
  have alw : ∀ s t cls b, Always h.pol s t cls b ↔ TeAllows h.pol s t cls b := by
    intro s t cls b
    unfold Always
    rw [hn]; simp
  unfold Accepts Within
  simp only [dec, alw, hn, List.not_mem_nil, false_imp_iff, implies_true, and_true]

/-- Every reported rule names the bounded type and permissions that it has (by some rule, perhaps conditional) on the reported target,
and that no unconditional rule gives the bounding type. -/
theorem C67_reports {h : HPolicy} {σ0 : Cond.State} (ok : HOk h σ0) {child parent : Nat} (hc : PlainType h.pol child)
    (hp : PlainType h.pol parent) (hl : ∀ t, PlainType h.pol t → PlainType h.pol (lowered h.pol t)) {bad : List Bad}
    (hk : checkType h.pol child parent = some bad) {x : Bad} (hx : x ∈ bad) :
    x.source = child ∧ PlainType h.pol x.target ∧ x.data ≠ 0#32 ∧
    ∀ b, x.data.getLsbD b = true → SomeAllow h.pol child x.target x.cls b ∧ ¬ TeAllows h.pol parent (lowered h.pol x.target) x.cls b := by
  obtain ⟨a1, a2, a3, a4⟩ := checkType_reports ok.pol (boundsOk_of ok) hc hp hl hk hx
  exact ⟨a1, a2, a3, fun b hb => ⟨(a4 b hb).1, fun k => (a4 b hb).2 (Or.inl k)⟩⟩

/-! ### Examples and refutations -/

/-- A permission of a rule. -/
def rule (s t : Nat) (kind : BitVec 16) (d : BitVec 32) : Avtab.Node := ⟨⟨s, t, 1, kind⟩, ⟨d, none⟩⟩

/-- A conditional on the boolean 1. -/
def condOn (t f : List Nat) : Cond.Node := ⟨0, [.bool 1], t, f, [], [], 0, [], 0, 0⟩

/-- `allow a a {0}; if (x) { allow a a {1}; allow a.b a {0 1} }`. -/
def polIn : HPolicy := exH "a.b".toList 0 [rule 1 1 ALLOWED 1#32] [rule 1 1 ALLOWED 2#32, rule 2 1 ALLOWED 3#32] [condOn [0, 1] []] 1#64 2#64

/-- The same with `allow a.b a {0 1 2}`. -/
def polOut : HPolicy := exH "a.b".toList 0 [rule 1 1 ALLOWED 1#32] [rule 1 1 ALLOWED 2#32, rule 2 1 ALLOWED 7#32] [condOn [0, 1] []] 1#64 2#64

/-- `if (x) { allow b a {0}; auditallow a a {0} }`, where `b` is bounded by `a`. -/
def polAudit : HPolicy := exH "b".toList 1 [] [rule 1 1 AUDITALLOW 1#32, rule 2 1 ALLOWED 1#32] [condOn [0, 1] []] 1#64 2#64

/-- `if (x) { allow b a {0} } if (x) { allow a a {0} }`. -/
def polTwo : HPolicy := exH "b".toList 1 [] [rule 1 1 ALLOWED 1#32, rule 2 1 ALLOWED 1#32] [condOn [0] [], condOn [1] []] 1#64 2#64

theorem eval_one (σ : Cond.State) : Cond.evaluate σ [.bool 1] = some (σ 1) := rfl

theorem conds_ok {l : List Cond.Node} (h : ∀ c ∈ l, ∃ t, c = condOn t []) : Cond.Consistent (fun _ => false) l (fun _ => false) := by
  intro c hc
  obtain ⟨t, rfl⟩ := h c hc
  have e : Cond.evaluate (fun _ => false) (condOn t []).expr = some false := eval_one _
  rw [e]
  exact ⟨by rfl, fun r _ => by simp, fun r hr => by cases hr⟩

theorem two_mem {P : Nat → Prop} (id : Nat) (h : P id ↔ id = 0 ∨ id = 1) : P id ↔ id < 2 := by rw [h]; omega

theorem polIn_ok : HOk polIn (fun _ => false) := by
  refine exH_ok (by decide) (by decide) (by decide) (by decide) (exA_ok (by decide) (by decide) (by decide) (by decide) (by decide) ?_ (conds_ok ?_))
  · intro id; apply two_mem (P := fun id => id ∈ listed [condOn [0, 1] []]); simp [listed, condOn]
  · intro c hc; exact ⟨[0, 1], by simpa using hc⟩

theorem polOut_ok : HOk polOut (fun _ => false) := by
  refine exH_ok (by decide) (by decide) (by decide) (by decide) (exA_ok (by decide) (by decide) (by decide) (by decide) (by decide) ?_ (conds_ok ?_))
  · intro id; apply two_mem (P := fun id => id ∈ listed [condOn [0, 1] []]); simp [listed, condOn]
  · intro c hc; exact ⟨[0, 1], by simpa using hc⟩

theorem polAudit_ok : HOk polAudit (fun _ => false) := by
  refine exH_ok (by decide) (by decide) (by decide) (by decide) (exA_ok (by decide) (by decide) (by decide) (by decide) (by decide) ?_ (conds_ok ?_))
  · intro id; apply two_mem (P := fun id => id ∈ listed [condOn [0, 1] []]); simp [listed, condOn]
  · intro c hc; exact ⟨[0, 1], by simpa using hc⟩

theorem polTwo_ok : HOk polTwo (fun _ => false) := by
  refine exH_ok (by decide) (by decide) (by decide) (by decide) (exA_ok (by decide) (by decide) (by decide) (by decide) (by decide) ?_ (conds_ok ?_))
  · intro id; apply two_mem (P := fun id => id ∈ listed [condOn [0] [], condOn [1] []]); simp [listed, condOn]
  · intro c hc
    rcases List.mem_cons.1 hc with rfl | hc
    · exact ⟨[0], rfl⟩
    · exact ⟨[1], by simpa using hc⟩

theorem defined_one {p : OPolicy} (h : ∀ c ∈ p.conds, c.expr = [.bool 1]) : CondsDefined p := by
  intro c hc σ
  rw [h c hc, eval_one]
  simp

/-- The hypotheses of `C67_partial` are met: `a.b` is bounded by `a`, by its name, and has a permission in a conditional; with a
permission more the policy is rejected. -/
example : HOk polIn (fun _ => false) ∧ CondsDefined polIn.pol ∧ OnlyAllow polIn.pol 1 ∧ (checkConstraints polIn).map Prod.snd = some true ∧
    (checkConstraints polIn).map (fun r => r.1.types.map fun e => (e.1, e.2.bounds)) =
      some [("a".toList, 0), ("a.b".toList, 1), ("at".toList, 0), ("all".toList, 0)] ∧
    HOk polOut (fun _ => false) ∧ (checkConstraints polOut).map Prod.snd = some false := by
  refine ⟨polIn_ok, defined_one (fun c hc => ?_), fun id hid _ => ?_, by decide +kernel, by decide +kernel, polOut_ok, by decide +kernel⟩
  · have : c = condOn [0, 1] [] := by simpa [polIn, exH, HPolicy.pol, exA] using hc
    rw [this]; rfl
  · have : id = 0 ∨ id = 1 := by simpa [polIn, exH, HPolicy.pol, exA, listed, condOn] using hid
    rcases this with rfl | rfl <;> exact List.mem_cons_self

theorem pol_self_bounds {rules crules : List Avtab.Node} {conds : List Cond.Node} :
    addBounds (exH "b".toList 1 rules crules conds 1#64 2#64) =
      some ({ exH "b".toList 1 rules crules conds 1#64 2#64 with
        users := [("u".toList, ⟨1, 0, true, 0, word 3#64⟩), ("u.v".toList, ⟨2, 1, true, 0, word 2#64⟩)] }, true) := rfl

theorem covers_cases (p : OPolicy) (rules crules : List Avtab.Node) (conds : List Cond.Node) (hp : p.sp.typeAttr = (exA rules crules conds).sp.typeAttr) :
    Services.Covers p.sp 1 1 ∧ ¬ Services.Covers p.sp 1 2 ∧ Services.Covers p.sp 2 2 := by
  unfold Services.Covers
  rw [hp]
  refine ⟨⟨by decide, word 13#64, rfl, by decide +kernel⟩, ?_, ⟨by decide, word 10#64, rfl, by decide +kernel⟩⟩
  rintro ⟨_, m, h, hb⟩
  have : m = word 13#64 := by
    simp [exA, exSp] at h; exact h.symm
  subst this
  exact absurd hb (by decide +kernel)

/-- The check counts the audit rules of the bounding type in conditionals as allow rules: a bounded type is given a permission that
its bounding type does not have. -/
theorem C67_refuted : ∃ h h', HOk h (fun _ => false) ∧ CondsDefined h.pol ∧ checkConstraints h = some (h', true) ∧
    ∃ name d, (name, d) ∈ h'.types ∧ d.bounds ≠ 0 ∧ PlainType h'.pol d.value ∧ PlainType h'.pol d.bounds ∧ ∃ σ, ¬ Within h'.pol σ d.value d.bounds := by
  obtain ⟨h', r, k1, k2, k3⟩ := checkConstraints_spec polAudit_ok
  have hr : (checkConstraints polAudit).map Prod.snd = some true := by decide +kernel
  have ht : (checkConstraints polAudit).map (fun r => r.1.types) = some polAudit.types := by
    unfold checkConstraints
    rw [show addBounds polAudit = _ from pol_self_bounds]
    rfl
  rw [k1] at hr ht
  simp only [Option.map_some, Option.some.injEq] at hr ht
  subst hr
  refine ⟨polAudit, h', polAudit_ok, defined_one (fun c hc => ?_), k1, "b".toList, ⟨2, 1, true, 0, Ebitmap.init⟩, ?_, by decide, ?_, ?_,
    fun _ => true, ?_⟩
  · have : c = condOn [0, 1] [] := by simpa [polAudit, exH, HPolicy.pol, exA] using hc
    rw [this]; rfl
  · rw [ht]; simp [polAudit, exH]
  · rw [completedPolicy_plain polAudit_ok.types k2]
    exact ⟨by show 1 ≤ 2; decide, by show 2 ≤ 4; decide, _, rfl, by decide⟩
  · rw [completedPolicy_plain polAudit_ok.types k2]
    exact ⟨by show 1 ≤ 1; decide, by show 1 ≤ 4; decide, _, rfl, by decide⟩
  · intro hw
    have hpl : PlainType h'.pol 1 := by
      rw [completedPolicy_plain polAudit_ok.types k2]
      exact ⟨by show 1 ≤ 1; decide, by show 1 ≤ 4; decide, _, rfl, by decide⟩
    have hcov := covers_cases h'.pol [] [rule 1 1 AUDITALLOW 1#32, rule 2 1 ALLOWED 1#32] [condOn [0, 1] []] (by
      show h'.op.sp.typeAttr = _
      rw [k2.op]; rfl)
    have hconds : h'.pol.conds = [condOn [0, 1] []] := by show h'.op.conds = _; rw [k2.op]; rfl
    have hnode : ∀ id, h'.pol.tab.node id = polAudit.op.tab.node id := by intro id; show h'.op.tab.node id = _; rw [k2.op]
    have hlow : lowered h'.pol 1 = 1 := by
      have : Services.boundOf h'.pol.sp 1 = 0 := by
        show (((h'.types.structOf 1).map Sym.typeDatum).map _).getD 0 = 0
        rw [ht]; rfl
      unfold lowered
      rw [if_pos this]
    have hd := hw 1 1 0 hpl (Or.inr ⟨1, ⟨condOn [0, 1] [], by rw [hconds]; simp, Or.inl ⟨eval_one _, by decide⟩⟩, by
      rw [hnode]; exact ⟨hcov.2.2, hcov.1, rfl, rfl, by decide, by decide⟩⟩)
    rw [hlow] at hd
    rcases hd with ⟨n, hn, _⟩ | ⟨id, ⟨c, hc, hs⟩, h1, _, _, h4, _⟩
    · have : nodes h'.pol.sp.te = [] := by show nodes h'.op.sp.te = _; rw [k2.op]; rfl
      rw [this] at hn; cases hn
    · rw [hconds] at hc
      have : c = condOn [0, 1] [] := by simpa using hc
      subst this
      have hid : id = 0 ∨ id = 1 := by
        rcases hs with ⟨_, h⟩ | ⟨_, h⟩
        · simpa [condOn] using h
        · simp [condOn] at h
      rw [hnode] at h1 h4
      rcases hid with rfl | rfl
      · exact absurd h4 (by decide)
      · exact hcov.2.1 h1

/-- The check rejects policies that are within the bounds: the bounding type has the permission in another conditional with the same
condition. -/
theorem C67_exact_refuted : ∃ h, HOk h (fun _ => false) ∧ CondsDefined h.pol ∧ (∃ bad, checkType h.pol 2 1 = some bad ∧ bad ≠ []) ∧
    PlainType h.pol 2 ∧ PlainType h.pol 1 ∧ Services.boundOf h.pol.sp 2 = 1 ∧ OnlyAllow h.pol 1 ∧ ∀ σ, Within h.pol σ 2 1 := by
  refine ⟨polTwo, polTwo_ok, defined_one (fun c hc => ?_), ⟨[⟨2, 1, 1, 1#32⟩], by decide +kernel, by decide⟩,
    ⟨by decide, by show 2 ≤ 4; decide, _, rfl, by decide⟩, ⟨by decide, by show 1 ≤ 4; decide, _, rfl, by decide⟩, rfl, ?_, ?_⟩
  · have : c = condOn [0] [] ∨ c = condOn [1] [] := by simpa [polTwo, exH, HPolicy.pol, exA] using hc
    rcases this with rfl | rfl <;> rfl
  · intro id hid _
    have : id = 0 ∨ id = 1 := by simpa [polTwo, exH, HPolicy.pol, exA, listed, condOn] using hid
    rcases this with rfl | rfl <;> exact List.mem_cons_self
  · intro σ t cls b ht hd
    have hcov := covers_cases polTwo.pol [] [rule 1 1 ALLOWED 1#32, rule 2 1 ALLOWED 1#32] [condOn [0] [], condOn [1] []] rfl
    have hcov' : ¬ Services.Covers polTwo.pol.sp 2 1 := by
      rintro ⟨_, m, h, hb⟩
      have : m = word 10#64 := by
        simp [polTwo, exH, HPolicy.pol, exA, exSp] at h; exact h.symm
      subst this
      exact absurd hb (by decide +kernel)
    rcases hd with ⟨n, hn, _⟩ | ⟨id, ⟨c, hc, hs⟩, h1, h2, h3, h4, h5, h6⟩
    · cases hn
    · have hc' : c = condOn [0] [] ∨ c = condOn [1] [] := by simpa [polTwo, exH, HPolicy.pol, exA] using hc
      have hid : Cond.evaluate σ [.bool 1] = some true ∧ (id = 0 ∨ id = 1) := by
        rcases hc' with rfl | rfl <;> rcases hs with ⟨e, h⟩ | ⟨_, h⟩
        · exact ⟨e, Or.inl (by simpa [condOn] using h)⟩
        · simp [condOn] at h
        · exact ⟨e, Or.inr (by simpa [condOn] using h)⟩
        · simp [condOn] at h
      rcases hid.2 with rfl | rfl
      · exact absurd h1 hcov'
      · -- the rule of `b` has the target `a`
        have ht2 : t = 1 := by
          have hr := polTwo_ok.pol.condRules 1 (by show 1 ∈ [0, 1]; decide)
          have := (covers_iff polTwo_ok.pol ht hr.target).1 h2
          have := polTwo_ok.pol.only 0 (t - 1) ⟨by decide, by show 1 ≤ 4; decide, _, rfl, by decide⟩ this
          have := ht.1
          omega
        subst ht2
        refine Or.inr ⟨0, ⟨condOn [0] [], by show _ ∈ [condOn [0] [], condOn [1] []]; simp, Or.inl ⟨hid.1, by decide⟩⟩, hcov.1, hcov.1, h3, rfl, h5, h6⟩

/-! ## C68: the bounds of symbols -/

/-- The check terminates without error on every well-formed policy. It gives each type, role and user without a declared bound the
one that its name implies, and changes nothing else; and it accepts iff no name lacks its parent, no user has a role and no role has a type
that its bounding user or role does not have, and the check of each bounded type reports nothing. -/
theorem C68_decides {h : HPolicy} {σ0 : Cond.State} (ok : HOk h σ0) :
    ∃ h' r, checkConstraints h = some (h', r) ∧ h'.op = h.op ∧ Completed h.types h'.types ∧ Completed h.roles h'.roles ∧
      Completed h.users h'.users ∧
      (r = true ↔ ((∀ e ∈ h.types, ¬ Orphan h.types e.2) ∧ (∀ e ∈ h.roles, ¬ Orphan h.roles e.2) ∧ ∀ e ∈ h.users, ¬ Orphan h.users e.2) ∧
        SetsWithin h'.users ∧ SetsWithin h'.roles ∧
        ∀ e ∈ h'.types, e.2.bounds ≠ 0 → checkType h'.pol e.2.value e.2.bounds = some []) := by
  obtain ⟨h', r, k1, k2, k3⟩ := checkConstraints_spec ok
  exact ⟨h', r, k1, k2.op, k2.types, k2.roles, k2.users, k3⟩

/-- The bound of a symbol is determined. -/
theorem C68_unique {t : Table} (ok : TableOk t) {d : Sym} {v v' : Nat} (h : BoundIs t d v) (h' : BoundIs t d v') : v = v' :=
  boundIs_unique ok h h'

/-- A policy is rejected for an orphan, for the types of a role and for the roles of a user. -/
example : (checkConstraints (exH "c.b".toList 0 [] [] [] 1#64 2#64)).map Prod.snd = some false ∧
    (checkConstraints (exH "b".toList 0 [] [] [] 4#64 2#64)).map Prod.snd = some false ∧
    (checkConstraints (exH "b".toList 0 [] [] [] 1#64 5#64)).map Prod.snd = some false ∧
    (checkConstraints (exH "b".toList 0 [] [] [] 1#64 2#64)).map Prod.snd = some true ∧
    HOk (exH "c.b".toList 0 [] [] [] 1#64 2#64) (fun _ => false) ∧ HOk (exH "b".toList 0 [] [] [] 4#64 5#64) (fun _ => false) := by
  have ok : AssertOk (exA [] [] []) (fun _ => false) :=
    exA_ok (by decide) (by decide) (by decide) (by decide) (by decide) (by simp [listed]) (conds_ok (by simp))
  exact ⟨by decide +kernel, by decide +kernel, by decide +kernel, by decide +kernel,
    exH_ok (by decide) (by decide) (by decide) (by decide) ok, exH_ok (by decide) (by decide) (by decide) (by decide) ok⟩

end Verif.Bounds
