import Verif.KernelCil.Lemmas
import Verif.CilBin.Props
import Verif.Services.AvProps

/-!
# C81: expressions of a binary policy are written in CIL with the same meaning
-/

namespace Verif.KernelCil
open CilParse (Writes parser)
open CilCond (Tree)
open Services (CExpr Field Who)

/-- C81: a conditional expression is written as one of CIL that has the same value, whatever the values of the
booleans are, and needs as many values at a time. -/
theorem C81_conditional (name : Nat → Str) (t : Cond.BExpr) (hg : ∀ n ∈ t.vars, GoodName (name n))
    (hr : ∀ n ∈ t.vars, String.ofList (name n) ∉ CilCond.reserved) :
    ∃ (text : Str) (e : CilCond.Expr), condExprToStr name t.postfix = some text ∧ Writes [e.tree] text ∧ e.Ok ∧
      (∀ ρ, e.val ρ = t.val fun n => ρ (String.ofList (name n))) ∧ e.need = t.need := by
  refine ⟨condText name t, condTree name t, ?_, condText_writes t hg, ?_, fun ρ => condTree_val name ρ t, condTree_need name t⟩
  · unfold condExprToStr; rw [condLoop_postfix]
  · intro s hs
    rw [condTree_names] at hs
    obtain ⟨n, h1, rfl⟩ := List.mem_map.1 hs
    exact hr n h1

/-- C81: what is not an expression is not written. -/
theorem C81_conditional_only (name : Nat → Str) (l : List Cond.Tok) :
    (∃ text, condExprToStr name l = some text) ↔ ∃ t : Cond.BExpr, l = t.postfix := by
  constructor
  · rintro ⟨text, h⟩
    obtain ⟨t, h1, -⟩ := condExprToStr_some h
    exact ⟨t, h1⟩
  · rintro ⟨t, rfl⟩
    exact ⟨condText name t, by unfold condExprToStr; rw [condLoop_postfix]⟩

/-- Three booleans. -/
def exName (n : Nat) : Str := if n = 1 then "ssh_sysadm".toList else if n = 2 then "b2".toList else "b3".toList

def exCond : Cond.BExpr := .or (.not (.var 1)) (.xor (.var 2) (.var 3))

example : (∀ n ∈ exCond.vars, GoodName (exName n)) ∧ (∀ n ∈ exCond.vars, String.ofList (exName n) ∉ CilCond.reserved) ∧
    condExprToStr exName exCond.postfix = some "(or (not ssh_sysadm) (xor b2 b3))".toList ∧
    condExprToStr exName [.bool 1, .bool 2] = none := by
  refine ⟨?_, ?_, ?_, ?_⟩
  · intro n hn
    simp only [exCond, Cond.BExpr.vars, List.cons_append, List.nil_append, List.mem_cons, List.not_mem_nil, or_false] at hn
    rcases hn with rfl | rfl | rfl <;> exact ⟨by decide, fun c hc => List.all_eq_true.1 (by decide : List.all _ _ = true) c hc⟩
  · intro n hn
    simp only [exCond, Cond.BExpr.vars, List.cons_append, List.nil_append, List.mem_cons, List.not_mem_nil, or_false] at hn
    rcases hn with rfl | rfl | rfl <;> decide
  · decide +kernel
  · decide +kernel

/-- C81: the expression of a constraint is written as one of CIL that is true of the same contexts, if the names
that are kept for comparisons stand for what is compared. -/
theorem C81_constraint_partial {pn : Names} (hn : NamesOk pn) {members : Nat → Ebitmap.Ebitmap} {l : List CExpr} {tr : Services.Tree}
    (hp : Services.Postfix l tr) (hl : ∀ e ∈ l, LeafOk pn members e) :
    ∃ (text : Str) (ex : CilConstr.Expr), constraintExprToStr pn l = some text ∧ Writes [ex.tree] text ∧ ex.Doc ∧
      (∀ vt : Bool, (tr.usesThird = true → vt = true) → ex.Ok vt) ∧
      (∀ (p : Policy.Policy) (s t : Policy.Context) (x : Option Policy.Context), Services.CtxOk p s → Services.CtxOk p t → (∀ c, x = some c → Services.CtxOk p c) →
        (ex.Holds (meaning pn members) p s t x ↔ tr.Holds p s t x)) ∧
      ex.need = tr.cells ∧ useMls l = mls tr := by
  obtain ⟨text, ex, h1, h2, h3⟩ := cons_says hn hp hl
  have vals : ∀ (p : Policy.Policy) (c : Policy.Context), Services.CtxOk p c → Vals c := by
    intro p c h f
    cases f
    · exact h.user.1
    · exact h.role.1
    · exact h.type.1
  refine ⟨text, ex, ?_, h2.writes, h2.doc, h2.ok, fun p s t x hs ht hx => h2.holds p s t x (vals p s hs) (vals p t ht) fun c hc => vals p c (hx c hc), h2.need, h3⟩
  unfold constraintExprToStr
  rw [h1]

/-! ### Data for the examples -/

/-- A set with members below 64. -/
def bm (m : BitVec 64) : Ebitmap.Ebitmap := ⟨[⟨0, m⟩], 64⟩

theorem bm_bits {m : BitVec 64} (hw : Ebitmap.WF (bm m)) (P : Nat → Prop) (h : ∀ i < 64, Ebitmap.getBit (bm m) i = true → P i) :
    ∀ i, Ebitmap.getBit (bm m) i = true → P i := fun i hi =>
  h i (Ebitmap.getBit_lt_high ((Ebitmap.wf_iff_inv _).1 hw) hi) hi

/-- Two users, two types, and an attribute of both types. -/
def exNames : Names where
  user i := if i = 0 then some "alice".toList else if i = 1 then some "bob".toList else none
  role i := if i = 0 then some "object_r".toList else none
  type i := if i = 0 then some "a_t".toList else if i = 1 then some "b_t".toList else if i = 2 then some "domain".toList else none

/-- The types of an attribute; a type is its own. -/
def exMembers (i : Nat) : Ebitmap.Ebitmap := if i = 2 then bm 3#64 else if i = 1 then bm 2#64 else if i = 0 then bm 1#64 else Ebitmap.init

theorem exNamesOk : NamesOk exNames where
  good f i s h := by
    cases f <;> simp only [Names.of, exNames] at h <;> repeat' split at h
    all_goals first
      | cases h; exact ⟨by decide, fun c hc => List.all_eq_true.1 (by decide : List.all _ _ = true) c hc⟩
      | cases h
  inj f i j s h1 h2 := by
    cases f <;> simp only [Names.of, exNames] at h1 h2 <;> repeat' split at h1
    all_goals repeat' split at h2
    all_goals first
      | (cases h1; done)
      | (cases h2; done)
      | omega
      | exact absurd (h2.trans h1.symm) (by decide)

/-- `(t1 == { b_t domain })`, which is compared with both types. -/
def exLeaf : CExpr := ⟨5, 4, 1, bm 3#64, ⟨bm 6#64, Ebitmap.init, 0⟩⟩

/-- `not (u2 == bob)`, and both with `l1 dom h2`. -/
def exExpr : List CExpr :=
  [exLeaf, ⟨5, 9, 1, bm 2#64, ⟨Ebitmap.init, Ebitmap.init, 0⟩⟩, ⟨1, 0, 0, Ebitmap.init, ⟨Ebitmap.init, Ebitmap.init, 0⟩⟩,
    ⟨2, 0, 0, Ebitmap.init, ⟨Ebitmap.init, Ebitmap.init, 0⟩⟩, ⟨4, 64, 3, Ebitmap.init, ⟨Ebitmap.init, Ebitmap.init, 0⟩⟩,
    ⟨3, 0, 0, Ebitmap.init, ⟨Ebitmap.init, Ebitmap.init, 0⟩⟩]

def exTree : Services.Tree :=
  .or (.and (.atom (.names .src .type false (bm 3#64))) (.not (.atom (.names .tgt .user false (bm 2#64))))) (.atom (.levels .l1h2 .dom))

theorem exPostfix : Services.Postfix exExpr exTree := by
  have h1 : Services.Postfix [exLeaf] (.atom (.names .src .type false (bm 3#64))) := .atom ⟨rfl, rfl, rfl, rfl⟩
  have h2 : Services.Postfix [⟨5, 9, 1, bm 2#64, ⟨Ebitmap.init, Ebitmap.init, 0⟩⟩] (.atom (.names .tgt .user false (bm 2#64))) :=
    .atom ⟨rfl, rfl, rfl, rfl⟩
  have h3 := Services.Postfix.not (e := ⟨1, 0, 0, Ebitmap.init, ⟨Ebitmap.init, Ebitmap.init, 0⟩⟩) h2 rfl
  have h4 := Services.Postfix.and (e := ⟨2, 0, 0, Ebitmap.init, ⟨Ebitmap.init, Ebitmap.init, 0⟩⟩) h1 h3 rfl
  have h5 : Services.Postfix [⟨4, 64, 3, Ebitmap.init, ⟨Ebitmap.init, Ebitmap.init, 0⟩⟩] (.atom (.levels .l1h2 .dom)) := .atom ⟨rfl, rfl, rfl⟩
  exact Services.Postfix.or (e := ⟨3, 0, 0, Ebitmap.init, ⟨Ebitmap.init, Ebitmap.init, 0⟩⟩) h4 h5 rfl

theorem bm_wf (m : BitVec 64) (h : m ≠ 0#64) : Ebitmap.WF (bm m) :=
  (Ebitmap.wf_iff_inv _).2 ⟨⟨by simp, by simp, h, trivial⟩, rfl, by simp [bm]⟩

theorem exLeaves : ∀ e ∈ exExpr, LeafOk exNames exMembers e := by
  intro e he w f neg set hd
  obtain ⟨d1, d2, d3, d4⟩ := hd
  simp only [exExpr, List.mem_cons, List.not_mem_nil, or_false] at he
  rcases he with rfl | rfl | rfl | rfl | rfl | rfl
  · have : f = .type ∧ w = .src := by
      cases f <;> cases w <;> first | exact ⟨rfl, rfl⟩ | (revert d2; decide)
    obtain ⟨rfl, rfl⟩ := this
    refine ⟨bm_wf _ (by decide), ⟨1, by decide⟩, bm_bits (bm_wf _ (by decide)) _ ?_, fun _ v => ?_⟩
    · intro i hi hb
      have : i = 1 ∨ i = 2 := by revert hb; revert i; decide
      rcases this with rfl | rfl
      · exact ⟨_, rfl, by decide⟩
      · exact ⟨_, rfl, by decide⟩
    · constructor
      · intro h
        exact ⟨2, by decide, h⟩
      · rintro ⟨i, hi, hv⟩
        have : i = 1 ∨ i = 2 := bm_bits (bm_wf _ (by decide)) (fun i => i = 1 ∨ i = 2) (by decide) i hi
        rcases this with rfl | rfl
        · have : v = 1 := bm_bits (m := 2#64) (bm_wf _ (by decide)) (fun i => i = 1) (by decide) v hv
          subst this; decide
        · exact hv
  · have : f = .user ∧ w = .tgt := by
      cases f <;> cases w <;> first | exact ⟨rfl, rfl⟩ | (revert d2; decide)
    obtain ⟨rfl, rfl⟩ := this
    refine ⟨bm_wf _ (by decide), ⟨1, by decide⟩, bm_bits (bm_wf _ (by decide)) _ ?_, nofun⟩
    intro i hi hb
    have : i = 1 := by revert hb; revert i; decide
    subst this
    exact ⟨_, rfl, by decide⟩
  all_goals exact absurd d1 (by decide)

/-- What is written for the example. -/
example : constraintExprToStr exNames exExpr = some "(or (and (eq t1 (b_t domain)) (not (eq u2 bob))) (dom l1 h2))".toList ∧ useMls exExpr = true := by
  decide +kernel

/-! ### What is lost -/

/-- `t1 == ~a_t` in a constraint of a policy that is made from modules: the set of types is the complement, the
names are kept without the sign. -/
def exComplement : CExpr := ⟨5, 4, 1, bm 2#64, ⟨bm 1#64, Ebitmap.init, 0⟩⟩

/-- C81: where the names that are kept do not stand for the set that is compared, which is so for all sets with
exclusions or complements, the text means something else: here it holds of the one type for which the constraint
does not. -/
theorem C81_complement_refuted (p : Policy.Policy) (s t : Policy.Context) (hs : s.type = 1) :
    Services.Denotes exComplement (.names .src .type false (bm 2#64)) ∧
    ¬ (Services.Tree.atom (.names .src .type false (bm 2#64))).Holds p s t none ∧
    ∃ ex : CilConstr.Expr, constraintExprToStr exNames [exComplement] = some "(eq t1 a_t)".toList ∧ Writes [ex.tree] "(eq t1 a_t)".toList ∧
      ex.Holds (meaning exNames exMembers) p s t none := by
  refine ⟨⟨rfl, rfl, rfl, rfl⟩, ?_, .is .src .type false (.one "a_t"), by decide +kernel, ?_, ?_⟩
  · rintro ⟨c, hc, h⟩
    cases hc
    simp only [Services.Field.get, hs] at h
    revert h; decide
  · exact writes_paren3 (a := "eq".toList) (b := "t1".toList) (c := "a_t".toList) (writes_word "eq" (by decide)) (writes_word "t1" (by decide))
      (writes_word "a_t" (by decide))
  · refine ⟨s, rfl, ?_⟩
    simp only [CilConstr.Eqs, CilConstr.Names.all, List.mem_cons, List.not_mem_nil, or_false, exists_eq_left]
    refine ⟨0, rfl, ?_⟩
    simp only [standsFor, Services.Field.get, hs]
    decide

/-- C81: a policy of a version that has no names (before 29) is written with a name that it does not have. -/
theorem C81_no_names_refuted :
    constraintExprToStr exNames [⟨5, 4, 1, bm 2#64, ⟨Ebitmap.init, Ebitmap.init, 0⟩⟩] = some "(eq t1 NO_IDENTIFIER)".toList := by
  decide +kernel

end Verif.KernelCil
