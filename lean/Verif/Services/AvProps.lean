import Verif.Services.AvLemmas2
import Verif.Avtab.Props
import Verif.Mls.Props

/-!
# C16–C18, C50, C51: constraints and access decisions
-/

namespace Verif.Services
open Verif.Policy Verif.Mls

/-! ## Data for the examples -/

/-- A bitmap with one word. -/
def word (m : BitVec 64) : Ebitmap.Ebitmap := ⟨[⟨0, m⟩], 64⟩

theorem word_wf {m : BitVec 64} (h : m ≠ 0#64) : Ebitmap.WF (word m) :=
  (Ebitmap.wf_iff_inv _).2 ⟨⟨Nat.le_refl 0, rfl, h, trivial⟩, rfl, by show 64 < 2 ^ 32; decide⟩

theorem word_lt {m : BitVec 64} {b : Nat} (h : Ebitmap.getBit (word m) b = true) : b < 64 := by
  by_cases hm : m = 0#64
  · subst hm
    unfold Ebitmap.getBit at h
    split at h
    · cases h
    · simp [word, Ebitmap.getBitNodes] at h
  · exact Ebitmap.getBit_lt_high ((Ebitmap.wf_iff_inv _).1 (word_wf hm)) h

def noTypes : TypeSet := ⟨Ebitmap.init, Ebitmap.init, 0⟩

/-- `u1 == u2 or (t1 == { type 3 } and not l1 eq h2)`. -/
def exExpr : List CExpr :=
  [⟨4, 1, 1, Ebitmap.init, noTypes⟩, ⟨5, 4, 1, word 4#64, noTypes⟩, ⟨4, 64, 1, Ebitmap.init, noTypes⟩,
   ⟨1, 0, 0, Ebitmap.init, noTypes⟩, ⟨2, 0, 0, Ebitmap.init, noTypes⟩, ⟨3, 0, 0, Ebitmap.init, noTypes⟩]

def exTree : Tree :=
  .or (.atom (.same .user false)) (.and (.atom (.names .src .type false (word 4#64))) (.not (.atom (.levels .l1h2 .eq))))

theorem exPostfix : Postfix exExpr exTree :=
  Postfix.or (l1 := [⟨4, 1, 1, Ebitmap.init, noTypes⟩]) (l2 := [⟨5, 4, 1, word 4#64, noTypes⟩, ⟨4, 64, 1, Ebitmap.init, noTypes⟩,
   ⟨1, 0, 0, Ebitmap.init, noTypes⟩, ⟨2, 0, 0, Ebitmap.init, noTypes⟩])
    (.atom ⟨rfl, rfl, rfl⟩)
    (Postfix.and (l1 := [⟨5, 4, 1, word 4#64, noTypes⟩]) (l2 := [⟨4, 64, 1, Ebitmap.init, noTypes⟩, ⟨1, 0, 0, Ebitmap.init, noTypes⟩])
      (.atom ⟨rfl, rfl, rfl, rfl⟩)
      (Postfix.not (l := [⟨4, 64, 1, Ebitmap.init, noTypes⟩]) (.atom ⟨rfl, rfl, rfl⟩) rfl) rfl) rfl

def exFlavors : Flavors := ⟨⟨3, Ebitmap.init⟩, ⟨3, Ebitmap.init⟩, ⟨4, Ebitmap.init⟩⟩

/-- A policy with types 1 (bounded by 3), 2, 3 and attribute 4 = {1, 3}; one class with the constraint above
on permission 1; `allow 4 2 {0 1 2}`, `allow 1 2 {3}`, `auditallow 1 2 {0}`, `dontaudit 4 2 {4}`, a disabled
`allow 4 2 {5}` and an enabled `allow 4 2 {6}`; permission 2 is the process transition, roles 1 -> 2. -/
def exPolicy : SPolicy :=
  { pol := { demo with nRoles := 3, roleStruct := fun i => if i < 3 then some demoRole else none }, nClasses := 1
    classes := fun i => if i = 0 then some ⟨[⟨2#32, exExpr⟩], [⟨0#32, [⟨5, 20, 1, word 2#64, noTypes⟩]⟩]⟩ else none
    typeAttr := fun i => if i = 0 then some (word 9#64) else if i = 1 then some (word 2#64) else
      if i = 2 then some (word 12#64) else none
    typeStruct := fun i => if i = 0 then some ⟨1, 0, 3⟩ else if i = 1 then some ⟨2, 0, 0⟩ else
      if i = 2 then some ⟨3, 0, 0⟩ else none
    te := Avtab.run 8 [.insert ⟨4, 2, 1, Avtab.ALLOWED⟩ ⟨7#32, none⟩, .insert ⟨1, 2, 1, Avtab.ALLOWED⟩ ⟨8#32, none⟩,
      .insert ⟨1, 2, 1, Avtab.AUDITALLOW⟩ ⟨1#32, none⟩, .insert ⟨4, 2, 1, Avtab.AUDITDENY⟩ ⟨~~~ 16#32, none⟩]
    cond := Avtab.run 8 [.insertNonunique ⟨4, 2, 1, Avtab.ALLOWED⟩ ⟨32#32, none⟩,
      .insertNonunique ⟨4, 2, 1, Avtab.ALLOWED ||| Avtab.ENABLED⟩ ⟨64#32, none⟩]
    processClass := 1, transDyntrans := 4#32, roleAllow := [(1, 2)] }

noncomputable def exRules : Rules :=
  ⟨Avtab.logOf [.insert ⟨4, 2, 1, Avtab.ALLOWED⟩ ⟨7#32, none⟩, .insert ⟨1, 2, 1, Avtab.ALLOWED⟩ ⟨8#32, none⟩,
      .insert ⟨1, 2, 1, Avtab.AUDITALLOW⟩ ⟨1#32, none⟩, .insert ⟨4, 2, 1, Avtab.AUDITDENY⟩ ⟨~~~ 16#32, none⟩],
   Avtab.logOf [.insertNonunique ⟨4, 2, 1, Avtab.ALLOWED⟩ ⟨32#32, none⟩,
      .insertNonunique ⟨4, 2, 1, Avtab.ALLOWED ||| Avtab.ENABLED⟩ ⟨64#32, none⟩]⟩

theorem exPolicyOk : PolicyOk exPolicy exRules where
  te := fun k => Avtab.C07_enumerate 8 (by decide) _ k
  cond := fun k => Avtab.C07_enumerate 8 (by decide) _ k
  attr := by
    intro ty m h
    simp only [exPolicy] at h
    split at h
    · cases h; exact ⟨word_wf (by decide), fun b hb => Nat.lt_trans (word_lt hb) (by decide)⟩
    · split at h
      · cases h; exact ⟨word_wf (by decide), fun b hb => Nat.lt_trans (word_lt hb) (by decide)⟩
      · split at h
        · cases h; exact ⟨word_wf (by decide), fun b hb => Nat.lt_trans (word_lt hb) (by decide)⟩
        · cases h
  cons := by
    intro i ci h
    simp only [exPolicy] at h
    split at h
    · cases h; exact ⟨exFlavors, 8, by decide, by decide +kernel⟩
    · cases h
  bounds := by
    intro i d h
    simp only [exPolicy] at h
    split at h
    · cases h; decide
    · split at h
      · cases h; decide
      · split at h
        · cases h; decide
        · cases h

def exS : Context := ⟨1, 1, 1, ⟨⟨1, demoSet⟩, ⟨2, demoSet⟩⟩⟩
def exT : Context := ⟨2, 1, 2, ⟨⟨1, demoSet⟩, ⟨1, demoSet⟩⟩⟩

theorem exCtxOk (u r t : Nat) (hu : 1 ≤ u ∧ u < 2 ^ 32) (hr : 1 ≤ r ∧ r ≤ 3) (ht : 1 ≤ t ∧ t < 2 ^ 32) (a b : Nat) :
    CtxOk exPolicy.pol ⟨u, r, t, ⟨⟨a, demoSet⟩, ⟨b, demoSet⟩⟩⟩ where
  user := hu
  type := ht
  role := ⟨hr.1, hr.2, Nat.lt_of_le_of_lt hr.2 (by decide)⟩
  roleDef := ⟨demoRole, by show (if r - 1 < 3 then some demoRole else none) = _; rw [if_pos (by omega)]⟩
  range := ⟨demoSet_wf, demoSet_wf⟩

/-! ## C17: constraints -/

/-- C17: the evaluator returns the truth value of the expression. -/
theorem C17_value {p : Policy} {s t : Context} (hs : CtxOk p s) (ht : CtxOk p t) {x : Option Context}
    (hx : ∀ c, x = some c → CtxOk p c) {c : Constraint} {tree : Tree} (h : Postfix c.expr tree) (hd : tree.cells ≤ 5)
    (hthird : x = none → tree.usesThird = false) :
    (tree.Holds p s t x → constraintEval p s t x c = some 1) ∧ (¬ tree.Holds p s t x → constraintEval p s t x c = some 0) := by
  classical
  have := eval_postfix hs ht hx h hd hthird
  constructor
  · intro hh; rw [this, if_pos hh]
  · intro hh; rw [this, if_neg hh]

example : Postfix exExpr exTree ∧ exTree.cells ≤ 5 ∧ exTree.usesThird = false ∧
    CtxOk exPolicy.pol exS ∧ CtxOk exPolicy.pol exT ∧
    constraintEval exPolicy.pol exS exT none ⟨2#32, exExpr⟩ = some 0 ∧
    constraintEval exPolicy.pol { exS with type := 3, range := ⟨⟨2, demoSet⟩, ⟨2, demoSet⟩⟩ } exT none ⟨2#32, exExpr⟩ = some 1 ∧
    constraintEval exPolicy.pol exS { exT with user := 1 } none ⟨2#32, exExpr⟩ = some 1 :=
  ⟨exPostfix, by decide, by decide, exCtxOk _ _ _ (by decide) (by decide) (by decide) _ _,
    exCtxOk _ _ _ (by decide) (by decide) (by decide) _ _, by decide +kernel, by decide +kernel, by decide +kernel⟩

/-- C17: the stack bound in `C17_value` is exact: an expression that needs more cells than the stack has is
never satisfied. -/
theorem C17_too_deep {p : Policy} {s t : Context} (hs : CtxOk p s) (ht : CtxOk p t) {x : Option Context}
    (hx : ∀ c, x = some c → CtxOk p c) {c : Constraint} {tree : Tree} (h : Postfix c.expr tree) (hd : 5 < tree.cells)
    (hthird : x = none → tree.usesThird = false) : constraintEval p s t x c = some 0 := by
  have := loop_deep hs ht hx h hthird [] [] (by simpa using hd) (by simp)
  unfold constraintEval
  rwa [List.append_nil] at this

/-- C17: a constraint list accepted by validation consists of postfix forms of expressions that fit
the stack, and only validatetrans rules refer to a third context. -/
theorem C17_validated {fl : Flavors} {nperms : Nat} {cons : List Constraint} (h : validateConstraints fl nperms cons = true)
    {c : Constraint} (hc : c ∈ cons) :
    ∃ tree, Postfix c.expr tree ∧ tree.cells ≤ 5 ∧ (nperms ≠ 2 ^ 32 - 1 → tree.usesThird = false) := by
  by_cases hn : nperms = 2 ^ 32 - 1
  · subst hn
    obtain ⟨t, h1, h2⟩ := validated_expr_vt h hc
    exact ⟨t, h1, h2, fun hh => absurd rfl hh⟩
  · obtain ⟨t, h1, h2, h3⟩ := validated_expr h hn hc
    exact ⟨t, h1, h2, fun _ => h3⟩

example : validateConstraints exFlavors 8 [⟨2#32, exExpr⟩] = true ∧ validateConstraints exFlavors 8 [⟨2#32, exExpr.dropLast⟩] = false ∧
    validateConstraints exFlavors (2 ^ 32 - 1) [⟨0#32, [⟨5, 20, 1, word 2#64, noTypes⟩]⟩] = true := by decide +kernel

/-- C17: the expression denoted by a postfix form is unique, so the truth value in the
statements here does not depend on a choice. -/
theorem C17_unique {p : Policy} {s t : Context} {x : Option Context} {l : List CExpr} {a b : Tree} (ha : Postfix l a) (hb : Postfix l b) :
    a.Holds p s t x ↔ b.Holds p s t x := postfix_holds_unique ha hb

/-- C17 (validatetrans): for a policy whose validatetrans rules were validated, the check of a relabelling
of `t` from `o` to `n` succeeds exactly when every rule of the class holds. -/
theorem C17_transition {p : SPolicy} {o n t : Context} (ho : CtxOk p.pol o) (hn : CtxOk p.pol n) (ht : CtxOk p.pol t)
    {cls : Nat} (hc : 1 ≤ cls ∧ cls ≤ p.nClasses) {ci : ClassInfo} (hci : p.classes (cls - 1) = some ci)
    {fl : Flavors} (hv : validateConstraints fl (2 ^ 32 - 1) ci.validatetrans = true) :
    ∃ r, validateTransition p o n t cls = some (some r) ∧
      (r = true ↔ ∀ c ∈ ci.validatetrans, ∃ tree, Postfix c.expr tree ∧ tree.Holds p.pol o n (some t)) := by
  have hev : ∀ c ∈ ci.validatetrans, ∃ rc, constraintEval p.pol o n (some t) c = some rc ∧
      (rc ≠ 0 ↔ ∃ tree, Postfix c.expr tree ∧ tree.Holds p.pol o n (some t)) := by
    intro c hcm
    obtain ⟨tr, t1, t2⟩ := validated_expr_vt hv hcm
    obtain ⟨rc, r1, _, r3⟩ := eval_iff ho hn (x := some t) (by rintro c ⟨⟩; exact ht) ⟨tr, t1, t2, by simp⟩
    exact ⟨rc, r1, r3⟩
  have hl : ∀ l : List Constraint, (∀ c ∈ l, c ∈ ci.validatetrans) → ∃ r, validateTransLoop p o n t l = some r ∧
      (r = true ↔ ∀ c ∈ l, ∃ tree, Postfix c.expr tree ∧ tree.Holds p.pol o n (some t)) := by
    intro l
    induction l with
    | nil => intro _; exact ⟨true, rfl, by simp⟩
    | cons c l ih =>
      intro hm
      obtain ⟨rc, h1, h2⟩ := hev c (hm c List.mem_cons_self)
      obtain ⟨r, h3, h4⟩ := ih (fun c hc => hm c (List.mem_cons_of_mem _ hc))
      unfold validateTransLoop
      rw [h1]
      by_cases hz : rc = 0
      · refine ⟨false, by simp [hz], ?_⟩
        constructor
        · intro h; cases h
        · intro h; exact absurd hz (h2.mpr (h c List.mem_cons_self))
      · refine ⟨r, by simp [hz, h3], ?_⟩
        rw [h4]
        constructor
        · intro h d hd
          rcases List.mem_cons.mp hd with rfl | hd
          · exact h2.mp hz
          · exact h d hd
        · exact fun h d hd => h d (List.mem_cons_of_mem _ hd)
  obtain ⟨r, h1, h2⟩ := hl ci.validatetrans (fun _ h => h)
  refine ⟨r, ?_, h2⟩
  unfold validateTransition
  rw [if_neg (by omega), hci]
  simp only [h1, Option.map_some]

example : validateConstraints exFlavors (2 ^ 32 - 1) [⟨0#32, [⟨5, 20, 1, word 2#64, noTypes⟩]⟩] = true ∧
    validateTransition exPolicy exS exT { exS with type := 2 } 1 = some (some true) ∧
    validateTransition exPolicy exS exT exS 1 = some (some false) ∧ validateTransition exPolicy exS exT exS 2 = some none := by
  decide +kernel

/-! ## C18: malformed constraints -/

/-- Every operator of the postfix program finds its operands, given `d` values on the stack. -/
def Enough : Nat → List CExpr → Prop
  | _, [] => True
  | d, e :: l =>
    if e.exprType = 1 then 1 ≤ d ∧ Enough d l
    else if e.exprType = 2 ∨ e.exprType = 3 then 2 ≤ d ∧ Enough (d - 1) l
    else Enough (d + 1) l

/-- C18 refuted in general: a constraint that is no expression at all is treated as satisfied, because the error
code of the evaluator is not zero: the permission stays granted. -/
theorem C18_malformed_refuted :
    ∃ (p : SPolicy) (s t : Context) (c : Constraint), CtxOk p.pol s ∧ CtxOk p.pol t ∧
      (∀ tree, ¬ Postfix c.expr tree) ∧ constraintEval p.pol s t none c = some (-22) ∧
      ∀ allowed, consPass p s t [c] allowed = some allowed := by
  refine ⟨exPolicy, exS, exT, ⟨2#32, [⟨1, 0, 0, Ebitmap.init, noTypes⟩]⟩, exCtxOk _ _ _ (by decide) (by decide) (by decide) _ _,
    exCtxOk _ _ _ (by decide) (by decide) (by decide) _ _, ?_, by decide +kernel, ?_⟩
  · intro tree h
    have := shape_postfix h [] []
    simp [shape] at this
  · intro allowed
    unfold consPass
    split
    · rfl
    · rw [show constraintEval exPolicy.pol exS exT none ⟨2#32, [⟨1, 0, 0, Ebitmap.init, noTypes⟩]⟩ = some (-22) by decide +kernel]
      rfl

/-- C18 refuted in general: leftover operands.  Two conditions without an operator between them are
no expression; the evaluator returns the value of the first one. -/
theorem C18_leftover_refuted :
    ∃ (p : SPolicy) (s t : Context) (c : Constraint), CtxOk p.pol s ∧ CtxOk p.pol t ∧
      (∀ tree, ¬ Postfix c.expr tree) ∧ constraintEval p.pol s t none c = some 1 := by
  refine ⟨exPolicy, exS, { exT with user := 1 }, ⟨2#32, [⟨4, 1, 1, Ebitmap.init, noTypes⟩, ⟨4, 1, 2, Ebitmap.init, noTypes⟩]⟩,
    exCtxOk _ _ _ (by decide) (by decide) (by decide) _ _,
    exCtxOk _ _ _ (by decide) (by decide) (by decide) _ _, ?_, by decide +kernel⟩
  intro tree h
  have := shape_postfix h [] []
  simp [shape] at this

/-- C18 partial: a program whose operators all find their operands never produces an error code that
counts as satisfied: whatever else is wrong with it (unknown node kinds, attributes or operators, a
missing third context, stack overflow), the result is 0 or 1.  Missing for the full property:
programs with missing operands (see the refutations). -/
theorem C18_enough_partial {p : Policy} {s t : Context} {x : Option Context} {c : Constraint} (h : Enough 0 c.expr) {rc : Int}
    (hr : constraintEval p s t x c = some rc) : rc = 0 ∨ rc = 1 := by
  unfold constraintEval at hr
  suffices ∀ (l : List CExpr) (st : List Bool), Enough st.length l → loop p s t x l st = some rc → rc = 0 ∨ rc = 1 from
    this c.expr [] h hr
  intro l
  induction l with
  | nil =>
    intro st _ h
    simp only [loop, Option.some.injEq] at h
    split at h
    · exact Or.inr h.symm
    · exact Or.inl h.symm
  | cons e l ih =>
    intro st he h
    rw [loop_cons] at h
    unfold Enough at he
    by_cases h1 : e.exprType = 1
    · rw [if_pos h1] at he
      rw [if_pos (show e.exprType = NOT from h1)] at h
      cases st with
      | nil => exact absurd he.1 (by simp)
      | cons a st => exact ih ((!a) :: st) he.2 h
    · rw [if_neg h1] at he
      rw [if_neg (show ¬ e.exprType = NOT from h1)] at h
      by_cases h2 : e.exprType = 2
      · rw [if_pos (Or.inl h2)] at he
        rw [if_pos (show e.exprType = AND from h2)] at h
        match st, he, h with
        | b :: a :: st, he, h => exact ih ((a && b) :: st) he.2 h
        | [_], he, _ => exact absurd he.1 (by simp)
        | [], he, _ => exact absurd he.1 (by simp)
      · rw [if_neg (show ¬ e.exprType = AND from h2)] at h
        by_cases h3 : e.exprType = 3
        · rw [if_pos (Or.inr h3)] at he
          rw [if_pos (show e.exprType = OR from h3)] at h
          match st, he, h with
          | b :: a :: st, he, h => exact ih ((a || b) :: st) he.2 h
          | [_], he, _ => exact absurd he.1 (by simp)
          | [], he, _ => exact absurd he.1 (by simp)
        · rw [if_neg (by tauto)] at he
          rw [if_neg (show ¬ e.exprType = OR from h3)] at h
          split at h
          · split at h
            · left; simpa using h.symm
            · split at h
              · exact ih (_ :: st) he h
              · rename_i rc' hstep
                have hout : rc' = 0 := by
                  split at hstep
                  · exact attrStep_out hstep
                  · exact namesStep_out hstep
                left; rw [← hout]; simpa using h.symm
              · cases h
          · left; simpa using h.symm

/-- A node that expresses no condition: an unknown kind, an unknown combination of attribute and
operator, or a set test that is neither `==` nor `!=`. -/
def Meaningless (e : CExpr) : Prop :=
  (e.exprType ≠ 1 ∧ e.exprType ≠ 2 ∧ e.exprType ≠ 3 ∧ e.exprType ≠ 4 ∧ e.exprType ≠ 5) ∨
  (e.exprType = 4 ∧ ∀ a, ¬ Denotes e a) ∨ (e.exprType = 5 ∧ e.op ≠ 1 ∧ e.op ≠ 2)

theorem attrStep_meaningless {p : Policy} {s t : Context} {e : CExpr} (h4 : e.exprType = 4) (h : ∀ a, ¬ Denotes e a) (b : Bool) :
    attrStep p s t e ≠ .push b := by
  have hv : ∀ v w, e.op ≠ 1 → e.op ≠ 2 → valOp e.op v w ≠ .push b := by
    intro v w h1 h2 hh
    unfold valOp at hh
    rw [if_neg (show ¬ e.op = EQ from h1), if_neg (show ¬ e.op = NEQ from h2)] at hh
    cases hh
  have hm : ∀ ls : Levels, e.attr = ls.code → ∀ l1 l2, mlsOp e.op l1 l2 ≠ .push b := by
    intro ls hl l1 l2 hh
    have k : ∀ r : Rel, e.op ≠ r.code := fun r hr => h (.levels ls r) ⟨h4, hl, hr⟩
    unfold mlsOp at hh
    rw [if_neg (show ¬ e.op = EQ from k .eq), if_neg (show ¬ e.op = NEQ from k .neq), if_neg (show ¬ e.op = DOM from k .dom),
      if_neg (show ¬ e.op = DOMBY from k .domby), if_neg (show ¬ e.op = INCOMP from k .incomp)] at hh
    cases hh
  have hsame : ∀ f : Field, e.attr = f.code → e.op ≠ 1 ∧ e.op ≠ 2 := by
    intro f hf
    exact ⟨fun ho => h (.same f false) ⟨h4, hf, ho⟩, fun ho => h (.same f true) ⟨h4, hf, ho⟩⟩
  unfold attrStep
  by_cases a1 : e.attr = USER
  · rw [if_pos a1]; exact hv _ _ (hsame .user a1).1 (hsame .user a1).2
  rw [if_neg a1]
  by_cases a2 : e.attr = TYPE
  · rw [if_pos a2]; exact hv _ _ (hsame .type a2).1 (hsame .type a2).2
  rw [if_neg a2]
  by_cases a3 : e.attr = ROLE
  · rw [if_pos a3]
    intro hh
    have k : ∀ r : Rel, e.op ≠ r.code := fun r hr => h (.roles r) ⟨h4, a3, hr⟩
    unfold roleOp at hh
    dsimp only at hh
    split at hh
    · cases hh
    · rw [if_neg (show ¬ e.op = DOM from k .dom), if_neg (show ¬ e.op = DOMBY from k .domby),
        if_neg (show ¬ e.op = INCOMP from k .incomp)] at hh
      exact hv _ _ (k .eq) (k .neq) hh
  rw [if_neg a3]
  by_cases a4 : e.attr = L1L2
  · rw [if_pos a4]; exact hm .l1l2 a4 _ _
  rw [if_neg a4]
  by_cases a5 : e.attr = L1H2
  · rw [if_pos a5]; exact hm .l1h2 a5 _ _
  rw [if_neg a5]
  by_cases a6 : e.attr = H1L2
  · rw [if_pos a6]; exact hm .h1l2 a6 _ _
  rw [if_neg a6]
  by_cases a7 : e.attr = H1H2
  · rw [if_pos a7]; exact hm .h1h2 a7 _ _
  rw [if_neg a7]
  by_cases a8 : e.attr = L1H1
  · rw [if_pos a8]; exact hm .l1h1 a8 _ _
  rw [if_neg a8]
  by_cases a9 : e.attr = L2H2
  · rw [if_pos a9]; exact hm .l2h2 a9 _ _
  rw [if_neg a9]
  intro hh; cases hh

theorem namesStep_meaningless {s t : Context} {x : Option Context} {e : CExpr} (h1 : e.op ≠ 1) (h2 : e.op ≠ 2) (b : Bool) :
    namesStep s t x e ≠ .push b := by
  intro hh
  unfold namesStep at hh
  dsimp only at hh
  split at hh
  · cases hh
  · split at hh
    · cases hh
    · rw [if_neg (show ¬ e.op = EQ from h1), if_neg (show ¬ e.op = NEQ from h2)] at hh
      cases hh

/-- C18 partial: a program that contains a meaningless node, but whose operators all find their operands, is never
satisfied.  Missing for the full property: missing or surplus operands (see the refutations). -/
theorem C18_meaningless_partial {p : Policy} {s t : Context} {x : Option Context} {c : Constraint} (h : Enough 0 c.expr)
    (hm : ∃ e ∈ c.expr, Meaningless e) {rc : Int} (hr : constraintEval p s t x c = some rc) : rc = 0 := by
  unfold constraintEval at hr
  suffices ∀ (l : List CExpr) (st : List Bool), Enough st.length l → (∃ e ∈ l, Meaningless e) → loop p s t x l st = some rc → rc = 0 from
    this c.expr [] h hm hr
  intro l
  induction l with
  | nil => rintro st _ ⟨e, he, _⟩; simp at he
  | cons e l ih =>
    intro st he hbad h
    have hnext : ¬ Meaningless e → ∃ e ∈ l, Meaningless e := by
      intro hn
      obtain ⟨d, hd, hd2⟩ := hbad
      rcases List.mem_cons.mp hd with rfl | hd
      · exact absurd hd2 hn
      · exact ⟨d, hd, hd2⟩
    rw [loop_cons] at h
    unfold Enough at he
    by_cases h1 : e.exprType = 1
    · rw [if_pos h1] at he
      rw [if_pos (show e.exprType = NOT from h1)] at h
      have hn := hnext (by unfold Meaningless; omega)
      cases st with
      | nil => exact absurd he.1 (by simp)
      | cons a st => exact ih ((!a) :: st) he.2 hn h
    · rw [if_neg h1] at he
      rw [if_neg (show ¬ e.exprType = NOT from h1)] at h
      by_cases h2 : e.exprType = 2
      · rw [if_pos (Or.inl h2)] at he
        rw [if_pos (show e.exprType = AND from h2)] at h
        have hn := hnext (by unfold Meaningless; omega)
        match st, he, h with
        | b :: a :: st, he, h => exact ih ((a && b) :: st) he.2 hn h
        | [_], he, _ => exact absurd he.1 (by simp)
        | [], he, _ => exact absurd he.1 (by simp)
      · rw [if_neg (show ¬ e.exprType = AND from h2)] at h
        by_cases h3 : e.exprType = 3
        · rw [if_pos (Or.inr h3)] at he
          rw [if_pos (show e.exprType = OR from h3)] at h
          have hn := hnext (by unfold Meaningless; omega)
          match st, he, h with
          | b :: a :: st, he, h => exact ih ((a || b) :: st) he.2 hn h
          | [_], he, _ => exact absurd he.1 (by simp)
          | [], he, _ => exact absurd he.1 (by simp)
        · rw [if_neg (by tauto)] at he
          rw [if_neg (show ¬ e.exprType = OR from h3)] at h
          split at h
          · rename_i h45
            split at h
            · simpa using h.symm
            · split at h
              · rename_i b hstep
                refine ih (_ :: st) he (hnext ?_) h
                intro hmean
                rcases hmean with hk | ⟨hk, hk2⟩ | ⟨hk, ho1, ho2⟩
                · rcases h45 with h45 | h45
                  · exact hk.2.2.2.1 h45
                  · exact hk.2.2.2.2 h45
                · rw [if_pos (show e.exprType = ATTR from hk)] at hstep
                  exact attrStep_meaningless hk hk2 b hstep
                · rw [if_neg (show ¬ e.exprType = ATTR by rw [hk]; decide)] at hstep
                  exact namesStep_meaningless ho1 ho2 b hstep
              · rename_i rc' hstep
                have hout : rc' = 0 := by
                  split at hstep
                  · exact attrStep_out hstep
                  · exact namesStep_out hstep
                rw [← hout]; simpa using h.symm
              · cases h
          · simpa using h.symm

example : Meaningless ⟨7, 1, 1, Ebitmap.init, noTypes⟩ ∧ Meaningless ⟨5, 1, 3, Ebitmap.init, noTypes⟩ ∧
    constraintEval exPolicy.pol exS { exT with user := 1 } none ⟨2#32, [⟨4, 1, 1, Ebitmap.init, noTypes⟩, ⟨7, 1, 1, Ebitmap.init, noTypes⟩]⟩ = some 0 := by
  refine ⟨Or.inl (by decide), Or.inr (Or.inr (by decide)), by decide +kernel⟩

/-- C18 partial: after validation, no constraint is malformed, and the evaluator decides every
constraint with 0 or 1. Missing for the full property: policies that did not pass validation. -/
theorem C18_validated_partial {fl : Flavors} {nperms : Nat} {cons : List Constraint} (h : validateConstraints fl nperms cons = true)
    (hn : nperms ≠ 2 ^ 32 - 1) {c : Constraint} (hc : c ∈ cons) {p : Policy} {s t : Context} (hs : CtxOk p s) (ht : CtxOk p t) :
    ∃ rc, constraintEval p s t none c = some rc ∧ (rc = 0 ∨ rc = 1) ∧
      (rc ≠ 0 ↔ ∃ tree, Postfix c.expr tree ∧ tree.Holds p s t none) := by
  obtain ⟨tr, t1, t2, t3⟩ := validated_expr h hn hc
  exact eval_iff hs ht (by simp) ⟨tr, t1, t2, fun _ => t3⟩

example : Enough 0 exExpr ∧ ¬ Enough 0 [⟨1, 0, 0, Ebitmap.init, noTypes⟩] ∧ Enough 0 [⟨4, 7, 9, Ebitmap.init, noTypes⟩] ∧
    constraintEval exPolicy.pol exS exT none ⟨2#32, [⟨4, 7, 9, Ebitmap.init, noTypes⟩]⟩ = some 0 := by
  refine ⟨?_, ?_, ?_, by decide +kernel⟩ <;> simp [Enough, exExpr]

/-! ## C16: access decisions -/

/-- Every type number up to `n` has an entry in both arrays, bounds stay below `n`, and the class exists. -/
structure TypesOk (p : SPolicy) (n : Nat) : Prop where
  attr : ∀ ty, 1 ≤ ty → ty ≤ n → (p.typeAttr (ty - 1)).isSome = true
  struct : ∀ ty, 1 ≤ ty → ty ≤ n → ∃ d, p.typeStruct (ty - 1) = some d ∧ d.bounds ≤ n
  classes : ∀ cls, 1 ≤ cls → cls ≤ p.nClasses → (p.classes (cls - 1)).isSome = true

/-- No chain of type bounds returns to its start: some measure decreases from a type to its bound. -/
def BoundsAcyclic (p : SPolicy) (rank : Nat → Nat) : Prop :=
  ∀ ty, 1 ≤ ty → boundOf p ty ≠ 0 → rank (boundOf p ty) < rank ty

theorem ctxOk_bound {p : SPolicy} {R : Rules} (ok : PolicyOk p R) {s : Context} (hs : CtxOk p.pol s) {i : Nat} {d : TypeDatum}
    (hd : p.typeStruct i = some d) (hb : d.bounds ≠ 0) : CtxOk p.pol { s with type := d.bounds } :=
  ⟨hs.user, ⟨Nat.pos_of_ne_zero hb, ok.bounds _ _ hd⟩, hs.role, hs.roleDef, hs.range⟩

theorem lowerTarget_eq {p : SPolicy} {t : Context} {tgt : TypeDatum} (h : p.typeStruct (t.type - 1) = some tgt) :
    (if tgt.bounds ≠ 0 then { t with type := tgt.bounds } else t) = lowerTarget p t := by
  unfold lowerTarget boundOf
  rw [h]
  simp only [Option.map_some, Option.getD_some]
  by_cases hb : tgt.bounds = 0 <;> simp [hb]

theorem ctxOk_lower {p : SPolicy} {R : Rules} (ok : PolicyOk p R) {t : Context} (ht : CtxOk p.pol t) : CtxOk p.pol (lowerTarget p t) := by
  unfold lowerTarget
  split
  · exact ht
  · rename_i hb
    unfold boundOf at hb ⊢
    cases h : p.typeStruct (t.type - 1) with
    | none => rw [h] at hb; exact absurd rfl hb
    | some d =>
      rw [h] at hb
      simp only [Option.map_some, Option.getD_some] at hb ⊢
      exact ctxOk_bound ok ht h hb

/-- C16: whenever the computation of an access vector returns, a permission is in it exactly
when it is granted: an active allow rule covers it, every constraint on it holds, a role change is authorised, and the
bounding type of the source, if any, has it too. -/
theorem C16_allowed {p : SPolicy} {R : Rules} (ok : PolicyOk p R) : ∀ {fuel : Nat} {s t : Context},
    CtxOk p.pol s → CtxOk p.pol t → ∀ {cls : Nat} {requested : BitVec 32} {avd : Avd} {reason : BitVec 32},
    computeAv fuel p s t cls requested = some (some (avd, reason)) →
    ∀ b < 32, avd.allowed.getLsbD b = true ↔ Granted p R cls b s t := by
  intro fuel
  induction fuel with
  | zero => intro s t _ _ cls requested avd reason h; cases h
  | succ fuel ih =>
    intro s t hs ht cls requested avd reason h b hb
    have hc : ¬ (cls = 0 ∨ cls > p.nClasses) := by
      intro hc; unfold computeAv at h; rw [if_pos hc] at h; simp at h
    rcases computeAv_cases ok hs ht hc fuel requested with ⟨hn, _⟩ | ⟨a, allowed, r, lvl, src, hsrc, hrest⟩
    · rw [hn] at h; cases h
    have hbo : boundOf p s.type = src.bounds := by unfold boundOf; rw [hsrc]; rfl
    rcases hrest with ⟨hbz, heq⟩ | ⟨hbz, tgt, lo, htgt, hlo, masked, hm, heq⟩
    · rw [heq] at h
      cases h
      rw [lvl.allow b hb]
      constructor
      · rintro ⟨h1, h2, h3⟩; exact ⟨h1, h2, h3, fun hne => absurd (hbo.trans hbz) hne⟩
      · rintro ⟨h1, h2, h3, _⟩; exact ⟨h1, h2, h3⟩
    · have hlo' : lo.isSome = true := by
        cases lo with
        | some _ => rfl
        | none =>
          cases fuel with
          | zero => cases hlo
          | succ n =>
            rcases computeAv_cases ok (ctxOk_bound ok hs hsrc hbz) (t := lowerTarget p t) (ctxOk_lower ok ht) hc n r.1 with
              ⟨hn, _⟩ | ⟨a', al', r', _, _, _, hr'⟩
            · rw [lowerTarget_eq htgt, hn] at hlo; cases hlo
            · rw [lowerTarget_eq htgt] at hlo
              rcases hr' with ⟨_, he⟩ | ⟨_, _, _, _, _, m', _, he⟩
              · rw [hlo] at he; simp at he
              · rw [hlo] at he; split at he <;> simp at he
      obtain ⟨⟨lav, lr⟩, rfl⟩ := Option.isSome_iff_exists.mp hlo'
      rw [lowerTarget_eq htgt] at hlo
      have hg := ih (ctxOk_bound ok hs hsrc hbz) (ctxOk_lower ok ht) hlo b hb
      have hfin : avd.allowed.getLsbD b = true ↔ allowed.getLsbD b = true ∧ lav.allowed.getLsbD b = true := by
        have hmb : masked.getLsbD b = (!lav.allowed.getLsbD b && allowed.getLsbD b) := by
          rw [hm, BitVec.getLsbD_and, not_bit hb]
        rw [heq] at h
        split at h
        · rename_i hz
          cases h
          rw [hz] at hmb
          simp only [BitVec.getLsbD_zero] at hmb
          show allowed.getLsbD b = true ↔ _
          revert hmb
          cases lav.allowed.getLsbD b <;> cases allowed.getLsbD b <;> simp
        · cases h
          show (allowed &&& ~~~ masked).getLsbD b = true ↔ _
          rw [BitVec.getLsbD_and, not_bit hb, hmb]
          cases h1 : lav.allowed.getLsbD b <;> cases h2 : allowed.getLsbD b <;> simp
      rw [hfin, lvl.allow b hb, hg]
      constructor
      · rintro ⟨⟨h1, h2, h3⟩, h4⟩
        exact ⟨h1, h2, h3, fun _ => by rw [hbo]; exact h4⟩
      · rintro ⟨h1, h2, h3, h4⟩
        refine ⟨⟨h1, h2, h3⟩, ?_⟩
        rw [hbo] at h4
        exact h4 hbz

/-- C16: the computation returns for all contexts of a policy with complete type arrays and
acyclic type bounds; it fails only for class numbers the policy does not have. -/
theorem C16_total {p : SPolicy} {R : Rules} (ok : PolicyOk p R) {n : Nat} (tok : TypesOk p n) {rank : Nat → Nat}
    (hr : BoundsAcyclic p rank) : ∀ {fuel : Nat} {s t : Context},
    CtxOk p.pol s → CtxOk p.pol t → s.type ≤ n → t.type ≤ n → rank s.type < fuel → ∀ (cls : Nat) (requested : BitVec 32),
    ∃ res, computeAv fuel p s t cls requested = some res ∧ (res = none ↔ cls = 0 ∨ cls > p.nClasses) := by
  intro fuel
  induction fuel with
  | zero => intro s t _ _ _ _ h; omega
  | succ fuel ih =>
    intro s t hs ht hsn htn hf cls requested
    by_cases hc : cls = 0 ∨ cls > p.nClasses
    · refine ⟨none, ?_, by simp [hc]⟩
      unfold computeAv; rw [if_pos hc]
    · rcases computeAv_cases ok hs ht hc fuel requested with ⟨_, hbad⟩ | ⟨a, allowed, r, lvl, src, hsrc, hrest⟩
      · exfalso
        rcases hbad with h | h | h | h | ⟨src, h, hb, h'⟩
        · have := tok.attr s.type hs.type.1 hsn; rw [h] at this; cases this
        · have := tok.attr t.type ht.type.1 htn; rw [h] at this; cases this
        · have := tok.classes cls (by omega) (by omega); rw [h] at this; cases this
        · obtain ⟨d, hd, _⟩ := tok.struct s.type hs.type.1 hsn; rw [h] at hd; cases hd
        · rcases h' with h' | ⟨tgt, rq, h', h''⟩
          · obtain ⟨d, hd, _⟩ := tok.struct t.type ht.type.1 htn; rw [h'] at hd; cases hd
          · obtain ⟨d, hd, hdb⟩ := tok.struct s.type hs.type.1 hsn
            rw [h] at hd; cases hd
            have hbo : boundOf p s.type = src.bounds := by unfold boundOf; rw [h]; rfl
            have hrk := hr s.type hs.type.1 (by rw [hbo]; exact hb)
            rw [hbo] at hrk
            rw [lowerTarget_eq h'] at h''
            have hlt : (lowerTarget p t).type ≤ n := by
              rw [← lowerTarget_eq h']
              split
              · obtain ⟨d, hd, hdb⟩ := tok.struct t.type ht.type.1 htn
                rw [h'] at hd; cases hd; exact hdb
              · exact htn
            obtain ⟨res, hres, _⟩ := ih (ctxOk_bound ok hs h hb) (ctxOk_lower ok ht) hdb hlt
              (show rank src.bounds < fuel by omega) cls rq
            rw [hres] at h''; cases h''
      · rcases hrest with ⟨_, heq⟩ | ⟨_, _, _, _, _, m, _, heq⟩
        · exact ⟨_, heq, by simp [hc]⟩
        · split at heq
          · exact ⟨_, heq, by simp [hc]⟩
          · exact ⟨_, heq, by simp [hc]⟩

/-- C16 through SIDs: an unknown SID is an error, otherwise the decision is the one of the two
contexts. -/
theorem C16_by_sid {p : SPolicy} {st : Sidtab.Sidtab} {ssid tsid : Nat} (fuel cls : Nat) (requested : BitVec 32) :
    (∀ s t, Sidtab.search st ssid = some s → Sidtab.search st tsid = some t →
      computeAvSid fuel p st ssid tsid cls requested = computeAv fuel p s t cls requested) ∧
    (Sidtab.search st ssid = none ∨ Sidtab.search st tsid = none →
      computeAvSid fuel p st ssid tsid cls requested = some none) := by
  constructor
  · intro s t h1 h2; unfold computeAvSid; rw [h1, h2]
  · intro h
    unfold computeAvSid
    cases h1 : Sidtab.search st ssid with
    | none => rfl
    | some s =>
      rcases h with h | h
      · rw [h1] at h; cases h
      · rw [h]

theorem exTypesOk : TypesOk exPolicy 3 where
  attr := by
    intro ty h1 h3
    have : ty = 1 ∨ ty = 2 ∨ ty = 3 := by omega
    rcases this with rfl | rfl | rfl <;> rfl
  struct := by
    intro ty h1 h3
    have : ty = 1 ∨ ty = 2 ∨ ty = 3 := by omega
    rcases this with rfl | rfl | rfl
    · exact ⟨_, rfl, by decide⟩
    · exact ⟨_, rfl, by decide⟩
    · exact ⟨_, rfl, by decide⟩
  classes := by
    intro cls h1 h2
    have : cls = 1 := by have : cls ≤ 1 := h2; omega
    subst this; rfl

theorem exAcyclic : BoundsAcyclic exPolicy (fun ty => if ty = 1 then 1 else 0) := by
  intro ty h1 h
  by_cases h0 : ty - 1 = 0
  · obtain rfl : ty = 1 := by omega
    decide
  · exfalso
    apply h
    unfold boundOf
    show Option.getD (Option.map _ (if ty - 1 = 0 then some _ else if ty - 1 = 1 then some _ else if ty - 1 = 2 then some _ else none)) 0 = 0
    rw [if_neg h0]
    split
    · rfl
    · split <;> rfl

/-- The example: of the eight permissions, 0, 2 and 6 are granted; 1 fails the constraint, 3 is removed
by the bound (a rule for the bounded type only), 4 has no rule, 5 is in a disabled conditional branch. -/
example : PolicyOk exPolicy exRules ∧ TypesOk exPolicy 3 ∧ BoundsAcyclic exPolicy (fun ty => if ty = 1 then 1 else 0) ∧
    CtxOk exPolicy.pol exS ∧ CtxOk exPolicy.pol exT ∧
    computeAv 2 exPolicy exS exT 1 255#32 = some (some (⟨69#32, 1#32, ~~~ 16#32⟩, 11#32)) ∧
    computeAv 2 exPolicy exS { exT with role := 3 } 1 5#32 = some (some (⟨65#32, 1#32, ~~~ 16#32⟩, 12#32)) ∧
    computeAv 2 exPolicy exS { exT with role := 2 } 1 5#32 = some (some (⟨69#32, 1#32, ~~~ 16#32⟩, 8#32)) ∧
    computeAv 2 exPolicy exS exT 2 255#32 = some none :=
  ⟨exPolicyOk, exTypesOk, exAcyclic, exCtxOk _ _ _ (by decide) (by decide) (by decide) _ _,
    exCtxOk _ _ _ (by decide) (by decide) (by decide) _ _, by decide +kernel, by decide +kernel, by decide +kernel, by decide +kernel⟩

/-- Permission 0 is granted in the example in the sense of the specification. -/
example : Granted exPolicy exRules 1 0 exS exT :=
  (C16_allowed exPolicyOk (fuel := 2) (requested := 255#32) (exCtxOk _ _ _ (by decide) (by decide) (by decide) _ _)
    (exCtxOk _ _ _ (by decide) (by decide) (by decide) _ _)
    (show computeAv 2 exPolicy exS exT 1 255#32 = some (some (⟨69#32, 1#32, ~~~ 16#32⟩, 11#32)) by decide +kernel) 0 (by decide)).mp
    (by decide)

/-- A policy in which the types 1 and 2 bound each other. -/
def cyclicPolicy : SPolicy :=
  { exPolicy with typeStruct := fun i => if i = 0 then some ⟨1, 0, 2⟩ else if i = 1 then some ⟨2, 0, 1⟩ else
      if i = 2 then some ⟨3, 0, 0⟩ else none }

/-- C16 refuted for cyclic bounds: the computation of an access vector never returns if two types bound each other
(no check of a binary policy excludes this). -/
theorem C16_cyclic_bounds_refuted : PolicyOk cyclicPolicy exRules ∧ CtxOk cyclicPolicy.pol exS ∧ CtxOk cyclicPolicy.pol exT ∧
    ∀ fuel requested, computeAv fuel cyclicPolicy exS exT 1 requested = none := by
  have ok : PolicyOk cyclicPolicy exRules := by
    refine ⟨exPolicyOk.te, exPolicyOk.cond, exPolicyOk.attr, exPolicyOk.cons, ?_⟩
    intro i d h
    simp only [cyclicPolicy] at h
    split at h
    · cases h; decide
    · split at h
      · cases h; decide
      · split at h
        · cases h; decide
        · cases h
  refine ⟨ok, exCtxOk _ _ _ (by decide) (by decide) (by decide) _ _, exCtxOk _ _ _ (by decide) (by decide) (by decide) _ _, ?_⟩
  suffices ∀ fuel requested, computeAv fuel cyclicPolicy exS exT 1 requested = none ∧
      computeAv fuel cyclicPolicy { exS with type := 2 } { exT with type := 1 } 1 requested = none from
    fun f r => (this f r).1
  intro fuel
  induction fuel with
  | zero => intro r; exact ⟨rfl, rfl⟩
  | succ fuel ih =>
    intro requested
    have hS : CtxOk cyclicPolicy.pol exS := exCtxOk _ _ _ (by decide) (by decide) (by decide) _ _
    have hT : CtxOk cyclicPolicy.pol exT := exCtxOk _ _ _ (by decide) (by decide) (by decide) _ _
    have hS' : CtxOk cyclicPolicy.pol { exS with type := 2 } := exCtxOk _ _ _ (by decide) (by decide) (by decide) _ _
    have hT' : CtxOk cyclicPolicy.pol { exT with type := 1 } := exCtxOk _ _ _ (by decide) (by decide) (by decide) _ _
    constructor
    · rcases computeAv_cases ok hS hT (by decide : ¬ (1 = 0 ∨ 1 > cyclicPolicy.nClasses)) fuel requested with
        ⟨h, _⟩ | ⟨a, al, r, _, src, hsrc, hrest⟩
      · exact h
      · have : src = ⟨1, 0, 2⟩ := by
          have h2 : cyclicPolicy.typeStruct (exS.type - 1) = some ⟨1, 0, 2⟩ := rfl
          rw [h2] at hsrc; exact (Option.some.inj hsrc).symm
        subst this
        rcases hrest with ⟨hz, _⟩ | ⟨_, tgt, lo, htgt, hlo, _⟩
        · exact absurd hz (by decide)
        · have : tgt = ⟨2, 0, 1⟩ := by
            have h2 : cyclicPolicy.typeStruct (exT.type - 1) = some ⟨2, 0, 1⟩ := rfl
            rw [h2] at htgt; exact (Option.some.inj htgt).symm
          subst this
          have := (ih r.1).2
          rw [show (if (TypeDatum.mk 2 0 1).bounds ≠ 0 then { exT with type := (TypeDatum.mk 2 0 1).bounds } else exT) = { exT with type := 1 } from rfl,
            this] at hlo
          cases hlo
    · rcases computeAv_cases ok hS' hT' (by decide : ¬ (1 = 0 ∨ 1 > cyclicPolicy.nClasses)) fuel requested with
        ⟨h, _⟩ | ⟨a, al, r, _, src, hsrc, hrest⟩
      · exact h
      · have : src = ⟨2, 0, 1⟩ := by
          have h2 : cyclicPolicy.typeStruct (2 - 1) = some ⟨2, 0, 1⟩ := rfl
          rw [h2] at hsrc; exact (Option.some.inj hsrc).symm
        subst this
        rcases hrest with ⟨hz, _⟩ | ⟨_, tgt, lo, htgt, hlo, _⟩
        · exact absurd hz (by decide)
        · have : tgt = ⟨1, 0, 2⟩ := by
            have h2 : cyclicPolicy.typeStruct (1 - 1) = some ⟨1, 0, 2⟩ := rfl
            rw [h2] at htgt; exact (Option.some.inj htgt).symm
          subst this
          have := (ih r.1).1
          rw [show computeAv fuel cyclicPolicy { exS with type := (TypeDatum.mk 2 0 1).bounds }
            (if (TypeDatum.mk 1 0 2).bounds ≠ 0 then { exT with type := (TypeDatum.mk 1 0 2).bounds } else { exT with type := 1 }) 1 r.1 =
            computeAv fuel cyclicPolicy exS exT 1 r.1 from rfl,
            this] at hlo
          cases hlo

/-! ## C50: audit vectors -/

/-- What the result of one call says, with the constraint, role and bound checks of the call itself. -/
theorem computeAv_result {p : SPolicy} {R : Rules} (ok : PolicyOk p R) {fuel : Nat} {s t : Context}
    (hs : CtxOk p.pol s) (ht : CtxOk p.pol t) {cls : Nat} {requested : BitVec 32} {avd : Avd} {reason : BitVec 32}
    (h : computeAv fuel p s t cls requested = some (some (avd, reason))) :
    ∃ a allowed r, Level1 p R s t cls requested a allowed r ∧ avd.auditallow = a.auditallow ∧ avd.auditdeny = a.auditdeny ∧
      ((reason = r.2 ∧ ∀ b < 32, allowed.getLsbD b = avd.allowed.getLsbD b) ∨
       (reason = r.2 ||| REASON_BOUNDS ∧ ∃ b < 32, allowed.getLsbD b = true ∧ avd.allowed.getLsbD b = false)) := by
  cases fuel with
  | zero => cases h
  | succ fuel =>
    have hc : ¬ (cls = 0 ∨ cls > p.nClasses) := by
      intro hc; unfold computeAv at h; rw [if_pos hc] at h; simp at h
    rcases computeAv_cases ok hs ht hc fuel requested with ⟨hn, _⟩ | ⟨a, allowed, r, lvl, src, hsrc, hrest⟩
    · rw [hn] at h; cases h
    refine ⟨a, allowed, r, lvl, ?_⟩
    rcases hrest with ⟨_, heq⟩ | ⟨_, tgt, lo, _, _, masked, hm, heq⟩
    · rw [heq] at h; cases h; exact ⟨rfl, rfl, Or.inl ⟨rfl, fun _ _ => rfl⟩⟩
    · rw [heq] at h
      split at h
      · cases h; exact ⟨rfl, rfl, Or.inl ⟨rfl, fun _ _ => rfl⟩⟩
      · rename_i hz
        cases h
        refine ⟨rfl, rfl, Or.inr ⟨rfl, ?_⟩⟩
        have : ∃ b < 32, masked.getLsbD b = true := by
          by_contra hc
          push Not at hc
          apply hz
          apply BitVec.eq_of_getLsbD_eq
          intro i hi
          have := hc i hi
          rw [BitVec.getLsbD_zero]; simpa using this
        obtain ⟨b, hb, hmb⟩ := this
        refine ⟨b, hb, ?_, ?_⟩
        · rw [hm, BitVec.getLsbD_and, Bool.and_eq_true] at hmb; exact hmb.2
        · show (allowed &&& ~~~ masked).getLsbD b = false
          rw [BitVec.getLsbD_and, not_bit hb, hmb, Bool.not_true, Bool.and_false]

/-- C50: an access is reported when granted exactly if an active auditallow rule covers it, and not reported
when denied exactly if an active dontaudit rule covers it (a dontaudit rule is stored as the
complement of its permissions). -/
theorem C50_audit {p : SPolicy} {R : Rules} (ok : PolicyOk p R) {fuel : Nat} {s t : Context}
    (hs : CtxOk p.pol s) (ht : CtxOk p.pol t) {cls : Nat} {requested : BitVec 32} {avd : Avd} {reason : BitVec 32}
    (h : computeAv fuel p s t cls requested = some (some (avd, reason))) {b : Nat} (hb : b < 32) :
    (avd.auditallow.getLsbD b = true ↔ ∃ r, Applies p R Avtab.AUDITALLOW s t cls r ∧ r.datum.data.getLsbD b = true) ∧
    (avd.auditdeny.getLsbD b = false ↔ ∃ r, Applies p R Avtab.AUDITDENY s t cls r ∧ r.datum.data.getLsbD b = false) := by
  obtain ⟨a, allowed, r, lvl, e1, e2, _⟩ := computeAv_result ok hs ht h
  rw [e1, e2]
  exact ⟨lvl.auditallow b hb, lvl.auditdeny b hb⟩

/-! ## C51: reasons of a denial -/

open Classical in
theorem flags (P Q S : Prop) (v : BitVec 32)
    (hv : v = (if P then REASON_TE else 0#32) ||| ((if Q then REASON_CONS else 0#32) ||| (if S then REASON_RBAC else 0#32))) :
    ((v &&& REASON_TE ≠ 0#32 ↔ P) ∧ (v &&& REASON_CONS ≠ 0#32 ↔ Q) ∧ (v &&& REASON_RBAC ≠ 0#32 ↔ S) ∧ v &&& REASON_BOUNDS = 0#32) ∧
    (((v ||| REASON_BOUNDS) &&& REASON_TE ≠ 0#32 ↔ P) ∧ ((v ||| REASON_BOUNDS) &&& REASON_CONS ≠ 0#32 ↔ Q) ∧
      ((v ||| REASON_BOUNDS) &&& REASON_RBAC ≠ 0#32 ↔ S) ∧ (v ||| REASON_BOUNDS) &&& REASON_BOUNDS ≠ 0#32) := by
  subst hv
  by_cases hp : P <;> by_cases hq : Q <;> by_cases hs : S <;>
    simp only [hp, hq, hs, if_true, if_false, iff_true, iff_false] <;> decide

/-- C51 partial: the reasons reported with a decision.  Type enforcement, constraints and role rules are named exactly
when a requested permission fails there (and passed the earlier checks); bounds are named exactly when
some permission, requested or not, is removed because of them.  Missing for the full property: the bounds
reason for the requested permissions only, see the refutation. -/
theorem C51_reasons_partial {p : SPolicy} {R : Rules} (ok : PolicyOk p R) {fuel : Nat} {s t : Context}
    (hs : CtxOk p.pol s) (ht : CtxOk p.pol t) {cls : Nat} {requested : BitVec 32} {avd : Avd} {reason : BitVec 32}
    (h : computeAv fuel p s t cls requested = some (some (avd, reason))) :
    (reason &&& REASON_TE ≠ 0#32 ↔ ∃ b < 32, requested.getLsbD b = true ∧ ¬ TeAllows p R s t cls b) ∧
    (reason &&& REASON_CONS ≠ 0#32 ↔
      ∃ b < 32, requested.getLsbD b = true ∧ TeAllows p R s t cls b ∧ ¬ ConstraintsOk p s t cls b) ∧
    (reason &&& REASON_RBAC ≠ 0#32 ↔
      ∃ b < 32, requested.getLsbD b = true ∧ TeAllows p R s t cls b ∧ ConstraintsOk p s t cls b ∧ ¬ RoleOk p s t cls b) ∧
    (reason &&& REASON_BOUNDS ≠ 0#32 ↔
      ∃ b < 32, TeAllows p R s t cls b ∧ ConstraintsOk p s t cls b ∧ RoleOk p s t cls b ∧ ¬ Granted p R cls b s t) := by
  obtain ⟨a, allowed, r, lvl, _, _, hr⟩ := computeAv_result ok hs ht h
  have hg := C16_allowed ok hs ht h
  obtain ⟨f1, f2⟩ := flags _ _ _ _ lvl.reason
  rcases hr with ⟨hr, hall⟩ | ⟨hr, b, hb, h1, h2⟩
  · rw [hr]
    refine ⟨f1.1, f1.2.1, f1.2.2.1, ?_⟩
    constructor
    · intro hh; exact absurd f1.2.2.2 hh
    · rintro ⟨b, hb, h1, h2, h3, h4⟩
      exfalso; apply h4
      rw [← hg b hb, ← hall b hb, lvl.allow b hb]
      exact ⟨h1, h2, h3⟩
  · rw [hr]
    refine ⟨f2.1, f2.2.1, f2.2.2.1, ?_⟩
    constructor
    · intro _
      obtain ⟨c1, c2, c3⟩ := (lvl.allow b hb).mp h1
      refine ⟨b, hb, c1, c2, c3, ?_⟩
      rw [← hg b hb, h2]; simp
    · intro _; exact f2.2.2.2

/-- C51: if no reason is reported then every requested permission is granted. -/
theorem C51_no_reason {p : SPolicy} {R : Rules} (ok : PolicyOk p R) {fuel : Nat} {s t : Context}
    (hs : CtxOk p.pol s) (ht : CtxOk p.pol t) {cls : Nat} {requested : BitVec 32} {avd : Avd}
    (h : computeAv fuel p s t cls requested = some (some (avd, 0#32))) {b : Nat} (hb : b < 32) (hr : requested.getLsbD b = true) :
    Granted p R cls b s t := by
  obtain ⟨h1, h2, h3, h4⟩ := C51_reasons_partial ok hs ht h
  by_contra hc
  have k1 : TeAllows p R s t cls b := by by_contra hk; exact (h1.mpr ⟨b, hb, hr, hk⟩) rfl
  have k2 : ConstraintsOk p s t cls b := by by_contra hk; exact (h2.mpr ⟨b, hb, hr, k1, hk⟩) rfl
  have k3 : RoleOk p s t cls b := by by_contra hk; exact (h3.mpr ⟨b, hb, hr, k1, k2, hk⟩) rfl
  exact (h4.mpr ⟨b, hb, k1, k2, k3, hc⟩) rfl

example : computeAv 2 exPolicy { exS with type := 3 } exT 1 5#32 = some (some (⟨69#32, 0#32, ~~~ 16#32⟩, 0#32)) := by
  decide +kernel

/-- C51 refuted: a reason can be reported although every requested permission is granted: bounds are reported
when they remove permissions nobody asked for. -/
theorem C51_bounds_refuted : ∃ (p : SPolicy) (R : Rules) (s t : Context) (avd : Avd) (reason : BitVec 32),
    PolicyOk p R ∧ CtxOk p.pol s ∧ CtxOk p.pol t ∧ computeAv 2 p s t 1 1#32 = some (some (avd, reason)) ∧
    Granted p R 1 0 s t ∧ reason = REASON_BOUNDS := by
  have hS : CtxOk exPolicy.pol exS := exCtxOk _ _ _ (by decide) (by decide) (by decide) _ _
  have hT : CtxOk exPolicy.pol exT := exCtxOk _ _ _ (by decide) (by decide) (by decide) _ _
  have h : computeAv 2 exPolicy exS exT 1 1#32 = some (some (⟨69#32, 1#32, ~~~ 16#32⟩, 8#32)) := by decide +kernel
  exact ⟨exPolicy, exRules, exS, exT, _, _, exPolicyOk, hS, hT, h,
    (C16_allowed exPolicyOk hS hT h 0 (by decide)).mp (by decide), rfl⟩

end Verif.Services
