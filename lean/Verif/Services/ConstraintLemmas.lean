import Verif.Services.ConstraintSpec
import Verif.Mls.Props
import Verif.Ebitmap.Props

namespace Verif.Services
open Verif.Policy Verif.Mls

open Classical in
/-- Truth value of a condition as a Boolean. -/
noncomputable def tv (P : Prop) : Bool := decide P

open Classical in
theorem tv_eq {P : Prop} {b : Bool} (h : b = true ↔ P) : b = tv P := by
  unfold tv
  cases b
  · symm; rw [decide_eq_false_iff_not]; intro hp; simpa using h.mpr hp
  · symm; rw [decide_eq_true_eq]; exact h.mp rfl

theorem tv_true {P : Prop} : tv P = true ↔ P := by unfold tv; simp

theorem pred32_eq {v : Nat} (h : 1 ≤ v ∧ v < 2 ^ 32) : pred32 v = v - 1 := by
  unfold pred32
  omega

theorem levels_wf {p : Policy} {s t : Context} (hs : CtxOk p s) (ht : CtxOk p t) (ls : Levels) :
    WFLevel (ls.fst s t) ∧ WFLevel (ls.snd s t) := by
  cases ls <;> simp only [Levels.fst, Levels.snd] <;> exact ⟨by first | exact hs.range.1 | exact hs.range.2 | exact ht.range.1 | exact ht.range.2, by first | exact hs.range.1 | exact hs.range.2 | exact ht.range.1 | exact ht.range.2⟩

theorem mlsOp_spec {l1 l2 : Level} (h1 : WFLevel l1) (h2 : WFLevel l2) (r : Rel) :
    mlsOp r.code l1 l2 = .push (match r with
      | .eq => tv (Same l1 l2)
      | .neq => tv (¬ Same l1 l2)
      | .dom => tv (Dominates l1 l2)
      | .domby => tv (Dominates l2 l1)
      | .incomp => tv (¬ Dominates l1 l2 ∧ ¬ Dominates l2 l1)) := by
  cases r <;> simp only [mlsOp, Rel.code, EQ, NEQ, DOM, DOMBY, INCOMP, reduceIte, Nat.reduceEqDiff, Step.push.injEq]
  · exact tv_eq (levelEq_iff h1 h2)
  · exact tv_eq (by rw [Bool.not_eq_true', ← Bool.not_eq_true, levelEq_iff h1 h2])
  · exact tv_eq (levelDom_iff h1 h2)
  · exact tv_eq (levelDom_iff h2 h1)
  · apply tv_eq
    unfold levelIncomp
    rw [Bool.and_eq_true, Bool.not_eq_true', Bool.not_eq_true', ← Bool.not_eq_true, ← Bool.not_eq_true,
      levelDom_iff h1 h2, levelDom_iff h2 h1]
    exact and_comm

theorem valOp_spec (neg : Bool) (a b : Nat) :
    valOp (if neg then 2 else 1) a b = .push (tv ((a = b) ↔ neg = false)) := by
  cases neg <;> simp only [valOp, EQ, NEQ, reduceIte, Nat.reduceEqDiff, Step.push.injEq, Bool.false_eq_true] <;> apply tv_eq
  · simp
  · simp

theorem roleOp_spec {p : Policy} {s t : Context} (hs : CtxOk p s) (ht : CtxOk p t) (r : Rel) :
    roleOp p r.code s.role t.role = .push (tv ((Atom.roles r).Holds p s t none)) := by
  obtain ⟨ds, hds⟩ := hs.roleDef
  obtain ⟨dt, hdt⟩ := ht.roleDef
  have h1 : roleIndexOk p s.role = true := by unfold roleIndexOk; exact decide_eq_true ⟨hs.role.1, hs.role.2.1⟩
  have h2 : roleIndexOk p t.role = true := by unfold roleIndexOk; exact decide_eq_true ⟨ht.role.1, ht.role.2.1⟩
  have hd1 : RoleDom p s.role t.role ↔ Ebitmap.getBit ds.dominates (t.role - 1) = true := by
    unfold RoleDom; simp [hds]
  have hd2 : RoleDom p t.role s.role ↔ Ebitmap.getBit dt.dominates (s.role - 1) = true := by
    unfold RoleDom; simp [hdt]
  cases r <;> simp only [roleOp, Rel.code, EQ, NEQ, DOM, DOMBY, INCOMP, h1, h2, hds, hdt, reduceIte, Nat.reduceEqDiff,
    Bool.and_self, Bool.not_true, Bool.false_eq_true, Atom.Holds]
  · have := valOp_spec false s.role t.role
    simpa using this
  · have := valOp_spec true s.role t.role
    simpa using this
  · congr 1; exact tv_eq hd1.symm
  · congr 1; exact tv_eq hd2.symm
  · by_cases h : Ebitmap.getBit ds.dominates (t.role - 1) = true
    · rw [if_pos h]; congr 1; apply tv_eq; simp [hd1, h]
    · rw [if_neg h]; congr 1; apply tv_eq; rw [hd1, hd2]; simp [h]

theorem attr_step {p : Policy} {s t : Context} (hs : CtxOk p s) (ht : CtxOk p t) (x : Option Context) {e : CExpr} {a : Atom}
    (h : Denotes e a) (ht4 : e.exprType = 4) : attrStep p s t e = .push (tv (a.Holds p s t x)) := by
  cases a with
  | same f neg =>
    obtain ⟨_, h2, h3⟩ := h
    cases f
    · simp only [attrStep, h2, h3, Field.code, USER, reduceIte, valOp_spec]; rfl
    · simp only [attrStep, h2, h3, Field.code, USER, TYPE, ROLE, reduceIte, Nat.reduceEqDiff]
      cases neg
      · have := roleOp_spec hs ht .eq
        simp only [Rel.code, Atom.Holds] at this
        simp only [Bool.false_eq_true, if_false, this, Atom.Holds, Field.get, iff_true]
      · have := roleOp_spec hs ht .neq
        simp only [Rel.code, Atom.Holds] at this
        simp only [if_true, this, Atom.Holds, Field.get, Bool.true_eq_false, iff_false, ne_eq]
    · simp only [attrStep, h2, h3, Field.code, USER, TYPE, reduceIte, valOp_spec, Nat.reduceEqDiff]; rfl
  | roles r =>
    obtain ⟨_, h2, h3⟩ := h
    simp only [attrStep, h2, h3, USER, TYPE, ROLE, reduceIte, Nat.reduceEqDiff]
    rw [roleOp_spec hs ht r]
    cases r <;> rfl
  | levels ls r =>
    obtain ⟨_, h2, h3⟩ := h
    obtain ⟨w1, w2⟩ := levels_wf hs ht ls
    have := mlsOp_spec w1 w2 r
    cases ls <;> simp only [attrStep, h2, h3, Levels.code, USER, TYPE, ROLE, L1L2, L1H2, H1L2, H1H2, L1H1, L2H2, reduceIte, Nat.reduceEqDiff] <;>
      simp only [Levels.fst, Levels.snd] at this <;> rw [this] <;> cases r <;> rfl
  | names w f neg set => have h5 := h.1; rw [ht4] at h5; exact absurd h5 (by decide)

theorem band_code (f : Field) (w : Who) :
    band (f.code + w.code) TARGET = decide (w = .tgt) ∧ band (f.code + w.code) XTARGET = decide (w = .third) ∧
    band (f.code + w.code) USER = decide (f = .user) ∧ band (f.code + w.code) ROLE = decide (f = .role) ∧
    band (f.code + w.code) TYPE = decide (f = .type) := by
  cases f <;> cases w <;> decide

theorem names_step {p : Policy} {s t : Context} (hs : CtxOk p s) (ht : CtxOk p t) {x : Option Context}
    (hx : ∀ c, x = some c → CtxOk p c) {e : CExpr} {a : Atom}
    (h : Denotes e a) (ht5 : e.exprType = 5) (hthird : x = none → (Tree.atom a).usesThird = false) :
    namesStep s t x e = .push (tv (a.Holds p s t x)) := by
  cases a with
  | same f neg => have h5 := h.1; rw [ht5] at h5; exact absurd h5 (by decide)
  | roles r => have h5 := h.1; rw [ht5] at h5; exact absurd h5 (by decide)
  | levels ls r => have h5 := h.1; rw [ht5] at h5; exact absurd h5 (by decide)
  | names w f neg set =>
    obtain ⟨_, h2, h3, h4⟩ := h
    obtain ⟨b1, b2, b3, b4, b5⟩ := band_code f w
    have hctx : ∃ c, w.pick s t x = some c ∧ CtxOk p c := by
      cases w with
      | src => exact ⟨s, rfl, hs⟩
      | tgt => exact ⟨t, rfl, ht⟩
      | third =>
        cases x with
        | none => simp [Tree.usesThird] at hthird
        | some c => exact ⟨c, rfl, hx c rfl⟩
    obtain ⟨c, hc, hok⟩ := hctx
    have hsel : (if band e.attr TARGET then some t else if band e.attr XTARGET then x else some s) = some c := by
      rw [h2, b1, b2]
      cases w <;> simpa [Who.pick] using hc
    have hval : (if band e.attr USER then some c.user else if band e.attr ROLE then some c.role
        else if band e.attr TYPE then some c.type else none) = some (f.get c) := by
      rw [h2, b3, b4, b5]
      cases f <;> simp [Field.get]
    have hrange : 1 ≤ f.get c ∧ f.get c < 2 ^ 32 := by
      cases f
      · exact hok.user
      · exact ⟨hok.role.1, hok.role.2.2⟩
      · exact hok.type
    unfold namesStep
    simp only [hsel, hval, pred32_eq hrange, h3, h4]
    have hH : (Atom.names w f neg set).Holds p s t x ↔ ((Ebitmap.getBit set (f.get c - 1) = true) ↔ neg = false) := by
      simp only [Atom.Holds]
      constructor
      · rintro ⟨c', h1, h2⟩
        rw [hc] at h1; cases h1; exact h2
      · intro h; exact ⟨c, hc, h⟩
    cases neg
    · simp only [EQ, NEQ, Bool.false_eq_true, if_false, if_true, Step.push.injEq]
      exact tv_eq (by rw [hH]; simp)
    · simp only [EQ, NEQ, if_true, Nat.reduceEqDiff, if_false, Step.push.injEq]
      exact tv_eq (by rw [hH]; simp)

theorem denotes_type {e : CExpr} {a : Atom} (h : Denotes e a) : e.exprType = 4 ∨ e.exprType = 5 := by
  cases a <;> simp only [Denotes] at h <;> tauto

theorem loop_cons (p : Policy) (s t : Context) (x : Option Context) (e : CExpr) (l : List CExpr) (st : List Bool) :
    loop p s t x (e :: l) st =
    if e.exprType = NOT then
      match st with
      | a :: st => loop p s t x l ((!a) :: st)
      | _ => some EINVAL
    else if e.exprType = AND then
      match st with
      | b :: a :: st => loop p s t x l ((a && b) :: st)
      | _ => some EINVAL
    else if e.exprType = OR then
      match st with
      | b :: a :: st => loop p s t x l ((a || b) :: st)
      | _ => some EINVAL
    else if e.exprType = ATTR ∨ e.exprType = NAMES then
      if st.length = MAXDEPTH then some 0
      else match (if e.exprType = ATTR then attrStep p s t e else namesStep s t x e) with
        | .push b => loop p s t x l (b :: st)
        | .out rc => some rc
        | .ub => none
    else some 0 := by
  rw [loop.eq_def]
  rfl

/-- Running the postfix notation of a tree pushes its truth value. -/
theorem loop_postfix {p : Policy} {s t : Context} (hs : CtxOk p s) (ht : CtxOk p t) {x : Option Context}
    (hx : ∀ c, x = some c → CtxOk p c) {l : List CExpr} {tr : Tree} (h : Postfix l tr)
    (hthird : x = none → tr.usesThird = false) :
    ∀ (rest : List CExpr) (st : List Bool), tr.cells + st.length ≤ 5 →
      loop p s t x (l ++ rest) st = loop p s t x rest (tv (tr.Holds p s t x) :: st) := by
  induction h with
  | atom hd =>
    rename_i e a
    intro rest st hst
    simp only [Tree.cells] at hst
    have hlen : ¬ st.length = MAXDEPTH := by unfold MAXDEPTH; omega
    rw [List.singleton_append]
    rw [loop_cons]
    rcases denotes_type hd with h4 | h5
    · simp only [h4, NOT, AND, OR, ATTR, NAMES, Nat.reduceEqDiff, if_false, true_or, if_true, if_neg hlen,
        attr_step hs ht x hd h4]
      rfl
    · simp only [h5, NOT, AND, OR, ATTR, NAMES, Nat.reduceEqDiff, if_false, or_true, if_true, if_neg hlen,
        names_step hs ht hx hd h5 hthird]
      rfl
  | not h he ih =>
    rename_i l tr e
    intro rest st hst
    rw [List.append_assoc, ih (by simpa [Tree.usesThird] using hthird) _ st hst, List.singleton_append, loop_cons]
    simp only [he, NOT, if_true]
    congr 2
    apply tv_eq
    rw [Bool.not_eq_true', ← Bool.not_eq_true, tv_true]; rfl
  | and h1 h2 he ih1 ih2 =>
    rename_i l1 t1 l2 t2 e
    intro rest st hst
    simp only [Tree.cells] at hst
    simp only [Tree.usesThird, Bool.or_eq_false_iff] at hthird
    rw [List.append_assoc, List.append_assoc, ih1 (fun h => (hthird h).1) _ st (by omega),
      ih2 (fun h => (hthird h).2) _ _ (by simp only [List.length_cons]; omega), List.singleton_append, loop_cons]
    simp only [he, NOT, AND, if_true, Nat.reduceEqDiff, if_false]
    congr 2
    apply tv_eq
    rw [Bool.and_eq_true, tv_true, tv_true]; rfl
  | or h1 h2 he ih1 ih2 =>
    rename_i l1 t1 l2 t2 e
    intro rest st hst
    simp only [Tree.cells] at hst
    simp only [Tree.usesThird, Bool.or_eq_false_iff] at hthird
    rw [List.append_assoc, List.append_assoc, ih1 (fun h => (hthird h).1) _ st (by omega),
      ih2 (fun h => (hthird h).2) _ _ (by simp only [List.length_cons]; omega), List.singleton_append, loop_cons]
    simp only [he, NOT, AND, OR, if_true, Nat.reduceEqDiff, if_false]
    congr 2
    apply tv_eq
    rw [Bool.or_eq_true, tv_true, tv_true]; rfl

/-! ## Validated expressions are postfix notations -/

/-- A sequence of complete expressions, the last one first. -/
inductive Forest : List CExpr → List Tree → Prop
  | nil : Forest [] []
  | cons {l ts l' t} : Forest l ts → Postfix l' t → Forest (l ++ l') (t :: ts)

/-- All trees fit on the stack on top of their predecessors. -/
def Fits : List Tree → Prop
  | [] => True
  | t :: ts => t.cells + ts.length ≤ 5 ∧ Fits ts

theorem validAttr_denotes {e : CExpr} (ht : e.exprType = 4) (h : validateAttr e = true) :
    ∃ a, Denotes e a ∧ (Tree.atom a).usesThird = false := by
  unfold validateAttr at h
  have h1 : ¬ (!isEmpty e.names) = true := by intro hh; rw [if_pos hh] at h; simp at h
  rw [if_neg h1] at h
  have h2 : ¬ (!validateEmptyTypeSet e.typeNames) = true := by intro hh; rw [if_pos hh] at h; simp at h
  rw [if_neg h2] at h
  by_cases h3 : (if e.op = EQ ∨ e.op = NEQ then true
    else if e.op = DOM ∨ e.op = DOMBY ∨ e.op = INCOMP then !(band e.attr USER || band e.attr TYPE)
    else false) = true
  · rw [if_neg (by rw [h3]; decide)] at h
    simp only [Bool.or_eq_true, beq_iff_eq, USER, ROLE, TYPE, L1L2, L1H2, H1L2, H1H2, L1H1, L2H2] at h
    have hop : ∃ r : Rel, e.op = r.code := by
      split at h3
      · rename_i ho
        rcases ho with ho | ho
        · exact ⟨.eq, ho⟩
        · exact ⟨.neq, ho⟩
      · split at h3
        · rename_i ho
          rcases ho with ho | ho | ho
          · exact ⟨.dom, ho⟩
          · exact ⟨.domby, ho⟩
          · exact ⟨.incomp, ho⟩
        · simp at h3
    have hsame : e.attr = 1 ∨ e.attr = 4 → ∃ neg : Bool, e.op = if neg then 2 else 1 := by
      intro ha
      split at h3
      · rename_i ho
        rcases ho with ho | ho
        · exact ⟨false, ho⟩
        · exact ⟨true, ho⟩
      · split at h3
        · rcases ha with ha | ha <;> rw [ha] at h3 <;> exact absurd h3 (by decide)
        · simp at h3
    obtain ⟨r, hr⟩ := hop
    have lv : ∀ ls : Levels, e.attr = ls.code → ∃ a, Denotes e a ∧ (Tree.atom a).usesThird = false :=
      fun ls hl => ⟨.levels ls r, ⟨ht, hl, hr⟩, rfl⟩
    rcases h with (((((((h | h) | h) | h) | h) | h) | h) | h) | h
    · obtain ⟨n, hn⟩ := hsame (Or.inl h); exact ⟨.same .user n, ⟨ht, h, hn⟩, rfl⟩
    · exact ⟨.roles r, ⟨ht, h, hr⟩, rfl⟩
    · obtain ⟨n, hn⟩ := hsame (Or.inr h); exact ⟨.same .type n, ⟨ht, h, hn⟩, rfl⟩
    · exact lv .l1l2 h
    · exact lv .l1h2 h
    · exact lv .h1l2 h
    · exact lv .h1h2 h
    · exact lv .l1h1 h
    · exact lv .l2h2 h
  · rw [if_pos (by rw [Bool.not_eq_true] at h3; rw [h3]; rfl)] at h; simp at h

theorem validNames_denotes {fl : Flavors} {vt : Bool} {e : CExpr} (ht : e.exprType = 5) (h : validateNames fl vt e = true) :
    ∃ a, Denotes e a ∧ (vt = false → (Tree.atom a).usesThird = false) := by
  unfold validateNames at h
  by_cases h1 : (band e.attr XTARGET && !vt) = true
  · rw [if_pos h1] at h; simp at h
  rw [if_neg h1] at h
  by_cases h2 : (!(band e.attr TYPE) && !validateEmptyTypeSet e.typeNames) = true
  · rw [if_pos h2] at h; simp at h
  rw [if_neg h2] at h
  by_cases h3 : (!(e.op == EQ || e.op == NEQ)) = true
  · rw [if_pos h3] at h; simp at h
  rw [if_neg h3] at h
  have hop : ∃ neg : Bool, e.op = if neg then 2 else 1 := by
    simp only [Bool.not_eq_true', Bool.not_eq_false, Bool.or_eq_true, beq_iff_eq] at h3
    rcases h3 with h3 | h3
    · exact ⟨false, h3⟩
    · exact ⟨true, h3⟩
  obtain ⟨n, hn⟩ := hop
  have key : ∀ (f : Field) (w : Who), e.attr = f.code + w.code → ∃ a, Denotes e a ∧ (vt = false → (Tree.atom a).usesThird = false) := by
    intro f w hw
    refine ⟨.names w f n e.names, ⟨ht, hw, hn, rfl⟩, ?_⟩
    intro hvt
    cases w with
    | src => rfl
    | tgt => rfl
    | third =>
      exfalso; apply h1
      rw [hw, (band_code f .third).2.1, hvt]; simp
  split at h
  · rename_i ha
    rcases ha with ha | ha | ha
    · exact key .user .src ha
    · exact key .user .tgt ha
    · exact key .user .third ha
  · split at h
    · rename_i ha
      rcases ha with ha | ha | ha
      · exact key .role .src ha
      · exact key .role .tgt ha
      · exact key .role .third ha
    · split at h
      · rename_i ha
        rcases ha with ha | ha | ha
        · exact key .type .src ha
        · exact key .type .tgt ha
        · exact key .type .third ha
      · simp at h

theorem validateExpr_forest {fl : Flavors} {vt : Bool} : ∀ (rest l0 : List CExpr) (ts : List Tree) (d : Int),
    Forest l0 ts → Fits ts → (vt = false → ∀ t ∈ ts, t.usesThird = false) → d = (ts.length : Int) - 1 →
    validateExpr fl vt rest d = true →
    ∃ t, Postfix (l0 ++ rest) t ∧ t.cells ≤ 5 ∧ (vt = false → t.usesThird = false) := by
  intro rest
  induction rest with
  | nil =>
    intro l0 ts d hf hfit hu hd h
    unfold validateExpr at h
    simp only [beq_iff_eq] at h
    have hlen : ts.length = 1 := by omega
    match ts, hf, hfit, hu, hlen with
    | [t], hf, hfit, hu, _ =>
      cases hf with
      | cons hf hp =>
        cases hf
        rw [List.append_nil, List.nil_append]
        exact ⟨t, hp, by have := hfit.1; simpa using this, fun hv => hu hv t (by simp)⟩
  | cons e rest ih =>
    intro l0 ts d hf hfit hu hd h
    have hassoc : l0 ++ e :: rest = (l0 ++ [e]) ++ rest := by simp
    rw [hassoc]
    unfold validateExpr at h
    by_cases hn : e.exprType = NAMES
    · rw [if_pos hn] at h
      by_cases hdep : d ≥ (MAXDEPTH : Int) - 1
      · rw [if_pos hdep] at h; simp at h
      · rw [if_neg hdep] at h
        by_cases hv : (!validateNames fl vt e) = true
        · rw [if_pos hv] at h; simp at h
        · rw [if_neg hv] at h
          obtain ⟨a, ha, hth⟩ := validNames_denotes hn (by simpa using hv)
          refine ih (l0 ++ [e]) (.atom a :: ts) (d + 1) (.cons hf (.atom ha)) ⟨?_, hfit⟩ ?_ ?_ h
          · unfold MAXDEPTH at hdep; simp only [Tree.cells]; omega
          · intro hv t ht
            rcases List.mem_cons.mp ht with rfl | ht
            · exact hth hv
            · exact hu hv t ht
          · rw [List.length_cons]; omega
    rw [if_neg hn] at h
    by_cases hat : e.exprType = ATTR
    · rw [if_pos hat] at h
      by_cases hdep : d ≥ (MAXDEPTH : Int) - 1
      · rw [if_pos hdep] at h; simp at h
      · rw [if_neg hdep] at h
        by_cases hv : (!validateAttr e) = true
        · rw [if_pos hv] at h; simp at h
        · rw [if_neg hv] at h
          obtain ⟨a, ha, hth⟩ := validAttr_denotes hat (by simpa using hv)
          refine ih (l0 ++ [e]) (.atom a :: ts) (d + 1) (.cons hf (.atom ha)) ⟨?_, hfit⟩ ?_ ?_ h
          · unfold MAXDEPTH at hdep; simp only [Tree.cells]; omega
          · intro hv t ht
            rcases List.mem_cons.mp ht with rfl | ht
            · exact hth
            · exact hu hv t ht
          · rw [List.length_cons]; omega
    rw [if_neg hat] at h
    by_cases hno : e.exprType = NOT
    · rw [if_pos hno] at h
      by_cases hdep : d < 0
      · rw [if_pos hdep] at h; simp at h
      · rw [if_neg hdep] at h
        by_cases hv : (!validateOperator e) = true
        · rw [if_pos hv] at h; simp at h
        · rw [if_neg hv] at h
          cases hf with
          | nil => simp at hd; omega
          | cons hf hp =>
            rename_i l ts l' t
            rw [List.append_assoc l l' [e]]
            refine ih (l ++ (l' ++ [e])) (.not t :: ts) d (.cons hf (.not hp hno)) hfit ?_ ?_ h
            · intro hv t' ht
              rcases List.mem_cons.mp ht with rfl | ht
              · exact hu hv t (by simp)
              · exact hu hv t' (by simp [ht])
            · rw [List.length_cons] at hd ⊢; omega
    rw [if_neg hno] at h
    by_cases hao : e.exprType = AND ∨ e.exprType = OR
    · rw [if_pos hao] at h
      by_cases hdep : d < 1
      · rw [if_pos hdep] at h; simp at h
      · rw [if_neg hdep] at h
        by_cases hv : (!validateOperator e) = true
        · rw [if_pos hv] at h; simp at h
        · rw [if_neg hv] at h
          cases hf with
          | nil => simp at hd; omega
          | cons hf2 hp2 =>
            rename_i l12 ts2 l2 t2
            cases hf2 with
            | nil => simp at hd; omega
            | cons hf1 hp1 =>
              rename_i l1 ts1 lx t1
              have e1 : (l1 ++ lx ++ l2 ++ [e]) = l1 ++ (lx ++ (l2 ++ [e])) := by simp
              rw [e1]
              have hfits : max t1.cells (t2.cells + 1) + ts1.length ≤ 5 := by
                have := hfit.1; have := hfit.2.1
                rw [List.length_cons] at *
                omega
              rcases hao with hao | hao
              · refine ih _ (.and t1 t2 :: ts1) (d - 1) (.cons hf1 (.and hp1 hp2 hao)) ⟨hfits, hfit.2.2⟩ ?_ ?_ h
                · intro hv t' ht
                  rcases List.mem_cons.mp ht with rfl | ht
                  · simp only [Tree.usesThird, hu hv t1 (by simp), hu hv t2 (by simp), Bool.or_false]
                  · exact hu hv t' (by simp [ht])
                · simp only [List.length_cons] at hd ⊢; omega
              · refine ih _ (.or t1 t2 :: ts1) (d - 1) (.cons hf1 (.or hp1 hp2 hao)) ⟨hfits, hfit.2.2⟩ ?_ ?_ h
                · intro hv t' ht
                  rcases List.mem_cons.mp ht with rfl | ht
                  · simp only [Tree.usesThird, hu hv t1 (by simp), hu hv t2 (by simp), Bool.or_false]
                  · exact hu hv t' (by simp [ht])
                · simp only [List.length_cons] at hd ⊢; omega
    · rw [if_neg hao] at h; simp at h

end Verif.Services
