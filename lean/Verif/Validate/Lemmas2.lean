import Verif.Validate.Lemmas

/-! # The checks of symbols, rules and contexts -/

namespace Verif.Validate
open Verif.Policy Verif.Services

/-- What the arrays and flavors stand for. -/
structure FlOk (p : VPolicy) (a : Indexes) (fl : AllFlavors) : Prop where
  commons : FlavorOk (IsCommon p) fl.commons
  classes : FlavorOk (IsClass p) fl.classes
  roles : FlavorOk (IsRole p) fl.roles
  types : FlavorOk (IsType p) fl.types
  users : FlavorOk (IsUser p) fl.users
  bools : FlavorOk (IsBool p) fl.bools
  levels : FlavorOk (IsSens p) fl.levels
  cats : FlavorOk (IsCat p) fl.cats
  catsN : fl.cats.nprim = p.cats.nprim
  typesN : fl.types.nprim = p.types.nprim
  iclasses : IndexOk ClassD.value (fun _ => false) p.classes a.classes
  itypes : IndexOk TypeD.value (fun d => d.primary == 0) p.types a.types
  ilevels : IndexOk (fun d : LevelD => d.level.sens) LevelD.isalias p.levels a.levels

variable {p : VPolicy} {a : Indexes} {fl : AllFlavors}

theorem realType_type {v : Nat} (h : IsRealType p v) : IsType p v := by
  obtain ⟨h1, h2, e, h3, h4, h5, _⟩ := h
  unfold IsType
  split
  · exact ⟨h1, h2⟩
  · exact ⟨h1, h2, e, h3, by simp [h4], h5⟩

theorem validateSimpleType_iff (h : FlOk p a fl) {v : Nat} :
    validateSimpleType a fl v = true ↔ IsRealType p v := by
  unfold validateSimpleType
  by_cases hv : validateValue v fl.types = true
  · rw [if_neg (by simp [hv])]
    have hb := h.types.bound v ((validateValue_iff h.types).1 hv)
    rw [h.typesN] at hb
    have hi := h.itypes (v - 1)
    constructor
    · intro h2
      split at h2
      · cases h2
      · rename_i t ht
        have := (hi t).1 ht
        refine ⟨hb.1, hb.2, t, this.2.1, by simpa using this.2.2.1, by omega, by simpa using h2⟩
    · rintro ⟨_, _, e, he, hp, hve, hf⟩
      have := (hi e).2 ⟨by omega, he, by simp [hp], by omega⟩
      rw [this]
      simpa using hf
  · rw [if_pos (by simpa using hv)]
    simp only [Bool.false_eq_true, false_iff]
    intro hr
    exact hv ((validateValue_iff h.types).2 (realType_type hr))

/-! ## Constraints -/

theorem validateEmptyTypeSet_iff {s : TypeSet} (h : TypeSetWf s) : validateEmptyTypeSet s = true ↔ NoTypeSet s := by
  simp only [validateEmptyTypeSet, NoTypeSet, Bool.and_eq_true, beq_iff_eq, isEmpty_iff h.1, isEmpty_iff h.2, and_assoc]

theorem validateTypeSet_iff (h : FlOk p a fl) {s : TypeSet} (hw : TypeSetWf s) : validateTypeSet s fl.types = true ↔ TypeSetOk p s := by
  simp only [validateTypeSet, TypeSetOk, Bool.and_eq_true, Bool.or_eq_true, beq_iff_eq, validateEbitmap_iff h.types hw.1,
    validateEbitmap_iff h.types hw.2, and_assoc]
  refine and_congr_right fun _ => and_congr_right fun _ => ?_
  omega

theorem validateNames_iff (h : FlOk p a fl) {vt : Bool} {e : CExpr} (hw : Ebitmap.WF e.names ∧ TypeSetWf e.typeNames) (ht : e.exprType = NAMES) :
    validateNames fl.con vt e = true ↔ NamesOk p vt e := by
  have hE := validateEmptyTypeSet_iff hw.2
  have hU := validateEbitmap_iff h.users hw.1
  have hR := validateEbitmap_iff h.roles hw.1
  have hT := validateEbitmap_iff h.types hw.1
  have hS := validateTypeSet_iff h hw.2
  unfold validateNames
  show (if _ then _ else if _ then _ else if _ then _ else if _ then validateEbitmap e.names fl.users else if _ then validateEbitmap e.names fl.roles
    else if _ then validateEbitmap e.names fl.types && validateTypeSet e.typeNames fl.types else false) = true ↔ _
  constructor
  · intro hv
    split at hv
    · cases hv
    rename_i h1
    split at hv
    · cases hv
    rename_i h2
    split at hv
    · cases hv
    rename_i h3
    have hop : e.op = EQ ∨ e.op = NEQ := by rw [Bool.not_eq_true, Bool.not_eq_false', Bool.or_eq_true, beq_iff_eq, beq_iff_eq] at h3; exact h3
    refine ⟨ht, hop, ?_⟩
    have hx : ∀ k, e.attr = k ||| XTARGET → (k = USER ∨ k = ROLE ∨ k = TYPE) → vt = true := by
      intro k hk hk2
      have : band e.attr XTARGET = true := by
        rw [hk]; rcases hk2 with rfl | rfl | rfl <;> decide
      simpa [this] using h1
    have hty : band e.attr TYPE = false → NoTypeSet e.typeNames := by
      intro hb
      exact hE.1 (by simpa [hb] using h2)
    split at hv
    · rename_i hk
      have hm := hU.1 hv
      rcases hk with hk | hk | hk
      · exact ⟨USER, 0, hk, .inl rfl, .inl ⟨rfl, hm, hty (by rw [hk]; decide)⟩⟩
      · exact ⟨USER, TARGET, hk, .inr (.inl rfl), .inl ⟨rfl, hm, hty (by rw [hk]; decide)⟩⟩
      · exact ⟨USER, XTARGET, hk, .inr (.inr ⟨rfl, hx USER hk (.inl rfl)⟩), .inl ⟨rfl, hm, hty (by rw [hk]; decide)⟩⟩
    split at hv
    · rename_i hk
      have hm := hR.1 hv
      rcases hk with hk | hk | hk
      · exact ⟨ROLE, 0, hk, .inl rfl, .inr (.inl ⟨rfl, hm, hty (by rw [hk]; decide)⟩)⟩
      · exact ⟨ROLE, TARGET, hk, .inr (.inl rfl), .inr (.inl ⟨rfl, hm, hty (by rw [hk]; decide)⟩)⟩
      · exact ⟨ROLE, XTARGET, hk, .inr (.inr ⟨rfl, hx ROLE hk (.inr (.inl rfl))⟩), .inr (.inl ⟨rfl, hm, hty (by rw [hk]; decide)⟩)⟩
    split at hv
    · rename_i hk
      rw [Bool.and_eq_true] at hv
      have hm := hT.1 hv.1
      have hs := hS.1 hv.2
      rcases hk with hk | hk | hk
      · exact ⟨TYPE, 0, hk, .inl rfl, .inr (.inr ⟨rfl, hm, hs⟩)⟩
      · exact ⟨TYPE, TARGET, hk, .inr (.inl rfl), .inr (.inr ⟨rfl, hm, hs⟩)⟩
      · exact ⟨TYPE, XTARGET, hk, .inr (.inr ⟨rfl, hx TYPE hk (.inr (.inr rfl))⟩), .inr (.inr ⟨rfl, hm, hs⟩)⟩
    · cases hv
  · rintro ⟨_, hop, kind, side, hat, hside, hkind⟩
    have hop' : (!(e.op == EQ || e.op == NEQ)) = false := by rw [Bool.not_eq_false', Bool.or_eq_true, beq_iff_eq, beq_iff_eq]; exact hop
    rcases hkind with ⟨rfl, hm, hs⟩ | ⟨rfl, hm, hs⟩ | ⟨rfl, hm, hs⟩ <;> rcases hside with rfl | rfl | ⟨rfl, hvt⟩ <;>
      simp only [hat, hop'] <;>
      first
      | simp [band, hE.2 hs, hU.2 hm, USER, TYPE, XTARGET, TARGET]; done
      | simp [band, hE.2 hs, hU.2 hm, hvt, USER, TYPE, XTARGET, TARGET]; done
      | simp [band, hE.2 hs, hR.2 hm, USER, ROLE, TYPE, XTARGET, TARGET]; done
      | simp [band, hE.2 hs, hR.2 hm, hvt, USER, ROLE, TYPE, XTARGET, TARGET]; done
      | simp [band, hS.2 hs, hT.2 hm, USER, ROLE, TYPE, XTARGET, TARGET]; done
      | simp [band, hS.2 hs, hT.2 hm, hvt, USER, ROLE, TYPE, XTARGET, TARGET]

theorem validateAttr_iff {e : CExpr} (hw : Ebitmap.WF e.names ∧ TypeSetWf e.typeNames) (ht : e.exprType = ATTR) :
    validateAttr e = true ↔ AttrOk e := by
  have hE := validateEmptyTypeSet_iff hw.2
  have hN := isEmpty_iff hw.1
  unfold validateAttr
  constructor
  · intro hv
    split at hv
    · cases hv
    rename_i h1
    split at hv
    · cases hv
    rename_i h2
    generalize hg : (if e.op = EQ ∨ e.op = NEQ then true else if e.op = DOM ∨ e.op = DOMBY ∨ e.op = INCOMP then
      !(band e.attr USER || band e.attr TYPE) else false) = g at hv
    have h3 : g = true := by
      cases g
      · rw [if_pos (by rfl)] at hv; cases hv
      · rfl
    subst h3
    rw [if_neg (by simp)] at hv
    have h3 := hg
    refine ⟨ht, hN.1 (by simpa using h1), hE.1 (by simpa using h2), ?_⟩
    simp only [Bool.or_eq_true, beq_iff_eq, or_assoc] at hv
    by_cases hop : e.op = EQ ∨ e.op = NEQ
    · rcases hv with hk | hk | hk | hk
      · exact .inl ⟨.inl hk, hop⟩
      · exact .inr ⟨.inl hk, by rcases hop with h | h; exact .inl h; exact .inr (.inl h)⟩
      · exact .inl ⟨.inr hk, hop⟩
      · exact .inr ⟨.inr hk, by rcases hop with h | h; exact .inl h; exact .inr (.inl h)⟩
    · rw [if_neg hop] at h3
      by_cases hop2 : e.op = DOM ∨ e.op = DOMBY ∨ e.op = INCOMP
      · rw [if_pos hop2] at h3
        refine .inr ⟨?_, .inr (.inr hop2)⟩
        have h3' : band e.attr USER = false ∧ band e.attr TYPE = false := by simpa using h3
        rcases hv with hk | hk | hk | hk
        · rw [hk] at h3'; exact absurd h3'.1 (by decide)
        · exact .inl hk
        · rw [hk] at h3'; exact absurd h3'.2 (by decide)
        · exact .inr hk
      · rw [if_neg hop2] at h3; simp at h3
  · rintro ⟨_, h1, h2, h3⟩
    rw [if_neg (by simp [hN.2 h1]), if_neg (by simp [hE.2 h2])]
    rcases h3 with ⟨hk, hop⟩ | ⟨hk, hop⟩
    · rw [if_neg (by rw [if_pos hop]; simp)]
      rcases hk with hk | hk <;> simp [hk]
    · rw [if_neg ?_]
      · rcases hk with hk | hk | hk | hk | hk | hk | hk <;> simp [hk]
      · have hb : band e.attr USER = false ∧ band e.attr TYPE = false := by
          rcases hk with hk | hk | hk | hk | hk | hk | hk <;> rw [hk] <;> decide
        by_cases hop1 : e.op = EQ ∨ e.op = NEQ
        · rw [if_pos hop1]; simp
        · rw [if_neg hop1, if_pos (by tauto), hb.1, hb.2]; simp

theorem validateOperator_iff {e : CExpr} (hw : Ebitmap.WF e.names ∧ TypeSetWf e.typeNames) : validateOperator e = true ↔ OperatorOk e := by
  simp only [validateOperator, OperatorOk, Bool.and_eq_true, beq_iff_eq, isEmpty_iff hw.1, validateEmptyTypeSet_iff hw.2, and_assoc]

/-- `validateExpr` where all bitmaps are well formed. -/
theorem con_arity (h : FlOk p a fl) (vt : Bool) :
    ∀ {l : List CExpr}, (∀ e ∈ l, Ebitmap.WF e.names ∧ TypeSetWf e.typeNames) →
      (validateExpr fl.con vt l (-1) = true ↔ ConExprOk p vt l) := by
  intro l hw
  let W (e : CExpr) : Prop := Ebitmap.WF e.names ∧ TypeSetWf e.typeNames
  let leaf (e : CExpr) : Prop := NamesOk p vt e ∨ AttrOk e
  let un (e : CExpr) : Prop := e.exprType = NOT ∧ OperatorOk e
  let bin (e : CExpr) : Prop := (e.exprType = AND ∨ e.exprType = OR) ∧ OperatorOk e
  -- the check on lists with well-formed bitmaps only
  let check (l : List {e : CExpr // W e}) (d : Int) : Bool := validateExpr fl.con vt (l.map (·.1)) d
  have ar : Arity (fun e : {e : CExpr // W e} => leaf e.1) (fun e => un e.1) (fun e => bin e.1) check 5 := by
    refine ⟨?_, ?_, ?_, ?_, ?_⟩
    · intro d
      show validateExpr fl.con vt [] d = true ↔ _
      unfold validateExpr
      simp
    · rintro ⟨e, he⟩ l d hc
      change validateExpr fl.con vt (e :: l.map (·.1)) d = true at hc
      rw [validateExpr] at hc
      by_cases h1 : e.exprType = NAMES
      · rw [if_pos h1] at hc
        split at hc
        · cases hc
        split at hc
        · cases hc
        rename_i hn
        exact .inl (.inl ((validateNames_iff h he h1).1 (by simpa using hn)))
      rw [if_neg h1] at hc
      by_cases h2 : e.exprType = ATTR
      · rw [if_pos h2] at hc
        split at hc
        · cases hc
        split at hc
        · cases hc
        rename_i hn
        exact .inl (.inr ((validateAttr_iff he h2).1 (by simpa using hn)))
      rw [if_neg h2] at hc
      by_cases h3 : e.exprType = NOT
      · rw [if_pos h3] at hc
        split at hc
        · cases hc
        split at hc
        · cases hc
        rename_i hn
        exact .inr (.inl ⟨h3, (validateOperator_iff he).1 (by simpa using hn)⟩)
      rw [if_neg h3] at hc
      by_cases h4 : e.exprType = AND ∨ e.exprType = OR
      · rw [if_pos h4] at hc
        split at hc
        · cases hc
        split at hc
        · cases hc
        rename_i hn
        exact .inr (.inr ⟨h4, (validateOperator_iff he).1 (by simpa using hn)⟩)
      · rw [if_neg h4] at hc; cases hc
    · rintro ⟨e, he⟩ l d hl
      show validateExpr fl.con vt (e :: l.map (·.1)) d = true ↔ d < 5 - 1 ∧ validateExpr fl.con vt (l.map (·.1)) (d + 1) = true
      rw [validateExpr]
      rcases hl with hl | hl
      · rw [if_pos hl.1, (validateNames_iff h he hl.1).2 hl]
        by_cases hd : d ≥ (MAXDEPTH : Int) - 1
        · rw [if_pos hd]; simp [MAXDEPTH] at hd ⊢; omega
        · rw [if_neg hd, if_neg (by simp)]; simp [MAXDEPTH] at hd ⊢; intro _; omega
      · rw [if_neg (by rw [hl.1]; decide), if_pos hl.1, (validateAttr_iff he hl.1).2 hl]
        by_cases hd : d ≥ (MAXDEPTH : Int) - 1
        · rw [if_pos hd]; simp [MAXDEPTH] at hd ⊢; omega
        · rw [if_neg hd, if_neg (by simp)]; simp [MAXDEPTH] at hd ⊢; intro _; omega
    · rintro ⟨e, he⟩ l d ⟨hl, ho⟩
      show validateExpr fl.con vt (e :: l.map (·.1)) d = true ↔ 0 ≤ d ∧ validateExpr fl.con vt (l.map (·.1)) d = true
      simp only at hl ho
      rw [validateExpr, if_neg (by rw [hl]; decide), if_neg (by rw [hl]; decide), if_pos hl, (validateOperator_iff he).2 ho]
      by_cases hd : d < 0
      · rw [if_pos hd]; simp; omega
      · rw [if_neg hd, if_neg (by simp)]; simp; intro _; omega
    · rintro ⟨e, he⟩ l d ⟨hl, ho⟩
      show validateExpr fl.con vt (e :: l.map (·.1)) d = true ↔ 1 ≤ d ∧ validateExpr fl.con vt (l.map (·.1)) (d - 1) = true
      simp only at hl ho
      have hn : e.exprType ≠ NAMES ∧ e.exprType ≠ ATTR ∧ e.exprType ≠ NOT := by
        rcases hl with hl | hl <;> rw [hl] <;> decide
      rw [validateExpr, if_neg hn.1, if_neg hn.2.1, if_neg hn.2.2, if_pos hl, (validateOperator_iff he).2 ho]
      by_cases hd : d < 1
      · rw [if_pos hd]; simp; omega
      · rw [if_neg hd, if_neg (by simp)]; simp; intro _; omega
  obtain ⟨l', rfl⟩ : ∃ l' : List {e : CExpr // W e}, l'.map (·.1) = l := by
    refine ⟨l.attach.map fun e => ⟨e.1, hw e.1 e.2⟩, ?_⟩
    rw [List.map_map]
    exact List.attach_map_subtype_val l
  have hc := check_iff ar (l := l')
  change validateExpr fl.con vt (l'.map (·.1)) (-1) = true ↔ _ at hc
  rw [hc]
  unfold ConExprOk
  refine exists_congr fun n => and_congr_right fun hn5 => ?_
  clear hn5
  constructor
  · intro hp
    clear hc hw
    induction hp with
    | leaf he => exact .leaf he
    | un he _ ih => rw [List.map_append]; exact .un he ih
    | bin he _ _ ih1 ih2 => rw [List.map_append, List.map_append]; exact .bin he ih1 ih2
  · intro hp
    clear hc hw
    generalize hm : l'.map (·.1) = m at hp
    induction hp generalizing l' with
    | @leaf e he =>
      obtain ⟨x, rfl, rfl⟩ : ∃ x, l' = [x] ∧ x.1 = e := by
        cases l' with
        | nil => cases hm
        | cons x xs => cases xs with
          | nil => exact ⟨x, rfl, by simpa using hm⟩
          | cons y ys => simp at hm
      exact .leaf he
    | @un e l n he _ ih =>
      obtain ⟨l1, l2, rfl, h1, h2⟩ := List.map_eq_append_iff.1 hm
      obtain ⟨x, rfl, rfl⟩ : ∃ x, l2 = [x] ∧ x.1 = e := by
        cases l2 with
        | nil => cases h2
        | cons x xs => cases xs with
          | nil => exact ⟨x, rfl, by simpa using h2⟩
          | cons y ys => simp at h2
      exact .un he (ih l1 h1)
    | @bin e l m n n' he _ _ ih1 ih2 =>
      obtain ⟨l0, l2, rfl, h0, h2⟩ := List.map_eq_append_iff.1 hm
      obtain ⟨l3, l4, rfl, h3, h4⟩ := List.map_eq_append_iff.1 h0
      obtain ⟨x, rfl, rfl⟩ : ∃ x, l2 = [x] ∧ x.1 = e := by
        cases l2 with
        | nil => cases h2
        | cons x xs => cases xs with
          | nil => exact ⟨x, rfl, by simpa using h2⟩
          | cons y ys => simp at h2
      exact .bin he (ih1 l3 h3) (ih2 l4 h4)

theorem validateConstraints_iff (h : FlOk p a fl) {nperms : Nat} (hn : nperms ≤ 32) {cons : List Constraint} (hw : ∀ c ∈ cons, ConWf c) :
    validateConstraints fl.con nperms cons = true ↔ ∀ c ∈ cons, ConstraintOk p nperms c := by
  have hvt : (nperms == 2 ^ 32 - 1) = false := by simp; omega
  have hbits : ∀ v : BitVec 32, (¬(nperms != 32 && decide (v.toNat ≥ 2 ^ nperms)) = true ↔ ∀ b, v.getLsbD b = true → b < nperms) := by
    intro v
    constructor
    · intro h1 b hb
      by_cases h32 : nperms = 32
      · rw [h32]; exact BitVec.lt_of_getLsbD hb
      · have h2 : v.toNat < 2 ^ nperms := by simpa [h32] using h1
        by_contra hc
        have : v.toNat.testBit b = false := Nat.testBit_lt_two_pow (Nat.lt_of_lt_of_le h2 (Nat.pow_le_pow_right (by omega) (by omega)))
        rw [BitVec.getLsbD, this] at hb
        cases hb
    · intro h1 h2
      simp only [Bool.and_eq_true, bne_iff_ne, ne_eq, decide_eq_true_eq] at h2
      obtain ⟨i, hi, hb⟩ := Nat.exists_ge_and_testBit_of_ge_two_pow h2.2
      exact absurd (h1 i hb) (by omega)
  unfold validateConstraints
  simp only [hvt]
  by_cases h0 : cons = []
  · subst h0; simp
  by_cases hz : nperms = 0
  · rw [if_pos (by simp [h0, hz])]
    simp only [Bool.false_eq_true, false_iff]
    intro hc
    obtain ⟨c, l, rfl⟩ := List.exists_cons_of_ne_nil h0
    obtain ⟨h1, h2, _⟩ := hc c (by simp)
    apply h1
    apply BitVec.eq_of_getLsbD_eq
    intro i _
    have := h2 i
    rw [hz] at this
    simpa using this
  · rw [if_neg (by simp [hz]), List.all_eq_true]
    refine forall_congr' fun c => forall_congr' fun hc => ?_
    unfold ConstraintOk
    rw [if_neg (by simp)]
    by_cases h1 : c.perms = 0#32
    · rw [if_pos (by simp [h1])]; simp [h1]
    · rw [if_neg (by simp [h1]), ← hbits]
      by_cases h2 : (nperms != 32 && decide (c.perms.toNat ≥ 2 ^ nperms)) = true
      · rw [if_pos (by simpa using h2)]
        simp only [Bool.false_eq_true, false_iff]
        intro h3; exact h3.2.1 h2
      · rw [if_neg (by simpa using h2)]
        by_cases h3 : c.expr.isEmpty = true
        · rw [if_pos h3]
          simp only [Bool.false_eq_true, false_iff]
          rintro ⟨_, _, n, _, h4⟩
          rw [List.isEmpty_iff.1 h3] at h4
          exact absurd h4 post_ne
        · rw [if_neg h3, con_arity h false (hw c hc)]
          exact ⟨fun h => ⟨h1, h2, h⟩, fun h => h.2.2⟩

theorem validateTrans_iff (h : FlOk p a fl) {cons : List Constraint} (hw : ∀ c ∈ cons, ConWf c) :
    validateConstraints fl.con (2 ^ 32 - 1) cons = true ↔ ∀ c ∈ cons, TransOk p c := by
  unfold validateConstraints
  simp only [beq_self_eq_true]
  rw [if_neg (by simp), List.all_eq_true]
  refine forall_congr' fun c => forall_congr' fun hc => ?_
  unfold TransOk
  by_cases h1 : c.perms = 0#32
  · rw [if_neg (by simp [h1]), if_neg (by simp), if_neg (by simp)]
    by_cases h3 : c.expr.isEmpty = true
    · rw [if_pos h3]
      simp only [Bool.false_eq_true, false_iff]
      rintro ⟨_, n, _, h4⟩
      rw [List.isEmpty_iff.1 h3] at h4
      exact absurd h4 post_ne
    · rw [if_neg h3, con_arity h true (hw c hc)]
      exact ⟨fun h => ⟨h1, h⟩, fun h => h.2⟩
  · rw [if_pos (by simp [h1])]; simp [h1]

end Verif.Validate
