import Verif.Validate.Lemmas3

/-! # Rules, conditionals, contexts and the whole policy -/

namespace Verif.Validate
open Verif.Policy Verif.Services

variable {p : VPolicy} {a : Indexes} {fl : AllFlavors}

theorem mem_av {k : BitVec 16} : k ∈ avKinds ↔ k = 0x1#16 ∨ k = 0x2#16 ∨ k = 0x4#16 := by simp [avKinds]
theorem mem_type {k : BitVec 16} : k ∈ typeKinds ↔ k = 0x10#16 ∨ k = 0x20#16 ∨ k = 0x40#16 := by simp [typeKinds]
theorem mem_x {k : BitVec 16} : k ∈ xKinds ↔ k = 0x100#16 ∨ k = 0x200#16 ∨ k = 0x400#16 := by simp [xKinds]

/-- The tests of single bits see the kind. -/
theorem kind_bits (s : BitVec 16) :
    (s &&& Avtab.AV = (0xFFF#16 &&& s) &&& Avtab.AV) ∧ (s &&& Avtab.TYPE = (0xFFF#16 &&& s) &&& Avtab.TYPE) ∧
    (s &&& Avtab.XPERMS = (0xFFF#16 &&& s) &&& Avtab.XPERMS) := by
  have h : ∀ m : BitVec 16, 0xFFF#16 &&& m = m → s &&& m = (0xFFF#16 &&& s) &&& m := by
    intro m hm
    rw [BitVec.and_comm 0xFFF#16 s, BitVec.and_assoc, hm]
  exact ⟨h _ (by decide), h _ (by decide), h _ (by decide)⟩

theorem kind_av {s : BitVec 16} (h : 0xFFF#16 &&& s ∈ avKinds) :
    (s &&& Avtab.AV != 0) = true ∧ (s &&& Avtab.TYPE != 0) = false ∧ (s &&& Avtab.XPERMS != 0) = false := by
  rw [(kind_bits s).1, (kind_bits s).2.1, (kind_bits s).2.2]
  rcases mem_av.1 h with h | h | h <;> rw [h] <;> decide

theorem kind_type {s : BitVec 16} (h : 0xFFF#16 &&& s ∈ typeKinds) :
    (s &&& Avtab.AV != 0) = false ∧ (s &&& Avtab.TYPE != 0) = true ∧ (s &&& Avtab.XPERMS != 0) = false := by
  rw [(kind_bits s).1, (kind_bits s).2.1, (kind_bits s).2.2]
  rcases mem_type.1 h with h | h | h <;> rw [h] <;> decide

theorem kind_x {s : BitVec 16} (h : 0xFFF#16 &&& s ∈ xKinds) :
    (s &&& Avtab.AV != 0) = false ∧ (s &&& Avtab.TYPE != 0) = false ∧ (s &&& Avtab.XPERMS != 0) = true := by
  rw [(kind_bits s).1, (kind_bits s).2.1, (kind_bits s).2.2]
  rcases mem_x.1 h with h | h | h <;> rw [h] <;> decide

/-- What the key of a rule must be. -/
def KeyOk (p : VPolicy) (conditional : Bool) (k : Avtab.Key) : Prop :=
  IsClass p k.cls ∧
  (0xFFF#16 &&& k.specified ∈ avKinds ∧ IsType p k.source ∧ IsType p k.target ∨
   0xFFF#16 &&& k.specified ∈ typeKinds ∧ IsRealType p k.source ∧ IsRealType p k.target ∨
   0xFFF#16 &&& k.specified ∈ xKinds ∧ IsType p k.source ∧ IsType p k.target ∧ p.target = 0 ∧ (conditional = true → 34 ≤ p.version))

theorem validateKey_iff (h : FlOk p a fl) {conditional : Bool} {k : Avtab.Key} : validateKey p a fl conditional k = true ↔ KeyOk p conditional k := by
  have hT : (if k.specified &&& Avtab.TYPE != 0 then validateSimpleType a fl k.source && validateSimpleType a fl k.target
      else validateValue k.source fl.types && validateValue k.target fl.types) = true ↔
      (if (k.specified &&& Avtab.TYPE != 0) = true then IsRealType p k.source ∧ IsRealType p k.target else IsType p k.source ∧ IsType p k.target) := by
    split
    · rw [Bool.and_eq_true, validateSimpleType_iff h, validateSimpleType_iff h]
    · rw [Bool.and_eq_true, validateValue_iff h.types, validateValue_iff h.types]
  have hx : ∀ b : Bool, (if p.target != 0 then false else !(conditional && !condXperms p)) = true ↔
      p.target = 0 ∧ (conditional = true → 34 ≤ p.version) := by
    intro _
    by_cases ht : p.target = 0
    · rw [if_neg (by simp [ht])]
      simp only [condXperms, ht, true_and, Bool.not_eq_true', Bool.and_eq_false_iff, Bool.not_eq_false', decide_eq_true_eq, ge_iff_le]
      cases conditional <;> simp
    · rw [if_pos (by simpa using ht)]; simp [ht]
  refine Iff.trans (chain hT fun _ => chain (validateValue_iff h.classes) fun _ =>
    (?_ : _ ↔ (0xFFF#16 &&& k.specified ∈ avKinds ∨ 0xFFF#16 &&& k.specified ∈ typeKinds ∨
      (0xFFF#16 &&& k.specified ∈ xKinds ∧ p.target = 0 ∧ (conditional = true → 34 ≤ p.version))))) ?_
  · show (if 0xFFF#16 &&& k.specified = 0x1#16 ∨ 0xFFF#16 &&& k.specified = 0x2#16 ∨ 0xFFF#16 &&& k.specified = 0x4#16 ∨
      0xFFF#16 &&& k.specified = 0x10#16 ∨ 0xFFF#16 &&& k.specified = 0x20#16 ∨ 0xFFF#16 &&& k.specified = 0x40#16 then true else
      if 0xFFF#16 &&& k.specified = 0x100#16 ∨ 0xFFF#16 &&& k.specified = 0x200#16 ∨ 0xFFF#16 &&& k.specified = 0x400#16 then _ else false) = true ↔ _
    generalize 0xFFF#16 &&& k.specified = kind
    rw [mem_av, mem_type, mem_x]
    by_cases h1 : kind = 0x1#16 ∨ kind = 0x2#16 ∨ kind = 0x4#16 ∨ kind = 0x10#16 ∨ kind = 0x20#16 ∨ kind = 0x40#16
    · rw [if_pos h1]
      simp only [true_iff]
      tauto
    · rw [if_neg h1]
      by_cases h2 : kind = 0x100#16 ∨ kind = 0x200#16 ∨ kind = 0x400#16
      · rw [if_pos h2, hx true]
        tauto
      · rw [if_neg h2]
        simp only [Bool.false_eq_true, false_iff]
        tauto
  · unfold KeyOk
    constructor
    · rintro ⟨h1, h2, h3⟩
      refine ⟨h2, ?_⟩
      rcases h3 with h3 | h3 | ⟨h3, h4⟩
      · rw [(kind_av h3).2.1, if_neg (by simp)] at h1
        exact .inl ⟨h3, h1⟩
      · rw [(kind_type h3).2.1, if_pos rfl] at h1
        exact .inr (.inl ⟨h3, h1⟩)
      · rw [(kind_x h3).2.1, if_neg (by simp)] at h1
        exact .inr (.inr ⟨h3, h1.1, h1.2, h4⟩)
    · rintro ⟨h2, h3⟩
      rcases h3 with ⟨h3, h1⟩ | ⟨h3, h1⟩ | ⟨h3, h1, h1', h4⟩
      · exact ⟨by rw [(kind_av h3).2.1, if_neg (by simp)]; exact h1, h2, .inl h3⟩
      · exact ⟨by rw [(kind_type h3).2.1, if_pos rfl]; exact h1, h2, .inr (.inl h3)⟩
      · exact ⟨by rw [(kind_x h3).2.1, if_neg (by simp)]; exact ⟨h1, h1'⟩, h2, .inr (.inr ⟨h3, h4⟩)⟩

theorem kinds_apart {k : BitVec 16} : ¬(k ∈ avKinds ∧ k ∈ typeKinds) ∧ ¬(k ∈ avKinds ∧ k ∈ xKinds) ∧ ¬(k ∈ typeKinds ∧ k ∈ xKinds) := by
  rw [mem_av, mem_type, mem_x]
  refine ⟨?_, ?_, ?_⟩ <;> rintro ⟨h1 | h1 | h1, h2⟩ <;> rw [h1] at h2 <;> revert h2 <;> decide

theorem validateNode_iff (h : FlOk p a fl) (hp : ∀ e ∈ p.classes.entries, e.2.perms.nprim ≤ 32) {conditional : Bool} {n : Avtab.Node}
    (hx : n.key.specified &&& Avtab.XPERMS ≠ 0 → n.datum.xperms ≠ none) :
    validateNode p a fl conditional n ≠ none ∧ (validateNode p a fl conditional n = some true ↔ NodeOk p conditional n) := by
  unfold validateNode
  by_cases hk : validateKey p a fl conditional n.key = true
  · rw [if_neg (by simp [hk])]
    have hkey := (validateKey_iff h).1 hk
    have hav := fun av => validateAccessVector_iff h hp hkey.1 (av := av)
    obtain ⟨hcls, hkey⟩ := hkey
    rcases hkey with ⟨h1, h2, h3⟩ | ⟨h1, h2, h3⟩ | ⟨h1, h2, h3, h4, h5⟩
    · have hb := kind_av h1
      simp only [hb.1, hb.2.1, hb.2.2, Bool.false_and, Bool.true_and, if_true, Bool.false_eq_true, if_false]
      refine ⟨andThen_none (hav _).1 fun _ => by simp, ?_⟩
      rw [andThen_true, (hav _).2]
      unfold NodeOk Avtab.AUDITDENY
      constructor
      · rintro ⟨h4, _⟩; exact ⟨hcls, .inl ⟨h1, h2, h3, h4⟩⟩
      · rintro ⟨_, ⟨_, _, _, h4⟩ | ⟨h4, _⟩ | ⟨h4, _⟩⟩
        · exact ⟨h4, rfl⟩
        · exact absurd ⟨h1, h4⟩ kinds_apart.1
        · exact absurd ⟨h1, h4⟩ kinds_apart.2.1
    · have hb := kind_type h1
      simp only [hb.1, hb.2.1, hb.2.2, Bool.false_and, Bool.true_and, if_true, Bool.false_eq_true, if_false]
      have hr := validateSimpleType_iff h (v := n.datum.data.toNat)
      refine ⟨andThen_none (by simp) fun _ => by split <;> simp, ?_⟩
      rw [andThen_true]
      unfold NodeOk
      constructor
      · rintro ⟨_, h4⟩
        refine ⟨hcls, .inr (.inl ⟨h1, h2, h3, hr.1 ?_⟩)⟩
        split at h4
        · cases h4
        · rename_i h5; simpa using h5
      · rintro ⟨_, ⟨h4, _⟩ | ⟨_, _, _, h4⟩ | ⟨h4, _⟩⟩
        · exact absurd ⟨h4, h1⟩ kinds_apart.1
        · exact ⟨rfl, by rw [if_neg (by simp [hr.2 h4])]⟩
        · exact absurd ⟨h1, h4⟩ kinds_apart.2.2
    · have hb := kind_x h1
      simp only [hb.1, hb.2.1, hb.2.2, Bool.false_and, Bool.true_and, if_true, Bool.false_eq_true, if_false]
      have hxx : ∃ x, n.datum.xperms = some x := Option.ne_none_iff_exists'.1 (hx (by simpa using hb.2.2))
      obtain ⟨x, hxe⟩ := hxx
      rw [hxe]
      simp only
      have hd : (if n.datum.data != 0 then validateAccessVector a n.key.cls n.datum.data else some true) ≠ none ∧
          ((if n.datum.data != 0 then validateAccessVector a n.key.cls n.datum.data else some true) = some true ↔
            (n.datum.data = 0 ∨ HasPerm p n.key.cls n.datum.data)) := by
        by_cases h0 : n.datum.data = 0#32
        · rw [if_neg (by simp [h0])]
          exact ⟨by simp, by simp [h0]⟩
        · rw [if_pos (by simpa using h0)]
          refine ⟨(hav _).1, ?_⟩
          rw [(hav _).2]
          exact ⟨.inr, fun h6 => h6.resolve_left h0⟩
      have hv : validateXperms x = true ↔ (x.specified = 1#8 ∨ x.specified = 2#8 ∨ x.specified = 3#8) := by
        simp only [validateXperms, Bool.or_eq_true, beq_iff_eq, or_assoc]
      refine ⟨andThen_none (by simp) fun _ => andThen_none hd.1 fun _ => by simp, ?_⟩
      rw [andThen_true, andThen_true, hd.2, Option.some.injEq (validateXperms x), hv]
      unfold NodeOk
      constructor
      · rintro ⟨_, h6, h7⟩
        exact ⟨hcls, .inr (.inr ⟨h1, h2, h3, h4, h5, h6, x, hxe, h7⟩)⟩
      · rintro ⟨_, ⟨h6, _⟩ | ⟨h6, _⟩ | ⟨_, _, _, _, _, h6, y, hy, h7⟩⟩
        · exact absurd ⟨h6, h1⟩ kinds_apart.2.1
        · exact absurd ⟨h6, h1⟩ kinds_apart.2.2
        · rw [hxe, Option.some.injEq] at hy
          subst hy
          exact ⟨rfl, h6, h7⟩
  · rw [if_pos (by simpa using hk)]
    refine ⟨by simp, ?_⟩
    simp only [Option.some.injEq, Bool.false_eq_true, false_iff]
    intro hn
    apply hk
    rw [validateKey_iff h]
    refine ⟨hn.1, ?_⟩
    rcases hn.2 with ⟨h1, h2, h3, _⟩ | ⟨h1, h2, h3, _⟩ | ⟨h1, h2, h3, h4, h5, _⟩
    · exact .inl ⟨h1, h2, h3⟩
    · exact .inr (.inl ⟨h1, h2, h3⟩)
    · exact .inr (.inr ⟨h1, h2, h3, h4, h5⟩)

/-! ## Conditionals -/

theorem cond_arity (h : FlOk p a fl) :
    Arity (fun e : CondTok => e.exprType = 1 ∧ IsBool p e.boolean) (fun e => e.exprType = 2 ∧ e.boolean = 0)
      (fun e => 3 ≤ e.exprType ∧ e.exprType ≤ 7 ∧ e.boolean = 0) (validateCondLoop fl.bools) 10 := by
  refine ⟨?_, ?_, ?_, ?_, ?_⟩
  · intro d; unfold validateCondLoop; simp
  · intro e l d hc
    rw [validateCondLoop] at hc
    by_cases h1 : e.exprType = 1
    · rw [if_pos h1] at hc
      split at hc
      · cases hc
      rename_i hv
      exact .inl ⟨h1, (validateValue_iff h.bools).1 (by simpa using hv)⟩
    rw [if_neg h1] at hc
    by_cases h2 : e.exprType = 2
    · rw [if_pos h2] at hc
      split at hc
      · cases hc
      split at hc
      · cases hc
      rename_i hv
      exact .inr (.inl ⟨h2, by simpa using hv⟩)
    rw [if_neg h2] at hc
    by_cases h3 : e.exprType = 3 ∨ e.exprType = 4 ∨ e.exprType = 5 ∨ e.exprType = 6 ∨ e.exprType = 7
    · rw [if_pos h3] at hc
      split at hc
      · cases hc
      split at hc
      · cases hc
      rename_i hv
      exact .inr (.inr ⟨by omega, by omega, by simpa using hv⟩)
    · rw [if_neg h3] at hc; cases hc
  · rintro e l d ⟨h1, h2⟩
    rw [validateCondLoop, if_pos h1, if_neg (by simp [(validateValue_iff h.bools).2 h2])]
    by_cases hd : d ≥ 10 - 1
    · rw [if_pos hd]; simp at hd ⊢; omega
    · rw [if_neg hd]; simp at hd ⊢; intro _; omega
  · rintro e l d ⟨h1, h2⟩
    rw [validateCondLoop, if_neg (by omega), if_pos h1]
    by_cases hd : d < 0
    · rw [if_pos hd]; simp; omega
    · rw [if_neg hd, if_neg (by simp [h2])]; simp; intro _; omega
  · rintro e l d ⟨h1, h2, h3⟩
    rw [validateCondLoop, if_neg (by omega), if_neg (by omega), if_pos (by omega)]
    by_cases hd : d < 1
    · rw [if_pos hd]; simp; omega
    · rw [if_neg hd, if_neg (by simp [h3])]; simp; intro _; omega

theorem validateCondExpr_iff (h : FlOk p a fl) {l : List CondTok} : validateCondExpr fl.bools l = true ↔ CondExprOk p l := by
  unfold validateCondExpr CondExprOk
  rw [← check_iff (cond_arity h)]
  by_cases he : l.isEmpty = true
  · rw [if_pos he, List.isEmpty_iff.1 he]
    simp [validateCondLoop]
  · rw [if_neg he]

theorem validateCond_iff (h : FlOk p a fl) (hp : ∀ e ∈ p.classes.entries, e.2.perms.nprim ≤ 32) {c : CondD}
    (hx : ∀ n ∈ c.trueList ++ c.falseList, n.key.specified &&& Avtab.XPERMS ≠ 0 → n.datum.xperms ≠ none) :
    validateCond p a fl c ≠ none ∧ (validateCond p a fl c = some true ↔ CondOk p c) := by
  have hT : ∀ n ∈ c.trueList, _ := fun n hn => validateNode_iff h hp (conditional := true) (hx n (by simp [hn]))
  have hF : ∀ n ∈ c.falseList, _ := fun n hn => validateNode_iff h hp (conditional := true) (hx n (by simp [hn]))
  unfold validateCond CondOk
  rw [← validateCondExpr_iff h]
  by_cases h1 : validateCondExpr fl.bools c.expr = true
  · rw [if_neg (by simp [h1])]
    constructor
    · refine andThen_none (every_none fun n hn => (hT n hn).1) fun _ => andThen_none (every_none fun n hn => (hF n hn).1) fun _ => ?_
      split <;> simp
    · rw [andThen_true, andThen_true, every_true, every_true]
      refine ⟨?_, ?_⟩
      · rintro ⟨h2, h3, h4⟩
        refine ⟨h1, fun n hn => (hT n hn).2.1 (h2 n hn), fun n hn => (hF n hn).2.1 (h3 n hn), ?_⟩
        split at h4
        · cases h4
        · rename_i h5
          have : c.curState = 0 ∨ c.curState = 1 := by
            rw [Bool.not_eq_true, Bool.not_eq_false', Bool.or_eq_true, beq_iff_eq, beq_iff_eq] at h5; exact h5
          refine ⟨this, ?_⟩
          simp only [Option.some.injEq, Bool.or_eq_true, beq_iff_eq] at h4
          omega
      · rintro ⟨_, h2, h3, h4, h5⟩
        refine ⟨fun n hn => (hT n hn).2.2 (h2 n hn), fun n hn => (hF n hn).2.2 (h3 n hn), ?_⟩
        rw [if_neg (by rw [Bool.not_eq_true, Bool.not_eq_false', Bool.or_eq_true, beq_iff_eq, beq_iff_eq]; exact h4)]
        simp only [Option.some.injEq, Bool.or_eq_true, beq_iff_eq]
        omega
  · rw [if_pos (by simpa using h1)]
    refine ⟨by simp, ?_⟩
    simp [h1]

/-! ## Other rules -/

theorem validateRoleTrans_iff (h : FlOk p a fl) {t : RoleTrans} : validateRoleTrans fl t = true ↔ RoleTransOk p t := by
  simp only [validateRoleTrans, RoleTransOk, Bool.and_eq_true, validateValue_iff h.roles, validateValue_iff h.types, validateValue_iff h.classes, and_assoc]

theorem validateRoleAllow_iff (h : FlOk p a fl) {t : Nat × Nat} : validateRoleAllow fl t = true ↔ IsRole p t.1 ∧ IsRole p t.2 := by
  simp only [validateRoleAllow, Bool.and_eq_true, validateValue_iff h.roles]

theorem validateFileTrans_iff (h : FlOk p a fl) {t : FileTrans} (hw : ∀ d ∈ t.data, Ebitmap.WF d.1) :
    validateFileTrans a fl t = true ↔ FileTransOk p t := by
  refine chain (validateValue_iff h.types) fun _ => chain (validateValue_iff h.classes) fun _ => chain' (by simp) fun _ => ?_
  rw [List.all_eq_true]
  refine forall_congr' fun d => forall_congr' fun hd => ?_
  rw [Bool.and_eq_true, validateEbitmap_iff h.types (hw d hd), validateSimpleType_iff h]

theorem validateRangeTr_iff (h : FlOk p a fl) {t : RangeTr} (hw : RangeWf t.range) : validateRangeTr fl t = true ↔ RangeTrOk p t := by
  simp only [validateRangeTr, RangeTrOk, Bool.and_eq_true, validateValue_iff h.types, validateValue_iff h.classes, validateRange_iff h hw, and_assoc]

/-! ## Contexts -/

theorem validateContext_iff (h : FlOk p a fl) {c : Context} (hw : RangeWf c.range) : validateContext p fl c = true ↔ ContextOk p c := by
  unfold validateContext ContextOk
  rw [Bool.and_eq_true, Bool.and_eq_true, Bool.and_eq_true, validateValue_iff h.users, validateValue_iff h.roles, validateValue_iff h.types,
    Bool.not_eq_true', Bool.eq_false_iff, ne_eq, whenMls p.mls (validateRange_iff h hw), not_not, and_assoc, and_assoc]

theorem validateOcon_iff (h : FlOk p a fl) {i : Nat} (hi : i < 9) {o : Ocon} (hw : RangeWf o.context0.range ∧ RangeWf o.context1.range) :
    validateOcon p fl i o = true ↔ OconOk p i o := by
  have hc := validateContext_iff h hw.2
  refine chain (validateContext_iff h hw.1) fun _ => ?_
  by_cases h0 : p.target = 0
  · rw [if_pos h0]
    unfold LinuxOconOk
    simp only [h0, true_imp_iff, Nat.zero_ne_one, false_imp_iff, and_true]
    have : i = 0 ∨ i = 1 ∨ i = 2 ∨ i = 3 ∨ i = 4 ∨ i = 5 ∨ i = 6 ∨ i = 7 ∨ i = 8 := by omega
    rcases this with rfl | rfl | rfl | rfl | rfl | rfl | rfl | rfl | rfl
    · simp [selinuxSids]; omega
    · simp [hc]
    · simp
    · simp [hc]
    · simp
    · simp; rw [← and_assoc]; refine and_congr_left fun _ => ?_; omega
    · simp
    · simp
    · simp
  · rw [if_neg h0]
    by_cases h1 : p.target = 1
    · rw [if_pos h1]
      unfold XenOconOk
      simp only [h1, true_imp_iff, Nat.one_ne_zero, false_imp_iff, true_and]
      have : i = 0 ∨ i = 1 ∨ i = 2 ∨ i = 3 ∨ i = 4 ∨ i = 5 ∨ i = 6 ∨ i = 7 ∨ i = 8 := by omega
      rcases this with rfl | rfl | rfl | rfl | rfl | rfl | rfl | rfl | rfl
      · simp [xenSids]; omega
      · simp
      · simp
      · simp; intro _; omega
      · simp
      · simp
      · simp
      · simp
      · simp
    · rw [if_neg h1]
      simp [h0, h1]

theorem validateGenfs_iff (h : FlOk p a fl) {g : Genfs} (hw : ∀ o ∈ g.head, RangeWf o.1.range) : validateGenfs p fl g = true ↔ GenfsOk p g := by
  unfold validateGenfs GenfsOk
  rw [Bool.and_eq_true, List.all_eq_true, and_comm]
  refine and_congr_right fun _ => forall_congr' fun o => forall_congr' fun ho => ?_
  rw [Bool.and_eq_true, validateContext_iff h (hw o ho), Bool.not_eq_true', Bool.eq_false_iff, ne_eq, optional h.classes, not_not]

end Verif.Validate
