import Verif.Validate.Lemmas2

/-! # The checks of symbols, rules and contexts -/

namespace Verif.Validate
open Verif.Policy Verif.Services

variable {p : VPolicy} {a : Indexes} {fl : AllFlavors}

/-! ## Permissions -/

theorem shift_and {i : Nat} (hi : i < 32) (v : BitVec 32) : ((1#32 <<< i) &&& v != 0#32) = v.getLsbD i := by
  rw [Bool.eq_iff_iff, bne_iff_ne, ne_eq]
  constructor
  · intro h
    by_contra hc
    apply h
    apply BitVec.eq_of_getLsbD_eq
    intro j hj
    rw [BitVec.getLsbD_and, BitVec.getLsbD_shiftLeft, BitVec.getLsbD_one]
    by_cases hji : j = i
    · subst hji; simp [Bool.eq_false_iff.2 hc]
    · have : (decide (j - i = 0) && !decide (j < i)) = false := by
        rw [Bool.and_eq_false_iff]
        by_cases h2 : j < i
        · right; simp [h2]
        · left; simp; omega
      simp only [BitVec.getLsbD_zero]
      by_cases h2 : j < i
      · simp [h2]
      · have : j - i ≠ 0 := by omega
        simp [this]
  · intro h hz
    have := congrArg (fun x => x.getLsbD i) hz
    simp only [BitVec.getLsbD_and, h, BitVec.getLsbD_zero, Bool.and_true] at this
    simp [hi] at this

theorem permVisit_iff {nprim inh : Nat} (hn : nprim ≤ 32) : ∀ {l : List (Str × Nat)} {visited : BitVec 32},
    permVisit nprim inh l visited = true ↔
      ((∀ e ∈ l, inh < e.2 ∧ 1 ≤ e.2 ∧ e.2 ≤ nprim) ∧ (l.map (·.2)).Nodup ∧ ∀ e ∈ l, visited.getLsbD (e.2 - 1) = false) := by
  intro l
  induction l with
  | nil => intro visited; simp [permVisit]
  | cons x l ih =>
    intro visited
    obtain ⟨s, v⟩ := x
    unfold permVisit
    by_cases h1 : valueIsValid v nprim = true
    · rw [if_neg (by simp [h1])]
      have h1' := valueIsValid_iff.1 h1
      by_cases h2 : inh < v
      · rw [if_neg (by
          simp only [Bool.and_eq_true, bne_iff_ne, ne_eq, valueIsValid_iff]
          omega), shift_and (by omega)]
        by_cases h3 : visited.getLsbD (v - 1) = true
        · rw [if_pos h3]
          simp only [Bool.false_eq_true, false_iff]
          rintro ⟨_, _, h4⟩
          have := h4 (s, v) (by simp)
          simp [h3] at this
        · rw [if_neg h3, ih]
          have hor : ∀ e : Str × Nat, 1 ≤ e.2 → ((visited ||| 1#32 <<< (v - 1)).getLsbD (e.2 - 1) = false ↔
              visited.getLsbD (e.2 - 1) = false ∧ e.2 ≠ v) := by
            intro e he
            rw [BitVec.getLsbD_or, Bool.or_eq_false_iff]
            refine and_congr_right fun _ => ?_
            rw [BitVec.getLsbD_shiftLeft, BitVec.getLsbD_one]
            constructor
            · intro h4 h5
              rw [h5] at h4
              have : v - 1 < 32 := by omega
              simp [this] at h4
            · intro h4
              by_cases h5 : e.2 - 1 < v - 1
              · simp [h5]
              · have : e.2 - 1 - (v - 1) ≠ 0 := by omega
                simp [this]
          constructor
          · rintro ⟨h4, h5, h6⟩
            refine ⟨?_, ?_, ?_⟩
            · intro e he
              rcases List.mem_cons.1 he with rfl | he
              · exact ⟨h2, h1'⟩
              · exact h4 e he
            · rw [List.map_cons, List.nodup_cons]
              refine ⟨?_, h5⟩
              intro hm
              obtain ⟨e, he, hev⟩ := List.mem_map.1 hm
              exact ((hor e (h4 e he).2.1).1 (h6 e he)).2 hev
            · intro e he
              rcases List.mem_cons.1 he with rfl | he
              · simpa using h3
              · exact ((hor e (h4 e he).2.1).1 (h6 e he)).1
          · rintro ⟨h4, h5, h6⟩
            rw [List.map_cons, List.nodup_cons] at h5
            refine ⟨fun e he => h4 e (by simp [he]), h5.2, fun e he => ?_⟩
            rw [hor e (h4 e (by simp [he])).2.1]
            refine ⟨h6 e (by simp [he]), fun hv => h5.1 (List.mem_map.2 ⟨e, he, hv⟩)⟩
      · rw [if_pos (by
          simp only [Bool.and_eq_true, bne_iff_ne, ne_eq, valueIsValid_iff]
          omega)]
        simp only [Bool.false_eq_true, false_iff]
        rintro ⟨h4, _⟩
        exact h2 (h4 (s, v) (by simp)).1
    · rw [if_pos (by simpa using h1)]
      simp only [Bool.false_eq_true, false_iff]
      rintro ⟨h4, _⟩
      exact h1 (valueIsValid_iff.2 (h4 (s, v) (by simp)).2)

theorem validateCommon_iff (h : FlOk p a fl) {d : CommonD} : validateCommon fl d = true ↔ CommonOk p d := by
  unfold validateCommon CommonOk
  rw [← validateValue_iff h.commons]
  by_cases h1 : validateValue d.value fl.commons = true
  · rw [if_neg (by simp [h1])]
    by_cases h2 : d.perms.nprim = 0 ∨ d.perms.nprim > 32
    · rw [if_pos (by simpa using h2)]
      simp only [Bool.false_eq_true, false_iff]
      rintro ⟨_, h3, h4, _⟩; omega
    · rw [if_neg (by simpa using h2)]
      by_cases h3 : d.perms.nprim = d.perms.entries.length
      · rw [if_neg (by simp [h3]), validatePermissionSymtab, permVisit_iff (by omega)]
        constructor
        · rintro ⟨h4, h5, _⟩
          exact ⟨h1, by omega, by omega, h3.symm, fun e he => ⟨(h4 e he).2.1, (h4 e he).2.2⟩, h5⟩
        · rintro ⟨_, _, _, _, h4, h5⟩
          exact ⟨fun e he => ⟨by have := h4 e he; omega, h4 e he⟩, h5, fun _ _ => by simp⟩
      · rw [if_pos (by simpa using h3)]
        simp only [Bool.false_eq_true, false_iff]
        rintro ⟨_, _, _, h4, _⟩; exact h3 h4.symm
  · rw [if_pos (by simpa using h1)]
    simp [h1]

theorem le2 {n : Nat} : (n == 0 || n == 1 || n == 2) = true ↔ n ≤ 2 := by
  simp only [Bool.or_eq_true, beq_iff_eq]; omega

/-- A chain of tests. -/
theorem chain {b : Bool} {r : Bool} {P Q : Prop} (h1 : b = true ↔ P) (h2 : P → (r = true ↔ Q)) :
    (if !b then false else r) = true ↔ P ∧ Q := by
  by_cases hb : b = true
  · rw [if_neg (by simp [hb]), h2 (h1.1 hb)]
    exact ⟨fun h => ⟨h1.1 hb, h⟩, fun h => h.2⟩
  · rw [if_pos (by simpa using hb)]
    simp only [Bool.false_eq_true, false_iff]
    exact fun h => hb (h1.2 h.1)

theorem chain' {b : Bool} {r : Bool} {P Q : Prop} (h1 : b = true ↔ ¬ P) (h2 : P → (r = true ↔ Q)) :
    (if b then false else r) = true ↔ P ∧ Q := by
  have := chain (b := !b) (r := r) (P := P) (Q := Q) (by
    constructor
    · intro hb
      by_contra hc
      rw [h1.2 hc] at hb; cases hb
    · intro hp
      rw [Bool.not_eq_true', Bool.eq_false_iff]
      exact fun hb => h1.1 hb hp) h2
  simpa using this

theorem validateClass_iff (h : FlOk p a fl) {d : ClassD} (hw : (∀ c ∈ d.constraints, ConWf c) ∧ (∀ c ∈ d.validatetrans, ConWf c)) :
    validateClass fl d = true ↔ ClassOk p d := by
  have hcom : ((match d.common with | none => true | some c => validateCommon fl c) = true) ↔ ∀ c, d.common = some c → CommonOk p c := by
    cases hc : d.common with
    | none => simp
    | some c => simp [validateCommon_iff h]
  have hlen : (∀ c, d.common = some c → CommonOk p c) →
      (match d.common with | none => 0 | some c => c.perms.entries.length) = inherited d := by
    intro hc
    unfold inherited
    cases hd : d.common with
    | none => rfl
    | some c => exact (hc c hd).2.2.2.1
  have hinh : (match d.common with | none => 0 | some c => c.perms.nprim) = inherited d := rfl
  have hval : (decide (d.value > 65535) || !validateValue d.value fl.classes) = true ↔ ¬(d.value ≤ 65535 ∧ IsClass p d.value) := by
    rw [← validateValue_iff h.classes]
    simp only [Bool.or_eq_true, decide_eq_true_eq, Bool.not_eq_true', Bool.eq_false_iff]
    constructor
    · rintro (h1 | h1) ⟨h2, h3⟩
      · omega
      · exact h1 h3
    · intro h1
      by_cases h2 : d.value > 65535
      · exact .inl h2
      · exact .inr fun h3 => h1 ⟨by omega, h3⟩
  have hnp : (decide (d.perms.nprim > 32) || decide (d.perms.entries.length > 32)) = true ↔
      ¬(d.perms.nprim ≤ 32 ∧ d.perms.entries.length ≤ 32) := by
    simp only [Bool.or_eq_true, decide_eq_true_eq]; omega
  have heq : (∀ c, d.common = some c → CommonOk p c) →
      ((d.perms.nprim != d.perms.entries.length + (match d.common with | none => 0 | some c => c.perms.entries.length)) = true ↔
        ¬(d.perms.nprim = d.perms.entries.length + inherited d)) := by
    intro hc
    rw [hlen hc, bne_iff_ne]
  have h7 : (d.defaultRange == 0 || d.defaultRange == 1 || d.defaultRange == 2 || d.defaultRange == 3 || d.defaultRange == 4 ||
      d.defaultRange == 5 || d.defaultRange == 6 || d.defaultRange == 7) = true ↔ d.defaultRange ≤ 7 := by
    simp only [Bool.or_eq_true, beq_iff_eq]; omega
  have hchain := chain' hval fun _ => chain hcom fun hco => chain' hnp fun hle => chain' (heq hco) fun _ =>
    chain (b := validatePermissionSymtab d.perms (inherited d)) (permVisit_iff hle.1) fun _ =>
    chain (validateConstraints_iff h hle.1 hw.1) fun _ => chain (validateTrans_iff h hw.2) fun _ =>
    chain (le2 (n := d.defaultUser)) fun _ => chain (le2 (n := d.defaultRole)) fun _ => chain (le2 (n := d.defaultType)) fun _ => h7
  refine Iff.trans hchain ?_
  unfold ClassOk
  constructor
  · rintro ⟨⟨h1, h2⟩, h3, ⟨h4, _⟩, h5, ⟨h6, h7, _⟩, h8, h9, h10⟩
    exact ⟨h1, h2, h3, h4, h5, fun e he => ⟨(h6 e he).1, (h6 e he).2.2⟩, h7, h8, h9, h10⟩
  · rintro ⟨h1, h2, h3, h4, h5, h6, h7, h8, h9, h10⟩
    exact ⟨⟨h1, h2⟩, h3, ⟨h4, by omega⟩, h5, ⟨fun e he => ⟨(h6 e he).1, by have := h6 e he; omega, (h6 e he).2⟩, h7, fun _ _ => by simp⟩, h8, h9, h10⟩

/-! ## Roles, types, users, levels -/

theorem optional {n : Nat} {f : Flavor} {D : Nat → Prop} (h : FlavorOk D f) :
    (n != 0 && !validateValue n f) = true ↔ ¬(n = 0 ∨ D n) := by
  rw [← validateValue_iff h]
  simp only [Bool.and_eq_true, bne_iff_ne, ne_eq, Bool.not_eq_true', not_or, Bool.eq_false_iff]

theorem validateRole_iff (h : FlOk p a fl) {d : RoleD} (hw : Ebitmap.WF d.dominates ∧ Ebitmap.WF d.roles ∧ TypeSetWf d.types) :
    validateRole fl d = true ↔ RoleOk p d :=
  chain (validateValue_iff h.roles) fun _ => chain (validateEbitmap_iff h.roles hw.1) fun _ => chain (validateTypeSet_iff h hw.2.2) fun _ =>
    chain' (optional h.roles) fun _ => chain (validateEbitmap_iff h.roles hw.2.1) fun _ => by
      simp only [Bool.or_eq_true, beq_iff_eq]; omega

theorem validateType_iff (h : FlOk p a fl) {d : TypeD} (hw : Ebitmap.WF d.types) : validateType a fl d = true ↔ TypeOk p d := by
  refine chain (validateValue_iff h.types) fun _ => chain' (optional h.types) fun _ => chain ?_ fun _ => ?_
  · have hs := validateSimpleType_iff h (v := d.bounds)
    have he := isEmpty_iff hw
    have hm := validateEbitmap_iff h.types hw
    by_cases h1 : d.flavor = 0 ∨ d.flavor = 2
    · rw [if_pos (by simpa using h1), Bool.and_eq_true, he]
      constructor
      · rintro ⟨h2, h3⟩
        refine .inl ⟨h1, h2, ?_⟩
        by_cases h4 : d.bounds = 0
        · exact .inl h4
        · exact .inr (hs.1 (by simpa [h4] using h3))
      · rintro (⟨_, h2, h3⟩ | ⟨h2, _⟩)
        · refine ⟨h2, ?_⟩
          rcases h3 with h3 | h3
          · simp [h3]
          · simp [hs.2 h3]
        · omega
    · rw [if_neg (by simpa using h1)]
      by_cases h2 : d.flavor = 1
      · rw [if_pos (by simpa using h2), Bool.and_eq_true, hm, beq_iff_eq]
        constructor
        · rintro ⟨h3, h4⟩; exact .inr ⟨h2, h3, h4⟩
        · rintro (⟨h3, _⟩ | ⟨_, h3⟩)
          · exact absurd h3 h1
          · exact h3
      · rw [if_neg (by simpa using h2)]
        simp [h1, h2]
  · simp only [Bool.or_eq_true, beq_iff_eq, List.mem_cons, List.not_mem_nil, or_false]; tauto

theorem validateSemLevel_iff (h : FlOk p a fl) {l : SemLevel} : validateSemLevel fl l = true ↔ SemLevelOk p l := by
  unfold validateSemLevel SemLevelOk validateSemCats
  by_cases h0 : l.sens = 0
  · simp [h0]
  · rw [if_neg (by simpa using h0)]
    simp only [Bool.and_eq_true, List.all_eq_true, validateValue_iff h.levels, validateValue_iff h.cats, h0, false_or, Bool.not_eq_true',
      decide_eq_false_iff_not, gt_iff_lt, Nat.not_lt, and_assoc]

theorem validateLevel_iff (h : FlOk p a fl) {l : Level} (hw : Ebitmap.WF l.cat) : validateLevel fl l = true ↔ LevelOk p l := by
  simp only [validateLevel, LevelOk, Bool.and_eq_true, validateValue_iff h.levels, validateEbitmap_iff h.cats hw]

theorem validateRange_iff (h : FlOk p a fl) {r : Range} (hw : RangeWf r) : validateRange fl r = true ↔ RangeOk p r := by
  simp only [validateRange, RangeOk, Bool.and_eq_true, validateLevel_iff h hw.1, validateLevel_iff h hw.2]

theorem whenMls {b : Bool} {P : Prop} (m : Nat) (h : b = true ↔ P) : (m != 0 && !b) = true ↔ ¬(m ≠ 0 → P) := by
  rw [← h]
  simp only [Bool.and_eq_true, bne_iff_ne, Bool.not_eq_true', Bool.eq_false_iff]
  tauto

theorem validateUser_iff (h : FlOk p a fl) {d : UserD} (hw : Ebitmap.WF d.roles.roles ∧ RangeWf d.expRange ∧ Ebitmap.WF d.expDfltlevel.cat) :
    validateUser p fl d = true ↔ UserOk p d := by
  have hrs : validateRoleSet d.roles fl.roles = true ↔ Members d.roles.roles (IsRole p) ∧ d.roles.flags ≤ 2 := by
    unfold validateRoleSet
    rw [Bool.and_eq_true, validateEbitmap_iff h.roles hw.1, le2]
  have hb : (!(d.bounds != 0 && !validateValue d.bounds fl.users)) = true ↔ (d.bounds = 0 ∨ IsUser p d.bounds) := by
    rw [Bool.not_eq_true', Bool.eq_false_iff, ne_eq, optional h.users, not_not]
  have h2 : (validateSemLevel fl d.low && validateSemLevel fl d.high) = true ↔ SemLevelOk p d.low ∧ SemLevelOk p d.high := by
    rw [Bool.and_eq_true, validateSemLevel_iff h, validateSemLevel_iff h]
  refine Iff.trans (chain (validateValue_iff h.users) fun _ => chain hrs fun _ => chain h2 fun _ => chain (validateSemLevel_iff h) fun _ =>
    chain' (whenMls p.mls (validateRange_iff h hw.2.1)) fun _ => chain' (whenMls p.mls (validateLevel_iff h hw.2.2)) fun _ => hb) ?_
  unfold UserOk
  tauto

theorem validateBool_iff (h : FlOk p a fl) {d : BoolD} : validateBool fl d = true ↔ BoolOk p d :=
  chain (validateValue_iff h.bools) fun _ => chain (by simp) fun _ => by simp only [Bool.or_eq_true, beq_iff_eq]; omega

theorem find_name {δ : Type} {l : List (Str × δ)} (hn : (l.map (·.1)).Nodup) {e : Str × δ} (he : e ∈ l) : l.find? (·.1 == e.1) = some e := by
  induction l with
  | nil => cases he
  | cons x l ih =>
    rw [List.map_cons, List.nodup_cons] at hn
    rcases List.mem_cons.1 he with rfl | he
    · simp
    · have : x.1 ≠ e.1 := fun hc => hn.1 (List.mem_map.2 ⟨e, he, hc.symm⟩)
      rw [List.find?_cons_of_neg (by simpa using this)]
      exact ih hn.2 he

theorem validateLevelDatum_iff (h : FlOk p a fl) (hnames : (p.levels.entries.map (·.1)).Nodup)
    (hw : ∀ e ∈ p.levels.entries, Ebitmap.WF e.2.level.cat) {d : LevelD} (hd : Ebitmap.WF d.level.cat) :
    validateLevelDatum p a fl d ≠ none ∧ (validateLevelDatum p a fl d = some true ↔ LevelDOk p d) := by
  unfold validateLevelDatum LevelDOk
  by_cases h1 : d.notdefined = 0
  · rw [if_neg (by simp [h1])]
    rw [← validateLevel_iff h hd]
    by_cases h2 : validateLevel fl d.level = true
    · rw [if_neg (by simp [h2])]
      by_cases h3 : d.isalias = true
      · rw [if_pos h3]
        obtain ⟨hs1, hs2, e, he, hal, hes⟩ := ((validateLevel_iff h hd).1 h2).1
        have hidx := (h.ilevels (d.level.sens - 1) e).2 ⟨by omega, he, hal, by omega⟩
        have hsearch : searchLevel p e.1 = some e.2 := by
          unfold searchLevel
          rw [find_name hnames he]; rfl
        simp only [hidx, hsearch]
        refine ⟨by simp, ?_⟩
        rw [Option.some.injEq, (Ebitmap.C03_relations hd (hw e he)).1]
        constructor
        · intro hc
          refine ⟨h1, h2, fun _ f hf hfa hfs b => ?_⟩
          have hidx2 := (h.ilevels (d.level.sens - 1) f).2 ⟨by omega, hf, hfa, by show f.2.level.sens = _; omega⟩
          rw [hidx, Option.some.injEq] at hidx2
          rw [← hidx2]; exact (hc b).symm
        · rintro ⟨_, _, hc⟩ b
          exact (hc h3 e he hal hes b).symm
      · rw [if_neg h3]
        refine ⟨by simp, ?_⟩
        simp only [true_iff]
        exact ⟨h1, h2, fun h4 => absurd h4 h3⟩
    · rw [if_pos (by simpa using h2)]
      refine ⟨by simp, ?_⟩
      simp [h2]
  · rw [if_pos (by simpa using h1)]
    refine ⟨by simp, ?_⟩
    simp [h1]

/-! ## Rules -/

theorem mask_iff {n : Nat} (hn : n ≤ 32) : ∃ m, permissionMask n = some m ∧ ∀ v : BitVec 32, (v &&& m != 0#32) = true ↔ ∃ b < n, v.getLsbD b = true := by
  have hex : ∀ v : BitVec 32, (v != 0#32) = true ↔ ∃ b < 32, v.getLsbD b = true := by
    intro v
    rw [bne_iff_ne]
    constructor
    · intro h
      by_contra hc
      apply h
      apply BitVec.eq_of_getLsbD_eq
      intro i hi
      rw [BitVec.getLsbD_zero, Bool.eq_false_iff]
      exact fun hb => hc ⟨i, hi, hb⟩
    · rintro ⟨b, _, hb⟩ rfl
      simp at hb
  unfold permissionMask
  by_cases h32 : n = 32
  · refine ⟨_, if_pos h32, fun v => ?_⟩
    rw [hex, h32]
    refine exists_congr fun b => and_congr_right fun hb => ?_
    rw [BitVec.getLsbD_and, BitVec.getLsbD_not]
    simp [hb]
  · refine ⟨_, by rw [if_neg h32, if_neg (by omega)], fun v => ?_⟩
    rw [hex]
    have hbit : ∀ b < 32, ((1#32 <<< n) - 1#32).getLsbD b = decide (b < n) := by
      intro b hb
      have hlt : 2 ^ n < 2 ^ 32 := Nat.pow_lt_pow_right (by omega) (by omega)
      have : ((1#32 <<< n) - 1#32).toNat = 2 ^ n - 1 := by
        rw [BitVec.toNat_sub, BitVec.toNat_shiftLeft]
        simp only [BitVec.toNat_ofNat, Nat.shiftLeft_eq]
        have := Nat.two_pow_pos n
        rw [show (1 : Nat) % 2 ^ 32 = 1 by decide, Nat.one_mul, Nat.mod_eq_of_lt hlt]
        rw [show 2 ^ 32 - 1 + 2 ^ n = (2 ^ n - 1) + 2 ^ 32 by omega, Nat.add_mod_right, Nat.mod_eq_of_lt (by omega)]
      rw [BitVec.getLsbD, this, Nat.testBit_two_pow_sub_one]
    constructor
    · rintro ⟨b, hb, h⟩
      rw [BitVec.getLsbD_and, hbit b hb] at h
      simp only [Bool.and_eq_true, decide_eq_true_eq] at h
      exact ⟨b, h.2, h.1⟩
    · rintro ⟨b, hb, h⟩
      refine ⟨b, by omega, ?_⟩
      rw [BitVec.getLsbD_and, hbit b (by omega), h]
      simp [hb]

theorem validateAccessVector_iff (h : FlOk p a fl) (hp : ∀ e ∈ p.classes.entries, e.2.perms.nprim ≤ 32) {cls : Nat} (hc : IsClass p cls)
    {av : BitVec 32} : validateAccessVector a cls av ≠ none ∧ (validateAccessVector a cls av = some true ↔ HasPerm p cls av) := by
  obtain ⟨h1, h2, e, he, _, hv⟩ := hc
  have hidx := (h.iclasses (cls - 1) e).2 ⟨by omega, he, rfl, by omega⟩
  obtain ⟨m, hm, hmi⟩ := mask_iff (hp e he)
  unfold validateAccessVector HasPerm
  simp only [hidx, hm]
  refine ⟨by simp, ?_⟩
  rw [Option.some.injEq, hmi]
  constructor
  · intro hb; exact ⟨e, he, hv, hb⟩
  · rintro ⟨f, hf, hfv, hb⟩
    have hidx2 := (h.iclasses (cls - 1) f).2 ⟨by omega, hf, rfl, by omega⟩
    rw [hidx, Option.some.injEq] at hidx2
    rw [hidx2]; exact hb

end Verif.Validate
