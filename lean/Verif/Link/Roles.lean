import Verif.Link.Lemmas3
import Verif.Assertion.Lemmas
import Verif.Ebitmap.Props

/-! # Lemmas: role attributes -/

namespace Verif.Link
open Verif.Assertion (bitsOf bits_spec)

/-- Direct membership in the table. -/
def Mem (rs : List Role) (a i : Nat) : Prop :=
  ∃ r, rs[a]? = some r ∧ r.attr = true ∧ Ebitmap.getBit r.roles i = true

def isAttr (rs : List Role) (i : Nat) : Bool :=
  match rs[i]? with
  | some r => r.attr
  | none => false

theorem union_wf {e f : Ebitmap.Ebitmap} (he : Ebitmap.WF e) (hf : Ebitmap.WF f) : Ebitmap.WF (Ebitmap.union e f) :=
  (Ebitmap.wf_iff_inv _).2 (Ebitmap.inv_or ((Ebitmap.wf_iff_inv _).1 he) ((Ebitmap.wf_iff_inv _).1 hf))

theorem union_bit {e f : Ebitmap.Ebitmap} (he : Ebitmap.WF e) (hf : Ebitmap.WF f) (i : Nat) :
    Ebitmap.getBit (Ebitmap.union e f) i = (Ebitmap.getBit e i || Ebitmap.getBit f i) := by
  have h1 := (Ebitmap.wf_iff_inv _).1 he
  have h2 := (Ebitmap.wf_iff_inv _).1 hf
  have h3 := (Ebitmap.wf_iff_inv _).1 (union_wf he hf)
  rw [Ebitmap.getBit_eq h3, Ebitmap.getBit_eq h1, Ebitmap.getBit_eq h2]
  exact Ebitmap.bits_or _ _ _

/-! ### Sums -/

theorem sum_single {l : List Nat} (hn : l.Nodup) {b c : Nat} (hb : b ∈ l) :
    (l.map fun i => if i = b then c else 0).sum = c := by
  induction l with
  | nil => simp at hb
  | cons a l ih =>
    simp only [List.nodup_cons] at hn
    simp only [List.map_cons, List.sum_cons]
    by_cases h : a = b
    · subst h
      have : (l.map fun i => if i = a then c else 0) = l.map fun _ => 0 := by
        apply List.map_congr_left
        intro i hi
        have : i ≠ a := by rintro rfl; exact hn.1 hi
        simp [this]
      rw [this]
      have h0 : ∀ l : List Nat, (l.map fun _ => 0).sum = 0 := by
        intro l; induction l <;> simp_all
      simp [h0]
    · rcases List.mem_cons.1 hb with e | hb
      · exact absurd e.symm h
      · simp [h, ih hn.2 hb]

theorem sum_le_sum {l : List Nat} {f g : Nat → Nat} (h : ∀ i ∈ l, f i ≤ g i) : (l.map f).sum ≤ (l.map g).sum := by
  induction l with
  | nil => simp
  | cons a l ih =>
    have h1 := h a (by simp)
    have h2 := ih fun i hi => h i (by simp [hi])
    simp only [List.map_cons, List.sum_cons]
    omega

theorem sum_add (l : List Nat) (f g : Nat → Nat) : (l.map fun i => f i + g i).sum = (l.map f).sum + (l.map g).sum := by
  induction l with
  | nil => simp
  | cons a l ih => simp only [List.map_cons, List.sum_cons, ih]; omega

theorem sum_le_mul {l : List Nat} {f : Nat → Nat} {M : Nat} (h : ∀ i ∈ l, f i ≤ M) : (l.map f).sum ≤ l.length * M := by
  induction l with
  | nil => simp
  | cons a l ih =>
    have h1 := h a (by simp)
    have h2 := ih fun i hi => h i (by simp [hi])
    simp only [List.map_cons, List.sum_cons, List.length_cons, Nat.succ_mul]
    omega

/-! ### One attribute -/

structure RInv (rs : List Role) (rank : Nat → Nat) : Prop where
  wf : ∀ r ∈ rs, Ebitmap.WF r.roles
  bits : ∀ r ∈ rs, ∀ i, Ebitmap.getBit r.roles i = true → i < rs.length
  size : rs.length < 2 ^ 32 - 64
  object : ∀ r ∈ rs, r.name = objectR → r.attr = false
  rank : ∀ a b, Mem rs a b → isAttr rs b = true → rank b < rank a

def weight (rs : List Role) (rank : Nat → Nat) (e : Ebitmap.Ebitmap) : Nat :=
  ((List.range rs.length).map fun i =>
    if Ebitmap.getBit e i && isAttr rs i then (rs.length + 1) ^ rank i else 0).sum

theorem isAttr_iff {rs : List Role} {i : Nat} : isAttr rs i = true ↔ ∃ r, rs[i]? = some r ∧ r.attr = true := by
  unfold isAttr
  cases rs[i]? <;> simp

theorem weight_lt {rs : List Role} {rank : Nat → Nat} (inv : RInv rs rank) {e e' : Ebitmap.Ebitmap} {b : Nat} {r : Role}
    (hb : rs[b]? = some r) (ha : r.attr = true) (hbe : Ebitmap.getBit e b = true)
    (hwe' : Ebitmap.WF e') (he' : ∀ i, Ebitmap.getBit e' i = if i = b then false else Ebitmap.getBit e i) :
    weight rs rank (Ebitmap.union e' r.roles) < weight rs rank e := by
  have hblt : b < rs.length := (List.getElem?_eq_some_iff.1 hb).1
  have hrm : r ∈ rs := List.mem_of_getElem? hb
  have hwr := inv.wf r hrm
  have hattr : isAttr rs b = true := isAttr_iff.2 ⟨r, hb, ha⟩
  have h1 : weight rs rank (Ebitmap.union e' r.roles) + (rs.length + 1) ^ rank b ≤ weight rs rank e + weight rs rank r.roles := by
    unfold weight
    conv => lhs; rhs; rw [← sum_single (l := List.range rs.length) List.nodup_range (b := b)
      (c := (rs.length + 1) ^ rank b) (by simpa using hblt)]
    rw [← sum_add, ← sum_add]
    apply sum_le_sum
    intro i _
    rw [union_bit hwe' hwr, he']
    by_cases hi : i = b
    · subst hi
      simp only [if_true, Bool.false_or, hbe, Bool.true_and, hattr]
      cases Ebitmap.getBit r.roles i <;> simp
    · simp only [hi, if_false, Nat.add_zero]
      cases isAttr rs i <;> cases Ebitmap.getBit e i <;> cases Ebitmap.getBit r.roles i <;> simp
  have h2 : weight rs rank r.roles < (rs.length + 1) ^ rank b := by
    have hlt : ∀ i, Ebitmap.getBit r.roles i = true → isAttr rs i = true → rank i < rank b :=
      fun i h1 h2 => inv.rank b i ⟨r, hb, ha, h1⟩ h2
    cases hrk : rank b with
    | zero =>
      have : weight rs rank r.roles ≤ (List.range rs.length).length * 0 := by
        unfold weight
        apply sum_le_mul
        intro i _
        split
        · rename_i h
          simp only [Bool.and_eq_true] at h
          have := hlt i h.1 h.2
          omega
        · omega
      simp only [Nat.mul_zero] at this
      simp only [Nat.pow_zero]
      omega
    | succ k =>
      have : weight rs rank r.roles ≤ (List.range rs.length).length * (rs.length + 1) ^ k := by
        unfold weight
        apply sum_le_mul
        intro i _
        split
        · rename_i h
          simp only [Bool.and_eq_true] at h
          have := hlt i h.1 h.2
          exact Nat.pow_le_pow_right (by omega) (by omega)
        · omega
      simp only [List.length_range] at this
      rw [Nat.pow_succ]
      have hp : 0 < (rs.length + 1) ^ k := Nat.pow_pos (by omega)
      calc weight rs rank r.roles ≤ rs.length * (rs.length + 1) ^ k := this
        _ < (rs.length + 1) * (rs.length + 1) ^ k := by
            rw [Nat.succ_mul]; omega
        _ = (rs.length + 1) ^ k * (rs.length + 1) := Nat.mul_comm _ _
  omega

theorem scan_spec {rs : List Role} {self : Nat} {e : Ebitmap.Ebitmap} (hw : Ebitmap.WF e)
    (hsize : rs.length < 2 ^ 32 - 64) : ∀ (is : List Nat),
    (∀ i ∈ is, i < rs.length) → (∀ i ∈ is, isAttr rs i = true → i ≠ self) →
    ((∀ i ∈ is, isAttr rs i = false) ∧ scan rs self e is = .ok (.done e)) ∨
    (∃ b r e', b ∈ is ∧ rs[b]? = some r ∧ r.attr = true ∧ Ebitmap.WF e' ∧
      (∀ i, Ebitmap.getBit e' i = if i = b then false else Ebitmap.getBit e i) ∧
      scan rs self e is = .ok (.again (Ebitmap.union e' r.roles))) := by
  intro is
  induction is with
  | nil => intro _ _; left; exact ⟨by simp, rfl⟩
  | cons i is ih =>
    intro hlt hself
    have hi := hlt i (by simp)
    have hr : rs[i]? = some rs[i] := List.getElem?_eq_getElem hi
    generalize rs[i] = r at hr
    rw [scan, hr]
    simp only
    cases ha : r.attr with
    | false =>
      simp only [Bool.not_false, if_true]
      rcases ih (fun i hi => hlt i (by simp [hi])) (fun i hi => hself i (by simp [hi])) with ⟨a, b⟩ | ⟨b, r', e', h1, h2⟩
      · left
        refine ⟨?_, b⟩
        intro j hj
        rcases List.mem_cons.1 hj with rfl | hj
        · simp [isAttr, hr, ha]
        · exact a j hj
      · right; exact ⟨b, r', e', by simp [h1], h2⟩
    | true =>
      right
      obtain ⟨e', h1, h2, h3⟩ := (Ebitmap.C01_set_bit hw i (by omega) false).1 (by omega)
      have hne : i ≠ self := hself i (by simp) (isAttr_iff.2 ⟨r, hr, ha⟩)
      refine ⟨i, r, e', by simp, hr, ha, h2, h3, ?_⟩
      simp [h1, hne]

/-- The plain roles within a set of roles and attributes. -/
def Inside (rs : List Role) (e : Ebitmap.Ebitmap) (i : Nat) : Prop :=
  Plain rs i ∧ (Ebitmap.getBit e i = true ∨ ∃ b, Ebitmap.getBit e b = true ∧ Within (Mem rs) b i)

theorem within_attr {rs : List Role} {a i : Nat} (h : Within (Mem rs) a i) : isAttr rs a = true := by
  cases h with
  | direct h => obtain ⟨r, h1, h2, _⟩ := h; exact isAttr_iff.2 ⟨r, h1, h2⟩
  | through h _ => obtain ⟨r, h1, h2, _⟩ := h; exact isAttr_iff.2 ⟨r, h1, h2⟩

theorem plain_not_attr {rs : List Role} {i : Nat} (h : Plain rs i) : isAttr rs i = false := by
  obtain ⟨r, h1, h2⟩ := h
  simp [isAttr, h1, h2]

theorem inside_step {rs : List Role} {e e' : Ebitmap.Ebitmap} {b : Nat} {r : Role}
    (hb : rs[b]? = some r) (ha : r.attr = true) (hbe : Ebitmap.getBit e b = true)
    (hw' : Ebitmap.WF e') (hwr : Ebitmap.WF r.roles)
    (he' : ∀ i, Ebitmap.getBit e' i = if i = b then false else Ebitmap.getBit e i) (i : Nat) :
    Inside rs (Ebitmap.union e' r.roles) i ↔ Inside rs e i := by
  have hu := union_bit hw' hwr
  constructor
  · rintro ⟨hp, h | ⟨c, hc, hr⟩⟩
    · refine ⟨hp, ?_⟩
      rw [hu, he', Bool.or_eq_true] at h
      rcases h with h | h
      · split at h
        · cases h
        · exact Or.inl h
      · exact Or.inr ⟨b, hbe, .direct ⟨r, hb, ha, h⟩⟩
    · refine ⟨hp, ?_⟩
      rw [hu, he', Bool.or_eq_true] at hc
      rcases hc with hc | hc
      · split at hc
        · cases hc
        · exact Or.inr ⟨c, hc, hr⟩
      · exact Or.inr ⟨b, hbe, .through ⟨r, hb, ha, hc⟩ hr⟩
  · rintro ⟨hp, h | ⟨c, hc, hr⟩⟩
    · refine ⟨hp, Or.inl ?_⟩
      rw [hu, he']
      have : i ≠ b := by
        rintro rfl
        have := plain_not_attr hp
        simp [isAttr, hb, ha] at this
      simp [this, h]
    · refine ⟨hp, ?_⟩
      by_cases hcb : c = b
      · subst hcb
        cases hr with
        | direct h =>
          obtain ⟨r', h1, h2, h3⟩ := h
          rw [hb] at h1; cases h1
          left; rw [hu, h3]; simp
        | through h h' =>
          obtain ⟨r', h1, h2, h3⟩ := h
          rw [hb] at h1; cases h1
          right; exact ⟨_, by rw [hu, h3]; simp, h'⟩
      · right; exact ⟨c, by rw [hu, he']; simp [hcb, hc], hr⟩

/-- The expansion of one attribute ends and leaves the plain roles within it. -/
theorem expandLoop_spec {rs : List Role} {rank : Nat → Nat} (inv : RInv rs rank) (self : Nat) :
    ∀ (w : Nat) (e : Ebitmap.Ebitmap), weight rs rank e ≤ w → Ebitmap.WF e →
      (∀ i, Ebitmap.getBit e i = true → i < rs.length) →
      (∀ i, Ebitmap.getBit e i = true → isAttr rs i = true → rank i < rank self) →
      ∃ e', (∀ fuel, w < fuel → expandLoop rs self fuel e = some (.ok e')) ∧ Ebitmap.WF e' ∧
        ∀ i, Ebitmap.getBit e' i = true ↔ Inside rs e i := by
  intro w
  induction w with
  | zero =>
    intro e hwt hwf hbits hrank
    obtain ⟨l, hl, hmem⟩ := bits_spec hwf
    rcases scan_spec (self := self) hwf inv.size l (fun i hi => hbits i ((hmem i).1 hi)) (by
        intro i hi ha e'
        have := hrank i ((hmem i).1 hi) ha
        rw [e'] at this; omega) with ⟨hnone, e1⟩ | ⟨b, r, e', hb, hr, ha, hw', he', e1⟩
    · refine ⟨e, ?_, hwf, ?_⟩
      · intro fuel hf
        match fuel with
        | 0 => omega
        | n + 1 => simp only [expandLoop, hl, e1]
      · intro i
        constructor
        · intro hi
          have hlt := hbits i hi
          have hn := hnone i ((hmem i).2 hi)
          refine ⟨⟨rs[i], List.getElem?_eq_getElem hlt, ?_⟩, Or.inl hi⟩
          simpa [isAttr, List.getElem?_eq_getElem hlt] using hn
        · rintro ⟨hp, h | ⟨c, hc, hr⟩⟩
          · exact h
          · have := hnone c ((hmem c).2 hc)
            rw [within_attr hr] at this; cases this
    · have := weight_lt inv hr ha ((hmem b).1 hb) hw' he'
      omega
  | succ w ih =>
    intro e hwt hwf hbits hrank
    obtain ⟨l, hl, hmem⟩ := bits_spec hwf
    rcases scan_spec (self := self) hwf inv.size l (fun i hi => hbits i ((hmem i).1 hi)) (by
        intro i hi ha e'
        have := hrank i ((hmem i).1 hi) ha
        rw [e'] at this; omega) with ⟨hnone, e1⟩ | ⟨b, r, e', hb, hr, ha, hw', he', e1⟩
    · refine ⟨e, ?_, hwf, ?_⟩
      · intro fuel hf
        match fuel with
        | 0 => omega
        | n + 1 => simp only [expandLoop, hl, e1]
      · intro i
        constructor
        · intro hi
          have hlt := hbits i hi
          have hn := hnone i ((hmem i).2 hi)
          refine ⟨⟨rs[i], List.getElem?_eq_getElem hlt, ?_⟩, Or.inl hi⟩
          simpa [isAttr, List.getElem?_eq_getElem hlt] using hn
        · rintro ⟨hp, h | ⟨c, hc, hr⟩⟩
          · exact h
          · have := hnone c ((hmem c).2 hc)
            rw [within_attr hr] at this; cases this
    · have hlt := weight_lt inv hr ha ((hmem b).1 hb) hw' he'
      have hrm : r ∈ rs := List.mem_of_getElem? hr
      have hwr := inv.wf r hrm
      have hbe := (hmem b).1 hb
      have hu := union_bit hw' hwr
      have hrb : rank b < rank self := hrank b hbe (isAttr_iff.2 ⟨r, hr, ha⟩)
      obtain ⟨e2, h1, h2, h3⟩ := ih (Ebitmap.union e' r.roles) (by omega) (union_wf hw' hwr) (by
          intro i hi
          rw [hu, he', Bool.or_eq_true] at hi
          rcases hi with hi | hi
          · split at hi
            · cases hi
            · exact hbits i hi
          · exact inv.bits r hrm i hi) (by
          intro i hi hai
          rw [hu, he', Bool.or_eq_true] at hi
          rcases hi with hi | hi
          · split at hi
            · cases hi
            · exact hrank i hi hai
          · have := inv.rank b i ⟨r, hr, ha, hi⟩ hai
            omega)
      refine ⟨e2, ?_, h2, ?_⟩
      · intro fuel hf
        match fuel with
        | 0 => omega
        | n + 1 =>
          rw [expandLoop, hl]
          simp only [e1]
          exact h1 n (by omega)
      · intro i
        rw [h3, inside_step hr ha hbe hw' hwr he']

/-! ### All attributes -/

/-- The table after the attribute `a` was given the roles `e`. -/
theorem set_role {rs : List Role} {a : Nat} {r : Role} (hr : rs[a]? = some r) (e : Ebitmap.Ebitmap) (i : Nat) :
    (rs.set a { r with roles := e })[i]? = if i = a then some { r with roles := e } else rs[i]? := by
  rw [List.getElem?_set]
  have := (List.getElem?_eq_some_iff.1 hr).1
  by_cases h : a = i
  · subst h; simp [this]
  · rw [if_neg h, if_neg (fun h' => h h'.symm)]

theorem set_isAttr {rs : List Role} {a : Nat} {r : Role} (hr : rs[a]? = some r) (e : Ebitmap.Ebitmap) (i : Nat) :
    isAttr (rs.set a { r with roles := e }) i = isAttr rs i := by
  unfold isAttr
  rw [set_role hr]
  by_cases h : i = a
  · subst h; simp [hr]
  · simp [h]

theorem set_plain {rs : List Role} {a : Nat} {r : Role} (hr : rs[a]? = some r) (e : Ebitmap.Ebitmap) (i : Nat) :
    Plain (rs.set a { r with roles := e }) i ↔ Plain rs i := by
  unfold Plain
  rw [set_role hr]
  by_cases h : i = a
  · subst h; simp [hr]
  · simp [h]

theorem set_mem {rs : List Role} {a : Nat} {r : Role} (hr : rs[a]? = some r) (ha : r.attr = true)
    (e : Ebitmap.Ebitmap) (b i : Nat) :
    Mem (rs.set a { r with roles := e }) b i ↔ if b = a then Ebitmap.getBit e i = true else Mem rs b i := by
  unfold Mem
  rw [set_role hr]
  by_cases h : b = a
  · subst h; simp [ha]
  · simp [h]

theorem set_within {rs : List Role} {a : Nat} {r : Role} (hr : rs[a]? = some r) (ha : r.attr = true)
    {e : Ebitmap.Ebitmap} (he : ∀ i, Ebitmap.getBit e i = true ↔ Plain rs i ∧ Within (Mem rs) a i) (b i : Nat)
    (hp : Plain rs i) :
    Within (Mem (rs.set a { r with roles := e })) b i ↔ Within (Mem rs) b i := by
  constructor
  · intro h
    induction h with
    | @direct b i h =>
      rw [set_mem hr ha] at h
      split at h
      · rename_i hb; subst hb; exact ((he i).1 h).2
      · exact .direct h
    | @through b c i h h' ih =>
      have hc := within_attr h'
      rw [set_isAttr hr] at hc
      rw [set_mem hr ha] at h
      split at h
      · have := plain_not_attr ((he c).1 h).1
        rw [hc] at this; cases this
      · exact .through h (ih hp)
  · intro h
    induction h with
    | @direct b i h =>
      by_cases hb : b = a
      · subst hb
        exact .direct ((set_mem hr ha e b i).2 (by rw [if_pos rfl]; exact (he i).2 ⟨hp, .direct h⟩))
      · exact .direct ((set_mem hr ha e b i).2 (by rw [if_neg hb]; exact h))
    | @through b c i h h' ih =>
      by_cases hb : b = a
      · subst hb
        exact .direct ((set_mem hr ha e b i).2 (by rw [if_pos rfl]; exact (he i).2 ⟨hp, .through h h'⟩))
      · exact .through ((set_mem hr ha e b c).2 (by rw [if_neg hb]; exact h)) (ih hp)

theorem within_inside {rs : List Role} {a : Nat} {r : Role} (hr : rs[a]? = some r) (ha : r.attr = true) (i : Nat) :
    Inside rs r.roles i ↔ Plain rs i ∧ Within (Mem rs) a i := by
  constructor
  · rintro ⟨hp, h | ⟨b, hb, h⟩⟩
    · exact ⟨hp, .direct ⟨r, hr, ha, h⟩⟩
    · exact ⟨hp, .through ⟨r, hr, ha, hb⟩ h⟩
  · rintro ⟨hp, h⟩
    refine ⟨hp, ?_⟩
    cases h with
    | direct h => obtain ⟨r', h1, _, h3⟩ := h; rw [hr] at h1; cases h1; exact Or.inl h3
    | through h h' => obtain ⟨r', h1, _, h3⟩ := h; rw [hr] at h1; cases h1; exact Or.inr ⟨_, h3, h'⟩

/-- What the tables have in common. -/
structure Same (rs rs' : List Role) : Prop where
  length : rs'.length = rs.length
  shape : rs'.map (fun r => (r.name, r.attr)) = rs.map (fun r => (r.name, r.attr))
  plain : ∀ (i : Nat) r, rs[i]? = some r → r.attr = false → rs'[i]? = some r
  within : ∀ a i, Plain rs i → (Within (Mem rs') a i ↔ Within (Mem rs) a i)

theorem Same.refl (rs : List Role) : Same rs rs := ⟨rfl, rfl, fun _ _ h _ => h, fun _ _ _ => Iff.rfl⟩

theorem shape_get {rs rs' : List Role} (h : rs'.map (fun r => (r.name, r.attr)) = rs.map (fun r => (r.name, r.attr)))
    (i : Nat) : (rs'[i]?).map (fun r => (r.name, r.attr)) = (rs[i]?).map (fun r => (r.name, r.attr)) := by
  rw [← List.getElem?_map, ← List.getElem?_map, h]

theorem Same.isAttr {rs rs' : List Role} (h : Same rs rs') (i : Nat) : isAttr rs' i = isAttr rs i := by
  have := shape_get h.shape i
  unfold Link.isAttr
  cases h1 : rs'[i]? <;> cases h2 : rs[i]? <;> simp_all

theorem Same.plain_iff {rs rs' : List Role} (h : Same rs rs') (i : Nat) : Plain rs' i ↔ Plain rs i := by
  have := shape_get h.shape i
  unfold Plain
  cases h1 : rs'[i]? <;> cases h2 : rs[i]? <;> simp_all

theorem Same.trans {a b c : List Role} (h : Same a b) (h' : Same b c) : Same a c :=
  ⟨h'.length.trans h.length, h'.shape.trans h.shape, fun i r hr ha => h'.plain i r (h.plain i r hr ha) ha,
    fun x i hp => (h'.within x i ((h.plain_iff i).2 hp)).trans (h.within x i hp)⟩

theorem expandRole_spec {rs : List Role} {rank : Nat → Nat} (inv : RInv rs rank) {a : Nat} (ha : a < rs.length) :
    ∃ rs' n, (∀ fuel, n < fuel → expandRole fuel rs a = some (.ok rs')) ∧ RInv rs' rank ∧ Same rs rs' ∧
      (∀ b, b ≠ a → rs'[b]? = rs[b]?) ∧
      ∀ r, rs'[a]? = some r → r.attr = true → ∀ i, Ebitmap.getBit r.roles i = true ↔ Plain rs i ∧ Within (Mem rs) a i := by
  have hr : rs[a]? = some rs[a] := List.getElem?_eq_getElem ha
  have hrm : rs[a] ∈ rs := List.getElem_mem ha
  generalize rs[a] = r at hr hrm
  cases hat : r.attr with
  | false =>
    refine ⟨rs, 0, ?_, inv, Same.refl rs, fun _ _ => rfl, ?_⟩
    · intro fuel _
      unfold expandRole
      rw [hr]
      simp [hat]
    · intro r' h1 h2
      rw [hr] at h1; cases h1
      rw [hat] at h2; cases h2
  | true =>
    have hobj : r.name ≠ objectR := by
      intro h
      rw [inv.object r hrm h] at hat; cases hat
    obtain ⟨e, h1, h2, h3⟩ := expandLoop_spec inv a (weight rs rank r.roles) r.roles (Nat.le_refl _) (inv.wf r hrm)
      (inv.bits r hrm) (fun i hi hai => inv.rank a i ⟨r, hr, hat, hi⟩ hai)
    have he : ∀ i, Ebitmap.getBit e i = true ↔ Plain rs i ∧ Within (Mem rs) a i := by
      intro i; rw [h3, within_inside hr hat]
    refine ⟨rs.set a { r with roles := e }, weight rs rank r.roles, ?_, ?_, ?_, ?_, ?_⟩
    · intro fuel hf
      unfold expandRole
      rw [hr]
      simp [hat, hobj, h1 fuel hf]
    · have hmem : ∀ x ∈ rs.set a { r with roles := e }, x ∈ rs ∨ x = { r with roles := e } := by
        intro x hx
        exact List.mem_or_eq_of_mem_set hx
      refine ⟨?_, ?_, ?_, ?_, ?_⟩
      · intro x hx
        rcases hmem x hx with h | rfl
        · exact inv.wf x h
        · exact h2
      · intro x hx i hi
        rw [List.length_set]
        rcases hmem x hx with h | rfl
        · exact inv.bits x h i hi
        · obtain ⟨⟨r', hr', _⟩, _⟩ := (he i).1 hi
          exact (List.getElem?_eq_some_iff.1 hr').1
      · rw [List.length_set]; exact inv.size
      · intro x hx hn
        rcases hmem x hx with h | rfl
        · exact inv.object x h hn
        · exact absurd hn hobj
      · intro x b hm hab
        rw [set_isAttr hr] at hab
        rw [set_mem hr hat] at hm
        split at hm
        · have := plain_not_attr ((he b).1 hm).1
          rw [hab] at this; cases this
        · exact inv.rank x b hm hab
    · refine ⟨List.length_set, ?_, ?_, ?_⟩
      · apply List.ext_getElem?
        intro i
        rw [List.getElem?_map, set_role hr]
        by_cases h : i = a
        · subst h; simp [hr]
        · simp [h]
      · intro i r' hi hpl
        rw [set_role hr]
        by_cases h : i = a
        · subst h
          rw [hr] at hi; cases hi
          rw [hat] at hpl; cases hpl
        · simp [h, hi]
      · intro x i hp
        exact set_within hr hat he x i hp
    · intro b hb
      rw [set_role hr]; simp [hb]
    · intro r' hr' _ i
      rw [set_role hr, if_pos rfl] at hr'
      cases hr'
      exact he i

theorem expandAll_spec {rank : Nat → Nat} : ∀ (order : List Nat) (rs : List Role), RInv rs rank →
    (∀ a ∈ order, a < rs.length) →
    ∃ rs' n, (∀ fuel, n < fuel → expandAll fuel rs order = some (.ok rs')) ∧ Same rs rs' ∧
      (∀ b, b ∉ order → rs'[b]? = rs[b]?) ∧
      ∀ a ∈ order, ∀ r, rs'[a]? = some r → r.attr = true → ∀ i, Ebitmap.getBit r.roles i = true ↔ Plain rs i ∧ Within (Mem rs) a i := by
  intro order
  induction order with
  | nil =>
    intro rs _ _
    exact ⟨rs, 0, fun _ _ => rfl, Same.refl rs, fun _ _ => rfl, by simp⟩
  | cons a order ih =>
    intro rs inv hlt
    obtain ⟨rs1, n1, h1, inv1, same1, hother1, hres1⟩ := expandRole_spec inv (hlt a (by simp))
    obtain ⟨rs2, n2, h2, same2, hother2, hres2⟩ := ih rs1 inv1 (by
      intro b hb; rw [same1.length]; exact hlt b (by simp [hb]))
    refine ⟨rs2, max n1 n2, ?_, same1.trans same2, ?_, ?_⟩
    · intro fuel hf
      rw [expandAll, h1 fuel (by omega)]
      exact h2 fuel (by omega)
    · intro b hb
      simp only [List.mem_cons, not_or] at hb
      rw [hother2 b hb.2, hother1 b hb.1]
    · intro b hb r hr hat i
      by_cases hbo : b ∈ order
      · rw [hres2 b hbo r hr hat i, same1.plain_iff]
        constructor
        · rintro ⟨hp, h⟩; exact ⟨hp, (same1.within b i hp).1 h⟩
        · rintro ⟨hp, h⟩; exact ⟨hp, (same1.within b i hp).2 h⟩
      · rcases List.mem_cons.1 hb with rfl | hb
        · rw [hother2 b hbo] at hr
          exact hres1 r hr hat i
        · exact absurd hb hbo

/-! ### The attributes of the declarations -/

theorem populateRole_spec {rs : List Role} {ds : List DeclRole} {d : DeclRole} (ok : RolesOk rs (d :: ds)) :
    ∃ rs', populateRole rs d = .ok rs' ∧ RolesOk rs' ds ∧
      rs'.map (fun r => (r.name, r.attr)) = rs.map (fun r => (r.name, r.attr)) ∧
      (∀ (i : Nat) r, rs[i]? = some r → r.attr = false → rs'[i]? = some r) ∧
      ∀ a i, Member rs' ds a i ↔ Member rs (d :: ds) a i := by
  have okt : RolesOk rs ds := ⟨ok.names, ok.wf, ok.bits, ok.size, ok.object,
    fun x hx => ok.declWf x (by simp [hx]), fun x hx => ok.declBits x (by simp [hx]),
    fun x hx => ok.declName x (by simp [hx])⟩
  cases hat : d.attr with
  | false =>
    refine ⟨rs, ?_, okt, rfl, fun _ _ h _ => h, ?_⟩
    · unfold populateRole
      simp [hat]
    · intro a i
      unfold Member
      constructor
      · rintro ⟨r, h1, h2, h | ⟨x, hx, h⟩⟩
        · exact ⟨r, h1, h2, Or.inl h⟩
        · exact ⟨r, h1, h2, Or.inr ⟨x, by simp [hx], h⟩⟩
      · rintro ⟨r, h1, h2, h | ⟨x, hx, h3, h⟩⟩
        · exact ⟨r, h1, h2, Or.inl h⟩
        · rcases List.mem_cons.1 hx with e | hx
          · rw [e, hat] at h3; cases h3
          · exact ⟨r, h1, h2, Or.inr ⟨x, hx, h3, h⟩⟩
  | true =>
    obtain ⟨r0, hr0, hname, hr0a⟩ := ok.declName d (by simp) hat
    have hobj : d.name ≠ objectR := by
      intro h
      have := ok.object r0 hr0 (hname.trans h)
      rw [hr0a] at this; cases this
    obtain ⟨k, hk⟩ : ∃ k, rs.findIdx? (fun r => r.name == d.name) = some k := by
      cases h : rs.findIdx? (fun r => r.name == d.name) with
      | some k => exact ⟨k, rfl⟩
      | none =>
        rw [List.findIdx?_eq_none_iff] at h
        have := h r0 hr0
        simp [hname] at this
    rw [List.findIdx?_eq_some_iff_getElem] at hk
    obtain ⟨hklt, hkn, _⟩ := hk
    have hr : rs[k]? = some rs[k] := List.getElem?_eq_getElem hklt
    have hrm : rs[k] ∈ rs := List.getElem_mem hklt
    generalize hrk : rs[k] = r at hr hrm hkn
    have hrn : r.name = d.name := by simpa using hkn
    have huniq : ∀ (i : Nat) x, rs[i]? = some x → x.name = d.name → i = k := by
      intro i x hi hx
      have hil := (List.getElem?_eq_some_iff.1 hi).1
      have h1 : (rs.map (·.name))[i]? = (rs.map (·.name))[k]? := by
        rw [List.getElem?_map, List.getElem?_map, hi, hr]; simp [hx, hrn]
      exact (List.getElem?_inj (by simpa using hil) ok.names).1 h1
    obtain ⟨k0, hk0l, hk0⟩ := List.getElem_of_mem hr0
    have hk0' : rs[k0]? = some r0 := by rw [← hk0]; exact List.getElem?_eq_getElem hk0l
    have hkk := huniq k0 r0 hk0' hname
    subst hkk
    have hreq : r = r0 := by rw [hr] at hk0'; exact Option.some.inj hk0'
    subst hreq
    have hwr := ok.wf r hrm
    have hwd := ok.declWf d (by simp)
    have hu := union_bit hwr hwd
    have hfind : rs.findIdx? (fun r => r.name == d.name) = some k0 := by
      cases h : rs.findIdx? (fun r => r.name == d.name) with
      | none =>
        rw [List.findIdx?_eq_none_iff] at h
        have := h r hrm
        simp [hname] at this
      | some j =>
        have h' := h
        rw [List.findIdx?_eq_some_iff_getElem] at h
        obtain ⟨hj, hjn, _⟩ := h
        have := huniq j rs[j] (List.getElem?_eq_getElem hj) (by simpa using hjn)
        rw [this]
    refine ⟨rs.set k0 { r with roles := Ebitmap.union r.roles d.roles }, ?_, ?_, ?_, ?_, ?_⟩
    · unfold populateRole
      simp [hobj, hat, hfind, hr, hr0a]
    · have hmem : ∀ x ∈ rs.set k0 { r with roles := Ebitmap.union r.roles d.roles },
          x ∈ rs ∨ x = { r with roles := Ebitmap.union r.roles d.roles } := fun x hx => List.mem_or_eq_of_mem_set hx
      have hsame : (rs.set k0 { r with roles := Ebitmap.union r.roles d.roles }).map (·.name) = rs.map (·.name) := by
        apply List.ext_getElem?
        intro i
        rw [List.getElem?_map, List.getElem?_map, set_role hr]
        by_cases h : i = k0
        · subst h; simp [hr]
        · simp [h]
      refine ⟨by rw [hsame]; exact ok.names, ?_, ?_, by rw [List.length_set]; exact ok.size, ?_, okt.declWf, ?_, ?_⟩
      · intro x hx
        rcases hmem x hx with h | rfl
        · exact ok.wf x h
        · exact union_wf hwr hwd
      · intro x hx i hi
        rw [List.length_set]
        rcases hmem x hx with h | rfl
        · exact ok.bits x h i hi
        · rw [hu, Bool.or_eq_true] at hi
          rcases hi with hi | hi
          · exact ok.bits r hrm i hi
          · exact ok.declBits d (by simp) i hi
      · intro x hx hn
        rcases hmem x hx with h | rfl
        · exact ok.object x h hn
        · exact absurd (hrn.symm.trans hn) hobj
      · intro x hx i hi
        rw [List.length_set]; exact okt.declBits x hx i hi
      · intro x hx hxa
        obtain ⟨y, hy, hyn, hya⟩ := okt.declName x hx hxa
        obtain ⟨j, hjl, hj⟩ := List.getElem_of_mem hy
        by_cases h : j = k0
        · subst h
          have : y = r := by rw [← hj]; exact hrk
          subst this
          exact ⟨{ y with roles := Ebitmap.union y.roles d.roles }, List.mem_of_getElem? (i := j) (by rw [set_role hr, if_pos rfl]), hyn, hya⟩
        · exact ⟨y, List.mem_of_getElem? (i := j) (by rw [set_role hr, if_neg h, ← hj]; exact List.getElem?_eq_getElem hjl), hyn, hya⟩
    · apply List.ext_getElem?
      intro i
      rw [List.getElem?_map, set_role hr]
      by_cases h : i = k0
      · subst h; simp [hr]
      · simp [h]
    · intro i r' hi hpl
      rw [set_role hr]
      by_cases h : i = k0
      · subst h
        rw [hr] at hi; cases hi
        rw [hr0a] at hpl; cases hpl
      · simp [h, hi]
    · intro a i
      unfold Member
      rw [set_role hr]
      by_cases h : a = k0
      · subst h
        rw [if_pos rfl, hr]
        constructor
        · rintro ⟨x, e, _, hx⟩
          cases e
          refine ⟨r, rfl, hr0a, ?_⟩
          rcases hx with hx | ⟨y, hy, hx⟩
          · simp only at hx
            rw [hu, Bool.or_eq_true] at hx
            rcases hx with hx | hx
            · exact Or.inl hx
            · exact Or.inr ⟨d, by simp, hat, hrn.symm, hx⟩
          · exact Or.inr ⟨y, by simp [hy], hx⟩
        · rintro ⟨x, e, _, hx⟩
          cases e
          refine ⟨_, rfl, hr0a, ?_⟩
          simp only
          rw [hu, Bool.or_eq_true]
          rcases hx with hx | ⟨y, hy, hya, hyn, hx⟩
          · exact Or.inl (Or.inl hx)
          · rcases List.mem_cons.1 hy with e | hy
            · subst e; exact Or.inl (Or.inr hx)
            · exact Or.inr ⟨y, hy, hya, hyn, hx⟩
      · rw [if_neg h]
        constructor
        · rintro ⟨x, h1, h2, hx | ⟨y, hy, hx⟩⟩
          · exact ⟨x, h1, h2, Or.inl hx⟩
          · exact ⟨x, h1, h2, Or.inr ⟨y, by simp [hy], hx⟩⟩
        · rintro ⟨x, h1, h2, hx | ⟨y, hy, hya, hyn, hx⟩⟩
          · exact ⟨x, h1, h2, Or.inl hx⟩
          · rcases List.mem_cons.1 hy with e | hy
            · subst e
              exact absurd (huniq a x h1 hyn.symm) h
            · exact ⟨x, h1, h2, Or.inr ⟨y, hy, hya, hyn, hx⟩⟩

theorem populate_spec : ∀ (ds : List DeclRole) (rs : List Role), RolesOk rs ds →
    ∃ rs', populate rs ds = .ok rs' ∧ RolesOk rs' [] ∧
      rs'.map (fun r => (r.name, r.attr)) = rs.map (fun r => (r.name, r.attr)) ∧
      (∀ (i : Nat) r, rs[i]? = some r → r.attr = false → rs'[i]? = some r) ∧
      ∀ a i, Mem rs' a i ↔ Member rs ds a i := by
  intro ds
  induction ds with
  | nil =>
    intro rs ok
    refine ⟨rs, rfl, ok, rfl, fun _ _ h _ => h, ?_⟩
    intro a i
    simp [Mem, Member]
  | cons d ds ih =>
    intro rs ok
    obtain ⟨rs1, e1, ok1, s1, p1, m1⟩ := populateRole_spec ok
    obtain ⟨rs2, e2, ok2, s2, p2, m2⟩ := ih rs1 ok1
    refine ⟨rs2, ?_, ok2, s2.trans s1, fun i r h ha => p2 i r (p1 i r h ha) ha, fun a i => (m2 a i).trans (m1 a i)⟩
    rw [populate, e1]
    exact e2

end Verif.Link
