import Verif.Services.AvLemmas

namespace Verif.Services
open Verif.Policy Verif.Mls

theorem and_eq_zero_iff {a b : BitVec 32} : a &&& b = 0#32 ↔ ∀ i < 32, ¬ (a.getLsbD i = true ∧ b.getLsbD i = true) := by
  constructor
  · intro h i hi hc
    have := congrArg (fun v => BitVec.getLsbD v i) h
    simp only [BitVec.getLsbD_and, hc.1, hc.2, Bool.and_self, BitVec.getLsbD_zero] at this
    simp at this
  · intro h
    apply BitVec.eq_of_getLsbD_eq
    intro i hi
    rw [BitVec.getLsbD_and, BitVec.getLsbD_zero]
    have := h i hi
    rw [Bool.and_eq_false_iff]
    cases ha : a.getLsbD i <;> simp_all

theorem and_ne_zero_iff {a b : BitVec 32} : a &&& b ≠ 0#32 ↔ ∃ i < 32, a.getLsbD i = true ∧ b.getLsbD i = true := by
  rw [ne_eq, and_eq_zero_iff]
  push Not
  rfl

theorem not_bit {a : BitVec 32} {b : Nat} (hb : b < 32) : (~~~ a).getLsbD b = !a.getLsbD b := by
  rw [BitVec.getLsbD_not]
  simp only [hb, decide_true, Bool.true_and]

theorem and_not_ne_zero_iff {a b : BitVec 32} : a &&& ~~~ b ≠ 0#32 ↔ ∃ i < 32, a.getLsbD i = true ∧ b.getLsbD i = false := by
  rw [and_ne_zero_iff]
  constructor
  · rintro ⟨i, hi, h1, h2⟩; refine ⟨i, hi, h1, ?_⟩; simpa only [not_bit hi, Bool.not_eq_true', Bool.not_eq_eq_eq_not, Bool.not_true] using h2
  · rintro ⟨i, hi, h1, h2⟩; refine ⟨i, hi, h1, ?_⟩; simpa only [not_bit hi, Bool.not_eq_true', Bool.not_eq_eq_eq_not, Bool.not_true] using h2

/-- The constraint is satisfied (for its evaluation result). -/
def Sat (p : SPolicy) (s t : Context) (c : Constraint) : Prop := ∃ tree, Postfix c.expr tree ∧ tree.Holds p.pol s t none

theorem consPass_spec {p : SPolicy} {s t : Context} : ∀ (l : List Constraint) (allowed : BitVec 32),
    (∀ c ∈ l, ∃ rc, constraintEval p.pol s t none c = some rc ∧ (rc ≠ 0 ↔ Sat p s t c)) →
    ∃ a', consPass p s t l allowed = some a' ∧ ∀ b < 32, a'.getLsbD b = true ↔
      allowed.getLsbD b = true ∧ ∀ c ∈ l, c.perms.getLsbD b = true → Sat p s t c := by
  intro l
  induction l with
  | nil => intro allowed _; exact ⟨allowed, rfl, by simp⟩
  | cons c l ih =>
    intro allowed h
    have hl := fun c hc => h c (List.mem_cons_of_mem _ hc)
    unfold consPass
    by_cases hz : c.perms &&& allowed = 0#32
    · rw [if_pos hz]
      obtain ⟨a', h1, h2⟩ := ih allowed hl
      refine ⟨a', h1, fun b hb => ?_⟩
      rw [h2 b hb]
      constructor
      · rintro ⟨ha, hall⟩
        refine ⟨ha, fun d hd hp => ?_⟩
        rcases List.mem_cons.mp hd with rfl | hd
        · exact absurd ⟨hp, ha⟩ (and_eq_zero_iff.mp hz b hb)
        · exact hall d hd hp
      · rintro ⟨ha, hall⟩
        exact ⟨ha, fun d hd => hall d (List.mem_cons_of_mem _ hd)⟩
    · rw [if_neg hz]
      obtain ⟨rc, hrc, hsat⟩ := h c List.mem_cons_self
      rw [hrc]
      simp only
      obtain ⟨a', h1, h2⟩ := ih (if rc = 0 then allowed &&& ~~~ c.perms else allowed) hl
      refine ⟨a', h1, fun b hb => ?_⟩
      rw [h2 b hb]
      by_cases hr : rc = 0
      · rw [if_pos hr]
        have hns : ¬ Sat p s t c := fun hs => (hsat.mpr hs) hr
        constructor
        · rintro ⟨ha, hall⟩
          rw [BitVec.getLsbD_and, Bool.and_eq_true] at ha
          refine ⟨ha.1, fun d hd hp => ?_⟩
          rcases List.mem_cons.mp hd with rfl | hd
          · have := ha.2; rw [not_bit hb, hp] at this; cases this
          · exact hall d hd hp
        · rintro ⟨ha, hall⟩
          refine ⟨?_, fun d hd => hall d (List.mem_cons_of_mem _ hd)⟩
          have : c.perms.getLsbD b = false := by
            rw [← Bool.not_eq_true]; exact fun hp => hns (hall c List.mem_cons_self hp)
          rw [BitVec.getLsbD_and, not_bit hb, ha, this]; rfl
      · rw [if_neg hr]
        have hs : Sat p s t c := hsat.mp hr
        constructor
        · rintro ⟨ha, hall⟩
          refine ⟨ha, fun d hd hp => ?_⟩
          rcases List.mem_cons.mp hd with rfl | hd
          · exact hs
          · exact hall d hd hp
        · rintro ⟨ha, hall⟩
          exact ⟨ha, fun d hd => hall d (List.mem_cons_of_mem _ hd)⟩

theorem roleAllow_iff (p : SPolicy) (s t : Context) (cls : Nat) (allowed : BitVec 32) (b : Nat) (hb : b < 32) :
    (roleAllowPass p s t cls allowed).getLsbD b = true ↔ allowed.getLsbD b = true ∧ RoleOk p s t cls b := by
  unfold roleAllowPass RoleOk
  have hany : p.roleAllow.any (fun ra => s.role == ra.1 && t.role == ra.2) = true ↔ (s.role, t.role) ∈ p.roleAllow := by
    rw [List.any_eq_true]
    constructor
    · rintro ⟨⟨x, y⟩, h, he⟩
      simp only [Bool.and_eq_true, beq_iff_eq] at he
      rw [he.1, he.2]; exact h
    · intro h; exact ⟨_, h, by simp⟩
  by_cases h : cls = p.processClass ∧ allowed &&& p.transDyntrans ≠ 0#32 ∧ s.role ≠ t.role
  · rw [if_pos h]
    by_cases ha : p.roleAllow.any (fun ra => s.role == ra.1 && t.role == ra.2) = true
    · rw [if_pos ha]
      exact ⟨fun h' => ⟨h', fun _ _ _ => hany.mp ha⟩, fun h' => h'.1⟩
    · rw [if_neg ha]
      rw [BitVec.getLsbD_and, Bool.and_eq_true]
      constructor
      · rintro ⟨h1, h2⟩
        refine ⟨h1, fun _ ht _ => ?_⟩
        rw [not_bit hb, ht] at h2; cases h2
      · rintro ⟨h1, h2⟩
        refine ⟨h1, ?_⟩
        have : p.transDyntrans.getLsbD b = false := by
          rw [← Bool.not_eq_true]; exact fun ht => ha (hany.mpr (h2 h.1 ht h.2.2))
        rw [not_bit hb, this]; rfl
  · rw [if_neg h]
    constructor
    · intro h1
      refine ⟨h1, fun hc ht hr => ?_⟩
      exact absurd ⟨hc, and_ne_zero_iff.mpr ⟨b, hb, h1, ht⟩, hr⟩ h
    · exact fun h' => h'.1

theorem note_spec (flag : BitVec 32) (r : BitVec 32 × BitVec 32) (allowed : BitVec 32) :
    (∀ b < 32, (note flag r allowed).1.getLsbD b = true ↔ r.1.getLsbD b = true ∧ allowed.getLsbD b = true) ∧
    ((note flag r allowed).2 = if r.1 &&& ~~~ allowed ≠ 0#32 then r.2 ||| flag else r.2) := by
  unfold note
  by_cases h : r.1 &&& ~~~ allowed ≠ 0#32
  · rw [if_pos h, if_pos h]
    exact ⟨fun b _ => by simp, rfl⟩
  · rw [if_neg h, if_neg h]
    refine ⟨fun b hb => ?_, rfl⟩
    constructor
    · intro hr
      refine ⟨hr, ?_⟩
      by_contra hc
      rw [Bool.not_eq_true] at hc
      exact h (and_not_ne_zero_iff.mpr ⟨b, hb, hr, hc⟩)
    · exact fun h => h.1

/-- All checks but the type bounds. -/
def Base (p : SPolicy) (R : Rules) (s t : Context) (cls b : Nat) : Prop :=
  TeAllows p R s t cls b ∧ ConstraintsOk p s t cls b ∧ RoleOk p s t cls b

open Classical in
/-- What one level of the computation finds out. -/
structure Level1 (p : SPolicy) (R : Rules) (s t : Context) (cls : Nat) (requested : BitVec 32)
    (a : Avd) (allowed : BitVec 32) (r : BitVec 32 × BitVec 32) : Prop where
  allow : ∀ b < 32, allowed.getLsbD b = true ↔ Base p R s t cls b
  auditallow : ∀ b < 32, a.auditallow.getLsbD b = true ↔
    ∃ r, Applies p R Avtab.AUDITALLOW s t cls r ∧ r.datum.data.getLsbD b = true
  auditdeny : ∀ b < 32, a.auditdeny.getLsbD b = false ↔
    ∃ r, Applies p R Avtab.AUDITDENY s t cls r ∧ r.datum.data.getLsbD b = false
  reason : r.2 =
    (if ∃ b < 32, requested.getLsbD b = true ∧ ¬ TeAllows p R s t cls b then REASON_TE else 0#32) |||
    ((if ∃ b < 32, requested.getLsbD b = true ∧ TeAllows p R s t cls b ∧ ¬ ConstraintsOk p s t cls b then REASON_CONS else 0#32) |||
    (if ∃ b < 32, requested.getLsbD b = true ∧ TeAllows p R s t cls b ∧ ConstraintsOk p s t cls b ∧ ¬ RoleOk p s t cls b
      then REASON_RBAC else 0#32))

/-- The outcome of `computeAv` unfolded once. -/
theorem computeAv_cases {p : SPolicy} {R : Rules} (ok : PolicyOk p R) {s t : Context} (hs : CtxOk p.pol s) (ht : CtxOk p.pol t)
    {cls : Nat} (hc : ¬ (cls = 0 ∨ cls > p.nClasses)) (fuel : Nat) (requested : BitVec 32) :
    (computeAv (fuel + 1) p s t cls requested = none ∧
      ((p.typeAttr (s.type - 1)) = none ∨ (p.typeAttr (t.type - 1)) = none ∨ p.classes (cls - 1) = none ∨
        p.typeStruct (s.type - 1) = none ∨ (∃ src, p.typeStruct (s.type - 1) = some src ∧ src.bounds ≠ 0 ∧
          (p.typeStruct (t.type - 1) = none ∨ ∃ tgt rq, p.typeStruct (t.type - 1) = some tgt ∧
            computeAv fuel p { s with type := src.bounds }
              (if tgt.bounds ≠ 0 then { t with type := tgt.bounds } else t) cls rq = none)))) ∨
    ∃ (a : Avd) (allowed : BitVec 32) (r : BitVec 32 × BitVec 32), Level1 p R s t cls requested a allowed r ∧
      ∃ src, p.typeStruct (s.type - 1) = some src ∧
      ((src.bounds = 0 ∧ computeAv (fuel + 1) p s t cls requested = some (some (⟨allowed, a.auditallow, a.auditdeny⟩, r.2))) ∨
       (src.bounds ≠ 0 ∧ ∃ tgt lo, p.typeStruct (t.type - 1) = some tgt ∧
          computeAv fuel p { s with type := src.bounds }
            (if tgt.bounds ≠ 0 then { t with type := tgt.bounds } else t) cls r.1 = some lo ∧
          ∃ masked, masked = ~~~ (match lo with | some (lo, _) => lo.allowed | none => 0#32) &&& allowed ∧
            computeAv (fuel + 1) p s t cls requested =
              if masked = 0#32 then some (some (⟨allowed, a.auditallow, a.auditdeny⟩, r.2))
              else some (some (⟨allowed &&& ~~~ masked, a.auditallow, a.auditdeny⟩, r.2 ||| REASON_BOUNDS)))) := by
  have e1 := pred32_eq hs.type
  have e2 := pred32_eq ht.type
  generalize hX : computeAv (fuel + 1) p s t cls requested = X
  unfold computeAv at hX
  rw [if_neg hc, e1, e2] at hX
  cases hsa : p.typeAttr (s.type - 1) with
  | none => rw [hsa] at hX; left; exact ⟨hX.symm, Or.inl rfl⟩
  | some sattr =>
  cases hta : p.typeAttr (t.type - 1) with
  | none => rw [hsa, hta] at hX; left; exact ⟨hX.symm, Or.inr (Or.inl rfl)⟩
  | some tattr =>
  have hsw := (ok.attr _ _ hsa).1
  have htw := (ok.attr _ _ hta).1
  have hsb := Ebitmap.C04_for_each_positive_bit hsw (Nat.le_refl _)
  have htb := Ebitmap.C04_for_each_positive_bit htw (Nat.le_refl _)
  generalize hgs : (List.range (2 ^ 32)).filter (Ebitmap.getBit sattr) = sbits at hsb
  generalize hgt : (List.range (2 ^ 32)).filter (Ebitmap.getBit tattr) = tbits at htb
  simp only [hsa, hta, Option.bind_some, hsb, htb] at hX
  cases hcl : p.classes (cls - 1) with
  | none => rw [hcl] at hX; left; exact ⟨hX.symm, Or.inr (Or.inr (Or.inl rfl))⟩
  | some ci =>
  obtain ⟨fl, np, hnp, hval⟩ := ok.cons _ _ hcl
  obtain ⟨al, hal, hall⟩ := consPass_spec (p := p) (s := s) (t := t) ci.constraints (tePass p cls sbits tbits).allowed (by
    intro c hcm
    obtain ⟨tr, t1, t2, t3⟩ := validated_expr hval hnp hcm
    obtain ⟨rc, r1, _, r3⟩ := eval_iff hs ht (x := none) (by simp) ⟨tr, t1, t2, fun _ => t3⟩
    exact ⟨rc, r1, r3⟩)
  simp only [hcl, Option.bind_some, hal] at hX
  cases hss : p.typeStruct (s.type - 1) with
  | none => rw [hss] at hX; left; exact ⟨hX.symm, Or.inr (Or.inr (Or.inr (Or.inl rfl)))⟩
  | some src =>
  simp only [hss, Option.bind_some] at hX
  have hte : ∀ b < 32, (tePass p cls sbits tbits).allowed.getLsbD b = true ↔ TeAllows p R s t cls b :=
    fun b hb => tePass_applies ok.tables hsa hta hsb htb .allowed cls b hb
  have hcons : ∀ b < 32, al.getLsbD b = true ↔ TeAllows p R s t cls b ∧ ConstraintsOk p s t cls b := by
    intro b hb
    rw [hall b hb, hte b hb]
    refine and_congr Iff.rfl ?_
    unfold ConstraintsOk
    constructor
    · intro h ci' hci c hcm hp
      rw [hcl] at hci; cases hci
      exact h c hcm hp
    · intro h c hcm hp
      exact h ci hcl c hcm hp
  have hrole : ∀ b < 32, (roleAllowPass p s t cls al).getLsbD b = true ↔ Base p R s t cls b := by
    intro b hb
    rw [roleAllow_iff p s t cls al b hb, hcons b hb]
    unfold Base; exact and_assoc
  obtain ⟨n1a, n1b⟩ := note_spec REASON_TE (requested, 0#32) (tePass p cls sbits tbits).allowed
  obtain ⟨n2a, n2b⟩ := note_spec REASON_CONS (note REASON_TE (requested, 0#32) (tePass p cls sbits tbits).allowed) al
  obtain ⟨n3a, n3b⟩ := note_spec REASON_RBAC (note REASON_CONS (note REASON_TE (requested, 0#32) (tePass p cls sbits tbits).allowed) al)
    (roleAllowPass p s t cls al)
  have lvl : Level1 p R s t cls requested (tePass p cls sbits tbits) (roleAllowPass p s t cls al)
      (note REASON_RBAC (note REASON_CONS (note REASON_TE (requested, 0#32) (tePass p cls sbits tbits).allowed) al)
        (roleAllowPass p s t cls al)) := by
    refine ⟨hrole, ?_, ?_, ?_⟩
    · exact fun b hb => tePass_applies ok.tables hsa hta hsb htb .auditallow cls b hb
    · exact fun b hb => tePass_applies ok.tables hsa hta hsb htb .auditdeny cls b hb
    · have c1 : (requested &&& ~~~ (tePass p cls sbits tbits).allowed ≠ 0#32) ↔
          ∃ b < 32, requested.getLsbD b = true ∧ ¬ TeAllows p R s t cls b := by
        rw [and_not_ne_zero_iff]
        refine exists_congr fun b => and_congr_right fun hb => and_congr_right fun _ => ?_
        rw [← hte b hb, Bool.not_eq_true]
      have c2 : ((note REASON_TE (requested, 0#32) (tePass p cls sbits tbits).allowed).1 &&& ~~~ al ≠ 0#32) ↔
          ∃ b < 32, requested.getLsbD b = true ∧ TeAllows p R s t cls b ∧ ¬ ConstraintsOk p s t cls b := by
        rw [and_not_ne_zero_iff]
        refine exists_congr fun b => and_congr_right fun hb => ?_
        rw [n1a b hb, hte b hb, ← Bool.not_eq_true, hcons b hb]
        constructor
        · rintro ⟨⟨h1, h2⟩, h3⟩; exact ⟨h1, h2, fun h => h3 ⟨h2, h⟩⟩
        · rintro ⟨h1, h2, h3⟩; exact ⟨⟨h1, h2⟩, fun h => h3 h.2⟩
      have c3 : ((note REASON_CONS (note REASON_TE (requested, 0#32) (tePass p cls sbits tbits).allowed) al).1 &&&
          ~~~ (roleAllowPass p s t cls al) ≠ 0#32) ↔
          ∃ b < 32, requested.getLsbD b = true ∧ TeAllows p R s t cls b ∧ ConstraintsOk p s t cls b ∧ ¬ RoleOk p s t cls b := by
        rw [and_not_ne_zero_iff]
        refine exists_congr fun b => and_congr_right fun hb => ?_
        rw [n2a b hb, n1a b hb, hte b hb, ← Bool.not_eq_true, hcons b hb, hrole b hb]
        unfold Base
        constructor
        · rintro ⟨⟨⟨h1, h2⟩, _, h3⟩, h4⟩; exact ⟨h1, h2, h3, fun h => h4 ⟨h2, h3, h⟩⟩
        · rintro ⟨h1, h2, h3, h4⟩; exact ⟨⟨⟨h1, h2⟩, h2, h3⟩, fun h => h4 h.2.2⟩
      rw [n3b, n2b, n1b]
      by_cases d1 : ∃ b < 32, requested.getLsbD b = true ∧ ¬ TeAllows p R s t cls b <;>
      by_cases d2 : ∃ b < 32, requested.getLsbD b = true ∧ TeAllows p R s t cls b ∧ ¬ ConstraintsOk p s t cls b <;>
      by_cases d3 : ∃ b < 32, requested.getLsbD b = true ∧ TeAllows p R s t cls b ∧ ConstraintsOk p s t cls b ∧ ¬ RoleOk p s t cls b <;>
      simp only [c1, c2, c3, d1, d2, d3, if_true, if_false] <;> rfl
  generalize (note REASON_RBAC (note REASON_CONS (note REASON_TE (requested, 0#32) (tePass p cls sbits tbits).allowed) al)
        (roleAllowPass p s t cls al)) = r at lvl hX
  by_cases hbz : src.bounds = 0
  · right
    refine ⟨_, _, _, lvl, src, rfl, Or.inl ⟨hbz, ?_⟩⟩
    rw [if_pos hbz] at hX; exact hX.symm
  · rw [if_neg hbz] at hX
    cases hts : p.typeStruct (t.type - 1) with
    | none => rw [hts] at hX; left; exact ⟨hX.symm, Or.inr (Or.inr (Or.inr (Or.inr ⟨src, rfl, hbz, Or.inl rfl⟩)))⟩
    | some tgt =>
      simp only [hts, Option.bind_some] at hX
      cases hlo : computeAv fuel p { s with type := src.bounds }
          (if tgt.bounds ≠ 0 then { t with type := tgt.bounds } else t) cls r.1 with
      | none =>
        left
        rw [hlo] at hX
        exact ⟨hX.symm, Or.inr (Or.inr (Or.inr (Or.inr ⟨src, rfl, hbz, Or.inr ⟨tgt, r.1, rfl, hlo⟩⟩)))⟩
      | some lo =>
        right
        rw [hlo] at hX
        refine ⟨_, _, _, lvl, src, rfl, Or.inr ⟨hbz, tgt, lo, rfl, hlo, _, rfl, hX.symm⟩⟩

end Verif.Services
