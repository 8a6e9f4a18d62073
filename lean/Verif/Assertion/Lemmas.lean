import Verif.Assertion.Spec
import Verif.Optimize.Lemmas5
import Verif.Ebitmap.Props

/-!
# Lemmas: bitmaps, attributes and the plain check
-/

namespace Verif.Assertion
open Verif.Avtab Verif.Policy Verif.Optimize

theorem bits_spec {e : Ebitmap.Ebitmap} (h : Ebitmap.WF e) : ∃ l, bitsOf e = some l ∧ ∀ b, b ∈ l ↔ Ebitmap.getBit e b = true := by
  refine ⟨_, Ebitmap.C04_for_each_positive_bit h (Nat.le_refl _), fun b => ?_⟩
  have i := (Ebitmap.wf_iff_inv e).1 h
  simp only [List.mem_filter, List.mem_range]
  constructor
  · exact fun h => h.2
  · exact fun h => ⟨Nat.lt_trans (Ebitmap.getBit_lt_high i h) i.small, h⟩

theorem isEmpty_iff {e : Ebitmap.Ebitmap} (h : Ebitmap.WF e) : isEmpty e = true ↔ ∀ b, Ebitmap.getBit e b = false := by
  have h0 : Ebitmap.WF Ebitmap.init := (Ebitmap.wf_iff_inv _).2 ⟨trivial, rfl, by decide⟩
  have z : ∀ b, Ebitmap.getBit Ebitmap.init b = false := by intro b; unfold Ebitmap.getBit Ebitmap.init Ebitmap.getBitNodes; simp
  constructor
  · intro he b
    unfold isEmpty at he
    rw [List.isEmpty_iff] at he
    unfold Ebitmap.getBit Ebitmap.getBitNodes
    rw [he]; simp
  · intro hb
    have := Ebitmap.C03_canonical h h0 (fun b => by rw [hb, z])
    rw [this]; rfl

theorem isEmpty_false {e : Ebitmap.Ebitmap} (h : Ebitmap.WF e) : isEmpty e = false ↔ ∃ b, Ebitmap.getBit e b = true := by
  rw [← Bool.not_eq_true, isEmpty_iff h]
  constructor
  · intro hc
    by_contra hn
    apply hc
    intro b
    cases hb : Ebitmap.getBit e b
    · rfl
    · exact absurd ⟨b, hb⟩ hn
  · rintro ⟨b, hb⟩ hc
    rw [hc b] at hb; cases hb

theorem and_bit {a b : Ebitmap.Ebitmap} (ha : Ebitmap.WF a) (hb : Ebitmap.WF b) (i : Nat) :
    Ebitmap.getBit (Ebitmap.and a b) i = true ↔ Ebitmap.getBit a i = true ∧ Ebitmap.getBit b i = true := by
  rw [(Ebitmap.C02_or_and_xor ha hb).2.2.1.2 i, Bool.and_eq_true]

theorem and_wf {a b : Ebitmap.Ebitmap} (ha : Ebitmap.WF a) (hb : Ebitmap.WF b) : Ebitmap.WF (Ebitmap.and a b) :=
  (Ebitmap.C02_or_and_xor ha hb).2.2.1.1

theorem any_iff {a b : Ebitmap.Ebitmap} (ha : Ebitmap.WF a) (hb : Ebitmap.WF b) :
    Ebitmap.matchAny a b = true ↔ ∃ i, Ebitmap.getBit a i = true ∧ Ebitmap.getBit b i = true := (Ebitmap.C03_relations ha hb).2.2

theorem plain_isType {p : OPolicy} {s : Nat} (h : PlainType p s) : isAttr p.sp (s - 1) = false := by
  obtain ⟨-, -, d, hd, hf⟩ := h
  unfold isAttr
  rw [hd]
  simpa using hf

/-- The type set of a rule's source or target. -/
theorem covers_iff {p : OPolicy} {σ0 : Cond.State} (ok : AssertOk p σ0) {s n : Nat} (hs : PlainType p s)
    (hn : 1 ≤ n ∧ n ≤ p.sp.pol.nTypes ∧ p.sp.typeStruct (n - 1) ≠ none) :
    Services.Covers p.sp s n ↔ Ebitmap.getBit (p.attrType (n - 1)) (s - 1) = true := by
  have hst := plain_isType hs
  obtain ⟨m, hm⟩ := ok.attr (s - 1) (by have := hs.1; have := hs.2.1; omega)
  have hcov : Services.Covers p.sp s n ↔ Ebitmap.getBit m (n - 1) = true := by
    unfold Services.Covers
    constructor
    · rintro ⟨-, m', hm', h⟩
      rw [hm] at hm'; cases hm'; exact h
    · exact fun h => ⟨hn.1, m, hm, h⟩
  rw [hcov]
  cases ha : isAttr p.sp (n - 1) with
  | true => exact ok.inverse _ _ _ hst ha hm
  | false =>
    have hp : PlainType p (n - 1 + 1) := by
      refine ⟨by omega, by omega, ?_⟩
      cases hd : p.sp.typeStruct (n - 1) with
      | none => exact absurd hd hn.2.2
      | some d =>
        refine ⟨d, by simpa using hd, ?_⟩
        unfold isAttr at ha
        rw [hd] at ha
        simpa using ha
    constructor
    · intro h
      rcases ok.proper _ _ _ hst hm h with h1 | h1
      · rw [h1] at hp ⊢
        exact (ok.self _ hp).1
      · rw [h1] at ha; cases ha
    · intro h
      have := ok.only _ _ hp h
      rw [← this] at hp ⊢
      exact (ok.self _ hp).2 m hm

theorem attrTypeAt_eq {p : OPolicy} {k : Nat} (h : 1 ≤ k ∧ k ≤ p.sp.pol.nTypes) : attrTypeAt p k = some (p.attrType (k - 1)) := by
  unfold attrTypeAt
  rw [if_neg (by omega)]

theorem matchAny_perms (l : List (Nat × BitVec 32)) (c : Nat) (d : BitVec 32) :
    matchAnyClassPermissions l c d = true ↔ ∃ cp ∈ l, cp.1 = c ∧ ∃ b, b < 32 ∧ cp.2.getLsbD b = true ∧ d.getLsbD b = true := by
  have nz : ∀ x y : BitVec 32, x &&& y ≠ 0#32 ↔ ∃ b, b < 32 ∧ x.getLsbD b = true ∧ y.getLsbD b = true := by
    intro x y
    constructor
    · intro h
      by_contra hc
      apply h
      apply BitVec.eq_of_getLsbD_eq
      intro i hi
      rw [BitVec.getLsbD_and, BitVec.getLsbD_zero]
      cases h1 : x.getLsbD i <;> cases h2 : y.getLsbD i <;> try rfl
      exact absurd ⟨i, hi, h1, h2⟩ hc
    · rintro ⟨b, -, h1, h2⟩ h
      have := congrArg (fun v => v.getLsbD b) h
      simp [BitVec.getLsbD_and, h1, h2] at this
  induction l with
  | nil => simp [matchAnyClassPermissions]
  | cons cp l ih =>
    unfold matchAnyClassPermissions
    split
    · rename_i h
      simp only [true_iff]
      exact ⟨cp, List.mem_cons_self .., h.1, (nz _ _).mp h.2⟩
    · rename_i h
      constructor
      · intro h0
        obtain ⟨x, hx, h2⟩ := ih.mp h0
        exact ⟨x, List.mem_cons_of_mem _ hx, h2⟩
      · rintro ⟨x, hx, h1, h2⟩
        apply ih.mpr
        rcases List.mem_cons.mp hx with rfl | hx
        · exact absurd ⟨h1, (nz _ _).mpr h2⟩ h
        · exact ⟨x, hx, h1, h2⟩

theorem allowed_iff {kind : BitVec 16} (h : kind ∈ avKinds ++ xKinds ++ typeKinds) (e : Bool) :
    ((if e then kind ||| ENABLED else kind) &&& ALLOWED = 0#16 ↔ kind ≠ ALLOWED) ∧
    ((if e then kind ||| ENABLED else kind) &&& XPERMS_ALLOWED = 0#16 ↔ kind ≠ XPERMS_ALLOWED) := by
  simp only [avKinds, xKinds, typeKinds, List.cons_append, List.nil_append, List.mem_cons, List.not_mem_nil, or_false] at h
  cases e <;> rcases h with rfl | rfl | rfl | rfl | rfl | rfl | rfl | rfl | rfl <;> decide

/-- A rule as stored in one of the tables. -/
def Stored (p : OPolicy) (m : Avtab.Node) (n : Avtab.Node) : Prop :=
  ∃ e : Bool, m = ⟨{ n.key with specified := if e then n.key.specified ||| ENABLED else n.key.specified }, n.datum⟩ ∧ RuleOk p.sp n

theorem notself_card {a b : Ebitmap.Ebitmap} (ha : Ebitmap.WF a) (hb : Ebitmap.WF b) :
    (¬ (Ebitmap.cardinality a = 0 ∨ Ebitmap.cardinality b = 0) ∧
      ¬ (Ebitmap.cardinality a = 1 ∧ Ebitmap.cardinality b = 1 ∧ Ebitmap.cardinality (Ebitmap.and a b) = 1)) ↔
    ∃ i j, Ebitmap.getBit a i = true ∧ Ebitmap.getBit b j = true ∧ i ≠ j := by
  have lt : ∀ {e : Ebitmap.Ebitmap} (_ : Ebitmap.WF e) {i : Nat}, Ebitmap.getBit e i = true → i < 2 ^ 32 := by
    intro e h i hi
    have inv := (Ebitmap.wf_iff_inv e).1 h
    exact Nat.lt_trans (Ebitmap.getBit_lt_high inv hi) inv.small
  have card : ∀ {e : Ebitmap.Ebitmap} (_ : Ebitmap.WF e), Ebitmap.cardinality e = ((List.range (2 ^ 32)).filter (Ebitmap.getBit e)).length := by
    intro e h
    rw [Ebitmap.C03_cardinality h, List.countP_eq_length_filter]
  have mem : ∀ {e : Ebitmap.Ebitmap} (_ : Ebitmap.WF e) (i : Nat), i ∈ (List.range (2 ^ 32)).filter (Ebitmap.getBit e) ↔ Ebitmap.getBit e i = true := by
    intro e h i
    rw [List.mem_filter, List.mem_range]
    exact ⟨fun h => h.2, fun hi => ⟨lt h hi, hi⟩⟩
  have nd : ∀ e : Ebitmap.Ebitmap, ((List.range (2 ^ 32)).filter (Ebitmap.getBit e)).Nodup := fun e => List.nodup_range.filter _
  have ma := mem ha
  have mb := mem hb
  have mab := mem (and_wf ha hb)
  have hab := and_bit ha hb
  rw [card ha, card hb, card (and_wf ha hb)]
  have na := nd a
  have nb := nd b
  generalize hla : (List.range (2 ^ 32)).filter (Ebitmap.getBit a) = la at *
  generalize hlb : (List.range (2 ^ 32)).filter (Ebitmap.getBit b) = lb at *
  have nab := nd (Ebitmap.and a b)
  generalize hlab : (List.range (2 ^ 32)).filter (Ebitmap.getBit (Ebitmap.and a b)) = lab at *
  clear hla hlb hlab nd mem card lt
  constructor
  · rintro ⟨h1, h2⟩
    by_contra hc
    have hc' : ∀ i j, i ∈ la → j ∈ lb → i = j := by
      intro i j hi hj
      by_contra hne
      exact hc ⟨i, j, (ma i).mp hi, (mb j).mp hj, hne⟩
    match la, lb, na, nb, ma, mb, h1, h2, hc' with
    | [], _, _, _, _, _, h1, _, _ => exact h1 (.inl rfl)
    | _ :: _, [], _, _, _, _, h1, _, _ => exact h1 (.inr rfl)
    | x :: la', y :: lb', na, nb, ma, mb, h1, h2, hc' =>
      have hxy : x = y := hc' x y (List.mem_cons_self ..) (List.mem_cons_self ..)
      have h3 : la' = [] := by
        cases la' with
        | nil => rfl
        | cons z _ =>
          have : z = y := hc' z y (by simp) (by simp)
          simp [hxy, this] at na
      have h4 : lb' = [] := by
        cases lb' with
        | nil => rfl
        | cons z _ =>
          have : x = z := hc' x z (by simp) (by simp)
          simp [← hxy, this] at nb
      subst h3 h4 hxy
      have hl : ∀ z, z ∈ lab ↔ z = x := by
        intro z
        rw [mab, hab, ← ma, ← mb]; simp
      apply h2
      refine ⟨rfl, rfl, ?_⟩
      match lab, nab, hl with
      | [], _, hl => exact absurd ((hl x).mpr rfl) (by simp)
      | [w], _, _ => rfl
      | w :: w' :: l, nab, hl =>
        have e1 := (hl w).mp (by simp)
        have e2 := (hl w').mp (by simp)
        simp [e1, e2] at nab
  · rintro ⟨i, j, hi, hj, hne⟩
    rw [← ma] at hi
    rw [← mb] at hj
    refine ⟨?_, ?_⟩
    · rintro (h | h)
      · rw [List.length_eq_zero_iff.mp h] at hi; cases hi
      · rw [List.length_eq_zero_iff.mp h] at hj; cases hj
    · rintro ⟨h1, h2, h3⟩
      obtain ⟨x, rfl⟩ := List.length_eq_one_iff.mp h1
      obtain ⟨y, rfl⟩ := List.length_eq_one_iff.mp h2
      obtain ⟨z, rfl⟩ := List.length_eq_one_iff.mp h3
      have := (hab z).mp ((mab z).mp (by simp))
      rw [← ma, ← mb] at this
      simp only [List.mem_singleton] at hi hj this
      omega

end Verif.Assertion
