import Verif.CilCon.Spec
import Verif.Prelude

/-! # Lemmas on the comparison functions -/

namespace Verif.CilCon

theorem strcmp_swap : ∀ a b : Str, strcmp b a = - strcmp a b
  | [], [] => rfl
  | [], _ :: _ => rfl
  | _ :: _, [] => rfl
  | a :: as, b :: bs => by
    rw [strcmp, strcmp]
    have := strcmp_swap as bs
    split <;> split <;> first | omega | rfl

theorem strcmp_eq : ∀ {a b : Str}, strcmp a b = 0 ↔ a = b
  | [], [] => by simp [strcmp]
  | [], _ :: _ => by simp [strcmp]
  | _ :: _, [] => by simp [strcmp]
  | a :: as, b :: bs => by
    rw [strcmp]
    have := @strcmp_eq as bs
    split
    · simp; intro h; omega
    · split
      · simp; intro h; omega
      · rw [this]
        have : a = b := by omega
        simp [this]

theorem strcmp_trans : ∀ a b c : Str, strcmp a b ≤ 0 → strcmp b c ≤ 0 → strcmp a c ≤ 0
  | [], [], [] => by simp [strcmp]
  | [], [], _ :: _ => by simp [strcmp]
  | [], _ :: _, [] => by simp [strcmp]
  | [], _ :: _, _ :: _ => by simp [strcmp]
  | _ :: _, [], _ => by simp [strcmp]
  | _ :: _, _ :: _, [] => by simp [strcmp]
  | a :: as, b :: bs, c :: cs => by
    have := strcmp_trans as bs cs
    simp only [strcmp]
    intro h1 h2
    split at h1
    · split at h2
      · rw [if_pos (by omega)]; omega
      · split at h2
        · omega
        · rw [if_pos (by omega)]; omega
    · split at h1
      · omega
      · split at h2
        · rw [if_pos (by omega)]; omega
        · split at h2
          · omega
          · rw [if_neg (by omega), if_neg (by omega)]
            exact this h1 h2

theorem isCmp_strcmp {α : Type} (f : α → Str) : IsCmp fun a b => strcmp (f a) (f b) :=
  ⟨fun a b => strcmp_swap _ _, fun a b c => strcmp_trans _ _ _⟩

/-- Comparison of numbers. -/
def natCmp {α : Type} (f : α → Nat) (a b : α) : Int := if f a < f b then -1 else if f b < f a then 1 else 0

theorem isCmp_nat {α : Type} (f : α → Nat) : IsCmp (natCmp f) := by
  constructor
  · intro a b; unfold natCmp; split <;> split <;> omega
  · intro a b c; unfold natCmp
    intro h1 h2
    by_cases h : f c < f a
    · split at h1 <;> split at h2 <;> (try split at h1) <;> (try split at h2) <;> omega
    · rw [if_neg h]; split <;> omega

theorem natCmp_eq {α : Type} {f : α → Nat} {a b : α} : natCmp f a b = 0 ↔ f a = f b := by
  unfold natCmp; split
  · constructor <;> intro h <;> omega
  · split
    · constructor <;> intro h <;> omega
    · constructor <;> intro h <;> omega

/-- First the one, then the other. -/
def lex {α : Type} (c d : α → α → Int) (a b : α) : Int := if c a b ≠ 0 then c a b else d a b

theorem IsCmp.refl {α : Type} {c : α → α → Int} (h : IsCmp c) (a : α) : c a a = 0 := by
  have := h.swap a a; omega

/-- Rules that compare equal compare the same with others. -/
theorem IsCmp.congr {α : Type} {c : α → α → Int} (h : IsCmp c) {x y z : α} (h1 : c x y < 0) (h2 : c y z ≤ 0) : c x z < 0 := by
  have h3 := h.trans x y z (by omega) h2
  have h4 := h.swap x z
  have h5 := h.swap x y
  by_contra hh
  have := h.trans y z x h2 (by omega)
  omega

theorem IsCmp.congr' {α : Type} {c : α → α → Int} (h : IsCmp c) {x y z : α} (h1 : c x y ≤ 0) (h2 : c y z < 0) : c x z < 0 := by
  have h3 := h.trans x y z h1 (by omega)
  have h4 := h.swap x z
  have h5 := h.swap y z
  by_contra hh
  have := h.trans z x y (by omega) h1
  omega

theorem isCmp_lex {α : Type} {c d : α → α → Int} (hc : IsCmp c) (hd : IsCmp d) : IsCmp (lex c d) := by
  constructor
  · intro a b
    unfold lex
    have h1 := hc.swap a b
    have h2 := hd.swap a b
    split <;> split <;> omega
  · intro x y z
    unfold lex
    intro h1 h2
    have t1 := hc.trans x y z
    have t2 := hd.trans x y z
    by_cases hxy : c x y = 0
    · by_cases hyz : c y z = 0
      · have hxz : c x z = 0 := by
          have a1 := t1 (by omega) (by omega)
          have a2 := hc.trans z y x (by rw [hc.swap]; omega) (by rw [hc.swap]; omega)
          rw [hc.swap] at a2; omega
        simp only [hxy, hyz, hxz, ne_eq, not_true_eq_false, if_false] at h1 h2 ⊢
        exact t2 h1 h2
      · simp only [hxy, hyz, ne_eq, not_true_eq_false, not_false_eq_true, if_false, if_true] at h1 h2
        have := hc.congr' (x := x) (y := y) (z := z) (by omega) (by omega)
        rw [if_pos (by omega)]; omega
    · simp only [hxy, ne_eq, not_false_eq_true, if_true] at h1
      have h3 : c y z ≤ 0 := by
        by_cases hyz : c y z = 0
        · omega
        · simp only [hyz, ne_eq, not_false_eq_true, if_true] at h2; exact h2
      have := hc.congr (x := x) (y := y) (z := z) (by omega) h3
      rw [if_pos (by omega)]; omega

theorem lex_eq {α : Type} {c d : α → α → Int} {a b : α} : lex c d a b = 0 ↔ c a b = 0 ∧ d a b = 0 := by
  unfold lex
  split
  · tauto
  · rename_i h; simp at h; tauto

theorem spaceship_nat {w : Nat} (a b : BitVec w) : spaceship a b = natCmp (fun x : BitVec w => x.toNat) a b := rfl

theorem spaceship_eq {w : Nat} {a b : BitVec w} : spaceship a b = 0 ↔ a = b := by
  rw [spaceship_nat, natCmp_eq]
  exact BitVec.toNat_inj

/-! ### Contexts -/

theorem catsInner_zero {i : Str} {js : List Str} {r} (h : catsInner i js = some r) : r = 0 := by
  induction js with
  | nil => cases h
  | cons j js ih =>
    rw [catsInner] at h
    split at h
    · cases h; rfl
    · exact ih h

/-- Two lists of categories always compare equal. -/
theorem catsLoop_zero (is js : List Str) : catsLoop is js = 0 := by
  induction is with
  | nil => rfl
  | cons i is ih =>
    rw [catsLoop]
    split
    · exact catsInner_zero ‹_›
    · exact ih

theorem catsCompare_eq {a b : Option (List Str)} : catsCompare a b = 0 ↔ (a = none ↔ b = none) := by
  rcases a with _ | a <;> rcases b with _ | b <;> simp [catsCompare, catsLoop_zero]

theorem levelCompare_eq {a b : Level} : levelCompare a b = 0 ↔ a.sens = b.sens ∧ (a.cats = none ↔ b.cats = none) := by
  show lex (fun a b : Level => strcmp a.sens b.sens) (fun a b => catsCompare a.cats b.cats) a b = 0 ↔ _
  rw [lex_eq, strcmp_eq, catsCompare_eq]

theorem contextCompare_eq {a b : Context} : contextCompare a b = 0 ↔ AlmostSame a b := by
  show lex (fun a b : Context => strcmp a.user b.user) (lex (fun a b => strcmp a.role b.role)
    (lex (fun a b => strcmp a.type b.type) (lex (fun a b => levelCompare a.low b.low) (fun a b => levelCompare a.high b.high)))) a b = 0 ↔ _
  rw [lex_eq, lex_eq, lex_eq, lex_eq, strcmp_eq, strcmp_eq, strcmp_eq, levelCompare_eq, levelCompare_eq]
  unfold AlmostSame
  tauto

theorem one_context {α : Type} {f : α → Context} (a b : α) : ([f a].length = [f b].length) ∧
    ∃ r, some (contextCompare (f a) (f b)) = some r ∧ (r = 0 ↔ ∀ p ∈ [f a].zip [f b], AlmostSame p.1 p.2) :=
  ⟨rfl, _, rfl, by rw [contextCompare_eq]; simp⟩

theorem AlmostSame.refl (a : Context) : AlmostSame a a := by simp [AlmostSame]
theorem AlmostSame.symm {a b : Context} (h : AlmostSame a b) : AlmostSame b a := by
  unfold AlmostSame at *; obtain ⟨h1, h2, h3, h4, h5, h6, h7⟩ := h
  exact ⟨h1.symm, h2.symm, h3.symm, h4.symm, h5.symm, h6.symm, h7.symm⟩
theorem AlmostSame.trans {a b c : Context} (h : AlmostSame a b) (k : AlmostSame b c) : AlmostSame a c := by
  obtain ⟨h1, h2, h3, h4, h5, h6, h7⟩ := h
  obtain ⟨k1, k2, k3, k4, k5, k6, k7⟩ := k
  exact ⟨h1.trans k1, h2.trans k2, h3.trans k3, h4.trans k4, h5.trans k5, h6.trans k6, h7.trans k7⟩

/-! ### The tables -/

theorem ibpkeycon_lawful : Lawful ibpkeyconTable := by
  have he : ibpkeyconCompare = lex (fun a b => strcmp a.subnet b.subnet)
      (lex (natCmp fun r => (r.high - r.low).toNat) (natCmp fun r => r.low.toNat)) := by
    funext a b
    unfold ibpkeyconCompare
    have hl : natCmp (fun r : Ibpkeycon => (r.high - r.low).toNat) a b = spaceship (a.high - a.low) (b.high - b.low) := rfl
    simp only [lex, hl]
    split
    · rfl
    · by_cases h : spaceship (a.high - a.low) (b.high - b.low) = 0
      · simp only [h, ne_eq, not_true_eq_false, if_false, if_true]; rfl
      · simp only [h, ne_eq, not_false_eq_true, if_true, if_false]
  refine ⟨?_, fun a b => ?_, one_context⟩
  · show IsCmp ibpkeyconCompare
    rw [he]
    exact isCmp_lex (isCmp_strcmp _) (isCmp_lex (isCmp_nat _) (isCmp_nat _))
  · show ibpkeyconCompare a b = 0 ↔ (a.subnet, a.low, a.high) = (b.subnet, b.low, b.high)
    rw [he, lex_eq, lex_eq, strcmp_eq, natCmp_eq, natCmp_eq]
    simp only [Prod.mk.injEq, BitVec.toNat_inj]
    constructor
    · rintro ⟨h1, h2, h3⟩
      refine ⟨h1, h3, ?_⟩
      rw [h3] at h2
      exact (BitVec.sub_left_inj _).1 h2
    · rintro ⟨h1, h2, h3⟩
      exact ⟨h1, by rw [h2, h3], h2⟩

theorem portcon_lawful : Lawful portconTable := by
  have he : portconCompare = lex (natCmp fun r => (r.high - r.low).toNat)
      (lex (natCmp fun r => r.low.toNat) (natCmp fun r => r.proto)) := by
    funext a b
    unfold portconCompare
    have hl : natCmp (fun r : Portcon => (r.high - r.low).toNat) a b = spaceship (a.high - a.low) (b.high - b.low) := rfl
    simp only [lex, hl]
    by_cases h : spaceship (a.high - a.low) (b.high - b.low) = 0
    · simp only [h, ne_eq, not_true_eq_false, if_false, if_true, natCmp, BitVec.lt_def]
      split
      · simp
      · split <;> simp
    · simp only [h, ne_eq, not_false_eq_true, if_true, if_false]
  refine ⟨?_, fun a b => ?_, one_context⟩
  · show IsCmp portconCompare
    rw [he]
    exact isCmp_lex (isCmp_nat _) (isCmp_lex (isCmp_nat _) (isCmp_nat _))
  · show portconCompare a b = 0 ↔ (a.proto, a.low, a.high) = (b.proto, b.low, b.high)
    rw [he, lex_eq, lex_eq, natCmp_eq, natCmp_eq, natCmp_eq]
    simp only [Prod.mk.injEq, BitVec.toNat_inj]
    constructor
    · rintro ⟨h1, h2, h3⟩
      refine ⟨h3, h2, ?_⟩
      rw [h2] at h1
      exact (BitVec.sub_left_inj _).1 h1
    · rintro ⟨h1, h2, h3⟩
      exact ⟨by rw [h2, h3], h2, h1⟩

theorem iocon_lawful (w : Nat) : Lawful (ioconTable w) := by
  have he : @ioconCompare w = lex (natCmp fun r => (r.high - r.low).toNat) (natCmp fun r => r.low.toNat) := by
    funext a b
    unfold ioconCompare
    have hl : natCmp (fun r : Iocon w => (r.high - r.low).toNat) a b = spaceship (a.high - a.low) (b.high - b.low) := rfl
    simp only [lex, hl]
    by_cases h : spaceship (a.high - a.low) (b.high - b.low) = 0
    · simp only [h, ne_eq, not_true_eq_false, if_false, if_true]; rfl
    · simp only [h, ne_eq, not_false_eq_true, if_true, if_false]
  refine ⟨?_, fun a b => ?_, one_context⟩
  · show IsCmp ioconCompare
    rw [he]
    exact isCmp_lex (isCmp_nat _) (isCmp_nat _)
  · show ioconCompare a b = 0 ↔ (a.low, a.high) = (b.low, b.high)
    rw [he, lex_eq, natCmp_eq, natCmp_eq]
    simp only [Prod.mk.injEq, BitVec.toNat_inj]
    constructor
    · rintro ⟨h1, h2⟩
      refine ⟨h2, ?_⟩
      rw [h2] at h1
      exact (BitVec.sub_left_inj _).1 h1
    · rintro ⟨h2, h3⟩
      exact ⟨by rw [h2, h3], h2⟩

theorem genfscon_lawful : Lawful genfsconTable := by
  have he : genfsconCompare = lex (fun a b => strcmp a.fs b.fs) (fun a b => strcmp a.path b.path) := by
    funext a b
    unfold genfsconCompare lex
    split <;> rename_i h <;> simp [h]
  refine ⟨?_, fun a b => ?_, one_context⟩
  · show IsCmp genfsconCompare
    rw [he]
    exact isCmp_lex (isCmp_strcmp _) (isCmp_strcmp _)
  · show genfsconCompare a b = 0 ↔ (a.fs, a.path) = (b.fs, b.path)
    rw [he, lex_eq, strcmp_eq, strcmp_eq]; simp

theorem netifcon_lawful : Lawful netifconTable := by
  refine ⟨isCmp_strcmp _, fun a b => strcmp_eq, fun a b => ⟨rfl, _, rfl, ?_⟩⟩
  show lex (fun a b : Netifcon => contextCompare a.ifContext b.ifContext)
    (fun a b => contextCompare a.packetContext b.packetContext) a b = 0 ↔ _
  rw [lex_eq, contextCompare_eq, contextCompare_eq]
  simp [netifconTable]

theorem ibendportcon_lawful : Lawful ibendportconTable := by
  refine ⟨isCmp_lex (isCmp_strcmp fun r : Ibendportcon => r.dev) (isCmp_nat _), fun a b => ?_, one_context⟩
  show lex (fun a b : Ibendportcon => strcmp a.dev b.dev) (natCmp fun r => r.port) a b = 0 ↔ (a.dev, a.port) = (b.dev, b.port)
  rw [lex_eq, strcmp_eq, natCmp_eq]; simp

theorem nodecon_lawful : Lawful nodeconTable := by
  have he : nodeconCompare = lex (natCmp fun r => if r.v6 then 1 else 0)
      (lex (fun a b => strcmp b.mask a.mask) (fun a b => strcmp a.addr b.addr)) := by
    funext a b
    obtain ⟨av, aa, am, ac⟩ := a
    obtain ⟨bv, ba, bm, bc⟩ := b
    have := strcmp_swap am bm
    unfold nodeconCompare
    rcases av with _ | _ <;> rcases bv with _ | _ <;> simp [lex, natCmp, this]
  have hs : IsCmp fun a b : Nodecon => strcmp b.mask a.mask :=
    ⟨fun a b => strcmp_swap _ _, fun a b c h1 h2 => strcmp_trans _ _ _ h2 h1⟩
  refine ⟨?_, fun a b => ?_, one_context⟩
  · show IsCmp nodeconCompare
    rw [he]
    exact isCmp_lex (isCmp_nat _) (isCmp_lex hs (isCmp_strcmp _))
  · show nodeconCompare a b = 0 ↔ (a.v6, a.addr, a.mask) = (b.v6, b.addr, b.mask)
    rw [he, lex_eq, lex_eq, strcmp_eq, strcmp_eq, natCmp_eq]
    simp only [Prod.mk.injEq]
    rcases a.v6 <;> rcases b.v6 <;> simp [eq_comm, and_comm]

theorem numcon_lawful : Lawful numconTable :=
  ⟨isCmp_nat fun r : Numcon => r.num, fun _ _ => natCmp_eq, one_context⟩

theorem devicetreecon_lawful : Lawful devicetreeconTable :=
  ⟨isCmp_strcmp _, fun _ _ => strcmp_eq, one_context⟩

theorem fsuse_lawful : Lawful fsuseTable := by
  have he : fsuseCompare = lex (natCmp fun r => r.type) (fun a b => strcmp a.fs b.fs) := by
    funext a b
    unfold fsuseCompare lex natCmp
    split
    · simp
    · split <;> simp
  refine ⟨?_, fun a b => ?_, one_context⟩
  · show IsCmp fsuseCompare
    rw [he]
    exact isCmp_lex (isCmp_nat _) (isCmp_strcmp _)
  · show fsuseCompare a b = 0 ↔ (a.type, a.fs) = (b.type, b.fs)
    rw [he, lex_eq, strcmp_eq, natCmp_eq]; simp

/-- Comparison of two numbers. -/
def ncmp (x y : Nat) : Int := if x < y then -1 else if y < x then 1 else 0

/-- First the one, then the other. -/
def andThen (x y : Int) : Int := if x ≠ 0 then x else y

theorem fc_lex (A B : FcData) (ta tb : Nat) (r : Int) :
    (if A.isMeta && !B.isMeta then -1
    else if B.isMeta && !A.isMeta then 1
    else if A.stemLen < B.stemLen then -1
    else if B.stemLen < A.stemLen then 1
    else if A.strLen < B.strLen then -1
    else if B.strLen < A.strLen then 1
    else if ta < tb then -1
    else if tb < ta then 1
    else r) =
    andThen (ncmp (if A.isMeta then 0 else 1) (if B.isMeta then 0 else 1)) (andThen (ncmp A.stemLen B.stemLen)
      (andThen (ncmp A.strLen B.strLen) (andThen (ncmp ta tb) r))) := by
  obtain ⟨m, s, l⟩ := A
  obtain ⟨m', s', l'⟩ := B
  unfold andThen ncmp
  rcases m with _ | _ <;> rcases m' with _ | _ <;> simp
  all_goals
    by_cases h1 : s < s' <;> by_cases h2 : s' < s <;> by_cases h3 : l < l' <;> by_cases h4 : l' < l <;>
    by_cases h5 : ta < tb <;> by_cases h6 : tb < ta <;>
    simp [h1, h2, h3, h4, h5, h6]

theorem filecon_isCmp : IsCmp fileconCompare ∧ ∀ a b, fileconCompare a b = 0 ↔ (a.path, a.type) = (b.path, b.type) := by
  have he : fileconCompare = lex (natCmp fun r => if (fcFill ⟨false, 0, 0⟩ r.path).isMeta then 0 else 1)
      (lex (natCmp fun r => (fcFill ⟨false, 0, 0⟩ r.path).stemLen)
      (lex (natCmp fun r => (fcFill ⟨false, 0, 0⟩ r.path).strLen)
      (lex (natCmp fun r => r.type) (fun a b => strcmp a.path b.path)))) := by
    funext a b
    exact fc_lex _ _ _ _ _
  refine ⟨?_, fun a b => ?_⟩
  · rw [he]
    exact isCmp_lex (isCmp_nat _) (isCmp_lex (isCmp_nat _) (isCmp_lex (isCmp_nat _) (isCmp_lex (isCmp_nat _) (isCmp_strcmp _))))
  · rw [he, lex_eq, lex_eq, lex_eq, lex_eq, strcmp_eq, natCmp_eq, natCmp_eq, natCmp_eq, natCmp_eq]
    simp only [Prod.mk.injEq]
    constructor
    · tauto
    · rintro ⟨h1, h2⟩
      rw [h1, h2]
      simp

end Verif.CilCon
