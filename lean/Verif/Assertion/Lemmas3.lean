import Verif.Assertion.Lemmas2

/-!
# Lemmas: the search for extended permissions
-/

namespace Verif.Assertion
open Verif.Avtab Verif.Policy Verif.Optimize

def baseB (na : Avrule) (k : Key) (n : Avtab.Node) : Bool :=
  matchNodeKey n.key k && decide (n.key.specified &&& ALLOWED ≠ 0#16) && matchAnyClassPermissions na.perms n.key.cls n.datum.data

def xB (na : Avrule) (k : Key) (n : Avtab.Node) : Bool :=
  matchNodeKey n.key k && !baseB na k n && decide (n.key.specified &&& XPERMS_ALLOWED ≠ 0#16) && knownKind (xpermsOf n)

def badB (na : Avrule) (k : Key) (n : Avtab.Node) : Bool := xB na k n && checkExtendedPermissions na.xperms (xpermsOf n)

theorem branchScan_spec (na : Avrule) (k : Key) (l : List Avtab.Node) : ∀ b x,
    (branchScan na k l b x).hit = l.any (badB na k) ∧
    ((branchScan na k l b x).hit = false → (branchScan na k l b x).base = (b || l.any (baseB na k)) ∧
      (branchScan na k l b x).xperm = (x || l.any (xB na k))) := by
  induction l with
  | nil => intro b x; simp [branchScan]
  | cons n l ih =>
    intro b x
    unfold branchScan
    split
    · rename_i h
      have h1 : baseB na k n = false := by simp [baseB, h]
      have h2 : xB na k n = false := by simp [xB, h]
      simpa [h1, h2, badB] using ih b x
    · rename_i h
      have h := (eq_true_of_ne_false h)
      split
      · rename_i h1
        have h1 : baseB na k n = true := by simp [baseB, h, h1]
        have h2 : xB na k n = false := by simp [xB, h1]
        simpa [h1, h2, badB] using ih true x
      · rename_i hb
        have h1 : baseB na k n = false := by
          by_contra hc
          apply hb
          have := (eq_true_of_ne_false hc)
          simp only [baseB, Bool.and_eq_true, decide_eq_true_eq] at this
          exact ⟨this.1.2, this.2⟩
        split
        · rename_i h3
          have h2 : xB na k n = false := by simp [xB, h3]
          simpa [h1, h2, badB] using ih b x
        · rename_i h3
          split
          · rename_i h4
            have h2 : xB na k n = false := by simp [xB, h4]
            simpa [h1, h2, badB] using ih b x
          · rename_i h4
            have h4 := (eq_true_of_ne_false h4)
            have h2 : xB na k n = true := by simp [xB, h1, h, h3, h4]
            split
            · rename_i h5
              simp [badB, h2, h5]
            · rename_i h5
              have h5 := eq_false_of_ne_true h5
              simpa [h1, h2, h5, badB] using ih b true

/-- The rules of the branches of a conditional. -/
def tl (nodeOf : Nat → Avtab.Node) (c : Cond.Node) : List Avtab.Node := c.trueList.map nodeOf
def fl (nodeOf : Nat → Avtab.Node) (c : Cond.Node) : List Avtab.Node := c.falseList.map nodeOf

def condBad (na : Avrule) (k : Key) (nodeOf : Nat → Avtab.Node) (c : Cond.Node) : Bool :=
  (tl nodeOf c).any (badB na k) || (fl nodeOf c).any (badB na k)

def bothX (na : Avrule) (k : Key) (nodeOf : Nat → Avtab.Node) (c : Cond.Node) : Bool :=
  (tl nodeOf c).any (xB na k) && (fl nodeOf c).any (xB na k)

def confl (na : Avrule) (k : Key) (conditional : Bool) (nodeOf : Nat → Avtab.Node) (c : Cond.Node) : Bool :=
  !bothX na k nodeOf c && (conditional && (((tl nodeOf c).any (baseB na k) && !(tl nodeOf c).any (xB na k)) ||
    ((fl nodeOf c).any (baseB na k) && !(fl nodeOf c).any (xB na k))))

theorem combine_spec (c tb tx fb fx : Bool) (s : Found) : (combine c tb tx fb fx s).hit = s.hit ∧
    (combine c tb tx fb fx s).xperm = (s.xperm || (tx && fx)) ∧
    (combine c tb tx fb fx s).conflict = (s.conflict || (!(tx && fx) && (c && ((tb && !tx) || (fb && !fx))))) := by
  obtain ⟨h, x, cf⟩ := s
  cases h <;> cases x <;> cases cf <;> cases c <;> cases tb <;> cases tx <;> cases fb <;> cases fx <;> decide

theorem condScan_spec (na : Avrule) (k : Key) (cd : Bool) (nodeOf : Nat → Avtab.Node) (l : List Cond.Node) : ∀ s, s.hit = false →
    (condScan na k cd nodeOf l s).hit = l.any (condBad na k nodeOf) ∧
    ((condScan na k cd nodeOf l s).hit = false → (condScan na k cd nodeOf l s).xperm = (s.xperm || l.any (bothX na k nodeOf)) ∧
      (condScan na k cd nodeOf l s).conflict = (s.conflict || l.any (confl na k cd nodeOf))) := by
  induction l with
  | nil => intro s hs; simp [condScan, hs]
  | cons c l ih =>
    intro s hs
    obtain ⟨t1, t2⟩ := branchScan_spec na k (tl nodeOf c) false false
    obtain ⟨f1, f2⟩ := branchScan_spec na k (fl nodeOf c) false false
    unfold condScan
    simp only
    change (branchScan na k (tl nodeOf c) false false).hit = _ at t1
    by_cases ht : (branchScan na k (tl nodeOf c) false false).hit = true
    · have : (branchScan na k (List.map nodeOf c.trueList) false false).hit = true := ht
      rw [if_pos this]
      rw [ht] at t1
      simp [condBad, ← t1]
    · have ht' := eq_false_of_ne_true ht
      have : ¬ (branchScan na k (List.map nodeOf c.trueList) false false).hit = true := ht
      rw [if_neg this]
      by_cases hf : (branchScan na k (fl nodeOf c) false false).hit = true
      · have : (branchScan na k (List.map nodeOf c.falseList) false false).hit = true := hf
        rw [if_pos this]
        rw [hf] at f1
        simp [condBad, ← f1]
      · have hf' := eq_false_of_ne_true hf
        have : ¬ (branchScan na k (List.map nodeOf c.falseList) false false).hit = true := hf
        rw [if_neg this]
        obtain ⟨t3, t4⟩ := t2 ht'
        obtain ⟨f3, f4⟩ := f2 hf'
        rw [ht'] at t1
        rw [hf'] at f1
        have e1 : (branchScan na k (List.map nodeOf c.trueList) false false) = branchScan na k (tl nodeOf c) false false := rfl
        have e2 : (branchScan na k (List.map nodeOf c.falseList) false false) = branchScan na k (fl nodeOf c) false false := rfl
        rw [e1, e2, t3, t4, f3, f4]
        simp only [Bool.false_or]
        obtain ⟨c1, c2, c3⟩ := combine_spec cd ((tl nodeOf c).any (baseB na k)) ((tl nodeOf c).any (xB na k)) ((fl nodeOf c).any (baseB na k)) ((fl nodeOf c).any (xB na k)) s
        obtain ⟨i1, i2⟩ := ih (combine cd ((tl nodeOf c).any (baseB na k)) ((tl nodeOf c).any (xB na k)) ((fl nodeOf c).any (baseB na k)) ((fl nodeOf c).any (xB na k)) s) (by rw [c1, hs])
        refine ⟨by rw [i1, List.any_cons, condBad, ← t1, ← f1]; rfl, fun h => ?_⟩
        obtain ⟨i3, i4⟩ := i2 h
        rw [i3, i4, c2, c3, List.any_cons, List.any_cons, Bool.or_assoc, Bool.or_assoc]
        exact ⟨rfl, rfl⟩

theorem teScan_spec (na : Avrule) (l : List Avtab.Node) : ∀ f,
    (teScan na l f).1 = l.any (fun n => knownKind (xpermsOf n) && checkExtendedPermissions na.xperms (xpermsOf n)) ∧
    ((teScan na l f).1 = false → (teScan na l f).2 = (f || l.any (fun n => knownKind (xpermsOf n)))) := by
  induction l with
  | nil => intro f; simp [teScan]
  | cons n l ih =>
    intro f
    unfold teScan
    split
    · rename_i h
      simpa [h] using ih f
    · rename_i h
      have h := (eq_true_of_ne_false h)
      split
      · rename_i h1
        simp [h, h1]
      · rename_i h1
        have h1 := eq_false_of_ne_true h1
        simpa [h, h1] using ih true

def nodeOf (p : OPolicy) : Nat → Avtab.Node := stamped p.enabled p.tab.node

def pairBad (p : OPolicy) (na : Avrule) (k : Key) (a : Nat × Nat) : Bool :=
  (enumerate p.sp.te (tmpKey k a.1 a.2)).any (fun n => knownKind (xpermsOf n) && checkExtendedPermissions na.xperms (xpermsOf n)) ||
  p.conds.any (condBad na (tmpKey k a.1 a.2) (nodeOf p))

def pairX (p : OPolicy) (na : Avrule) (k : Key) (a : Nat × Nat) : Bool :=
  (enumerate p.sp.te (tmpKey k a.1 a.2)).any (fun n => knownKind (xpermsOf n)) || p.conds.any (bothX na (tmpKey k a.1 a.2) (nodeOf p))

def pairConfl (p : OPolicy) (na : Avrule) (k : Key) (cd : Bool) (a : Nat × Nat) : Bool :=
  p.conds.any (confl na (tmpKey k a.1 a.2) cd (nodeOf p))

theorem pairScan_spec (p : OPolicy) (na : Avrule) (k : Key) (cd : Bool) (l : List (Nat × Nat)) : ∀ s, s.hit = false →
    (pairScan p na k cd l s).hit = l.any (pairBad p na k) ∧
    ((pairScan p na k cd l s).hit = false → (pairScan p na k cd l s).xperm = (s.xperm || l.any (pairX p na k)) ∧
      (pairScan p na k cd l s).conflict = (s.conflict || l.any (pairConfl p na k cd))) := by
  induction l with
  | nil => intro s hs; simp [pairScan, hs]
  | cons a l ih =>
    intro s hs
    obtain ⟨i, j⟩ := a
    obtain ⟨t1, t2⟩ := teScan_spec na (enumerate p.sp.te (tmpKey k i j)) s.xperm
    unfold pairScan
    simp only
    by_cases ht : (teScan na (enumerate p.sp.te (tmpKey k i j)) s.xperm).1 = true
    · rw [if_pos ht]
      rw [ht] at t1
      simp [pairBad, ← t1]
    · rw [if_neg ht]
      have ht' := eq_false_of_ne_true ht
      have t3 := t2 ht'
      rw [ht'] at t1
      obtain ⟨c1, c2⟩ := condScan_spec na (tmpKey k i j) cd (stamped p.enabled p.tab.node) p.conds
        { s with xperm := (teScan na (enumerate p.sp.te (tmpKey k i j)) s.xperm).2 } hs
      generalize condScan na (tmpKey k i j) cd (stamped p.enabled p.tab.node) p.conds
        { s with xperm := (teScan na (enumerate p.sp.te (tmpKey k i j)) s.xperm).2 } = s' at c1 c2 ⊢
      by_cases hh : s'.hit = true
      · rw [if_pos hh]
        rw [hh] at c1
        refine ⟨?_, fun h => by rw [hh] at h; cases h⟩
        rw [hh, List.any_cons, pairBad]
        show true = (_ || (p.conds.any (condBad na (tmpKey k i j) (stamped p.enabled p.tab.node))) || _)
        rw [← c1]; simp
      · rw [if_neg hh]
        have hh' := eq_false_of_ne_true hh
        obtain ⟨c3, c4⟩ := c2 hh'
        rw [hh'] at c1
        obtain ⟨i1, i2⟩ := ih s' hh'
        have e1 : pairBad p na k (i, j) = false := by
          unfold pairBad
          rw [← t1]
          exact c1.symm
        refine ⟨by rw [i1, List.any_cons, e1]; rfl, fun h => ?_⟩
        obtain ⟨i3, i4⟩ := i2 h
        rw [i3, i4, c3, c4, t3, List.any_cons, List.any_cons]
        simp only [pairX, pairConfl, Bool.or_assoc]
        exact ⟨rfl, rfl⟩

theorem mem_pairsOf {a b : List Nat} {x : Nat × Nat} : x ∈ pairsOf a b ↔ x.1 ∈ a ∧ x.2 ∈ b := by
  unfold pairsOf
  simp only [List.mem_flatMap, List.mem_map]
  constructor
  · rintro ⟨i, hi, j, hj, rfl⟩; exact ⟨hi, hj⟩
  · rintro ⟨h1, h2⟩; exact ⟨x.1, h1, x.2, h2, rfl⟩

/-- The three reasons to report extended permissions of a pair of types. -/
theorem xpermsAvtab_spec {p : OPolicy} {σ0 : Cond.State} (ok : AssertOk p σ0) (na : Avrule) {i j : Nat} (k : Key) (cd : Bool)
    (hi : i < p.sp.pol.nTypes) (hj : j < p.sp.pol.nTypes) :
    ∃ ss ts sa ta, p.sp.typeAttr i = some sa ∧ p.sp.typeAttr j = some ta ∧ bitsOf sa = some ss ∧ bitsOf ta = some ts ∧
      (∀ a, a ∈ ss ↔ Ebitmap.getBit sa a = true) ∧ (∀ a, a ∈ ts ↔ Ebitmap.getBit ta a = true) ∧
      checkXpermsAvtab p na i j k cd = some ((pairsOf ss ts).any (pairBad p na k) ||
        ((!cd && !(pairsOf ss ts).any (pairX p na k)) || (pairsOf ss ts).any (pairConfl p na k cd))) := by
  obtain ⟨sa, hsa⟩ := ok.attr i hi
  obtain ⟨ta, hta⟩ := ok.attr j hj
  obtain ⟨ss, hss, mss⟩ := bits_spec (ok.attrWF _ _ hsa).1
  obtain ⟨ts, hts, mts⟩ := bits_spec (ok.attrWF _ _ hta).1
  refine ⟨ss, ts, sa, ta, hsa, hta, hss, hts, mss, mts, ?_⟩
  unfold checkXpermsAvtab
  rw [hsa, hta]
  simp only [Option.bind_some]
  rw [hss, hts]
  simp only [Option.bind_some]
  obtain ⟨h1, h2⟩ := pairScan_spec p na k cd (pairsOf ss ts) ⟨false, false, false⟩ rfl
  rw [h1]
  cases hb : (pairsOf ss ts).any (pairBad p na k) with
  | true => simp
  | false =>
    rw [hb] at h1
    obtain ⟨h3, h4⟩ := h2 h1
    rw [h3, h4]; simp

/-! ## Reports -/

theorem teCount_spec (na : Avrule) (l : List Avtab.Node) : ∀ e f,
    e ≤ (teCount na l e f).1 ∧ ((teScan na l f).1 = true → e < (teCount na l e f).1) ∧
    ((teScan na l f).1 = false → (teCount na l e f).2 = (teScan na l f).2) := by
  induction l with
  | nil => intro e f; simp [teCount, teScan]
  | cons n l ih =>
    intro e f
    unfold teCount teScan
    split
    · exact ih e f
    · split
      · rename_i h
        obtain ⟨h1, -, -⟩ := ih (e + 1) true
        exact ⟨by omega, fun _ => by omega, fun h => by simp at h⟩
      · exact ih e true

theorem branchCount_spec (na : Avrule) (k : Key) (l : List Avtab.Node)
    (hl : ∀ n ∈ l, n.key.specified &&& XPERMS_ALLOWED ≠ 0#16 → matchAnyClassPermissions na.perms n.key.cls n.datum.data = false) :
    ∀ s b, (b = true → s.base = true) →
    s.errors ≤ (branchCount na k l s).errors ∧ ((branchScan na k l b s.xperm).hit = true → s.errors < (branchCount na k l s).errors) ∧
    ((branchScan na k l b s.xperm).hit = false → (branchCount na k l s).xperm = (branchScan na k l b s.xperm).xperm ∧
      ((branchScan na k l b s.xperm).base = true → (branchCount na k l s).base = true)) := by
  induction l with
  | nil => intro s b hb; simpa [branchCount, branchScan] using hb
  | cons n l ih =>
    intro s b hb
    have ih := ih (fun x hx => hl x (List.mem_cons_of_mem _ hx))
    have hn := hl n (List.mem_cons_self ..)
    unfold branchCount branchScan
    by_cases q1 : matchNodeKey n.key k = false
    · rw [if_pos q1, if_pos q1]
      exact ih s b hb
    rw [if_neg q1, if_neg q1]
    by_cases q2 : matchAnyClassPermissions na.perms n.key.cls n.datum.data = true
    · rw [if_pos q2]
      by_cases q3 : n.key.specified &&& ALLOWED ≠ 0#16
      · rw [if_pos ⟨q3, q2⟩]
        exact ih { s with base := true } true (fun _ => rfl)
      · have h0 : n.key.specified &&& XPERMS_ALLOWED = 0#16 := by
          by_contra hc
          rw [hn hc] at q2; cases q2
        rw [if_neg (fun hc => q3 hc.1), if_pos h0]
        exact ih { s with base := true } b (fun _ => rfl)
    have q2' : ¬ (n.key.specified &&& ALLOWED ≠ 0#16 ∧ matchAnyClassPermissions na.perms n.key.cls n.datum.data = true) := fun hc => q2 hc.2
    rw [if_neg q2, if_neg q2']
    by_cases q4 : n.key.specified &&& XPERMS_ALLOWED = 0#16
    · rw [if_pos q4, if_pos q4]
      exact ih s b hb
    rw [if_neg q4, if_neg q4]
    by_cases q5 : knownKind (xpermsOf n) = false
    · rw [if_pos q5, if_pos q5]
      exact ih s b hb
    rw [if_neg q5, if_neg q5]
    by_cases q6 : checkExtendedPermissions na.xperms (xpermsOf n) = true
    · rw [if_pos q6, if_pos q6]
      obtain ⟨h1, -, -⟩ := ih ⟨s.errors + 1, s.base, true⟩ b hb
      simp only at h1
      exact ⟨by omega, fun _ => by omega, fun h => by simp at h⟩
    · rw [if_neg q6, if_neg q6]
      exact ih ⟨s.errors, s.base, true⟩ b hb

def NoClash (na : Avrule) (nodeOf : Nat → Avtab.Node) (c : Cond.Node) : Prop :=
  ∀ n ∈ c.trueList.map nodeOf ++ c.falseList.map nodeOf, n.key.specified &&& XPERMS_ALLOWED ≠ 0#16 →
    matchAnyClassPermissions na.perms n.key.cls n.datum.data = false

theorem combine_mono {c tb tx fb fx tb' fb' : Bool} {s s' : Found} (h1 : tb = true → tb' = true) (h2 : fb = true → fb' = true)
    (hx : s'.xperm = s.xperm) (hc : s.conflict = true → s'.conflict = true) :
    (combine c tb' tx fb' fx s').xperm = (combine c tb tx fb fx s).xperm ∧
    ((combine c tb tx fb fx s).conflict = true → (combine c tb' tx fb' fx s').conflict = true) := by
  obtain ⟨h, x, cf⟩ := s
  obtain ⟨h', x', cf'⟩ := s'
  simp only at hx hc
  subst hx
  cases c <;> cases tb <;> cases tx <;> cases fb <;> cases fx <;> cases tb' <;> cases fb' <;> simp_all [combine]

theorem condCount_spec (na : Avrule) (k : Key) (cd : Bool) (nodeOf : Nat → Avtab.Node) (l : List Cond.Node) (hl : ∀ c ∈ l, NoClash na nodeOf c) :
    ∀ e s s', s.hit = false → s'.xperm = s.xperm → (s.conflict = true → s'.conflict = true) →
    e ≤ (condCount na k cd nodeOf l e s').1 ∧ ((condScan na k cd nodeOf l s).hit = true → e < (condCount na k cd nodeOf l e s').1) ∧
    ((condScan na k cd nodeOf l s).hit = false → (condCount na k cd nodeOf l e s').2.xperm = (condScan na k cd nodeOf l s).xperm ∧
      ((condScan na k cd nodeOf l s).conflict = true → (condCount na k cd nodeOf l e s').2.conflict = true)) := by
  have mono : ∀ (l : List Cond.Node), (∀ c ∈ l, NoClash na nodeOf c) → ∀ e s', e ≤ (condCount na k cd nodeOf l e s').1 := by
    intro l hl
    induction l with
    | nil => intro e s'; exact Nat.le_refl _
    | cons c l ih =>
      intro e s'
      have hc := hl c (List.mem_cons_self ..)
      have a := (branchCount_spec na k (c.trueList.map nodeOf) (fun n hn => hc n (List.mem_append_left _ hn)) ⟨e, false, false⟩ false (by simp)).1
      have b := (branchCount_spec na k (c.falseList.map nodeOf) (fun n hn => hc n (List.mem_append_right _ hn))
        ⟨(branchCount na k (c.trueList.map nodeOf) ⟨e, false, false⟩).errors, false, false⟩ false (by simp)).1
      unfold condCount
      simp only at a b ⊢
      refine Nat.le_trans (Nat.le_trans a b) ?_
      exact ih (fun x hx => hl x (List.mem_cons_of_mem _ hx)) _ _
  induction l with
  | nil => intro e s s' hs h1 h2; simpa [condCount, condScan, hs, h1] using h2
  | cons c l ih =>
    intro e s s' hs h1 h2
    have hc := hl c (List.mem_cons_self ..)
    have hl' := fun x hx => hl x (List.mem_cons_of_mem c hx)
    obtain ⟨a1, a2, a3⟩ := branchCount_spec na k (c.trueList.map nodeOf) (fun n hn => hc n (List.mem_append_left _ hn)) ⟨e, false, false⟩ false (by simp)
    obtain ⟨b1, b2, b3⟩ := branchCount_spec na k (c.falseList.map nodeOf) (fun n hn => hc n (List.mem_append_right _ hn))
        ⟨(branchCount na k (c.trueList.map nodeOf) ⟨e, false, false⟩).errors, false, false⟩ false (by simp)
    unfold condCount condScan
    simp only at a1 a2 a3 b1 b2 b3 ⊢
    generalize branchCount na k (c.trueList.map nodeOf) ⟨e, false, false⟩ = T at *
    generalize branchCount na k (c.falseList.map nodeOf) ⟨T.errors, false, false⟩ = F at *
    have m := mono l hl'
    by_cases ht : (branchScan na k (List.map nodeOf c.trueList) false false).hit = true
    · rw [if_pos ht]
      have := a2 ht
      have := m F.errors (combine cd T.base T.xperm F.base F.xperm s')
      exact ⟨by omega, fun _ => by omega, fun h => by simp at h⟩
    · rw [if_neg ht]
      have ht' := eq_false_of_ne_true ht
      by_cases hf : (branchScan na k (List.map nodeOf c.falseList) false false).hit = true
      · rw [if_pos hf]
        have := b2 hf
        have := m F.errors (combine cd T.base T.xperm F.base F.xperm s')
        exact ⟨by omega, fun _ => by omega, fun h => by simp at h⟩
      · rw [if_neg hf]
        have hf' := eq_false_of_ne_true hf
        obtain ⟨a4, a5⟩ := a3 ht'
        obtain ⟨b4, b5⟩ := b3 hf'
        rw [a4, b4]
        obtain ⟨c1, c2⟩ := combine_mono (c := cd) (tx := (branchScan na k (List.map nodeOf c.trueList) false false).xperm)
          (fx := (branchScan na k (List.map nodeOf c.falseList) false false).xperm) a5 b5 h1 h2
        have hit0 : (combine cd (branchScan na k (List.map nodeOf c.trueList) false false).base (branchScan na k (List.map nodeOf c.trueList) false false).xperm
          (branchScan na k (List.map nodeOf c.falseList) false false).base (branchScan na k (List.map nodeOf c.falseList) false false).xperm s).hit = false := by
          rw [(combine_spec _ _ _ _ _ _).1, hs]
        obtain ⟨i1, i2, i3⟩ := ih hl' F.errors _ _ hit0 c1 c2
        exact ⟨by omega, fun h => by have := i2 h; omega, i3⟩

theorem pairCount_spec (p : OPolicy) (na : Avrule) (k : Key) (cd : Bool) (hp : ∀ c ∈ p.conds, NoClash na (nodeOf p) c) (l : List (Nat × Nat)) :
    ∀ e s s', s.hit = false → s'.xperm = s.xperm → (s.conflict = true → s'.conflict = true) →
    e ≤ (pairCount p na k cd l e s').1 ∧ ((pairScan p na k cd l s).hit = true → e < (pairCount p na k cd l e s').1) ∧
    ((pairScan p na k cd l s).hit = false → (pairCount p na k cd l e s').2.xperm = (pairScan p na k cd l s).xperm ∧
      ((pairScan p na k cd l s).conflict = true → (pairCount p na k cd l e s').2.conflict = true)) := by
  have mono : ∀ (l : List (Nat × Nat)) e s', e ≤ (pairCount p na k cd l e s').1 := by
    intro l
    induction l with
    | nil => intro e s'; exact Nat.le_refl _
    | cons a l ih =>
      intro e s'
      obtain ⟨i, j⟩ := a
      unfold pairCount
      simp only
      have a := (teCount_spec na (enumerate p.sp.te (tmpKey k i j)) e s'.xperm).1
      refine Nat.le_trans a (Nat.le_trans ?_ (ih _ _))
      exact (condCount_spec na (tmpKey k i j) cd (stamped p.enabled p.tab.node) p.conds hp _ ⟨false, (teCount na (enumerate p.sp.te (tmpKey k i j)) e s'.xperm).2, s'.conflict⟩
        { s' with xperm := (teCount na (enumerate p.sp.te (tmpKey k i j)) e s'.xperm).2 } rfl rfl (fun h => h)).1
  induction l with
  | nil => intro e s s' hs h1 h2; simpa [pairCount, pairScan, hs, h1] using h2
  | cons a l ih =>
    intro e s s' hs h1 h2
    obtain ⟨i, j⟩ := a
    obtain ⟨a1, a2, a3⟩ := teCount_spec na (enumerate p.sp.te (tmpKey k i j)) e s.xperm
    have cmono : ∀ e s', e ≤ (condCount na (tmpKey k i j) cd (stamped p.enabled p.tab.node) p.conds e s').1 := fun e s' =>
      (condCount_spec na (tmpKey k i j) cd (stamped p.enabled p.tab.node) p.conds hp e ⟨false, s'.xperm, s'.conflict⟩ s' rfl rfl (fun h => h)).1
    unfold pairCount pairScan
    simp only
    rw [h1]
    generalize teCount na (enumerate p.sp.te (tmpKey k i j)) e s.xperm = T at *
    generalize hr : condCount na (tmpKey k i j) cd (stamped p.enabled p.tab.node) p.conds T.1 { s' with xperm := T.2 } = r
    have hr1 : T.1 ≤ r.1 := by rw [← hr]; exact cmono _ _
    have hr2 := mono l r.1 r.2
    by_cases ht : (teScan na (enumerate p.sp.te (tmpKey k i j)) s.xperm).1 = true
    · rw [if_pos ht]
      have := a2 ht
      exact ⟨by omega, fun _ => by omega, fun h => by simp at h⟩
    · rw [if_neg ht]
      have ht' := eq_false_of_ne_true ht
      have a4 := a3 ht'
      rw [← a4]
      obtain ⟨c1, c2, c3⟩ := condCount_spec na (tmpKey k i j) cd (stamped p.enabled p.tab.node) p.conds hp T.1 { s with xperm := T.2 } { s' with xperm := T.2 } hs rfl h2
      rw [hr] at c1 c2 c3
      generalize condScan na (tmpKey k i j) cd (stamped p.enabled p.tab.node) p.conds { s with xperm := T.2 } = S at *
      by_cases hh : S.hit = true
      · rw [if_pos hh]
        have := c2 hh
        exact ⟨by omega, fun _ => by omega, fun h => by rw [hh] at h; cases h⟩
      · rw [if_neg hh]
        have hh' := eq_false_of_ne_true hh
        obtain ⟨c4, c5⟩ := c3 hh'
        obtain ⟨i1, i2, i3⟩ := ih r.1 S r.2 hh' c4 c5
        exact ⟨by omega, fun h => by have := i2 h; omega, i3⟩

end Verif.Assertion
