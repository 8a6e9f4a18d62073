import Verif.Bounds.Lemmas

/-! # Lemmas on the expansion of the parent's rules and the check of the child's -/

namespace Verif.Bounds
open Verif.Avtab Verif.Policy Verif.Optimize Verif.Assertion

/-- A rule between existing types. -/
def InRange (p : OPolicy) (n : Avtab.Node) : Prop :=
  (1 ≤ n.key.source ∧ n.key.source ≤ p.sp.pol.nTypes) ∧ (1 ≤ n.key.target ∧ n.key.target ≤ p.sp.pol.nTypes)

/-- What a rule adds to a table of the parent. -/
def Adds (p : OPolicy) (parent : Nat) (n : Avtab.Node) (q : Key) (b : Nat) : Prop :=
  Ebitmap.getBit (p.attrType (n.key.source - 1)) (parent - 1) = true ∧
  (∃ i, Ebitmap.getBit (p.attrType (n.key.target - 1)) i = true ∧
    q = ⟨parent % 2 ^ 16, (i + 1) % 2 ^ 16, n.key.cls, ALLOWED⟩) ∧ n.datum.data.getLsbD b = true

theorem expandRule_spec {p : OPolicy} (hwf : ∀ i, Ebitmap.WF (p.attrType i)) (other : Option Avtab) (parent : Nat)
    {n : Avtab.Node} (hn : InRange p n) {a g : Avtab} (ha : Tab a) (hg : Tab g) :
    ∃ a' g', expandRule p other parent n (a, g) = some (a', g') ∧ Tab a' ∧ Tab g' ∧
      (∀ q, q.specified = ALLOWED → ∀ b, Has a' q b ↔ Has a q b ∨ Adds p parent n q b) ∧
      (∀ q, q.specified = ALLOWED → ∀ b, Has g' q b ↔ Has g q b ∨
        (Adds p parent n q b ∧ ∃ o, other = some o ∧ Has o q b)) := by
  unfold expandRule
  rw [attrTypeAt_eq hn.1, attrTypeAt_eq hn.2]
  simp only [Option.bind_some]
  by_cases hb : Ebitmap.getBit (p.attrType (n.key.source - 1)) (parent - 1) = true
  · rw [if_pos hb]
    obtain ⟨l, hl, hmem⟩ := bits_spec (hwf (n.key.target - 1))
    rw [hl]
    simp only [Option.bind_some]
    obtain ⟨a', g', h1, h2, h3, h4, h5⟩ := insertTargets_spec other parent n.key.cls n.datum.data l ha hg
    refine ⟨a', g', h1, h2, h3, ?_, ?_⟩
    · intro q hq b
      rw [h4 q hq b]
      simp only [hmem, Adds, hb, true_and]
    · intro q hq b
      rw [h5 q hq b]
      simp only [hmem, Adds, hb, true_and, and_assoc]
  · rw [if_neg hb]
    refine ⟨a, g, rfl, ha, hg, ?_, ?_⟩
    · intro q hq b; simp [Adds, hb]
    · intro q hq b; simp [Adds, hb]

theorem expandCond_spec {p : OPolicy} (hwf : ∀ i, Ebitmap.WF (p.attrType i)) (other : Option Avtab) (parent : Nat)
    (l : List Avtab.Node) (hl : ∀ n ∈ l, InRange p n) : ∀ {a g : Avtab}, Tab a → Tab g →
    ∃ a' g', expandCond p other parent l (a, g) = some (a', g') ∧ Tab a' ∧ Tab g' ∧
      (∀ q, q.specified = ALLOWED → ∀ b, Has a' q b ↔ Has a q b ∨ ∃ n ∈ l, Adds p parent n q b) ∧
      (∀ q, q.specified = ALLOWED → ∀ b, Has g' q b ↔ Has g q b ∨
        ((∃ n ∈ l, Adds p parent n q b) ∧ ∃ o, other = some o ∧ Has o q b)) := by
  induction l with
  | nil => intro a g ha hg; exact ⟨a, g, rfl, ha, hg, by simp, by simp⟩
  | cons n l ih =>
    intro a g ha hg
    obtain ⟨a1, g1, h1, h2, h3, h4, h5⟩ := expandRule_spec hwf other parent (hl n List.mem_cons_self) ha hg
    obtain ⟨a2, g2, k1, k2, k3, k4, k5⟩ := ih (fun n hn => hl n (List.mem_cons_of_mem _ hn)) h2 h3
    refine ⟨a2, g2, by rw [expandCond, h1]; exact k1, k2, k3, ?_, ?_⟩
    · intro q hq b
      rw [k4 q hq b, h4 q hq b]
      simp only [List.mem_cons, exists_eq_or_imp, or_assoc]
    · intro q hq b
      rw [k5 q hq b, h5 q hq b]
      simp only [List.mem_cons, exists_eq_or_imp]
      generalize (∃ o, other = some o ∧ Has o q b) = A
      generalize (∃ n, n ∈ l ∧ Adds p parent n q b) = B
      tauto

theorem expandTe_spec {p : OPolicy} (hwf : ∀ i, Ebitmap.WF (p.attrType i)) (parent : Nat)
    (l : List Avtab.Node) (hl : ∀ n ∈ l, InRange p n) : ∀ {g : Avtab}, Tab g →
    ∃ g', expandTe p parent l g = some g' ∧ Tab g' ∧
      (∀ q, q.specified = ALLOWED → ∀ b, Has g' q b ↔ Has g q b ∨
        ∃ n ∈ l, n.key.specified &&& ALLOWED ≠ 0#16 ∧ Adds p parent n q b) := by
  induction l with
  | nil => intro g hg; exact ⟨g, rfl, hg, by simp⟩
  | cons n l ih =>
    intro g hg
    have hl' := fun n hn => hl n (List.mem_cons_of_mem _ hn)
    rw [expandTe]
    by_cases hz : n.key.specified &&& ALLOWED = 0#16
    · rw [if_pos hz]
      obtain ⟨g', h1, h2, h3⟩ := ih hl' hg
      refine ⟨g', h1, h2, ?_⟩
      intro q hq b
      rw [h3 q hq b]
      simp [hz]
    · rw [if_neg hz]
      obtain ⟨a1, g1, h1, h2, h3, h4, h5⟩ := expandRule_spec hwf none parent (hl n List.mem_cons_self) hg hg
      obtain ⟨g', k1, k2, k3⟩ := ih hl' h2
      refine ⟨g', by rw [h1]; exact k1, k2, ?_⟩
      intro q hq b
      rw [k3 q hq b, h4 q hq b]
      simp only [List.mem_cons, exists_eq_or_imp, or_assoc, hz, ne_eq, not_false_eq_true, true_and]

/-- The rules of a branch. -/
def branch (p : OPolicy) (l : List Nat) : List Avtab.Node := l.map (stamped p.enabled p.tab.node)

/-- A branch adds a permission to its table. -/
def BranchAdds (p : OPolicy) (parent : Nat) (l : List Nat) (q : Key) (b : Nat) : Prop :=
  ∃ n ∈ branch p l, Adds p parent n q b

/-- The tables of a conditional. -/
structure InfoOk (p : OPolicy) (parent : Nat) (ci : CondInfo) : Prop where
  t : ∀ q, q.specified = ALLOWED → ∀ b, Has ci.trueTab q b ↔ BranchAdds p parent ci.cond.trueList q b
  f : ∀ q, q.specified = ALLOWED → ∀ b, Has ci.falseTab q b ↔ BranchAdds p parent ci.cond.falseList q b

theorem expandConds_spec {p : OPolicy} (hwf : ∀ i, Ebitmap.WF (p.attrType i)) (parent : Nat) (conds : List Cond.Node)
    (hc : ∀ c ∈ conds, ∀ n ∈ branch p (c.trueList ++ c.falseList), InRange p n) :
    ∀ {g : Avtab} {infos : List CondInfo}, Tab g → (∀ ci ∈ infos, InfoOk p parent ci) →
    ∃ g' infos', expandConds p parent conds (g, infos) = some (g', infos') ∧ Tab g' ∧
      (∀ ci ∈ infos', InfoOk p parent ci) ∧
      (∀ c, (∃ ci ∈ infos', ci.cond = c) ↔ (∃ ci ∈ infos, ci.cond = c) ∨ c ∈ conds) ∧
      (∀ q, q.specified = ALLOWED → ∀ b, Has g' q b ↔ Has g q b ∨
        ∃ c ∈ conds, BranchAdds p parent c.trueList q b ∧ BranchAdds p parent c.falseList q b) := by
  induction conds with
  | nil => intro g infos hg hi; exact ⟨g, infos, rfl, hg, hi, by simp, by simp⟩
  | cons c l ih =>
    intro g infos hg hi
    have hc' := fun c h => hc c (List.mem_cons_of_mem _ h)
    have hcb := hc c List.mem_cons_self
    rw [expandConds]
    simp only
    have htrue : ∃ tt, (if c.trueList = [] then some init
        else (expandCond p none parent (branch p c.trueList) (alloc init SIZE, g)).map Prod.fst) = some tt ∧
        (∀ q, q.specified = ALLOWED → ∀ b, Has tt q b ↔ BranchAdds p parent c.trueList q b) := by
      by_cases he : c.trueList = []
      · rw [if_pos he]
        refine ⟨_, rfl, fun q _ b => ?_⟩
        simp [BranchAdds, branch, he, not_has_init]
      · rw [if_neg he]
        obtain ⟨a', g', h1, _, _, h4, _⟩ := expandCond_spec hwf none parent (branch p c.trueList)
          (fun n hn => hcb n (by unfold branch at *; rw [List.map_append]; exact List.mem_append_left _ hn)) tab_alloc hg
        refine ⟨a', by rw [h1]; rfl, fun q hq b => ?_⟩
        rw [h4 q hq b]
        simp only [not_has_alloc, false_or]
        rfl
    obtain ⟨tt, htt, hth⟩ := htrue
    have hfalse : ∃ ft g1, (if c.falseList = [] then some (init, g)
        else expandCond p (some tt) parent (branch p c.falseList) (alloc init SIZE, g)) = some (ft, g1) ∧ Tab g1 ∧
        (∀ q, q.specified = ALLOWED → ∀ b, Has ft q b ↔ BranchAdds p parent c.falseList q b) ∧
        (∀ q, q.specified = ALLOWED → ∀ b, Has g1 q b ↔ Has g q b ∨
          (BranchAdds p parent c.trueList q b ∧ BranchAdds p parent c.falseList q b)) := by
      by_cases he : c.falseList = []
      · rw [if_pos he]
        refine ⟨_, _, rfl, hg, fun q _ b => ?_, fun q _ b => ?_⟩
        · simp [BranchAdds, branch, he, not_has_init]
        · simp [BranchAdds, branch, he]
      · rw [if_neg he]
        obtain ⟨a', g', h1, _, h3, h4, h5⟩ := expandCond_spec hwf (some tt) parent (branch p c.falseList)
          (fun n hn => hcb n (by unfold branch at *; rw [List.map_append]; exact List.mem_append_right _ hn)) tab_alloc hg
        refine ⟨a', g', h1, h3, fun q hq b => ?_, fun q hq b => ?_⟩
        · rw [h4 q hq b]
          simp only [not_has_alloc, false_or]
          rfl
        · rw [h5 q hq b]
          constructor
          · rintro (h | ⟨h, o, ho, hh⟩)
            · exact Or.inl h
            · simp only [Option.some.injEq] at ho; subst ho
              exact Or.inr ⟨(hth q hq b).1 hh, h⟩
          · rintro (h | ⟨h, h'⟩)
            · exact Or.inl h
            · exact Or.inr ⟨h', tt, rfl, (hth q hq b).2 h⟩
    obtain ⟨ft, g1, hft, hg1, hfh, hgh⟩ := hfalse
    obtain ⟨g', infos', k1, k2, k3, k4, k5⟩ := ih hc' (g := g1) (infos := ⟨tt, ft, c⟩ :: infos) hg1 (by
      intro ci hci
      rcases List.mem_cons.1 hci with rfl | hci
      · exact ⟨hth, hfh⟩
      · exact hi ci hci)
    refine ⟨g', infos', ?_, k2, k3, ?_, ?_⟩
    · unfold branch at htt hft
      rw [htt]
      simp only [Option.bind_some]
      rw [hft]
      simp only [Option.bind_some]
      exact k1
    · intro c'
      rw [k4 c']
      simp only [List.mem_cons, exists_eq_or_imp]
      constructor
      · rintro ((h | h) | h)
        · exact Or.inr (Or.inl h.symm)
        · exact Or.inl h
        · exact Or.inr (Or.inr h)
      · rintro (h | h | h)
        · exact Or.inl (Or.inr h)
        · exact Or.inl (Or.inl h.symm)
        · exact Or.inr h
    · intro q hq b
      rw [k5 q hq b, hgh q hq b]
      simp only [List.mem_cons, exists_eq_or_imp, or_assoc]

theorem expandParent_spec {p : OPolicy} (hwf : ∀ i, Ebitmap.WF (p.attrType i)) (parent : Nat)
    (hte : ∀ n ∈ nodes p.sp.te, InRange p n)
    (hc : ∀ c ∈ p.conds, ∀ n ∈ branch p (c.trueList ++ c.falseList), InRange p n) :
    ∃ (g : Avtab) (infos : List CondInfo), expandParent p parent = some (g, infos) ∧
      (∀ ci ∈ infos, InfoOk p parent ci) ∧ (∀ c, (∃ ci ∈ infos, ci.cond = c) ↔ c ∈ p.conds) ∧
      (∀ q, q.specified = ALLOWED → ∀ b, Has g q b ↔
        (∃ n ∈ nodes p.sp.te, n.key.specified &&& ALLOWED ≠ 0#16 ∧ Adds p parent n q b) ∨
        ∃ c ∈ p.conds, BranchAdds p parent c.trueList q b ∧ BranchAdds p parent c.falseList q b) := by
  obtain ⟨g, h1, h2, h3⟩ := expandTe_spec hwf parent (nodes p.sp.te) hte tab_alloc
  obtain ⟨g', infos, k1, k2, k3, k4, k5⟩ := expandConds_spec hwf parent p.conds hc h2 (infos := []) (by simp)
  refine ⟨g', infos, by unfold expandParent; rw [h1]; exact k1, k3, ?_, ?_⟩
  · intro c; rw [k4 c]; simp
  · intro q hq b
    rw [k5 q hq b, h3 q hq b]
    simp only [not_has_alloc, false_or]

/-! ## The check -/

/-- Remove the permissions of a table. -/
def mask (h : Avtab) (k : Key) (x : BitVec 32) : BitVec 32 :=
  match search h k with
  | some d => x &&& ~~~ d.data
  | none => x

theorem mask_bit (h : Avtab) (k : Key) (x : BitVec 32) (b : Nat) :
    (mask h k x).getLsbD b = true ↔ x.getLsbD b = true ∧ ¬ Has h k b := by
  unfold mask
  cases hs : search h k with
  | none => simp [Has, hs]
  | some d =>
    simp only [Has, hs, Option.some.injEq, exists_eq_left', BitVec.getLsbD_and, BitVec.getLsbD_not, Bool.and_eq_true, decide_eq_true_eq,
      Bool.not_eq_true']
    constructor
    · rintro ⟨h1, _, h3⟩; exact ⟨h1, by simp [h3]⟩
    · rintro ⟨h1, h2⟩
      exact ⟨h1, BitVec.lt_of_getLsbD h1, by simpa using h2⟩

theorem notCovered_bit (global : Option Avtab) (cur : Avtab) (k : Key) (data : BitVec 32) (b : Nat) :
    (notCovered global cur k data).getLsbD b = true ↔
      data.getLsbD b = true ∧ ¬ Has cur k b ∧ ∀ g, global = some g → ¬ Has g k b := by
  cases global with
  | none =>
    simp only [reduceCtorEq, false_imp_iff, implies_true, and_true]
    exact mask_bit cur k data b
  | some g =>
    simp only [Option.some.injEq, forall_eq']
    change (if mask cur k data = 0#32 then mask cur k data else mask g k (mask cur k data)).getLsbD b = true ↔ _
    have hx := mask_bit cur k data b
    by_cases hz : mask cur k data = 0#32
    · rw [if_pos hz]
      constructor
      · intro h; rw [hz] at h; simp at h
      · rintro ⟨h1, h2, _⟩
        have := hx.2 ⟨h1, h2⟩
        rw [hz] at this; simp at this
    · rw [if_neg hz, mask_bit g, hx, and_assoc]

/-- A rule reported for a rule of the child. -/
def Reports (p : OPolicy) (global : Option Avtab) (cur : Avtab) (child parent : Nat) (n : Avtab.Node) (x : Bad) : Prop :=
  Ebitmap.getBit (p.attrType (n.key.source - 1)) (child - 1) = true ∧
  ∃ i, Ebitmap.getBit (p.attrType (n.key.target - 1)) i = true ∧
    x = ⟨child, i + 1, n.key.cls,
      notCovered global cur ⟨parent % 2 ^ 16, parentTarget p i % 2 ^ 16, n.key.cls, ALLOWED⟩ n.datum.data⟩ ∧ x.data ≠ 0#32

theorem mem_checkTargets (p : OPolicy) (global : Option Avtab) (cur : Avtab) (child parent cls : Nat) (data : BitVec 32)
    (l : List Nat) (bad : List Bad) (x : Bad) :
    x ∈ checkTargets p global cur child parent cls data l bad ↔ x ∈ bad ∨ ∃ i ∈ l,
      x = ⟨child, i + 1, cls, notCovered global cur ⟨parent % 2 ^ 16, parentTarget p i % 2 ^ 16, cls, ALLOWED⟩ data⟩ ∧
      x.data ≠ 0#32 := by
  induction l generalizing bad with
  | nil => simp [checkTargets]
  | cons i l ih =>
    rw [checkTargets, ih]
    simp only [List.mem_cons, exists_eq_or_imp]
    split
    · rename_i hz
      simp only [List.mem_cons]
      constructor
      · rintro ((rfl | h) | h)
        · exact Or.inr (Or.inl ⟨rfl, hz⟩)
        · exact Or.inl h
        · exact Or.inr (Or.inr h)
      · rintro (h | ⟨h, _⟩ | h)
        · exact Or.inl (Or.inr h)
        · exact Or.inl (Or.inl h)
        · exact Or.inr h
    · rename_i hz
      constructor
      · rintro (h | h)
        · exact Or.inl h
        · exact Or.inr (Or.inr h)
      · rintro (h | ⟨h, h'⟩ | h)
        · exact Or.inl h
        · rw [h] at h'; exact absurd h' hz
        · exact Or.inr h

theorem checkRules_spec {p : OPolicy} (hwf : ∀ i, Ebitmap.WF (p.attrType i)) (global : Option Avtab) (cur : Avtab)
    (child parent : Nat) (l : List Avtab.Node) (hl : ∀ n ∈ l, InRange p n) (bad : List Bad) :
    ∃ bad', checkRules p global cur child parent l bad = some bad' ∧
      ∀ x, x ∈ bad' ↔ x ∈ bad ∨ ∃ n ∈ l, n.key.specified &&& ALLOWED ≠ 0#16 ∧ Reports p global cur child parent n x := by
  induction l generalizing bad with
  | nil => exact ⟨bad, rfl, by simp⟩
  | cons n l ih =>
    have hl' := fun n hn => hl n (List.mem_cons_of_mem _ hn)
    rw [checkRules]
    by_cases hz : n.key.specified &&& ALLOWED = 0#16
    · rw [if_pos hz]
      obtain ⟨bad', h1, h2⟩ := ih hl' bad
      refine ⟨bad', h1, fun x => ?_⟩
      rw [h2 x]; simp [hz]
    · rw [if_neg hz]
      have hn := hl n List.mem_cons_self
      have : ∃ b1, checkRule p global cur child parent n bad = some b1 ∧
          ∀ x, x ∈ b1 ↔ x ∈ bad ∨ Reports p global cur child parent n x := by
        unfold checkRule
        rw [attrTypeAt_eq hn.1, attrTypeAt_eq hn.2]
        simp only [Option.bind_some]
        by_cases hb : Ebitmap.getBit (p.attrType (n.key.source - 1)) (child - 1) = true
        · rw [if_pos hb]
          obtain ⟨ts, hts, hmem⟩ := bits_spec (hwf (n.key.target - 1))
          rw [hts]
          refine ⟨_, rfl, fun x => ?_⟩
          rw [mem_checkTargets]
          simp only [hmem, Reports, hb, true_and]
        · rw [if_neg hb]
          exact ⟨bad, rfl, fun x => by simp [Reports, hb]⟩
      obtain ⟨b1, h1, h2⟩ := this
      obtain ⟨b2, k1, k2⟩ := ih hl' b1
      refine ⟨b2, by rw [h1]; exact k1, fun x => ?_⟩
      rw [k2 x, h2 x]
      simp only [List.mem_cons, exists_eq_or_imp, or_assoc, hz, ne_eq, not_false_eq_true, true_and]

theorem checkConds_spec {p : OPolicy} (hwf : ∀ i, Ebitmap.WF (p.attrType i)) (global : Avtab) (child parent : Nat)
    (infos : List CondInfo)
    (hc : ∀ ci ∈ infos, ∀ n ∈ branch p (ci.cond.trueList ++ ci.cond.falseList), InRange p n) (bad : List Bad) :
    ∃ bad', checkConds p global child parent infos bad = some bad' ∧
      ∀ x, x ∈ bad' ↔ x ∈ bad ∨ ∃ ci ∈ infos,
        (∃ n ∈ branch p ci.cond.trueList, n.key.specified &&& ALLOWED ≠ 0#16 ∧
          Reports p (some global) ci.trueTab child parent n x) ∨
        (∃ n ∈ branch p ci.cond.falseList, n.key.specified &&& ALLOWED ≠ 0#16 ∧
          Reports p (some global) ci.falseTab child parent n x) := by
  induction infos generalizing bad with
  | nil => exact ⟨bad, rfl, by simp⟩
  | cons ci l ih =>
    have hcb := hc ci List.mem_cons_self
    unfold branch at hcb
    rw [List.map_append] at hcb
    obtain ⟨b1, h1, h2⟩ := checkRules_spec hwf (some global) ci.trueTab child parent (branch p ci.cond.trueList)
      (fun n hn => hcb n (List.mem_append_left _ hn)) bad
    obtain ⟨b2, k1, k2⟩ := checkRules_spec hwf (some global) ci.falseTab child parent (branch p ci.cond.falseList)
      (fun n hn => hcb n (List.mem_append_right _ hn)) b1
    obtain ⟨b3, m1, m2⟩ := ih (fun ci h => hc ci (List.mem_cons_of_mem _ h)) b2
    refine ⟨b3, ?_, fun x => ?_⟩
    · rw [checkConds]
      unfold branch at h1 k1
      rw [h1]
      simp only [Option.bind_some]
      rw [k1]
      exact m1
    · rw [m2 x, k2 x, h2 x]
      simp only [List.mem_cons, exists_eq_or_imp, or_assoc]

theorem checkType_spec {p : OPolicy} (hwf : ∀ i, Ebitmap.WF (p.attrType i)) (child parent : Nat)
    (hte : ∀ n ∈ nodes p.sp.te, InRange p n)
    (hc : ∀ c ∈ p.conds, ∀ n ∈ branch p (c.trueList ++ c.falseList), InRange p n) :
    ∃ (g : Avtab) (infos : List CondInfo) (bad : List Bad), checkType p child parent = some bad ∧
      (∀ ci ∈ infos, InfoOk p parent ci) ∧ (∀ c, (∃ ci ∈ infos, ci.cond = c) ↔ c ∈ p.conds) ∧
      (∀ q, q.specified = ALLOWED → ∀ b, Has g q b ↔
        (∃ n ∈ nodes p.sp.te, n.key.specified &&& ALLOWED ≠ 0#16 ∧ Adds p parent n q b) ∨
        ∃ c ∈ p.conds, BranchAdds p parent c.trueList q b ∧ BranchAdds p parent c.falseList q b) ∧
      ∀ x, x ∈ bad ↔ (∃ n ∈ nodes p.sp.te, n.key.specified &&& ALLOWED ≠ 0#16 ∧ Reports p none g child parent n x) ∨
        ∃ ci ∈ infos,
        (∃ n ∈ branch p ci.cond.trueList, n.key.specified &&& ALLOWED ≠ 0#16 ∧
          Reports p (some g) ci.trueTab child parent n x) ∨
        (∃ n ∈ branch p ci.cond.falseList, n.key.specified &&& ALLOWED ≠ 0#16 ∧
          Reports p (some g) ci.falseTab child parent n x) := by
  obtain ⟨g, infos, h1, h2, h3, h4⟩ := expandParent_spec hwf parent hte hc
  obtain ⟨b1, k1, k2⟩ := checkRules_spec hwf none g child parent (nodes p.sp.te) hte []
  obtain ⟨b2, m1, m2⟩ := checkConds_spec hwf g child parent infos
    (fun (ci : CondInfo) hci => hc ci.cond ((h3 _).1 ⟨ci, hci, rfl⟩)) b1
  refine ⟨g, infos, b2, ?_, h2, h3, h4, ?_⟩
  · unfold checkType
    rw [h1]
    simp only [Option.bind_some]
    rw [k1]
    exact m1
  · intro x
    rw [m2 x, k2 x]
    simp only [List.not_mem_nil, false_or]

end Verif.Bounds
