import Verif.Bounds.Lemmas2
import Verif.Bounds.Spec
import Verif.Assertion.Lemmas2

/-! # What the check of a type decides -/

namespace Verif.Bounds
open Verif.Avtab Verif.Policy Verif.Optimize Verif.Assertion

theorem inRange_of {p : OPolicy} {n : Avtab.Node} (h : RuleOk p.sp n) : InRange p n :=
  ⟨⟨h.source.1, h.source.2.1⟩, ⟨h.target.1, h.target.2.1⟩⟩

theorem listed_mem {conds : List Cond.Node} {c : Cond.Node} (hc : c ∈ conds) {id : Nat} (h : id ∈ c.trueList ∨ id ∈ c.falseList) :
    id ∈ listed conds := by
  unfold listed
  rw [List.mem_flatMap]
  exact ⟨c, hc, List.mem_append.2 h⟩

theorem mem_branch {p : OPolicy} {l : List Nat} {n : Avtab.Node} :
    n ∈ branch p l ↔ ∃ id ∈ l, n = stampedNode (p.enabled id) (p.tab.node id) := by
  unfold branch
  simp only [List.mem_map, stamped_eq, eq_comm]

theorem cond_inRange {p : OPolicy} {σ0 : Cond.State} (ok : AssertOk p σ0) :
    ∀ c ∈ p.conds, ∀ n ∈ branch p (c.trueList ++ c.falseList), InRange p n := by
  intro c hc n hn
  obtain ⟨id, hid, rfl⟩ := mem_branch.1 hn
  have := ok.condRules id ((ok.all id).1 (listed_mem hc (List.mem_append.1 hid)))
  exact inRange_of (n := p.tab.node id) this

theorem says_iff {p : OPolicy} {σ0 : Cond.State} (ok : AssertOk p σ0) {n : Avtab.Node} (hn : RuleOk p.sp n) {s t : Nat}
    (hs : PlainType p s) (ht : PlainType p t) (cls b : Nat) :
    Says p.sp s t cls (.allow b) n ↔ Ebitmap.getBit (p.attrType (n.key.source - 1)) (s - 1) = true ∧
      Ebitmap.getBit (p.attrType (n.key.target - 1)) (t - 1) = true ∧ n.key.cls = cls ∧ n.key.specified = ALLOWED ∧
      n.datum.data.getLsbD b = true := by
  unfold Says Grants
  rw [covers_iff ok hs hn.source, covers_iff ok ht hn.target]
  constructor
  · rintro ⟨h1, h2, h3, h4, _, h5⟩; exact ⟨h1, h2, h3, h4, h5⟩
  · rintro ⟨h1, h2, h3, h4, h5⟩; exact ⟨h1, h2, h3, h4, BitVec.lt_of_getLsbD h5, h5⟩

theorem adds_iff {p : OPolicy} {σ0 : Cond.State} (ok : AssertOk p σ0) {n : Avtab.Node} (hn : InRange p n) {s u : Nat}
    (hs : 1 ≤ s) (hu : 1 ≤ u) (hu' : u ≤ p.sp.pol.nTypes) (cls b : Nat) :
    Adds p s n ⟨s % 2 ^ 16, u % 2 ^ 16, cls, ALLOWED⟩ b ↔ PlainType p s ∧ PlainType p u ∧
      Ebitmap.getBit (p.attrType (n.key.source - 1)) (s - 1) = true ∧
      Ebitmap.getBit (p.attrType (n.key.target - 1)) (u - 1) = true ∧ n.key.cls = cls ∧ n.datum.data.getLsbD b = true := by
  have hsm := ok.small
  constructor
  · rintro ⟨h1, ⟨i, h2, h3⟩, h4⟩
    have p1 := ok.members _ _ (by have := hn.1; omega) h1
    have p2 := ok.members _ _ (by have := hn.2; omega) h2
    simp only [Key.mk.injEq, true_and, and_true] at h3
    obtain ⟨h3, h5⟩ := h3
    have hi : i + 1 ≤ p.sp.pol.nTypes := p2.2.1
    rw [Nat.mod_eq_of_lt (by omega), Nat.mod_eq_of_lt (by omega)] at h3
    subst h3
    exact ⟨by rwa [Nat.sub_add_cancel hs] at p1, p2, h1, h2, h5.symm, h4⟩
  · rintro ⟨_, _, h1, h2, h3, h4⟩
    refine ⟨h1, ⟨u - 1, h2, ?_⟩, h4⟩
    rw [Nat.sub_add_cancel hu, h3]

theorem lowered_range {p : OPolicy} (hb : BoundsOk p) {t : Nat} (ht : PlainType p t) :
    1 ≤ lowered p t ∧ lowered p t ≤ p.sp.pol.nTypes := by
  unfold lowered
  split
  · exact ⟨ht.1, ht.2.1⟩
  · rename_i h
    refine ⟨by omega, ?_⟩
    unfold Services.boundOf at h ⊢
    cases hd : p.sp.typeStruct (t - 1) with
    | none => rw [hd] at h; simp at h
    | some d => exact hb _ _ hd

theorem parentTarget_eq {p : OPolicy} {t : Nat} (ht : 1 ≤ t) : parentTarget p (t - 1) = lowered p t := by
  unfold parentTarget lowered Services.boundOf
  cases hd : p.sp.typeStruct (t - 1) with
  | none => simp; omega
  | some d =>
    simp only [Option.map_some, Option.getD_some]
    by_cases h : d.bounds = 0
    · simp [h]; omega
    · simp [h]

/-- The rules of a branch that are added, as rules. -/
theorem branchAdds_iff {p : OPolicy} {σ0 : Cond.State} (ok : AssertOk p σ0) {l : List Nat} (hl : ∀ id ∈ l, id ∈ p.tab.ids) {s u : Nat}
    (hs : 1 ≤ s) (hu : 1 ≤ u) (hu' : u ≤ p.sp.pol.nTypes) (cls b : Nat) :
    BranchAdds p s l ⟨s % 2 ^ 16, u % 2 ^ 16, cls, ALLOWED⟩ b ↔ PlainType p s ∧ PlainType p u ∧ BranchMentions p l s u cls b := by
  unfold BranchAdds BranchMentions
  constructor
  · rintro ⟨n, hn, h⟩
    obtain ⟨id, hid, rfl⟩ := mem_branch.1 hn
    have hr := ok.condRules id (hl id hid)
    obtain ⟨h1, h2, h3, h4, h5, h6⟩ := (adds_iff ok (inRange_of hr) hs hu hu' cls b).1 h
    exact ⟨h1, h2, id, hid, (covers_iff ok h1 hr.source).2 h3, (covers_iff ok h2 hr.target).2 h4, h5, h6⟩
  · rintro ⟨h1, h2, id, hid, h3, h4, h5, h6⟩
    have hr := ok.condRules id (hl id hid)
    refine ⟨_, mem_branch.2 ⟨id, hid, rfl⟩, ?_⟩
    exact (adds_iff ok (inRange_of hr) hs hu hu' cls b).2
      ⟨h1, h2, (covers_iff ok h1 hr.source).1 h3, (covers_iff ok h2 hr.target).1 h4, h5, h6⟩

theorem te_allowed {k : BitVec 16} (h : k ∈ avKinds ++ xKinds ++ typeKinds) : k &&& ALLOWED ≠ 0#16 ↔ k = ALLOWED := by
  have := (allowed_iff h false).1
  simp only [Bool.false_eq_true, if_false] at this
  rw [ne_eq, this, not_not]

/-- The global table. -/
theorem global_iff {p : OPolicy} {σ0 : Cond.State} (ok : AssertOk p σ0) {s u : Nat}
    (hs : 1 ≤ s) (hu : 1 ≤ u) (hu' : u ≤ p.sp.pol.nTypes) (cls b : Nat) :
    ((∃ n ∈ nodes p.sp.te, n.key.specified &&& ALLOWED ≠ 0#16 ∧ Adds p s n ⟨s % 2 ^ 16, u % 2 ^ 16, cls, ALLOWED⟩ b) ∨
      ∃ c ∈ p.conds, BranchAdds p s c.trueList ⟨s % 2 ^ 16, u % 2 ^ 16, cls, ALLOWED⟩ b ∧
        BranchAdds p s c.falseList ⟨s % 2 ^ 16, u % 2 ^ 16, cls, ALLOWED⟩ b) ↔
    PlainType p s ∧ PlainType p u ∧ Always p s u cls b := by
  have key : ∀ c ∈ p.conds, (BranchAdds p s c.trueList ⟨s % 2 ^ 16, u % 2 ^ 16, cls, ALLOWED⟩ b ∧
        BranchAdds p s c.falseList ⟨s % 2 ^ 16, u % 2 ^ 16, cls, ALLOWED⟩ b) ↔ PlainType p s ∧ PlainType p u ∧
        BranchMentions p c.trueList s u cls b ∧ BranchMentions p c.falseList s u cls b := by
    intro c hc
    rw [branchAdds_iff ok (fun id hid => (ok.all id).1 (listed_mem hc (Or.inl hid))) hs hu hu',
      branchAdds_iff ok (fun id hid => (ok.all id).1 (listed_mem hc (Or.inr hid))) hs hu hu']
    constructor
    · rintro ⟨⟨a, b, c⟩, -, -, d⟩; exact ⟨a, b, c, d⟩
    · rintro ⟨a, b, c, d⟩; exact ⟨⟨a, b, c⟩, a, b, d⟩
  constructor
  · rintro (⟨n, hn, hk, h⟩ | ⟨c, hc, h⟩)
    · have hr := ok.teRules n hn
      obtain ⟨h1, h2, h3, h4, h5, h6⟩ := (adds_iff ok (inRange_of hr) hs hu hu' cls b).1 h
      exact ⟨h1, h2, Or.inl ⟨n, hn, (says_iff ok hr h1 h2 cls b).2 ⟨h3, h4, h5, (te_allowed hr.kind).1 hk, h6⟩⟩⟩
    · obtain ⟨h1, h2, h3⟩ := (key c hc).1 h
      exact ⟨h1, h2, Or.inr ⟨c, hc, h3⟩⟩
  · rintro ⟨h1, h2, ⟨n, hn, h⟩ | ⟨c, hc, h⟩⟩
    · have hr := ok.teRules n hn
      obtain ⟨h3, h4, h5, h6, h7⟩ := (says_iff ok hr h1 h2 cls b).1 h
      exact Or.inl ⟨n, hn, (te_allowed hr.kind).2 h6, (adds_iff ok (inRange_of hr) hs hu hu' cls b).2 ⟨h1, h2, h3, h4, h5, h7⟩⟩
    · exact Or.inr ⟨c, hc, (key c hc).2 ⟨h1, h2, h⟩⟩

/-- A rule of the list allows the permission. -/
def ListAllows (p : OPolicy) (l : List Avtab.Node) (s t cls b : Nat) : Prop :=
  ∃ n ∈ l, n.key.specified &&& ALLOWED ≠ 0#16 ∧ Ebitmap.getBit (p.attrType (n.key.source - 1)) (s - 1) = true ∧
    Ebitmap.getBit (p.attrType (n.key.target - 1)) (t - 1) = true ∧ n.key.cls = cls ∧ n.datum.data.getLsbD b = true

theorem te_listAllows {p : OPolicy} {σ0 : Cond.State} (ok : AssertOk p σ0) {s t : Nat} (hs : PlainType p s) (ht : PlainType p t)
    (cls b : Nat) : ListAllows p (nodes p.sp.te) s t cls b ↔ TeAllows p s t cls b := by
  unfold ListAllows TeAllows
  constructor
  · rintro ⟨n, hn, h1, h2, h3, h4, h5⟩
    have hr := ok.teRules n hn
    exact ⟨n, hn, (says_iff ok hr hs ht cls b).2 ⟨h2, h3, h4, (te_allowed hr.kind).1 h1, h5⟩⟩
  · rintro ⟨n, hn, h⟩
    have hr := ok.teRules n hn
    obtain ⟨h3, h4, h5, h6, h7⟩ := (says_iff ok hr hs ht cls b).1 h
    exact ⟨n, hn, (te_allowed hr.kind).2 h6, h3, h4, h5, h7⟩

theorem branch_listAllows {p : OPolicy} {σ0 : Cond.State} (ok : AssertOk p σ0) {l : List Nat} (hl : ∀ id ∈ l, id ∈ p.tab.ids) {s t : Nat}
    (hs : PlainType p s) (ht : PlainType p t) (cls b : Nat) : ListAllows p (branch p l) s t cls b ↔ BranchAllows p l s t cls b := by
  unfold ListAllows BranchAllows
  constructor
  · rintro ⟨n, hn, h1, h2, h3, h4, h5⟩
    obtain ⟨id, hid, rfl⟩ := mem_branch.1 hn
    have hr := ok.condRules id (hl id hid)
    refine ⟨id, hid, (says_iff ok hr hs ht cls b).2 ⟨h2, h3, h4, ?_, h5⟩⟩
    have := (allowed_iff hr.kind (p.enabled id)).1
    by_contra hc
    exact h1 (this.2 hc)
  · rintro ⟨id, hid, h⟩
    have hr := ok.condRules id (hl id hid)
    obtain ⟨h3, h4, h5, h6, h7⟩ := (says_iff ok hr hs ht cls b).1 h
    refine ⟨_, mem_branch.2 ⟨id, hid, rfl⟩, ?_, h3, h4, h5, h7⟩
    intro hz
    exact ((allowed_iff hr.kind (p.enabled id)).1.1 hz) h6

/-- Nothing is reported for a list of rules iff everything they allow is covered. -/
theorem no_reports {p : OPolicy} {σ0 : Cond.State} (ok : AssertOk p σ0) (global : Option Avtab) (cur : Avtab) (child parent : Nat)
    (l : List Avtab.Node) (hl : ∀ n ∈ l, InRange p n) :
    (∀ x, ¬ ∃ n ∈ l, n.key.specified &&& ALLOWED ≠ 0#16 ∧ Reports p global cur child parent n x) ↔
    ∀ t cls b, PlainType p t → ListAllows p l child t cls b →
      Has cur ⟨parent % 2 ^ 16, lowered p t % 2 ^ 16, cls, ALLOWED⟩ b ∨
      ∃ g, global = some g ∧ Has g ⟨parent % 2 ^ 16, lowered p t % 2 ^ 16, cls, ALLOWED⟩ b := by
  constructor
  · intro h t cls b ht hall
    obtain ⟨n, hn, h1, h2, h3, h4, h5⟩ := hall
    by_contra hc
    push Not at hc
    apply h ⟨child, (t - 1) + 1, n.key.cls,
      notCovered global cur ⟨parent % 2 ^ 16, parentTarget p (t - 1) % 2 ^ 16, n.key.cls, ALLOWED⟩ n.datum.data⟩
    refine ⟨n, hn, h1, h2, t - 1, h3, rfl, ?_⟩
    intro hz
    have := (notCovered_bit global cur ⟨parent % 2 ^ 16, parentTarget p (t - 1) % 2 ^ 16, n.key.cls, ALLOWED⟩ n.datum.data b).2
      ⟨h5, by rw [parentTarget_eq ht.1, h4]; exact hc.1, by rw [parentTarget_eq ht.1, h4]; exact hc.2⟩
    change notCovered global cur _ _ = 0#32 at hz
    rw [hz] at this
    simp at this
  · rintro h x ⟨n, hn, h1, h2, i, h3, h4, h5⟩
    obtain ⟨b, hb⟩ : ∃ b, x.data.getLsbD b = true := by
      by_contra hc
      push Not at hc
      apply h5
      apply BitVec.eq_of_getLsbD_eq
      intro i _
      simpa using hc i
    rw [h4] at hb
    obtain ⟨k1, k2, k3⟩ := (notCovered_bit _ _ _ _ b).1 hb
    have hp := ok.members _ _ (by have := (hl n hn).2; omega) h3
    have e : parentTarget p i = lowered p (i + 1) := by
      have := parentTarget_eq (p := p) hp.1
      simpa using this
    rw [e] at k2 k3
    rcases h (i + 1) n.key.cls b hp ⟨n, hn, h1, h2, by simpa using h3, rfl, k1⟩ with k | ⟨g, hg, k⟩
    · exact k2 k
    · exact k3 g hg k

/-- The check of a type. -/
theorem checkType_iff {p : OPolicy} {σ0 : Cond.State} (ok : AssertOk p σ0) (hb : BoundsOk p) {child parent : Nat}
    (hc : PlainType p child) (hp : 1 ≤ parent) :
    ∃ bad, checkType p child parent = some bad ∧
      (bad = [] → Accepts p child parent) ∧
      (PlainType p parent → (∀ t, PlainType p t → PlainType p (lowered p t)) → Accepts p child parent → bad = []) := by
  have hte : ∀ n ∈ nodes p.sp.te, InRange p n := fun n hn => inRange_of (ok.teRules n hn)
  obtain ⟨g, infos, bad, h1, h2, h3, h4, h5⟩ := checkType_spec ok.attrTypeWF child parent hte (cond_inRange ok)
  refine ⟨bad, h1, ?_⟩
  have e1 : (bad = []) ↔ (∀ x, ¬ ∃ n ∈ nodes p.sp.te, n.key.specified &&& ALLOWED ≠ 0#16 ∧ Reports p none g child parent n x) ∧
      ∀ ci ∈ infos, (∀ x, ¬ ∃ n ∈ branch p ci.cond.trueList, n.key.specified &&& ALLOWED ≠ 0#16 ∧
          Reports p (some g) ci.trueTab child parent n x) ∧
        (∀ x, ¬ ∃ n ∈ branch p ci.cond.falseList, n.key.specified &&& ALLOWED ≠ 0#16 ∧
          Reports p (some g) ci.falseTab child parent n x) := by
    rw [List.eq_nil_iff_forall_not_mem]
    simp only [h5]
    constructor
    · intro h
      refine ⟨fun x hx => h x (Or.inl hx), fun ci hci => ⟨fun x hx => h x (Or.inr ⟨ci, hci, Or.inl hx⟩), fun x hx => h x (Or.inr ⟨ci, hci, Or.inr hx⟩)⟩⟩
    · rintro ⟨a, b⟩ x (hx | ⟨ci, hci, hx | hx⟩)
      · exact a x hx
      · exact (b ci hci).1 x hx
      · exact (b ci hci).2 x hx
  have hin : ∀ ci ∈ infos, ci.cond ∈ p.conds := fun ci hci => (h3 _).1 ⟨ci, hci, rfl⟩
  have hT : ∀ c ∈ p.conds, ∀ id ∈ c.trueList, id ∈ p.tab.ids := fun c hc id hid => (ok.all id).1 (listed_mem hc (Or.inl hid))
  have hF : ∀ c ∈ p.conds, ∀ id ∈ c.falseList, id ∈ p.tab.ids := fun c hc id hid => (ok.all id).1 (listed_mem hc (Or.inr hid))
  have hTi : ∀ c ∈ p.conds, ∀ n ∈ branch p c.trueList, InRange p n := by
    intro c hc n hn
    obtain ⟨id, hid, rfl⟩ := mem_branch.1 hn
    exact inRange_of (n := p.tab.node id) (ok.condRules id (hT c hc id hid))
  have hFi : ∀ c ∈ p.conds, ∀ n ∈ branch p c.falseList, InRange p n := by
    intro c hc n hn
    obtain ⟨id, hid, rfl⟩ := mem_branch.1 hn
    exact inRange_of (n := p.tab.node id) (ok.condRules id (hF c hc id hid))
  -- the tables
  have tg : ∀ t cls b, PlainType p t → (Has g ⟨parent % 2 ^ 16, lowered p t % 2 ^ 16, cls, ALLOWED⟩ b ↔
      PlainType p parent ∧ PlainType p (lowered p t) ∧ Always p parent (lowered p t) cls b) := by
    intro t cls b ht
    rw [h4 _ rfl b]
    exact global_iff ok hp (lowered_range hb ht).1 (lowered_range hb ht).2 cls b
  have tt : ∀ ci ∈ infos, ∀ t cls b, PlainType p t → (Has ci.trueTab ⟨parent % 2 ^ 16, lowered p t % 2 ^ 16, cls, ALLOWED⟩ b ↔
      PlainType p parent ∧ PlainType p (lowered p t) ∧ BranchMentions p ci.cond.trueList parent (lowered p t) cls b) := by
    intro ci hci t cls b ht
    rw [(h2 ci hci).t _ rfl b]
    exact branchAdds_iff ok (hT _ (hin ci hci)) hp (lowered_range hb ht).1 (lowered_range hb ht).2 cls b
  have tf : ∀ ci ∈ infos, ∀ t cls b, PlainType p t → (Has ci.falseTab ⟨parent % 2 ^ 16, lowered p t % 2 ^ 16, cls, ALLOWED⟩ b ↔
      PlainType p parent ∧ PlainType p (lowered p t) ∧ BranchMentions p ci.cond.falseList parent (lowered p t) cls b) := by
    intro ci hci t cls b ht
    rw [(h2 ci hci).f _ rfl b]
    exact branchAdds_iff ok (hF _ (hin ci hci)) hp (lowered_range hb ht).1 (lowered_range hb ht).2 cls b
  constructor
  · intro he t cls b ht
    obtain ⟨a, c⟩ := e1.1 he
    refine ⟨fun h => ?_, fun cn hcn => ?_⟩
    · rcases (no_reports ok none g child parent _ hte).1 a t cls b ht ((te_listAllows ok hc ht cls b).2 h) with k | ⟨_, k, _⟩
      · exact ((tg t cls b ht).1 k).2.2
      · cases k
    · obtain ⟨ci, hci, rfl⟩ := (h3 cn).2 hcn
      refine ⟨fun h => ?_, fun h => ?_⟩
      · rcases (no_reports ok (some g) ci.trueTab child parent _ (hTi _ hcn)).1 (c ci hci).1 t cls b ht
          ((branch_listAllows ok (hT _ hcn) hc ht cls b).2 h) with k | ⟨g', k, k'⟩
        · exact Or.inl ((tt ci hci t cls b ht).1 k).2.2
        · cases k
          exact Or.inr ((tg t cls b ht).1 k').2.2
      · rcases (no_reports ok (some g) ci.falseTab child parent _ (hFi _ hcn)).1 (c ci hci).2 t cls b ht
          ((branch_listAllows ok (hF _ hcn) hc ht cls b).2 h) with k | ⟨g', k, k'⟩
        · exact Or.inl ((tf ci hci t cls b ht).1 k).2.2
        · cases k
          exact Or.inr ((tg t cls b ht).1 k').2.2
  · intro pp pl acc
    apply e1.2
    refine ⟨(no_reports ok none g child parent _ hte).2 ?_, fun ci hci => ⟨(no_reports ok (some g) ci.trueTab child parent _ (hTi _ (hin ci hci))).2 ?_,
      (no_reports ok (some g) ci.falseTab child parent _ (hFi _ (hin ci hci))).2 ?_⟩⟩
    · intro t cls b ht h
      exact Or.inl ((tg t cls b ht).2 ⟨pp, pl t ht, (acc t cls b ht).1 ((te_listAllows ok hc ht cls b).1 h)⟩)
    · intro t cls b ht h
      rcases ((acc t cls b ht).2 _ (hin ci hci)).1 ((branch_listAllows ok (hT _ (hin ci hci)) hc ht cls b).1 h) with k | k
      · exact Or.inl ((tt ci hci t cls b ht).2 ⟨pp, pl t ht, k⟩)
      · exact Or.inr ⟨g, rfl, (tg t cls b ht).2 ⟨pp, pl t ht, k⟩⟩
    · intro t cls b ht h
      rcases ((acc t cls b ht).2 _ (hin ci hci)).2 ((branch_listAllows ok (hF _ (hin ci hci)) hc ht cls b).1 h) with k | k
      · exact Or.inl ((tf ci hci t cls b ht).2 ⟨pp, pl t ht, k⟩)
      · exact Or.inr ⟨g, rfl, (tg t cls b ht).2 ⟨pp, pl t ht, k⟩⟩

/-- What is reported. -/
theorem checkType_reports {p : OPolicy} {σ0 : Cond.State} (ok : AssertOk p σ0) (hb : BoundsOk p) {child parent : Nat}
    (hc : PlainType p child) (hp : PlainType p parent) (hl : ∀ t, PlainType p t → PlainType p (lowered p t)) {bad : List Bad}
    (hk : checkType p child parent = some bad) {x : Bad} (hx : x ∈ bad) :
    x.source = child ∧ PlainType p x.target ∧ x.data ≠ 0#32 ∧
    ∀ b, x.data.getLsbD b = true → SomeAllow p child x.target x.cls b ∧ ¬ Always p parent (lowered p x.target) x.cls b := by
  have hte : ∀ n ∈ nodes p.sp.te, InRange p n := fun n hn => inRange_of (ok.teRules n hn)
  obtain ⟨g, infos, bad', h1, h2, h3, h4, h5⟩ := checkType_spec ok.attrTypeWF child parent hte (cond_inRange ok)
  rw [hk] at h1
  cases h1
  have hin : ∀ ci ∈ infos, ci.cond ∈ p.conds := fun ci hci => (h3 _).1 ⟨ci, hci, rfl⟩
  -- a report comes from a rule
  have main : ∀ (gl : Option Avtab) (cur : Avtab) (n m : Avtab.Node), RuleOk p.sp m → InRange p n → n.key.source = m.key.source → n.key.target = m.key.target →
      n.key.cls = m.key.cls → n.datum = m.datum → m.key.specified = ALLOWED → (∀ q b, Has g q b → Has cur q b ∨ ∃ g', gl = some g' ∧ Has g' q b) →
      Reports p gl cur child parent n x → x.source = child ∧ PlainType p x.target ∧ x.data ≠ 0#32 ∧
      ∀ b, x.data.getLsbD b = true → Says p.sp child x.target x.cls (.allow b) m ∧ ¬ Always p parent (lowered p x.target) x.cls b := by
    rintro gl cur n m hm hn e1 e2 e3 e4 hkind hg ⟨r1, i, r2, r3, r4⟩
    have pi := ok.members _ _ (by have := hn.2; omega) r2
    have ex : parentTarget p i = lowered p (i + 1) := by
      have := parentTarget_eq (p := p) pi.1
      simpa using this
    have et : x.target = i + 1 := by rw [r3]
    have ec : x.cls = n.key.cls := by rw [r3]
    refine ⟨by rw [r3], by rw [et]; exact pi, r4, fun b hb' => ?_⟩
    have hd : x.data = notCovered gl cur ⟨parent % 2 ^ 16, parentTarget p i % 2 ^ 16, n.key.cls, ALLOWED⟩ n.datum.data := by rw [r3]
    rw [hd] at hb'
    obtain ⟨k1, k2, k3⟩ := (notCovered_bit _ _ _ _ b).1 hb'
    refine ⟨(says_iff ok hm hc (by rw [et]; exact pi) _ b).2 ⟨by rw [← e1]; exact r1, by rw [et, ← e2]; simpa using r2, by rw [ec, e3], hkind, by rw [← e4]; exact k1⟩, ?_⟩
    intro halw
    rw [et, ec] at halw
    have hlr := lowered_range hb pi
    have := (h4 ⟨parent % 2 ^ 16, lowered p (i + 1) % 2 ^ 16, n.key.cls, ALLOWED⟩ rfl b).2
      ((global_iff ok hp.1 hlr.1 hlr.2 n.key.cls b).2 ⟨hp, hl _ pi, halw⟩)
    rw [ex] at k2 k3
    rcases hg _ b this with k | ⟨g', hg', k⟩
    · exact k2 k
    · exact k3 g' hg' k
  have cond : ∀ c ∈ p.conds, ∀ cur : Avtab, ∀ l : List Nat, (∀ id ∈ l, id ∈ c.trueList ∨ id ∈ c.falseList) →
      (∃ n ∈ branch p l, n.key.specified &&& ALLOWED ≠ 0#16 ∧ Reports p (some g) cur child parent n x) →
      x.source = child ∧ PlainType p x.target ∧ x.data ≠ 0#32 ∧
      ∀ b, x.data.getLsbD b = true → SomeAllow p child x.target x.cls b ∧ ¬ Always p parent (lowered p x.target) x.cls b := by
    rintro c hcc cur l hlc ⟨n, hn, hkk, hr⟩
    obtain ⟨id, hid, rfl⟩ := mem_branch.1 hn
    have hmem := listed_mem hcc (hlc id hid)
    have hm := ok.condRules id ((ok.all id).1 hmem)
    obtain ⟨a1, a2, a3, a4⟩ := main (some g) cur _ (p.tab.node id) hm (inRange_of (n := p.tab.node id) hm) rfl rfl rfl rfl
      (by by_contra hne; exact hkk ((allowed_iff hm.kind (p.enabled id)).1.2 hne)) (fun q b h => Or.inr ⟨g, rfl, h⟩) hr
    exact ⟨a1, a2, a3, fun b hb' => ⟨Or.inr ⟨id, hmem, (a4 b hb').1⟩, (a4 b hb').2⟩⟩
  rcases (h5 x).1 hx with ⟨n, hn, hkk, hr⟩ | ⟨ci, hci, hr | hr⟩
  · have hm := ok.teRules n hn
    obtain ⟨a1, a2, a3, a4⟩ := main none g n n hm (hte n hn) rfl rfl rfl rfl ((te_allowed hm.kind).1 hkk) (fun q b h => Or.inl h) hr
    exact ⟨a1, a2, a3, fun b hb' => ⟨Or.inl ⟨n, hn, (a4 b hb').1⟩, (a4 b hb').2⟩⟩
  · exact cond _ (hin ci hci) _ _ (fun id hid => Or.inl hid) hr
  · exact cond _ (hin ci hci) _ _ (fun id hid => Or.inr hid) hr

/-- What is accepted is within the bounds, under every value of the booleans. -/
theorem within_of_accepts {p : OPolicy} {σ0 : Cond.State} (ok : AssertOk p σ0) (cdef : CondsDefined p) {child parent : Nat}
    (only : OnlyAllow p parent) (acc : Accepts p child parent) (σ : Cond.State) : Within p σ child parent := by
  have men : ∀ l, (∀ id ∈ l, id ∈ listed p.conds) → ∀ u cls b, BranchMentions p l parent u cls b → BranchAllows p l parent u cls b := by
    rintro l hl u cls b ⟨id, hid, h1, h2, h3, h4⟩
    refine ⟨id, hid, h1, h2, h3, ?_, BitVec.lt_of_getLsbD h4, h4⟩
    rcases List.mem_cons.1 (only id (hl id hid) h1) with h | h
    · exact h
    · rw [ok.noData id ((ok.all id).1 (hl id hid)) h] at h4
      simp at h4
  have menT : ∀ c ∈ p.conds, ∀ u cls b, BranchMentions p c.trueList parent u cls b → BranchAllows p c.trueList parent u cls b :=
    fun c hc => men _ (fun id hid => listed_mem hc (Or.inl hid))
  have menF : ∀ c ∈ p.conds, ∀ u cls b, BranchMentions p c.falseList parent u cls b → BranchAllows p c.falseList parent u cls b :=
    fun c hc => men _ (fun id hid => listed_mem hc (Or.inr hid))
  have always : ∀ u cls b, Always p parent u cls b → Decides p σ parent u cls (.allow b) := by
    rintro u cls b (h | ⟨c, hc, h1, h2⟩)
    · exact Or.inl h
    · obtain ⟨i1, hi1, k1⟩ := menT c hc u cls b h1
      obtain ⟨i2, hi2, k2⟩ := menF c hc u cls b h2
      cases he : Cond.evaluate σ c.expr with
      | none => exact absurd he (cdef c hc σ)
      | some v =>
        cases v with
        | true => exact Or.inr ⟨i1, ⟨c, hc, Or.inl ⟨he, hi1⟩⟩, k1⟩
        | false => exact Or.inr ⟨i2, ⟨c, hc, Or.inr ⟨he, hi2⟩⟩, k2⟩
  rintro t cls b ht (h | ⟨id, ⟨c, hc, hsel⟩, h⟩)
  · exact always _ _ _ ((acc t cls b ht).1 h)
  · rcases hsel with ⟨he, hid⟩ | ⟨he, hid⟩
    · rcases ((acc t cls b ht).2 c hc).1 ⟨id, hid, h⟩ with k | k
      · obtain ⟨i1, hi1, k1⟩ := menT c hc _ cls b k
        exact Or.inr ⟨i1, ⟨c, hc, Or.inl ⟨he, hi1⟩⟩, k1⟩
      · exact always _ _ _ k
    · rcases ((acc t cls b ht).2 c hc).2 ⟨id, hid, h⟩ with k | k
      · obtain ⟨i1, hi1, k1⟩ := menF c hc _ cls b k
        exact Or.inr ⟨i1, ⟨c, hc, Or.inr ⟨he, hi1⟩⟩, k1⟩
      · exact always _ _ _ k

end Verif.Bounds
