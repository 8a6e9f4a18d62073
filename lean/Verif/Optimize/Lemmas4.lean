import Verif.Optimize.Lemmas3

namespace Verif.Optimize
open Verif.Avtab Verif.Policy

/-- What is known of a walk: from ids `I` (all unprocessed or kept before) to the kept ids. -/
structure Walk (p : Services.SPolicy) (te : Avtab.Avtab) (I rest : List Nat) (s s' : CondState) : Prop where
  changed : Changed p I s.node s'.node
  rules : ∀ x, RuleOk p (s.node x) → RuleOk p (s'.node x)
  perm : (s'.kept ++ s'.del).Perm (s.kept ++ I ++ s.del)
  sub : s'.kept.Sublist (s.kept ++ I)
  types : ∀ x ∈ s.kept ++ I, isTypeRule (s.node x) = true → x ∈ s'.kept
  same : Same p (MS te s.node (s.kept ++ I ++ rest)) (MS te s'.node (s'.kept ++ rest))

theorem same_ms_congr {p : Services.SPolicy} {te : Avtab.Avtab} {a b : Nat → Avtab.Node} {A A' B B' : List Nat}
    (h : Same p (MS te a A) (MS te b B)) (hA : ∀ x, x ∈ A ↔ x ∈ A') (hB : ∀ x, x ∈ B ↔ x ∈ B') : Same p (MS te a A') (MS te b B') := by
  have e1 : MS te a A = MS te a A' := by
    funext n; unfold MS; simp only [hA]
  have e2 : MS te b B = MS te b B' := by
    funext n; unfold MS; simp only [hB]
  rw [← e1, ← e2]; exact h

theorem changed_rules {p : Services.SPolicy} {id : Nat} {node node' : Nat → Avtab.Node} (h : Changed p [id] node node')
    (h' : RuleOk p (node' id)) : ∀ x, RuleOk p (node x) → RuleOk p (node' x) := by
  intro x hx
  by_cases hxi : x = id
  · subst hxi; exact h'
  · rw [h.other x (by simpa using hxi)]; exact hx

/-- One step of either walk. -/
theorem walk_step {p : Services.SPolicy} {te : Avtab.Avtab} {I rest : List Nat} {id : Nat} {s s' : CondState} {node' : Nat → Avtab.Node}
    {b : Bool} (hn : (s.kept ++ (id :: I) ++ rest).Nodup)
    (h1 : Changed p [id] s.node node') (h2 : RuleOk p (node' id)) (h3 : isTypeRule (s.node id) = true → b = false)
    (h4 : Same p (MS te s.node (id :: (s.kept ++ I ++ rest))) (MS te node' (if b then s.kept ++ I ++ rest else id :: (s.kept ++ I ++ rest))))
    (hw : Walk p te I rest (if b then ⟨s.kept, id :: s.del, node'⟩ else ⟨s.kept ++ [id], s.del, node'⟩) s') :
    Walk p te (id :: I) rest s s' := by
  have rules := changed_rules h1 h2
  have tys : ∀ x, isTypeRule (s.node x) = true → isTypeRule (node' x) = true := by
    intro x hx; rw [h1.types x hx]; exact hx
  cases b with
  | true =>
    rw [if_pos rfl] at hw h4
    refine ⟨?_, fun x hx => hw.rules x (rules x hx), ?_, ?_, ?_, ?_⟩
    · exact changed_trans h1 hw.changed
    · refine hw.perm.trans ?_
      dsimp only
      rw [List.append_assoc, List.append_assoc]
      refine List.Perm.append_left _ ?_
      rw [List.cons_append]
      exact List.perm_middle
    · exact hw.sub.trans (List.Sublist.append_left (List.sublist_cons_self _ _) _)
    · intro x hx ht
      refine hw.types x ?_ (tys x ht)
      simp only [List.mem_append, List.mem_cons] at hx ⊢
      rcases hx with hx | rfl | hx
      · exact .inl hx
      · exact absurd (h3 ht) (by simp)
      · exact .inr hx
    · refine same_trans (same_ms_congr h4 ?_ (fun x => Iff.rfl)) hw.same
      intro x; simp only [List.mem_cons, List.mem_append]; tauto
  | false =>
    rw [if_neg (by simp)] at hw h4
    refine ⟨?_, fun x hx => hw.rules x (rules x hx), ?_, ?_, ?_, ?_⟩
    · exact changed_trans h1 hw.changed
    · refine hw.perm.trans ?_
      dsimp only
      simp
    · have := hw.sub
      simpa using this
    · intro x hx ht
      refine hw.types x ?_ (tys x ht)
      simp only [List.mem_append, List.mem_cons, List.not_mem_nil, or_false] at hx ⊢
      tauto
    · refine same_trans (same_ms_congr h4 (B' := s.kept ++ [id] ++ I ++ rest) ?_ ?_) hw.same
      · intro x; simp only [List.mem_cons, List.mem_append]; tauto
      · intro x; simp only [List.mem_cons, List.mem_append, List.not_mem_nil, or_false]; tauto

theorem walk_nil (p : Services.SPolicy) (te : Avtab.Avtab) (rest : List Nat) (s : CondState) : Walk p te [] rest s s :=
  ⟨changed_refl _ _ _, fun _ h => h, by simp, by simp, fun x h _ => by simpa using h, by rw [List.append_nil]; exact same_refl _ _⟩

theorem nodup_split {a b : List Nat} {id : Nat} (h : (a ++ id :: b).Nodup) : id ∉ a ++ b ∧ (a ++ b).Nodup := by
  have := (List.perm_middle (a := id) (l₁ := a) (l₂ := b)).nodup_iff.mp h
  rw [List.nodup_cons] at this
  exact this

theorem condWalk1_spec {p : Services.SPolicy} {at_ : Nat → Ebitmap.Ebitmap} (ok : TypesOk p at_) {te : Avtab.Avtab} (hte : TableOk te)
    (hter : ∀ n ∈ Avtab.nodes te, RuleOk p n) (en : Nat → Bool) (pcov : List Nat) : ∀ (l : List Nat) (s : CondState),
    (s.kept ++ l ++ pcov).Nodup → (∀ x ∈ s.kept ++ l ++ pcov, RuleOk p (s.node x)) →
    ∃ s', condWalk1 te (typeMap p at_) en pcov l s = some s' ∧ Walk p te l pcov s s' := by
  intro l
  induction l with
  | nil => intro s _ _; exact ⟨s, rfl, walk_nil _ _ _ _⟩
  | cons id l ih =>
    intro s hn hr
    have hn' := hn
    rw [List.append_assoc, List.cons_append] at hn'
    obtain ⟨hid, hnd⟩ := nodup_split hn'
    rw [← List.append_assoc] at hid hnd
    obtain ⟨node', b, e1, e2, e3, e4, e5⟩ := condTest_spec ok hte hter en (node := s.node) (id := id) (O := s.kept ++ l ++ pcov)
      (cover := pcov) hid (fun x hx => hr x (by
        simp only [List.mem_append, List.mem_cons] at hx ⊢; tauto)) (fun x hx => .inr (by simp [hx]))
    obtain ⟨s', w1, w2⟩ := ih (if b then ⟨s.kept, id :: s.del, node'⟩ else ⟨s.kept ++ [id], s.del, node'⟩) (by
        cases b
        · simpa using hn
        · simpa using hnd) (by
        intro x hx
        have : RuleOk p (s.node x) := hr x (by
          cases b <;> simp only [if_true, Bool.false_eq_true, if_false, List.mem_append, List.mem_cons, List.not_mem_nil, or_false] at hx ⊢ <;> tauto)
        have := changed_rules e2 e3 x this
        cases b <;> exact this)
    refine ⟨s', ?_, walk_step hn e2 e3 e4 e5 w2⟩
    unfold condWalk1
    rw [e1, Option.bind_some]
    exact w1

theorem condWalk2_spec {p : Services.SPolicy} {at_ : Nat → Ebitmap.Ebitmap} (ok : TypesOk p at_) {te : Avtab.Avtab} (hte : TableOk te)
    (hter : ∀ n ∈ Avtab.nodes te, RuleOk p n) (en : Nat → Bool) : ∀ (l kp : List Nat) (s : CondState),
    (∀ x ∈ kp, x ∈ s.kept) → (s.kept ++ l ++ []).Nodup → (∀ x ∈ s.kept ++ l, RuleOk p (s.node x)) →
    ∃ s', condWalk2 te (typeMap p at_) en kp l s = some s' ∧ Walk p te l [] s s' := by
  intro l
  induction l with
  | nil =>
    intro kp s _ _ _
    exact ⟨s, by unfold condWalk2; rfl, walk_nil _ _ _ _⟩
  | cons id l ih =>
    intro kp s hkp hn hr
    have hn' := hn
    rw [List.append_nil] at hn'
    obtain ⟨hid, hnd⟩ := nodup_split hn'
    obtain ⟨node', b, e1, e2, e3, e4, e5⟩ := condTest_spec ok hte hter en (node := s.node) (id := id) (O := s.kept ++ l)
      (cover := kp ++ id :: l) hid (fun x hx => hr x (by
        simp only [List.mem_append, List.mem_cons] at hx ⊢; tauto)) (fun x hx => by
        simp only [List.mem_append, List.mem_cons] at hx ⊢
        rcases hx with hx | hx | hx
        · exact .inr (.inl (hkp x hx))
        · exact .inl hx
        · exact .inr (.inr hx))
    have e5' : Same p (MS te s.node (id :: (s.kept ++ l ++ []))) (MS te node' (if b then s.kept ++ l ++ [] else id :: (s.kept ++ l ++ []))) := by
      rw [List.append_nil]; exact e5
    unfold condWalk2
    rw [e1, Option.bind_some]
    cases b with
    | true =>
      obtain ⟨s', w1, w2⟩ := ih kp ⟨s.kept, id :: s.del, node'⟩ hkp (by simpa using hnd) (fun x hx =>
        changed_rules e2 e3 x (hr x (by
          simp only [List.mem_append, List.mem_cons] at hx ⊢; tauto)))
      exact ⟨s', w1, walk_step hn e2 e3 e4 e5' w2⟩
    | false =>
      obtain ⟨s', w1, w2⟩ := ih (kp ++ [id]) ⟨s.kept ++ [id], s.del, node'⟩ (by
        intro x hx
        simp only [List.mem_append, List.mem_singleton] at hx ⊢
        rcases hx with hx | hx
        · exact .inl (hkp x hx)
        · exact .inr hx) (by simpa using hn) (fun x hx =>
        changed_rules e2 e3 x (hr x (by
          simp only [List.mem_append, List.mem_cons, List.not_mem_nil, or_false] at hx ⊢; tauto)))
      exact ⟨s', w1, walk_step hn e2 e3 e4 e5' w2⟩

theorem splitCov_spec {p : Services.SPolicy} (small : p.pol.nTypes < 2 ^ 16) {node : Nat → Avtab.Node} : ∀ (l pcov : List Nat), (∀ x ∈ l, RuleOk p (node x)) →
    ∃ r, splitCov p node l pcov = some r ∧ (r.1 ++ r.2).Perm (l ++ pcov) := by
  intro l
  induction l with
  | nil => intro pcov _; exact ⟨([], pcov), rfl, by simp⟩
  | cons id l ih =>
    intro pcov hr
    have rid := hr id List.mem_cons_self
    obtain ⟨s1, s2, s3⟩ := rid.source
    obtain ⟨t1, t2, t3⟩ := rid.target
    have hl := fun x hx => hr x (List.mem_cons_of_mem _ hx)
    have ha : ∃ a, avruleWithAttr p (node id).key = some a := by
      unfold avruleWithAttr
      rw [pred32_eq s1 (by omega), pred32_eq t1 (by omega)]
      cases hs : p.typeStruct ((node id).key.source - 1) with
      | none => exact absurd hs s3
      | some a =>
        cases ht : p.typeStruct ((node id).key.target - 1) with
        | none => exact absurd ht t3
        | some b =>
          rw [Option.bind_some, Option.bind_some]
          split <;> exact ⟨_, rfl⟩
    obtain ⟨a, ha⟩ := ha
    unfold splitCov
    rw [ha, Option.bind_some]
    cases a with
    | true =>
      obtain ⟨r, h1, h2⟩ := ih (id :: pcov) hl
      refine ⟨r, h1, h2.trans ?_⟩
      rw [List.cons_append]
      exact List.perm_middle
    | false =>
      obtain ⟨r, h1, h2⟩ := ih pcov hl
      refine ⟨(id :: r.1, r.2), ?_, ?_⟩
      · rw [if_neg (by simp), h1]; rfl
      · rw [List.cons_append, List.cons_append]; exact h2.cons id

/-- One list of one conditional. -/
structure ListDone (p : Services.SPolicy) (te : Avtab.Avtab) (L del : List Nat) (node : Nat → Avtab.Node) (s' : CondState) : Prop where
  changed : Changed p L node s'.node
  rules : ∀ x, RuleOk p (node x) → RuleOk p (s'.node x)
  perm : (s'.kept ++ s'.del).Perm (L ++ del)
  sub : ∀ x ∈ s'.kept, x ∈ L
  nodup : s'.kept.Nodup
  types : ∀ x ∈ L, isTypeRule (node x) = true → x ∈ s'.kept
  same : Same p (MS te node L) (MS te s'.node s'.kept)

theorem optimizeList_spec {p : Services.SPolicy} {at_ : Nat → Ebitmap.Ebitmap} (ok : TypesOk p at_) {te : Avtab.Avtab} (hte : TableOk te)
    (hter : ∀ n ∈ Avtab.nodes te, RuleOk p n) (en : Nat → Bool) (L del : List Nat) (node : Nat → Avtab.Node) (hn : L.Nodup)
    (hr : ∀ x ∈ L, RuleOk p (node x)) :
    ∃ s', optimizeList p te (typeMap p at_) en L del node = some s' ∧ ListDone p te L del node s' := by
  obtain ⟨⟨a, b⟩, h1, h2⟩ := splitCov_spec ok.small L [] hr
  rw [List.append_nil] at h2
  dsimp only at h2
  have hab : ∀ x, x ∈ a ++ b ↔ x ∈ L := fun x => h2.mem_iff
  have hnd : (a ++ b).Nodup := h2.nodup_iff.mpr hn
  obtain ⟨s1, w1, w2⟩ := condWalk1_spec ok hte hter en b a ⟨[], del, node⟩ (by simpa using hnd) (fun x hx => hr x ((hab x).mp (by simpa using hx)))
  have hper := w2.perm
  simp only [List.nil_append] at hper
  have hs1 : s1.kept.Sublist a := w2.sub
  have hsub1 := hs1.subset
  have hnk : (s1.kept ++ b).Nodup := hnd.sublist (hs1.append_right b)
  obtain ⟨s2, v1, v2⟩ := condWalk2_spec ok hte hter en b [] s1 (fun x hx => by cases hx) (by rw [List.append_nil]; exact hnk)
    (fun x hx => w2.rules x (hr x ((hab x).mp (by
      simp only [List.mem_append] at hx ⊢
      rcases hx with hx | hx
      · exact .inl (hsub1 hx)
      · exact .inr hx))))
  refine ⟨s2, ?_, ?_, fun x hx => v2.rules x (w2.rules x hx), ?_, ?_, hnk.sublist v2.sub, ?_, ?_⟩
  · unfold optimizeList
    rw [h1, Option.bind_some, w1, Option.bind_some]
    exact v1
  · refine changed_mono (changed_trans w2.changed v2.changed) ?_
    intro x hx; exact (hab x).mp hx
  · refine v2.perm.trans ?_
    have e1 : (s1.kept ++ b ++ s1.del).Perm (b ++ (s1.kept ++ s1.del)) := by
      rw [List.append_assoc, ← List.append_assoc]
      refine (List.perm_append_comm.append_right _).trans ?_
      rw [List.append_assoc]
    have e2 : (b ++ (s1.kept ++ s1.del)).Perm (b ++ (a ++ del)) := hper.append_left b
    have e3 : (b ++ (a ++ del)).Perm (a ++ b ++ del) := by
      rw [← List.append_assoc]; exact List.perm_append_comm.append_right _
    exact e1.trans (e2.trans (e3.trans (h2.append_right del)))
  · intro x hx
    have := v2.sub.subset hx
    simp only [List.mem_append] at this
    rw [← hab x, List.mem_append]
    rcases this with h | h
    · exact .inl (hsub1 h)
    · exact .inr h
  · intro x hx ht
    have ht1 : isTypeRule (s1.node x) = true := by rw [w2.changed.types x ht]; exact ht
    refine v2.types x ?_ ht1
    rw [← hab x, List.mem_append] at hx
    rw [List.mem_append]
    rcases hx with h | h
    · exact .inl (w2.types x (by simpa using h) ht)
    · exact .inr h
  · refine same_trans (same_ms_congr w2.same ?_ (fun x => Iff.rfl)) (same_ms_congr v2.same (fun x => by simp) (fun x => by simp))
    intro x
    rw [List.nil_append]
    exact hab x

/-! ## All conditionals -/

/-- Rules of the table and the selected conditional rules. -/
def Active (te : Avtab.Avtab) (node : Nat → Avtab.Node) (σ : Cond.State) (conds : List Cond.Node) (n : Avtab.Node) : Prop :=
  n ∈ Avtab.nodes te ∨ ∃ id, Cond.SelectedBy σ conds id ∧ n = node id

/-- The list selected by one conditional. -/
def selList (σ : Cond.State) (c : Cond.Node) : List Nat :=
  match Cond.evaluate σ c.expr with
  | some true => c.trueList
  | some false => c.falseList
  | none => []

theorem selectedBy_cons (σ : Cond.State) (c : Cond.Node) (l : List Cond.Node) (id : Nat) :
    Cond.SelectedBy σ (c :: l) id ↔ id ∈ selList σ c ∨ Cond.SelectedBy σ l id := by
  unfold Cond.SelectedBy selList
  simp only [List.mem_cons, exists_eq_or_imp]
  cases Cond.evaluate σ c.expr with
  | none => simp
  | some b => cases b <;> simp

theorem same_union {p : Services.SPolicy} {M1 M1' M2 M2' : Avtab.Node → Prop} (h1 : Same p M1 M1') (h2 : Same p M2 M2') :
    Same p (fun n => M1 n ∨ M2 n) (fun n => M1' n ∨ M2' n) := by
  intro s t cls f hs ht
  have a := h1 s t cls f hs ht
  have b := h2 s t cls f hs ht
  simp only [or_and_right, exists_or]
  rw [a, b]

theorem same_congr {p : Services.SPolicy} {M M' N N' : Avtab.Node → Prop} (h : Same p M M') (h1 : ∀ n, M n ↔ N n) (h2 : ∀ n, M' n ↔ N' n) :
    Same p N N' := by
  have e1 : M = N := by funext n; exact propext (h1 n)
  have e2 : M' = N' := by funext n; exact propext (h2 n)
  rw [← e1, ← e2]; exact h

structure CondsDone (p : Services.SPolicy) (te : Avtab.Avtab) (conds : List Cond.Node) (del : List Nat) (node : Nat → Avtab.Node)
    (r : List Cond.Node × List Nat × (Nat → Avtab.Node)) : Prop where
  changed : Changed p (listed conds) node r.2.2
  rules : ∀ x, RuleOk p (node x) → RuleOk p (r.2.2 x)
  perm : (listed r.1 ++ r.2.1).Perm (listed conds ++ del)
  same : ∀ σ, Same p (Active te node σ conds) (Active te r.2.2 σ r.1)
  types : ∀ σ x, isTypeRule (node x) = true → Cond.SelectedBy σ conds x → Cond.SelectedBy σ r.1 x
  sel : ∀ σ x, Cond.SelectedBy σ r.1 x → Cond.SelectedBy σ conds x
  tyList : ∀ x ∈ listed conds, isTypeRule (node x) = true → x ∈ listed r.1
  from_ : ∀ c' ∈ r.1, ∃ c ∈ conds, c'.expr = c.expr ∧ c'.curState = c.curState ∧ (∀ x ∈ c'.trueList, x ∈ c.trueList) ∧
    (∀ x ∈ c'.falseList, x ∈ c.falseList)

theorem ms_congr {te : Avtab.Avtab} {a b : Nat → Avtab.Node} {A : List Nat} (h : ∀ x ∈ A, a x = b x) (n : Avtab.Node) :
    MS te a A n ↔ MS te b A n := by
  unfold MS
  constructor
  · rintro (h0 | ⟨x, hx, rfl⟩)
    · exact .inl h0
    · exact .inr ⟨x, hx, h x hx⟩
  · rintro (h0 | ⟨x, hx, rfl⟩)
    · exact .inl h0
    · exact .inr ⟨x, hx, (h x hx).symm⟩

theorem selList_mem {σ : Cond.State} {c : Cond.Node} {x : Nat} (h : x ∈ selList σ c) : x ∈ c.trueList ++ c.falseList := by
  unfold selList at h
  rw [List.mem_append]
  split at h
  · exact .inl h
  · exact .inr h
  · cases h

theorem selectedBy_listed {σ : Cond.State} {l : List Cond.Node} {x : Nat} (h : Cond.SelectedBy σ l x) : x ∈ listed l := by
  obtain ⟨c, hc, h⟩ := h
  refine List.mem_flatMap.mpr ⟨c, hc, ?_⟩
  rw [List.mem_append]
  rcases h with h | h
  · exact .inl h.2
  · exact .inr h.2

theorem optimizeConds_spec {p : Services.SPolicy} {at_ : Nat → Ebitmap.Ebitmap} (ok : TypesOk p at_) {te : Avtab.Avtab} (hte : TableOk te)
    (hter : ∀ n ∈ Avtab.nodes te, RuleOk p n) (en : Nat → Bool) : ∀ (conds : List Cond.Node) (del : List Nat) (node : Nat → Avtab.Node),
    (listed conds).Nodup → (∀ x ∈ listed conds, RuleOk p (node x)) →
    ∃ r, optimizeConds p te (typeMap p at_) en conds del node = some r ∧ CondsDone p te conds del node r := by
  intro conds
  induction conds with
  | nil =>
    intro del node _ _
    refine ⟨([], del, node), rfl, changed_refl _ _ _, fun _ h => h, List.Perm.refl _, fun _ => same_refl _ _, fun _ _ _ h => h,
      fun _ _ h => h, fun _ h _ => h, ?_⟩
    intro c hc; cases hc
  | cons c l ih =>
    intro del node hn hr
    have hlc : listed (c :: l) = (c.trueList ++ c.falseList) ++ listed l := rfl
    rw [hlc] at hn hr
    rw [List.nodup_append] at hn
    obtain ⟨hn1, hn2, hn3⟩ := hn
    rw [List.nodup_append] at hn1
    obtain ⟨hnt, hnf, htf⟩ := hn1
    obtain ⟨s1, a1, a2⟩ := optimizeList_spec ok hte hter en c.trueList del node hnt (fun x hx => hr x (by simp [hx]))
    obtain ⟨s2, b1, b2⟩ := optimizeList_spec ok hte hter en c.falseList s1.del s1.node hnf (fun x hx => a2.rules x (hr x (by simp [hx])))
    obtain ⟨r, c1, c2⟩ := ih s2.del s2.node hn2 (fun x hx => b2.rules x (a2.rules x (hr x (by simp [hx]))))
    let c' : Cond.Node := { c with trueList := s1.kept, falseList := s2.kept }
    have hconds : optimizeConds p te (typeMap p at_) en (c :: l) del node =
        some (if s1.kept = [] ∧ s2.kept = [] then r.1 else c' :: r.1, r.2) := by
      unfold optimizeConds
      rw [a1, Option.bind_some, b1, Option.bind_some, c1]
      rfl
    -- whether or not the conditional is dropped
    have hsel : ∀ σ x, Cond.SelectedBy σ (if s1.kept = [] ∧ s2.kept = [] then r.1 else c' :: r.1) x ↔
        x ∈ selList σ c' ∨ Cond.SelectedBy σ r.1 x := by
      intro σ x
      split
      · rename_i h
        have : selList σ c' = [] := by
          unfold selList
          split
          · exact h.1
          · exact h.2
          · rfl
        rw [this]; simp
      · exact selectedBy_cons σ c' r.1 x
    have hlist : listed (if s1.kept = [] ∧ s2.kept = [] then r.1 else c' :: r.1) = (s1.kept ++ s2.kept) ++ listed r.1 := by
      split
      · rename_i h; rw [h.1, h.2]; rfl
      · rfl
    -- where the rules keep their contents
    have nf1 : ∀ x ∈ c.falseList, s1.node x = node x := fun x hx => a2.changed.other x (fun h => htf x h x hx rfl)
    have nl : ∀ x ∈ listed l, s2.node x = node x := by
      intro x hx
      rw [b2.changed.other x (fun h => hn3 x (by simp [h]) x hx rfl), a2.changed.other x (fun h => hn3 x (by simp [h]) x hx rfl)]
    have ntr : ∀ x ∈ c.trueList, r.2.2 x = s1.node x := by
      intro x hx
      rw [c2.changed.other x (fun h => hn3 x (by simp [hx]) x h rfl), b2.changed.other x (fun h => htf x hx x h rfl)]
    have nfr : ∀ x ∈ c.falseList, r.2.2 x = s2.node x := by
      intro x hx
      rw [c2.changed.other x (fun h => hn3 x (by simp [hx]) x h rfl)]
    have own : ∀ σ, Same p (MS te node (selList σ c)) (MS te r.2.2 (selList σ c')) := by
      intro σ
      unfold selList
      cases Cond.evaluate σ c.expr with
      | none =>
        dsimp only
        exact same_congr (same_refl p (MS te node [])) (fun _ => Iff.rfl) (ms_congr (by simp))
      | some b =>
        cases b with
        | true =>
          dsimp only
          exact same_congr a2.same (fun _ => Iff.rfl) (ms_congr (fun x hx => (ntr x (a2.sub x hx)).symm))
        | false =>
          dsimp only
          exact same_congr b2.same (ms_congr nf1) (ms_congr (fun x hx => (nfr x (b2.sub x hx)).symm))
    refine ⟨_, hconds, ?_, fun x hx => c2.rules x (b2.rules x (a2.rules x hx)), ?_, ?_, ?_, ?_, ?_, ?_⟩
    · exact changed_trans (changed_trans a2.changed b2.changed) c2.changed
    · dsimp only
      rw [hlist, hlc]
      -- kept1 ++ kept2 ++ listed r ++ del_r ~ true ++ false ++ listed l ++ del
      have p1 : (s1.kept ++ s2.kept ++ listed r.1 ++ r.2.1).Perm (s1.kept ++ (s2.kept ++ (listed l ++ s2.del))) := by
        rw [List.append_assoc, List.append_assoc]
        exact (c2.perm.append_left s2.kept).append_left s1.kept
      have p2 : (s2.kept ++ (listed l ++ s2.del)).Perm (listed l ++ (c.falseList ++ s1.del)) := by
        rw [← List.append_assoc]
        refine (List.perm_append_comm.append_right _).trans ?_
        rw [List.append_assoc]
        exact b2.perm.append_left _
      have p3 : (s1.kept ++ (listed l ++ (c.falseList ++ s1.del))).Perm ((listed l ++ c.falseList) ++ (c.trueList ++ del)) := by
        rw [← List.append_assoc (listed l), ← List.append_assoc]
        refine (List.perm_append_comm.append_right _).trans ?_
        rw [List.append_assoc]
        exact a2.perm.append_left _
      have p4 : ((listed l ++ c.falseList) ++ (c.trueList ++ del)).Perm (c.trueList ++ c.falseList ++ listed l ++ del) := by
        rw [← List.append_assoc]
        refine List.Perm.append_right del ?_
        refine (List.perm_append_comm).trans ?_
        rw [List.append_assoc]
        exact List.perm_append_comm.append_left _
      exact p1.trans ((p2.append_left _).trans (p3.trans p4))
    · intro σ
      dsimp only
      have hrest : Same p (Active te node σ l) (Active te r.2.2 σ r.1) := by
        refine same_congr (c2.same σ) ?_ (fun _ => Iff.rfl)
        intro n
        unfold Active
        constructor
        · rintro (h | ⟨x, hx, rfl⟩)
          · exact .inl h
          · exact .inr ⟨x, hx, nl x (selectedBy_listed hx)⟩
        · rintro (h | ⟨x, hx, rfl⟩)
          · exact .inl h
          · exact .inr ⟨x, hx, (nl x (selectedBy_listed hx)).symm⟩
      refine same_congr (same_union (own σ) hrest) ?_ ?_
      · intro n
        unfold MS Active
        simp only [selectedBy_cons]
        constructor
        · rintro ((h | ⟨x, hx, h⟩) | (h | ⟨x, hx, h⟩))
          · exact .inl h
          · exact .inr ⟨x, .inl hx, h⟩
          · exact .inl h
          · exact .inr ⟨x, .inr hx, h⟩
        · rintro (h | ⟨x, hx | hx, h⟩)
          · exact .inl (.inl h)
          · exact .inl (.inr ⟨x, hx, h⟩)
          · exact .inr (.inr ⟨x, hx, h⟩)
      · intro n
        unfold MS Active
        simp only [hsel]
        constructor
        · rintro ((h | ⟨x, hx, h⟩) | (h | ⟨x, hx, h⟩))
          · exact .inl h
          · exact .inr ⟨x, .inl hx, h⟩
          · exact .inl h
          · exact .inr ⟨x, .inr hx, h⟩
        · rintro (h | ⟨x, hx | hx, h⟩)
          · exact .inl (.inl h)
          · exact .inl (.inr ⟨x, hx, h⟩)
          · exact .inr (.inr ⟨x, hx, h⟩)
    · intro σ x hx hs
      rw [hsel]
      rw [selectedBy_cons] at hs
      rcases hs with hs | hs
      · left
        unfold selList at hs ⊢
        dsimp only [c']
        cases he : Cond.evaluate σ c.expr with
        | none => rw [he] at hs; exact hs
        | some b =>
          rw [he] at hs
          cases b with
          | true => exact a2.types x hs hx
          | false =>
            dsimp only at hs ⊢
            exact b2.types x hs (by rw [nf1 x hs]; exact hx)
      · exact .inr (c2.types σ x (by rw [nl x (selectedBy_listed hs)]; exact hx) hs)
    · intro σ x hs
      rw [hsel] at hs
      rw [selectedBy_cons]
      rcases hs with hs | hs
      · left
        unfold selList at hs ⊢
        dsimp only [c'] at hs
        cases he : Cond.evaluate σ c.expr with
        | none => rw [he] at hs; exact hs
        | some b =>
          rw [he] at hs
          cases b with
          | true => exact a2.sub x hs
          | false => exact b2.sub x hs
      · exact .inr (c2.sel σ x hs)
    · intro x hx ht
      dsimp only
      rw [hlist]
      rw [hlc] at hx
      simp only [List.mem_append] at hx ⊢
      rcases hx with (hx | hx) | hx
      · exact .inl (.inl (a2.types x hx ht))
      · exact .inl (.inr (b2.types x hx (by rw [nf1 x hx]; exact ht)))
      · exact .inr (c2.tyList x hx (by rw [nl x hx]; exact ht))
    · intro d hd
      have hd' : d = c' ∨ d ∈ r.1 := by
        dsimp only at hd
        split at hd
        · exact .inr hd
        · exact List.mem_cons.mp hd
      rcases hd' with rfl | h
      · exact ⟨c, List.mem_cons_self, rfl, rfl, a2.sub, b2.sub⟩
      · obtain ⟨e, he, h⟩ := c2.from_ d h
        exact ⟨e, List.mem_cons_of_mem _ he, h⟩

/-! ## The final sweep -/

theorem sweepChain_spec : ∀ (l del : List Nat), l.Nodup →
    (sweepChain l del).1 = l.filter (fun x => decide (x ∉ del)) ∧ ∀ x, x ∉ l → (x ∈ (sweepChain l del).2 ↔ x ∈ del) := by
  intro l
  induction l with
  | nil => intro del _; exact ⟨rfl, fun _ _ => Iff.rfl⟩
  | cons id l ih =>
    intro del hn
    rw [List.nodup_cons] at hn
    unfold sweepChain
    split
    · rename_i hm
      obtain ⟨h1, h2⟩ := ih (del.erase id) hn.2
      constructor
      · rw [h1, List.filter_cons]
        simp only [hm, not_true_eq_false, decide_false, Bool.false_eq_true, if_false]
        apply List.filter_congr
        intro x hx
        have : x ≠ id := fun h => hn.1 (h ▸ hx)
        simp only [List.mem_erase_of_ne this]
      · intro x hx
        rw [List.mem_cons, not_or] at hx
        rw [h2 x hx.2, List.mem_erase_of_ne hx.1]
    · rename_i hm
      obtain ⟨h1, h2⟩ := ih del hn.2
      constructor
      · simp only [List.filter_cons, hm, not_false_eq_true, decide_true, if_true, h1]
      · intro x hx
        rw [List.mem_cons, not_or] at hx
        exact h2 x hx.2

theorem sweepSlots_spec : ∀ (L del : List Nat) (t : CondTab), L.Nodup → (∀ i ∈ L, (t.htable i).Nodup) →
    (∀ i ∈ L, ∀ j ∈ L, i ≠ j → ∀ x ∈ t.htable i, x ∉ t.htable j) → (∀ i ∈ L, i < t.nslot) →
    let t' := sweepSlots L del t
    t'.mask = t.mask ∧ t'.nslot = t.nslot ∧ t'.node = t.node ∧
    (∀ i, t'.htable i = if i ∈ L then (t.htable i).filter (fun x => decide (x ∉ del)) else t.htable i) ∧
    (t.nel = t.ids.length → t'.nel = t'.ids.length) := by
  intro L
  induction L with
  | nil => intro del t _ _ _ _; exact ⟨rfl, rfl, rfl, fun _ => by simp [sweepSlots], fun h => h⟩
  | cons i L ih =>
    intro del t hn hd hdis hlt
    rw [List.nodup_cons] at hn
    obtain ⟨a, b⟩ := sweepChain_spec (t.htable i) del (hd i List.mem_cons_self)
    have hcol : ∀ j ∈ L, (if j = i then (sweepChain (t.htable i) del).1 else t.htable j) = t.htable j := by
      intro j hj
      have : j ≠ i := fun h => hn.1 (h ▸ hj)
      simp [this]
    have := ih (sweepChain (t.htable i) del).2 { t with
      htable := fun j => if j = i then (sweepChain (t.htable i) del).1 else t.htable j,
      nel := t.nel - ((t.htable i).length - (sweepChain (t.htable i) del).1.length) } hn.2
      (fun j hj => by
        dsimp only
        rw [hcol j hj]; exact hd j (List.mem_cons_of_mem _ hj))
      (fun j hj k hk hne => by
        dsimp only
        rw [hcol j hj, hcol k hk]
        exact hdis j (List.mem_cons_of_mem _ hj) k (List.mem_cons_of_mem _ hk) hne)
      (fun j hj => hlt j (List.mem_cons_of_mem _ hj))
    obtain ⟨c1, c2, c3, c4, c5⟩ := this
    refine ⟨c1, c2, c3, ?_, ?_⟩
    · intro j
      unfold sweepSlots
      rw [c4 j]
      dsimp only
      by_cases hji : j = i
      · subst hji
        rw [if_neg hn.1, if_pos rfl, if_pos List.mem_cons_self, a]
      · rw [if_neg hji]
        by_cases hjL : j ∈ L
        · rw [if_pos hjL, if_pos (List.mem_cons_of_mem _ hjL)]
          apply List.filter_congr
          intro x hx
          have := b x (fun h => hdis i List.mem_cons_self j (List.mem_cons_of_mem _ hjL) (fun h => hji h.symm) x h hx)
          simp only [this]
        · rw [if_neg hjL, if_neg (by simp [hji, hjL])]
    · intro hc
      unfold sweepSlots
      apply c5
      dsimp only [CondTab.ids] at hc ⊢
      have hlen : ∀ (K : List Nat), K.Nodup → (K.flatMap (fun k => if k = i then (sweepChain (t.htable i) del).1 else t.htable k)).length +
          (if i ∈ K then (t.htable i).length else 0) = (K.flatMap t.htable).length + (if i ∈ K then (sweepChain (t.htable i) del).1.length else 0) := by
        intro K
        induction K with
        | nil => simp
        | cons j K ihK =>
          intro hk
          rw [List.nodup_cons] at hk
          have := ihK hk.2
          simp only [List.flatMap_cons, List.length_append]
          by_cases hji : j = i
          · subst hji
            have hni := hk.1
            simp only [hni, if_false, Nat.add_zero] at this
            simp only [List.mem_cons, true_or, if_true] at this ⊢
            omega
          · have hij : i ≠ j := fun h => hji h.symm
            simp only [if_neg hji, List.mem_cons, hij, false_or]
            omega
      have h1 := hlen (List.range t.nslot) List.nodup_range
      have hi : i ∈ List.range t.nslot := List.mem_range.mpr (hlt i List.mem_cons_self)
      rw [if_pos hi, if_pos hi] at h1
      have hle : (sweepChain (t.htable i) del).1.length ≤ (t.htable i).length := by
        rw [a]; exact List.length_filter_le _ _
      omega

end Verif.Optimize
