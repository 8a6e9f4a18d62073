import Verif.Bounds.Lemmas3
import Verif.Ebitmap.Lemmas3

/-! # Lemmas on the symbol tables -/

namespace Verif.Bounds
open Verif.Avtab Verif.Policy Verif.Optimize Verif.Assertion

theorem dot_split : ∀ (l : List Char), (l.dropWhile (· ≠ '.') = [] ∧ '.' ∉ l) ∨
    ∃ a r, l.dropWhile (· ≠ '.') = '.' :: r ∧ l = a ++ '.' :: r ∧ '.' ∉ a
  | [] => Or.inl ⟨rfl, by simp⟩
  | c :: l => by
    by_cases hc : c = '.'
    · subst hc
      exact Or.inr ⟨[], l, by simp, rfl, by simp⟩
    · have e : (c :: l).dropWhile (· ≠ '.') = l.dropWhile (· ≠ '.') := by simp [hc]
      rcases dot_split l with ⟨h1, h2⟩ | ⟨a, r, h1, h2, h3⟩
      · left
        refine ⟨by rw [e, h1], ?_⟩
        simp only [List.mem_cons, not_or]
        exact ⟨fun h => hc h.symm, h2⟩
      · right
        refine ⟨c :: a, r, by rw [e, h1], by rw [h2]; rfl, ?_⟩
        simp only [List.mem_cons, not_or]
        exact ⟨fun h => hc h.symm, h3⟩

theorem parentName_spec (s : Str) : (parentName s = none ∧ '.' ∉ s) ∨ ∃ a, parentName s = some a ∧ DotParent s a := by
  unfold parentName
  rcases dot_split s.reverse with ⟨h1, h2⟩ | ⟨a, r, h1, h2, h3⟩
  · left; rw [h1]; exact ⟨rfl, by simpa using h2⟩
  · right
    rw [h1]
    refine ⟨r.reverse, rfl, a.reverse, ?_, by simpa using h3⟩
    have := congrArg List.reverse h2
    rw [List.reverse_reverse] at this
    rw [this]; simp

theorem dotParent_unique {s a a' : Str} (h : DotParent s a) (h' : DotParent s a') : a = a' := by
  obtain ⟨b, rfl, hb⟩ := h
  obtain ⟨b', e, hb'⟩ := h'
  rcases List.append_eq_append_iff.1 e with ⟨x, h1, h2⟩ | ⟨x, h1, h2⟩
  · cases x with
    | nil => simpa using h1.symm
    | cons c x =>
      simp only [List.cons_append, List.cons.injEq] at h2
      exfalso; apply hb; rw [h2.2]; simp
  · cases x with
    | nil => simpa using h1
    | cons c x =>
      simp only [List.cons_append, List.cons.injEq] at h2
      exfalso; apply hb'; rw [h2.2]; simp

theorem dotParent_mem {s a : Str} (h : DotParent s a) : '.' ∈ s := by
  obtain ⟨b, rfl, _⟩ := h; simp

theorem search_some {t : Table} {n : Str} {d : Sym} (h : t.search n = some d) : (n, d) ∈ t := by
  unfold Table.search at h
  rw [Option.map_eq_some_iff] at h
  obtain ⟨e, h1, rfl⟩ := h
  have := List.find?_some h1
  simp only [beq_iff_eq] at this
  rw [← this]
  exact List.mem_of_find?_eq_some h1

theorem search_none {t : Table} {n : Str} (h : t.search n = none) : ∀ d, (n, d) ∉ t := by
  unfold Table.search at h
  rw [Option.map_eq_none_iff, List.find?_eq_none] at h
  intro d hd
  exact h _ hd (by simp)

theorem nameOf_some {t : Table} (ok : TableOk t) {e : Str × Sym} (he : e ∈ t) : ∃ n, t.nameOf e.2.value = some n ∧ Named t e.2.value n := by
  obtain ⟨e', h1, h2, h3⟩ := ok.all e he
  unfold Table.nameOf
  cases hf : t.find? (fun x => x.2.primary && x.2.value == e.2.value) with
  | none =>
    rw [List.find?_eq_none] at hf
    exact absurd (by simp [h2, h3]) (hf e' h1)
  | some x =>
    have := List.find?_some hf
    simp only [Bool.and_eq_true, beq_iff_eq] at this
    exact ⟨x.1, rfl, x.2, List.mem_of_find?_eq_some hf, this⟩

theorem named_unique {t : Table} (ok : TableOk t) {v : Nat} {n n' : Str} (h : Named t v n) (h' : Named t v n') : n = n' := by
  obtain ⟨d, h1, h2, h3⟩ := h
  obtain ⟨d', h1', h2', h3'⟩ := h'
  have := ok.one _ h1 _ h1' h2 h2' (by simp [h3, h3'])
  exact congrArg Prod.fst this

theorem structOf_iff {t : Table} (ok : TableOk t) {v : Nat} {d : Sym} :
    t.structOf v = some d ↔ ∃ n, (n, d) ∈ t ∧ d.primary = true ∧ d.value = v := by
  unfold Table.structOf
  rw [Option.map_eq_some_iff]
  constructor
  · rintro ⟨e, h1, rfl⟩
    have := List.find?_some h1
    simp only [Bool.and_eq_true, beq_iff_eq] at this
    exact ⟨e.1, List.mem_of_find?_eq_some h1, this⟩
  · rintro ⟨n, h1, h2, h3⟩
    cases hf : t.find? (fun x => x.2.primary && x.2.value == v) with
    | none =>
      rw [List.find?_eq_none] at hf
      exact absurd (by simp [h2, h3]) (hf _ h1)
    | some x =>
      have := List.find?_some hf
      simp only [Bool.and_eq_true, beq_iff_eq] at this
      have := ok.one _ h1 _ (List.mem_of_find?_eq_some hf) h2 this.1 (by simp [h3, this.2])
      exact ⟨x, rfl, by rw [← this]⟩

theorem addBound_spec {t : Table} (ok : TableOk t) {e : Str × Sym} (he : e ∈ t) :
    ∃ v k, addBound t e.2 = some ({ e.2 with bounds := v }, k) ∧ BoundIs t e.2 v ∧ (k = 0 ↔ ¬ Orphan t e.2) := by
  unfold addBound
  by_cases hb : e.2.bounds = 0
  · obtain ⟨n, h1, h2⟩ := nameOf_some ok he
    simp only [hb, ne_eq, not_true_eq_false, if_false, h1, Option.bind_some]
    rcases parentName_spec n with ⟨h3, h4⟩ | ⟨a, h3, h4⟩
    · rw [h3]
      refine ⟨0, 0, ?_, Or.inr ⟨hb, n, h2, Or.inl ⟨h4, rfl⟩⟩, ?_⟩
      · simp only [Option.some.injEq, Prod.mk.injEq, and_true]
        cases h : e.2; rw [h] at hb; simp at hb; simp [hb]
      · simp only [true_iff]
        rintro ⟨_, n', a, h5, h6, _⟩
        rw [named_unique ok h5 h2] at h6
        exact h4 (dotParent_mem h6)
    · rw [h3]
      simp only
      cases hs : t.search a with
      | none =>
        have orph : Orphan t e.2 := ⟨hb, n, a, h2, h4, search_none hs⟩
        refine ⟨0, 1, ?_, Or.inr ⟨hb, n, h2, Or.inr (Or.inr ⟨orph, rfl⟩)⟩, by simp [orph]⟩
        simp only [Option.some.injEq, Prod.mk.injEq, and_true]
        cases h : e.2; rw [h] at hb; simp at hb; simp [hb]
      | some pd =>
        refine ⟨pd.value, 0, rfl, Or.inr ⟨hb, n, h2, Or.inr (Or.inl ⟨a, pd, h4, search_some hs, rfl⟩)⟩, ?_⟩
        simp only [true_iff]
        rintro ⟨_, n', a', h5, h6, h7⟩
        rw [named_unique ok h5 h2] at h6
        rw [dotParent_unique h6 h4] at h7
        exact h7 pd (search_some hs)
  · simp only [hb, ne_eq, not_false_eq_true, if_true]
    exact ⟨e.2.bounds, 0, rfl, Or.inl ⟨hb, rfl⟩, by simp [Orphan, hb]⟩

theorem addBoundsLoop_spec {t : Table} (ok : TableOk t) (l : Table) (hl : ∀ e ∈ l, e ∈ t) :
    ∃ l' k, addBoundsLoop t l = some (l', k) ∧
      List.Forall₂ (fun e e' => ∃ v, BoundIs t e.2 v ∧ e' = (e.1, { e.2 with bounds := v })) l l' ∧
      (k = 0 ↔ ∀ e ∈ l, ¬ Orphan t e.2) := by
  induction l with
  | nil => exact ⟨[], 0, rfl, .nil, by simp⟩
  | cons e l ih =>
    obtain ⟨v, k, h1, h2, h3⟩ := addBound_spec ok (hl e List.mem_cons_self)
    obtain ⟨l', k', h4, h5, h6⟩ := ih (fun e he => hl e (List.mem_cons_of_mem _ he))
    refine ⟨(e.1, { e.2 with bounds := v }) :: l', k + k', by rw [addBoundsLoop, h1]; simp [h4], .cons ⟨v, h2, rfl⟩ h5, ?_⟩
    rw [Nat.add_eq_zero_iff, h3, h6]
    simp

/-- What completion keeps. -/
theorem completed_mem {t t' : Table} (h : Completed t t') :
    (∀ e ∈ t, ∃ v, BoundIs t e.2 v ∧ (e.1, { e.2 with bounds := v }) ∈ t') ∧
    (∀ e' ∈ t', ∃ e ∈ t, ∃ v, BoundIs t e.2 v ∧ e' = (e.1, { e.2 with bounds := v })) := by
  have aux : ∀ {l l' : Table}, List.Forall₂ (fun e e' => ∃ v, BoundIs t e.2 v ∧ e' = (e.1, { e.2 with bounds := v })) l l' →
      (∀ e ∈ l, ∃ v, BoundIs t e.2 v ∧ (e.1, { e.2 with bounds := v }) ∈ l') ∧
      (∀ e' ∈ l', ∃ e ∈ l, ∃ v, BoundIs t e.2 v ∧ e' = (e.1, { e.2 with bounds := v })) := by
    intro l l' hf
    induction hf with
    | nil => simp
    | cons hr _ ih =>
      obtain ⟨v, hv, rfl⟩ := hr
      constructor
      · intro e he
        rcases List.mem_cons.1 he with rfl | he
        · exact ⟨v, hv, List.mem_cons_self⟩
        · obtain ⟨w, h1, h2⟩ := ih.1 e he
          exact ⟨w, h1, List.mem_cons_of_mem _ h2⟩
      · intro e' he
        rcases List.mem_cons.1 he with rfl | he
        · exact ⟨_, List.mem_cons_self, v, hv, rfl⟩
        · obtain ⟨e, h1, w, h2, h3⟩ := ih.2 e' he
          exact ⟨e, List.mem_cons_of_mem _ h1, w, h2, h3⟩
  exact aux h

theorem boundIs_unique {t : Table} (ok : TableOk t) {d : Sym} {v v' : Nat} (h : BoundIs t d v) (h' : BoundIs t d v') : v = v' := by
  rcases h with ⟨hz, rfl⟩ | ⟨hz, n, hn, hc⟩ <;> rcases h' with ⟨hz', rfl⟩ | ⟨hz', n', hn', hc'⟩
  · rfl
  · exact absurd hz' hz
  · exact absurd hz hz'
  · have := named_unique ok hn hn'; subst this
    rcases hc with ⟨a1, rfl⟩ | ⟨a, pd, a1, a2, rfl⟩ | ⟨⟨_, n1, a, a1, a2, a3⟩, rfl⟩ <;>
      rcases hc' with ⟨b1, rfl⟩ | ⟨b, pd', b1, b2, rfl⟩ | ⟨⟨_, n2, b, b1, b2, b3⟩, rfl⟩
    · rfl
    · exact absurd (dotParent_mem b1) a1
    · rfl
    · exact absurd (dotParent_mem a1) b1
    · have := dotParent_unique a1 b1; subst this
      rw [ok.names _ _ _ a2 b2]
    · have := named_unique ok hn b1; subst this
      have := dotParent_unique a1 b2; subst this
      exact absurd a2 (b3 _)
    · rfl
    · have := named_unique ok hn a1; subst this
      have := dotParent_unique b1 a2; subst this
      exact absurd b2 (a3 _)
    · rfl

theorem completed_ok {t t' : Table} (ok : TableOk t) (h : Completed t t') : TableOk t' := by
  obtain ⟨h1, h2⟩ := completed_mem h
  refine ⟨?_, ?_, ?_, ?_⟩
  · intro n d d' hd hd'
    obtain ⟨e, he, v, hv, e1⟩ := h2 _ hd
    obtain ⟨e', he', v', hv', e2⟩ := h2 _ hd'
    simp only [Prod.mk.injEq] at e1 e2
    have h3 : e.2 = e'.2 := ok.names n _ _ (by rw [e1.1]; exact he) (by rw [e2.1]; exact he')
    rw [h3] at hv e1
    rw [e1.2, e2.2, boundIs_unique ok hv hv']
  · intro e he e' he' p1 p2 hv
    obtain ⟨x, hx, v, hv1, rfl⟩ := h2 _ he
    obtain ⟨x', hx', v', hv2, rfl⟩ := h2 _ he'
    have := ok.one x hx x' hx' p1 p2 hv
    subst this
    rw [boundIs_unique ok hv1 hv2]
  · intro e he
    obtain ⟨x, hx, v, hv1, rfl⟩ := h2 _ he
    obtain ⟨y, hy, hp, hv⟩ := ok.all x hx
    obtain ⟨w, _, hw⟩ := h1 y hy
    exact ⟨_, hw, hp, hv⟩
  · intro e he
    obtain ⟨x, hx, v, hv1, rfl⟩ := h2 _ he
    exact ok.wf x hx

theorem completed_struct {t t' : Table} (ok : TableOk t) (h : Completed t t') (v : Nat) :
    (t'.structOf v).map Sym.flavor = (t.structOf v).map Sym.flavor := by
  obtain ⟨h1, h2⟩ := completed_mem h
  have ok' := completed_ok ok h
  cases hs : t.structOf v with
  | some d =>
    obtain ⟨n, hm, hp, hv⟩ := (structOf_iff ok).1 hs
    obtain ⟨w, _, hw⟩ := h1 _ hm
    rw [(structOf_iff ok').2 ⟨n, hw, hp, hv⟩]
    rfl
  | none =>
    cases hs' : t'.structOf v with
    | none => rfl
    | some d' =>
      obtain ⟨n, hm, hp, hv⟩ := (structOf_iff ok').1 hs'
      obtain ⟨x, hx, w, _, e⟩ := h2 _ hm
      simp only [Prod.mk.injEq] at e
      have := (structOf_iff ok (v := v) (d := x.2)).2 ⟨x.1, hx, by rw [e.2] at hp; exact hp, by rw [e.2] at hv; exact hv⟩
      rw [hs] at this; cases this

/-! ## The policy with other bounds -/

/-- Replace the type data. -/
def withTypes (p : OPolicy) (f : Nat → Option TypeDatum) : OPolicy := { p with sp := { p.sp with typeStruct := f } }

section
variable {p : OPolicy} {f : Nat → Option TypeDatum} (hf : ∀ i, (f i).map TypeDatum.flavor = (p.sp.typeStruct i).map TypeDatum.flavor)
include hf

theorem wt_none (i : Nat) : f i = none ↔ p.sp.typeStruct i = none := by
  have := hf i
  cases h1 : f i <;> cases h2 : p.sp.typeStruct i <;> simp_all

theorem wt_attr (i : Nat) : isAttr (withTypes p f).sp i = isAttr p.sp i := by
  have := hf i
  unfold isAttr withTypes
  cases h1 : f i <;> cases h2 : p.sp.typeStruct i <;> simp_all

theorem wt_plain (s : Nat) : PlainType (withTypes p f) s ↔ PlainType p s := by
  have := hf (s - 1)
  unfold PlainType withTypes
  cases h1 : f (s - 1) <;> cases h2 : p.sp.typeStruct (s - 1) <;> simp_all

theorem wt_rule {n : Avtab.Node} (h : RuleOk p.sp n) : RuleOk (withTypes p f).sp n :=
  ⟨h.kind, ⟨h.source.1, h.source.2.1, fun h' => h.source.2.2 ((wt_none hf _).1 h')⟩,
    ⟨h.target.1, h.target.2.1, fun h' => h.target.2.2 ((wt_none hf _).1 h')⟩, h.block⟩

theorem wt_ok {σ0 : Cond.State} (ok : AssertOk p σ0) : AssertOk (withTypes p f) σ0 where
  te := ok.te
  teRules := fun n hn => wt_rule hf (ok.teRules n hn)
  cond := ok.cond
  ids := ok.ids
  condRules := fun id hid => wt_rule hf (ok.condRules id hid)
  own := ok.own
  all := ok.all
  consistent := ok.consistent
  small := ok.small
  attr := ok.attr
  attrWF := ok.attrWF
  attrTypeWF := ok.attrTypeWF
  proper := fun i m b h1 h2 h3 => by
    rw [wt_attr hf] at h1 ⊢
    exact ok.proper i m b h1 h2 h3
  inverse := fun i m a h1 h2 h3 => by
    rw [wt_attr hf] at h1 h2
    exact ok.inverse i m a h1 h2 h3
  members := fun a i h1 h2 => (wt_plain hf _).2 (ok.members a i h1 h2)
  self := fun i h => ok.self i ((wt_plain hf _).1 h)
  only := fun a i h => ok.only a i ((wt_plain hf _).1 h)
  noData := ok.noData

end

/-- The policy with the completed tables. -/
structure CompletedPolicy (h h' : HPolicy) : Prop where
  op : h'.op = h.op
  types : Completed h.types h'.types
  roles : Completed h.roles h'.roles
  users : Completed h.users h'.users

theorem completedPolicy_ok {h h' : HPolicy} {σ0 : Cond.State} (ok : HOk h σ0) (c : CompletedPolicy h h') : HOk h' σ0 := by
  have e : h'.pol = withTypes h.pol (fun i => (h'.types.structOf (i + 1)).map Sym.typeDatum) := by
    unfold HPolicy.pol withTypes; rw [c.op]
  refine ⟨?_, completed_ok ok.types c.types, completed_ok ok.roles c.roles, completed_ok ok.users c.users, ?_⟩
  · rw [e]
    apply wt_ok _ ok.pol
    intro i
    have := completed_struct ok.types c.types (i + 1)
    show Option.map _ (Option.map _ _) = Option.map _ (Option.map _ _)
    rw [Option.map_map, Option.map_map]
    exact this
  · intro e' he'
    rw [c.op]
    obtain ⟨x, hx, v, hv, rfl⟩ := (completed_mem c.types).2 _ he'
    refine ⟨(ok.values x hx).1, ?_⟩
    show v ≤ _
    rcases hv with ⟨_, rfl⟩ | ⟨_, n, _, ⟨_, rfl⟩ | ⟨a, pd, _, hm, rfl⟩ | ⟨_, rfl⟩⟩
    · exact (ok.values x hx).2
    · omega
    · exact (ok.values _ hm).1.2
    · omega

theorem completedPolicy_plain {h h' : HPolicy} (ok : TableOk h.types) (c : CompletedPolicy h h') (s : Nat) : PlainType h'.pol s ↔ PlainType h.pol s := by
  have e : h'.pol = withTypes h.pol (fun i => (h'.types.structOf (i + 1)).map Sym.typeDatum) := by
    unfold HPolicy.pol withTypes; rw [c.op]
  rw [e]
  apply wt_plain
  intro i
  have := completed_struct ok c.types (i + 1)
  show Option.map _ (Option.map _ _) = Option.map _ (Option.map _ _)
  rw [Option.map_map, Option.map_map]
  exact this

theorem boundsOk_of {h : HPolicy} {σ0 : Cond.State} (ok : HOk h σ0) : BoundsOk h.pol := by
  intro i d hd
  change (h.types.structOf (i + 1)).map Sym.typeDatum = some d at hd
  rw [Option.map_eq_some_iff] at hd
  obtain ⟨s, h1, rfl⟩ := hd
  obtain ⟨n, hm, _⟩ := (structOf_iff ok.types).1 h1
  exact (ok.values _ hm).2

theorem addBounds_spec {h : HPolicy} {σ0 : Cond.State} (ok : HOk h σ0) :
    ∃ h' r, addBounds h = some (h', r) ∧ CompletedPolicy h h' ∧
      (r = true ↔ (∀ e ∈ h.types, ¬ Orphan h.types e.2) ∧ (∀ e ∈ h.roles, ¬ Orphan h.roles e.2) ∧ ∀ e ∈ h.users, ¬ Orphan h.users e.2) := by
  obtain ⟨u, ku, hu1, hu2, hu3⟩ := addBoundsLoop_spec ok.users h.users (fun _ h => h)
  obtain ⟨ro, kr, hr1, hr2, hr3⟩ := addBoundsLoop_spec ok.roles h.roles (fun _ h => h)
  obtain ⟨ty, kt, ht1, ht2, ht3⟩ := addBoundsLoop_spec ok.types h.types (fun _ h => h)
  refine ⟨{ h with users := u, roles := ro, types := ty }, ku + kr + kt == 0, ?_, ⟨rfl, ht2, hr2, hu2⟩, ?_⟩
  · unfold addBounds
    rw [hu1, hr1, ht1]
    rfl
  · rw [beq_iff_eq, ← hu3, ← hr3, ← ht3]
    omega

theorem checkTable_iff {t : Table} (ok : TableOk t) : checkTable t = true ↔ SetsWithin t := by
  unfold checkTable
  rw [beq_iff_eq, List.countP_eq_zero]
  unfold SetsWithin
  constructor
  · intro h e he e' he' hb hp hv i
    have := h e he
    unfold exceeds at this
    rw [if_neg hb, (structOf_iff ok).2 ⟨e'.1, he', hp, hv⟩] at this
    simp only [Bool.not_eq_true', Bool.not_eq_false] at this
    exact (Ebitmap.contains_iff_bits ((Ebitmap.wf_iff_inv _).1 (ok.wf e' he')) ((Ebitmap.wf_iff_inv _).1 (ok.wf e he))).1 this i
  · intro h e he
    unfold exceeds
    split
    · simp
    · rename_i hb
      cases hs : t.structOf e.2.bounds with
      | none => simp
      | some pd =>
        obtain ⟨n, hm, hp, hv⟩ := (structOf_iff ok).1 hs
        simp only [Bool.not_eq_true', Bool.not_eq_false]
        exact (Ebitmap.contains_iff_bits ((Ebitmap.wf_iff_inv _).1 (ok.wf _ hm)) ((Ebitmap.wf_iff_inv _).1 (ok.wf e he))).2
          (h e he _ hm hb hp hv)

theorem checkTypes_spec {p : OPolicy} {σ0 : Cond.State} (ok : AssertOk p σ0) (l : Table) :
    ∃ n, checkTypes p l = some n ∧ (n = 0 ↔ ∀ e ∈ l, e.2.bounds ≠ 0 → checkType p e.2.value e.2.bounds = some []) := by
  induction l with
  | nil => exact ⟨0, rfl, by simp⟩
  | cons e l ih =>
    obtain ⟨n, h1, h2⟩ := ih
    rw [checkTypes]
    by_cases hb : e.2.bounds = 0
    · refine ⟨n, by simp [hb, h1], ?_⟩
      rw [h2]; simp [hb]
    · obtain ⟨_, _, bad, hc, _⟩ := checkType_spec ok.attrTypeWF e.2.value e.2.bounds
        (fun n hn => inRange_of (ok.teRules n hn)) (cond_inRange ok)
      refine ⟨bad.length + n, by simp [hb, hc, h1], ?_⟩
      rw [Nat.add_eq_zero_iff, h2, List.length_eq_zero_iff]
      simp [hb, hc]

theorem checkConstraints_spec {h : HPolicy} {σ0 : Cond.State} (ok : HOk h σ0) :
    ∃ h' r, checkConstraints h = some (h', r) ∧ CompletedPolicy h h' ∧
      (r = true ↔ ((∀ e ∈ h.types, ¬ Orphan h.types e.2) ∧ (∀ e ∈ h.roles, ¬ Orphan h.roles e.2) ∧ ∀ e ∈ h.users, ¬ Orphan h.users e.2) ∧
        SetsWithin h'.users ∧ SetsWithin h'.roles ∧
        ∀ e ∈ h'.types, e.2.bounds ≠ 0 → checkType h'.pol e.2.value e.2.bounds = some []) := by
  obtain ⟨h', r, h1, h2, h3⟩ := addBounds_spec ok
  have ok' := completedPolicy_ok ok h2
  unfold checkConstraints
  rw [h1]
  simp only [Option.bind_some]
  cases r with
  | false =>
    refine ⟨h', false, rfl, h2, ?_⟩
    simp only [Bool.false_eq_true, false_iff] at h3 ⊢
    exact fun hc => h3 hc.1
  | true =>
    obtain ⟨n, k1, k2⟩ := checkTypes_spec ok'.pol h'.types
    refine ⟨h', checkTable h'.users && checkTable h'.roles && n == 0, by simp [k1], h2, ?_⟩
    rw [Bool.and_eq_true, Bool.and_eq_true, checkTable_iff ok'.users, checkTable_iff ok'.roles, beq_iff_eq, k2]
    have := h3.1 rfl
    exact ⟨fun ⟨⟨a, b⟩, c⟩ => ⟨this, a, b, c⟩, fun ⟨_, a, b, c⟩ => ⟨⟨a, b⟩, c⟩⟩

end Verif.Bounds
