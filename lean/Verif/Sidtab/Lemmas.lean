import Verif.Sidtab.Spec
import Verif.Mls.Props

namespace Verif.Sidtab
open Verif.Policy Verif.Mls

/-- Representation invariant. -/
structure Inv (s : Sidtab) : Prop where
  sorted : ∀ i, (s.htable i).Pairwise (fun a b => a.1 < b.1)
  bucket : ∀ i, ∀ n ∈ s.htable i, n.1 % 128 = i
  small : ∀ i, ∀ n ∈ s.htable i, 0 < n.1 ∧ n.1 < s.nextSid
  next : 0 < s.nextSid ∧ s.nextSid ≤ 2 ^ 32 - 1
  wf : ∀ i, ∀ n ∈ s.htable i, WFRange n.2.range

theorem inv_init : Inv init := by
  constructor <;> simp [init]

theorem walk_spec (sid : Nat) : ∀ l : List (Nat × Context), l.Pairwise (fun a b => a.1 < b.1) →
    (walk sid l).1 ++ (walk sid l).2 = l ∧ (∀ n ∈ (walk sid l).1, n.1 < sid) ∧ (∀ n ∈ (walk sid l).2, sid ≤ n.1) := by
  intro l
  induction l with
  | nil => intro _; simp [walk]
  | cons n l ih =>
    intro hp
    rw [List.pairwise_cons] at hp
    unfold walk
    by_cases h : sid > n.1
    · rw [if_pos h]
      obtain ⟨i1, i2, i3⟩ := ih hp.2
      refine ⟨by simp [i1], ?_, i3⟩
      intro m hm
      rcases List.mem_cons.mp hm with rfl | hm
      · exact h
      · exact i2 m hm
    · rw [if_neg h]
      refine ⟨rfl, by simp, ?_⟩
      intro m hm
      rcases List.mem_cons.mp hm with rfl | hm
      · omega
      · have := hp.1 m hm; omega

theorem lookup_iff {s : Sidtab} (hi : Inv s) (sid : Nat) (c : Context) :
    lookup s sid = some c ↔ (sid, c) ∈ s.htable (hash sid) := by
  obtain ⟨w1, w2, w3⟩ := walk_spec sid (s.htable (hash sid)) (hi.sorted _)
  have hs := hi.sorted (hash sid)
  unfold lookup
  rw [← w1] at hs
  rw [← w1]
  rw [List.pairwise_append] at hs
  generalize hw1 : (walk sid (s.htable (hash sid))).1 = w at *
  have hnw : (sid, c) ∉ w := fun h => by have := w2 _ h; simp at this
  rw [List.mem_append]
  rw [w1]
  cases hr : (walk sid (s.htable (hash sid))).2 with
  | nil => simp [hnw]
  | cons n l =>
    rw [hr] at hs w3
    simp only
    by_cases h : sid = n.1
    · rw [if_pos h]
      constructor
      · intro h'; right; simp only [Option.some.injEq] at h'; subst h'; rw [h]; exact List.mem_cons_self
      · rintro (h' | h')
        · exact absurd h' hnw
        · rcases List.mem_cons.mp h' with h' | h'
          · rw [← h']
          · have := (List.pairwise_cons.mp hs.2.1).1 _ h'
            simp only at this; omega
    · rw [if_neg h]
      simp only [reduceCtorEq, false_iff, not_or]
      refine ⟨hnw, fun h' => ?_⟩
      rcases List.mem_cons.mp h' with h' | h'
      · apply h; rw [← h']
      · have := (List.pairwise_cons.mp hs.2.1).1 _ h'
        have := w3 n List.mem_cons_self
        simp only at *; omega

theorem mem_nodes {s : Sidtab} (hi : Inv s) (sid : Nat) (c : Context) :
    (sid, c) ∈ nodes s ↔ lookup s sid = some c := by
  rw [lookup_iff hi]
  unfold nodes
  simp only [List.mem_flatMap, List.mem_range]
  constructor
  · rintro ⟨i, _, h⟩
    have := hi.bucket i _ h
    have : hash sid = i := this
    rw [this]; exact h
  · intro h
    exact ⟨hash sid, Nat.mod_lt _ (by decide), h⟩

theorem insert_spec {s : Sidtab} (hi : Inv s) (sid : Nat) (c : Context) :
    (insert s sid c = none ↔ lookup s sid ≠ none) ∧
    ∀ s', insert s sid c = some s' →
      (s'.nextSid = if sid ≥ s.nextSid then (sid + 1) % 2 ^ 32 else s.nextSid) ∧
      s'.nel = s.nel + 1 ∧ s'.shutdown = s.shutdown ∧
      ∃ w1 w2, s.htable (hash sid) = w1 ++ w2 ∧ s'.htable (hash sid) = w1 ++ (sid, c) :: w2 ∧
        (∀ n ∈ w1, n.1 < sid) ∧ (∀ n ∈ w2, sid < n.1) ∧ ∀ i, i ≠ hash sid → s'.htable i = s.htable i := by
  obtain ⟨w1, w2, w3⟩ := walk_spec sid (s.htable (hash sid)) (hi.sorted _)
  have hcpy : contextCpy c = c := by unfold contextCpy; rw [rangeCpy_eq]
  have hs := hi.sorted (hash sid)
  rw [← w1, List.pairwise_append] at hs
  unfold insert
  dsimp only
  have hhead : ((walk sid (s.htable (hash sid))).2.head?.map (·.1)) = some sid ↔ lookup s sid ≠ none := by
    unfold lookup
    cases (walk sid (s.htable (hash sid))).2 with
    | nil => simp
    | cons n l =>
      simp only [List.head?_cons, Option.map_some, Option.some.injEq]
      constructor
      · intro h; rw [if_pos h.symm]; simp
      · intro h; by_contra hne; apply h; rw [if_neg]; exact fun e => hne e.symm
  by_cases h : ((walk sid (s.htable (hash sid))).2.head?.map (·.1)) = some sid
  · rw [if_pos h]; exact ⟨by simp [hhead.mp h], by simp⟩
  · rw [if_neg h]
    refine ⟨by simp only [reduceCtorEq, false_iff]; exact fun h' => h (hhead.mpr h'), ?_⟩
    intro s' hs'
    simp only [Option.some.injEq] at hs'
    subst hs'
    refine ⟨rfl, rfl, rfl, _, _, w1.symm, by simp [hcpy], w2, ?_, fun i hne => by simp [hne]⟩
    intro n hn
    have h1 := w3 n hn
    cases hr : (walk sid (s.htable (hash sid))).2 with
    | nil => rw [hr] at hn; simp at hn
    | cons m l =>
      rw [hr] at hn h hs w3
      simp only [List.head?_cons, Option.map_some, Option.some.injEq] at h
      have h0 := w3 m List.mem_cons_self
      rcases List.mem_cons.mp hn with rfl | hn
      · omega
      · have := (List.pairwise_cons.mp hs.2.1).1 n hn; omega

theorem inv_insert {s s' : Sidtab} (hi : Inv s) {sid : Nat} {c : Context} (h0 : 0 < sid) (h1 : sid < 2 ^ 32 - 1)
    (hw : WFRange c.range) (h : insert s sid c = some s') : Inv s' := by
  obtain ⟨_, hsp⟩ := insert_spec hi sid c
  obtain ⟨n1, _, _, w1, w2, e1, e2, e3, e4, e5⟩ := hsp s' h
  have hnext : sid < s'.nextSid ∧ s.nextSid ≤ s'.nextSid ∧ s'.nextSid ≤ 2 ^ 32 - 1 := by
    rw [n1]; have := hi.next
    split
    · rw [Nat.mod_eq_of_lt (by omega)]; omega
    · omega
  have hmem : ∀ i n, n ∈ s'.htable i → n ∈ s.htable i ∨ (i = hash sid ∧ n = (sid, c)) := by
    intro i n hn
    by_cases hie : i = hash sid
    · subst hie
      rw [e2] at hn; rw [e1]
      simp only [List.mem_append, List.mem_cons] at hn ⊢
      tauto
    · rw [e5 i hie] at hn; exact Or.inl hn
  refine ⟨?_, ?_, ?_, ⟨by have := hi.next; omega, hnext.2.2⟩, ?_⟩
  · intro i
    by_cases hie : i = hash sid
    · subst hie
      have := hi.sorted (hash sid)
      rw [e1, List.pairwise_append] at this
      rw [e2, List.pairwise_append, List.pairwise_cons]
      refine ⟨this.1, ⟨e4, this.2.1⟩, ?_⟩
      intro a ha b hb
      rcases List.mem_cons.mp hb with rfl | hb
      · exact e3 a ha
      · exact this.2.2 a ha b hb
    · rw [e5 i hie]; exact hi.sorted i
  · intro i n hn
    rcases hmem i n hn with h | ⟨rfl, rfl⟩
    · exact hi.bucket i n h
    · rfl
  · intro i n hn
    rcases hmem i n hn with h | ⟨rfl, rfl⟩
    · have := hi.small i n h; omega
    · exact ⟨h0, hnext.1⟩
  · intro i n hn
    rcases hmem i n hn with h | ⟨rfl, rfl⟩
    · exact hi.wf i n h
    · exact hw

theorem lookup_insert {s s' : Sidtab} (hi : Inv s) (hi' : Inv s') {sid : Nat} {c : Context}
    (h : insert s sid c = some s') (x : Nat) :
    lookup s' x = if x = sid then some c else lookup s x := by
  obtain ⟨_, hsp⟩ := insert_spec hi sid c
  obtain ⟨n1, _, _, w1, w2, e1, e2, e3, e4, e5⟩ := hsp s' h
  by_cases hx : x = sid
  · subst hx
    rw [if_pos rfl, lookup_iff hi', e2]; simp
  · rw [if_neg hx]
    apply Option.ext
    intro d
    rw [lookup_iff hi', lookup_iff hi]
    by_cases hh : hash x = hash sid
    · rw [hh, e1, e2]
      simp only [List.mem_append, List.mem_cons, Prod.mk.injEq]
      constructor
      · rintro (h | h | h)
        · exact Or.inl h
        · exact absurd h.1 hx
        · exact Or.inr h
      · rintro (h | h)
        · exact Or.inl h
        · exact Or.inr (Or.inr h)
    · rw [e5 _ hh]

theorem cmp_iff {s : Sidtab} (hi : Inv s) {c : Context} (hc : WFRange c.range) {n : Nat × Context} (hn : n ∈ nodes s) :
    contextCmp n.2 c = true ↔ n.2 = c := by
  have : WFRange n.2.range := by
    unfold nodes at hn
    obtain ⟨i, _, h⟩ := List.mem_flatMap.mp hn
    exact hi.wf i n h
  exact (C11_cmp_cpy this hc).2

theorem searchContext_spec {s : Sidtab} (hi : Inv s) {c : Context} (hc : WFRange c.range) :
    (searchContext s c = 0 ↔ ∀ x, lookup s x ≠ some c) ∧
    (searchContext s c ≠ 0 → lookup s (searchContext s c) = some c) := by
  unfold searchContext
  cases hf : (nodes s).find? (fun n => contextCmp n.2 c) with
  | none =>
    simp only [ne_eq, not_true, false_imp_iff, and_true, true_iff]
    intro x hx
    rw [List.find?_eq_none] at hf
    have hm := (mem_nodes hi x c).mpr hx
    exact hf _ hm ((cmp_iff hi hc hm).mpr rfl)
  | some n =>
    have hm := List.mem_of_find?_eq_some hf
    have hp := List.find?_some hf
    have heq := (cmp_iff hi hc hm).mp hp
    have hl : lookup s n.1 = some c := by rw [← mem_nodes hi]; rw [← heq]; exact hm
    have hpos : n.1 ≠ 0 := by
      unfold nodes at hm
      obtain ⟨i, _, h⟩ := List.mem_flatMap.mp hm
      have := hi.small i n h; omega
    refine ⟨⟨fun h => absurd h hpos, fun h => absurd hl (h n.1)⟩, fun _ => hl⟩

theorem inv_bump {s : Sidtab} (hi : Inv s) (h : s.nextSid ≠ uintMax) : Inv { s with nextSid := s.nextSid + 1 } := by
  have := hi.next
  have hn : s.nextSid ≠ 2 ^ 32 - 1 := h
  refine ⟨hi.sorted, hi.bucket, ?_, ⟨?_, ?_⟩, hi.wf⟩
  · intro i n hn; have := hi.small i n hn; exact ⟨this.1, by show n.1 < s.nextSid + 1; omega⟩
  · show 0 < s.nextSid + 1; omega
  · show s.nextSid + 1 ≤ _; omega

theorem lookup_next {s : Sidtab} (hi : Inv s) (x : Nat) (hx : s.nextSid ≤ x) : lookup s x = none := by
  cases h : lookup s x with
  | none => rfl
  | some c =>
    rw [lookup_iff hi] at h
    have := (hi.small _ _ h).2
    simp only at this; omega

theorem find?_insert_other {α} (p : α → Bool) (a : α) (h : p a = false) (l1 l2 : List α) :
    (l1 ++ a :: l2).find? p = (l1 ++ l2).find? p := by
  rw [List.find?_append, List.find?_append, List.find?_cons, h]

theorem searchContext_insert {s s' : Sidtab} (hi : Inv s) {sid : Nat} {c d : Context}
    (hne : contextCmp c d = false) (h : insert s sid c = some s') : searchContext s' d = searchContext s d := by
  obtain ⟨_, hsp⟩ := insert_spec hi sid c
  obtain ⟨_, _, _, w1, w2, e1, e2, _, _, e5⟩ := hsp s' h
  unfold searchContext
  have : (nodes s').find? (fun n => contextCmp n.2 d) = (nodes s).find? (fun n => contextCmp n.2 d) := by
    unfold nodes
    generalize List.range size = L
    induction L with
    | nil => rfl
    | cons i L ih =>
      rw [List.flatMap_cons, List.flatMap_cons, List.find?_append, List.find?_append, ih]
      by_cases hie : i = hash sid
      · subst hie
        rw [e1, e2, find?_insert_other (fun n => contextCmp n.2 d) (sid, c) hne]
      · rw [e5 i hie]
  rw [this]

theorem contextToSid_spec {s : Sidtab} (hi : Inv s) {c : Context} (hc : WFRange c.range) :
    (contextToSid s c = none ↔ (∀ x, lookup s x ≠ some c) ∧ (s.nextSid = uintMax ∨ s.shutdown = true)) ∧
    ∀ s' sid, contextToSid s c = some (s', sid) →
      Inv s' ∧ 0 < sid ∧ lookup s' sid = some c ∧ (∀ x, x ≠ sid → lookup s' x = lookup s x) ∧
      ((s' = s ∧ searchContext s c = sid) ∨
        ((∀ x, lookup s x ≠ some c) ∧ sid = s.nextSid ∧ searchContext s c = 0 ∧
          ∃ s1, Inv s1 ∧ nodes s1 = nodes s ∧ insert s1 sid c = some s' ∧ ∀ x, lookup s1 x = lookup s x)) := by
  obtain ⟨h1, h2⟩ := searchContext_spec hi hc
  unfold contextToSid
  dsimp only
  by_cases h : searchContext s c ≠ 0
  · rw [if_pos h]
    refine ⟨?_, ?_⟩
    · simp only [reduceCtorEq, false_iff, not_and]; intro h'; exact absurd (h1.mpr h') h
    · intro s' sid hs
      simp only [Option.some.injEq, Prod.mk.injEq] at hs
      obtain ⟨rfl, rfl⟩ := hs
      exact ⟨hi, by omega, h2 h, fun _ _ => rfl, Or.inl ⟨rfl, rfl⟩⟩
  · rw [if_neg h]
    have h0 : searchContext s c = 0 := by simpa using h
    by_cases hn : s.nextSid = uintMax ∨ s.shutdown = true
    · rw [if_pos hn]
      exact ⟨by simp only [true_iff]; exact ⟨h1.mp h0, hn⟩, by simp⟩
    · rw [if_neg hn]
      have hi1 := inv_bump hi (fun h => hn (Or.inl h))
      have hlk : ∀ x, lookup { s with nextSid := s.nextSid + 1 } x = lookup s x := fun _ => rfl
      obtain ⟨i1, i2⟩ := insert_spec hi1 s.nextSid c
      cases hins : insert { s with nextSid := s.nextSid + 1 } s.nextSid c with
      | none =>
        have := i1.mp hins
        rw [hlk, lookup_next hi _ (Nat.le_refl _)] at this
        exact absurd rfl this
      | some s1 =>
        have hnx := hi.next
        have hlt : s.nextSid < 2 ^ 32 - 1 := by
          have : s.nextSid ≠ 2 ^ 32 - 1 := fun h => hn (Or.inl h)
          omega
        have hi2 := inv_insert hi1 hnx.1 hlt hc hins
        refine ⟨by simp [hn], ?_⟩
        intro s' sid hs
        simp only [Option.some.injEq, Prod.mk.injEq] at hs
        obtain ⟨rfl, rfl⟩ := hs
        have hl := lookup_insert hi1 hi2 hins
        refine ⟨hi2, hnx.1, by rw [hl]; simp, ?_, Or.inr ⟨h1.mp h0, rfl, h0, _, hi1, rfl, hins, hlk⟩⟩
        intro x hx
        rw [hl, if_neg hx, hlk]

theorem inv_step {s : Sidtab} (hi : Inv s) {o : Op} (ho : o.Ok) : Inv (step s o) := by
  cases o with
  | insert sid c =>
    simp only [step]
    cases h : insert s sid c with
    | none => exact hi
    | some s' => exact inv_insert hi ho.1 ho.2.1 ho.2.2 h
  | convert c =>
    simp only [step]
    cases h : contextToSid s c with
    | none => exact hi
    | some r => exact ((contextToSid_spec hi ho).2 r.1 r.2 h).1

theorem inv_run {s : Sidtab} (hi : Inv s) : ∀ {ops : List Op}, (∀ o ∈ ops, o.Ok) → Inv (run s ops) := by
  intro ops
  induction ops generalizing s with
  | nil => intro _; exact hi
  | cons o ops ih => intro h; exact ih (inv_step hi (h o (by simp))) (fun o' ho' => h o' (by simp [ho']))

theorem step_keeps {s : Sidtab} (hi : Inv s) {o : Op} (ho : o.Ok) {x : Nat} {c : Context} (h : lookup s x = some c) :
    lookup (step s o) x = some c := by
  cases o with
  | insert sid d =>
    simp only [step]
    cases hins : insert s sid d with
    | none => exact h
    | some s' =>
      rw [Option.getD_some, lookup_insert hi (inv_insert hi ho.1 ho.2.1 ho.2.2 hins) hins]
      by_cases hx : x = sid
      · subst hx
        have := ((insert_spec hi x d).1).mpr (by rw [h]; simp)
        rw [hins] at this; simp at this
      · rw [if_neg hx]; exact h
  | convert d =>
    simp only [step]
    cases hcv : contextToSid s d with
    | none => exact h
    | some r =>
      obtain ⟨h1, _, h3, h4, h5⟩ := (contextToSid_spec hi ho).2 r.1 r.2 hcv
      simp only [Option.map_some, Option.getD_some]
      by_cases hx : x = r.2
      · rcases h5 with h5 | h5
        · rw [h5.1]; exact h
        · rw [hx, h5.2.1] at h
          rw [lookup_next hi _ (Nat.le_refl _)] at h; simp at h
      · rw [h4 x hx]; exact h

theorem run_keeps {s : Sidtab} (hi : Inv s) : ∀ {ops : List Op}, (∀ o ∈ ops, o.Ok) → ∀ {x : Nat} {c : Context},
    lookup s x = some c → lookup (run s ops) x = some c := by
  intro ops
  induction ops generalizing s with
  | nil => intro _ x c h; exact h
  | cons o ops ih =>
    intro h x c hl
    exact ih (inv_step hi (h o (by simp))) (fun o' ho' => h o' (by simp [ho'])) (step_keeps hi (h o (by simp)) hl)

theorem convert_keeps_search {s : Sidtab} (hi : Inv s) {c d : Context} (hc : WFRange c.range) (hd : WFRange d.range)
    {x : Nat} (hx : searchContext s c = x) (hx0 : x ≠ 0) : searchContext (step s (.convert d)) c = x := by
  simp only [step]
  cases hcv : contextToSid s d with
  | none => exact hx
  | some r =>
    obtain ⟨h1, _, h3, h4, h5⟩ := (contextToSid_spec hi hd).2 r.1 r.2 hcv
    simp only [Option.map_some, Option.getD_some]
    rcases h5 with h5 | ⟨h5, h6, h7, s1, h8, h9, h10, h11⟩
    · rw [h5.1]; exact hx
    · have hlk := (searchContext_spec hi hc).2 (by rw [hx]; exact hx0)
      have hne : contextCmp d c = false := by
        cases hcmp : contextCmp d c with
        | false => rfl
        | true =>
          have := (C11_cmp_cpy hd hc).2.mp hcmp
          subst this
          exact absurd hlk (h5 _)
      rw [searchContext_insert h8 hne h10]
      unfold searchContext at hx ⊢
      rw [h9]; exact hx

theorem conversions_keep_search (cs : List Context) : ∀ {s : Sidtab}, Inv s → ∀ {c : Context}, WFRange c.range →
    (∀ d ∈ cs, WFRange d.range) →
    ∀ {x : Nat}, searchContext s c = x → x ≠ 0 → searchContext (run s (conversions cs)) c = x := by
  induction cs with
  | nil => intro s _ c _ _ x h _; exact h
  | cons d cs ih =>
    intro s hi c hc hcs x h h0
    have hd := hcs d (by simp)
    exact ih (s := step s (.convert d)) (inv_step hi (show Op.Ok (.convert d) from hd)) hc
      (fun e he => hcs e (by simp [he])) (convert_keeps_search hi hc hd h h0) h0

end Verif.Sidtab
