import Verif.Expand.Lemmas4

/-!
# The expansion of all rules
-/

namespace Verif.Expand
open Avtab (Key XPerms Datum hits)
open Ebitmap (Ebitmap getBit WF)

/-- The effect of a step on a query: what is there afterwards was there before or is new; and, when `B`
holds, nothing is missing. -/
def Effect (B Q' Q N : Prop) : Prop := (Q' → Q ∨ N) ∧ (B → Q ∨ N → Q')

theorem effect_of_iff {B Q' Q N : Prop} (h : Q' ↔ Q ∨ N) : Effect B Q' Q N := ⟨h.1, fun _ => h.2⟩

theorem effect_trans {B Q2 Q1 Q N1 N2 N : Prop} (h1 : Effect B Q1 Q N1) (h2 : Effect B Q2 Q1 N2) (hn : N1 ∨ N2 ↔ N) : Effect B Q2 Q N := by
  refine ⟨fun h => ?_, fun hb h => ?_⟩
  · rcases h2.1 h with h | h
    · rcases h1.1 h with h | h
      · exact .inl h
      · exact .inr (hn.1 (.inl h))
    · exact .inr (hn.1 (.inr h))
  · rcases h with h | h
    · exact h2.2 hb (.inl (h1.2 hb (.inl h)))
    · rcases hn.2 h with h | h
      · exact h2.2 hb (.inl (h1.2 hb (.inr h)))
      · exact h2.2 hb (.inr h)

theorem forM_effect {α σ : Type} {f : σ → α → Res σ} {Inv : σ → Prop} {Q : σ → Prop} {N : α → Prop} {B : Prop} :
    ∀ {l : List α} {s s' : σ}, (∀ s a s', a ∈ l → Inv s → f s a = .ok s' → Inv s' ∧ Effect B (Q s') (Q s) (N a)) →
      Inv s → forM f s l = .ok s' → Inv s' ∧ Effect B (Q s') (Q s) (∃ a ∈ l, N a)
  | [], s, s', _, hi, h => by
    simp only [forM, Res.ok.injEq] at h
    subst h
    exact ⟨hi, effect_of_iff (by simp)⟩
  | a :: l, s, s', hs, hi, h => by
    simp only [forM] at h
    obtain ⟨s1, h1, h2⟩ := Res.bind_ok.1 h
    obtain ⟨i1, q1⟩ := hs s a s1 (by simp) hi h1
    obtain ⟨i2, q2⟩ := forM_effect (l := l) (fun s a s' ha => hs s a s' (by simp [ha])) i1 h2
    exact ⟨i2, effect_trans q1 q2 (by simp only [List.mem_cons, exists_eq_or_imp])⟩

/-- The pairs of types of a rule. -/
def pairsOf (p : Types) (map : List Nat) (r : Rule) : List (Nat × Nat) :=
  let always := anyBit r.specified AVRULE_TYPE || anyBit r.flags RULE_SELF
  match convertTypeSet p map r.stypes always, convertTypeSet p map r.ttypes always with
  | .ok a, .ok b => pairs r a b
  | _, _ => []

theorem never_eq {s : BitVec 32} (hs : s ∈ avKinds ++ xKinds ++ typeKinds ++ neverKinds) :
    (s ∈ neverKinds ∧ (anyBit s NEVERALLOW = true ∨ anyBit s X_NEVERALLOW = true)) ∨
    (s ∈ avKinds ++ xKinds ++ typeKinds ∧ anyBit s NEVERALLOW = false ∧ anyBit s X_NEVERALLOW = false) := by
  simp only [avKinds, xKinds, typeKinds, neverKinds, List.mem_cons, List.mem_append, List.not_mem_nil, or_false] at hs
  rcases hs with (((rfl | rfl | rfl | rfl) | rfl | rfl | rfl) | rfl | rfl | rfl) | rfl | rfl <;> decide

theorem expandRule_eq {p : Types} (hp : TypesOk p) {map : List Nat} (hm : MapOk p map) {r : Rule} (hr : RuleOk map r) (nd : Bool) (d : Dest) (st : State) :
    expandRule p nd map d st r =
      if r.specified ∈ neverKinds then .ok st else forM (onePair nd map d r) st (pairsOf p map r) := by
  rcases never_eq hr.kind with ⟨h1, h2⟩ | ⟨h1, h2, h3⟩
  · rw [if_pos h1]
    unfold expandRule
    rcases h2 with h | h
    · simp [h]
    · simp [h]
  · have hn : r.specified ∉ neverKinds := by
      simp only [avKinds, xKinds, typeKinds, List.mem_cons, List.mem_append, List.not_mem_nil, or_false] at h1
      rcases h1 with ((h | h | h | h) | h | h | h) | h | h | h <;> rw [h] <;> decide
    rw [if_neg hn]
    unfold expandRule pairsOf
    obtain ⟨a, ha, _⟩ := convertTypeSet_ok hp hm hr.source (anyBit r.specified AVRULE_TYPE || anyBit r.flags RULE_SELF)
    obtain ⟨b, hb, _⟩ := convertTypeSet_ok hp hm hr.target (anyBit r.specified AVRULE_TYPE || anyBit r.flags RULE_SELF)
    simp only [h2, h3, Bool.false_eq_true, if_false, ha, hb, Res.bind]

theorem type_not_av {s : BitVec 32} (hs : s ∈ typeKinds) :
    anyBit s (AVRULE_AV ||| AVRULE_XPERMS) = false ∧ anyBit s AVRULE_TYPE = true := by
  simp only [typeKinds, List.mem_cons, List.not_mem_nil, or_false] at hs
  rcases hs with rfl | rfl | rfl <;> decide

theorem onePair_type {s : Rule} (hs : s.specified ∈ typeKinds) (nd : Bool) (map : List Nat) (d : Dest) (st : State) (ij : Nat × Nat) :
    onePair nd map d s st ij = teClasses map s.specified d ij.1 ij.2 st s.perms := by
  simp [onePair, (type_not_av hs).1, teruleHelper, (type_not_av hs).2]

/-- What a rule adds for a query about access vectors or extended permissions. -/
def AvAdds (p : Types) (nd : Bool) (map : List Nat) (q : Nat × Nat × Nat × BitVec 16)
    (N : BitVec 32 → Option XPerms → ClassPerm → Prop) (r : Rule) : Prop :=
  r.specified ∈ avKinds ++ xKinds ∧ skipped nd r.specified = false ∧ ∃ ij ∈ pairsOf p map r, ∃ cp ∈ r.perms,
    q = core (mkKey r.specified ij.1 ij.2 cp.tclass) ∧ N r.specified r.xperms cp

/-- What a rule adds for a query about types. -/
def TypeAdds (p : Types) (map : List Nat) (q : Nat × Nat × Nat × BitVec 16) (w : BitVec 32) (r : Rule) : Prop :=
  r.specified ∈ typeKinds ∧ ∃ ij ∈ pairsOf p map r, ∃ cp ∈ r.perms,
    q = core (mkKey r.specified ij.1 ij.2 cp.tclass) ∧ ∃ v, map[(cp.data - 1#32).toNat]? = some v ∧ w = BitVec.ofNat 32 v

theorem disjoint_kinds {s : BitVec 32} (h1 : s ∈ avKinds ++ xKinds ++ typeKinds) (h2 : s ∉ avKinds ++ xKinds) : s ∈ typeKinds :=
  (List.mem_append.1 h1).resolve_left h2

theorem type_ne_av {s : BitVec 32} (h : s ∈ typeKinds) : s ∉ avKinds ++ xKinds := by
  simp only [typeKinds, List.mem_cons, List.not_mem_nil, or_false] at h
  rcases h with rfl | rfl | rfl <;> decide

theorem never_ne {s : BitVec 32} (h : s ∈ neverKinds) : s ∉ avKinds ++ xKinds ∧ s ∉ typeKinds := by
  simp only [neverKinds, List.mem_cons, List.not_mem_nil, or_false] at h
  rcases h with rfl | rfl <;> decide

/-- A rule and a query about access vectors or extended permissions. -/
theorem expandRule_av {p : Types} (hp : TypesOk p) {map : List Nat} (hm : MapOk p map) {r : Rule} (hr : RuleOk map r) (nd : Bool)
    {X : Prop} {Z : Nat → Prop} {d : Dest} (hd : DestOk d) (hz : ∀ c, d.ctx = some c → ¬ Z c) {st st' : State} (hi : Inv X Z d st)
    (h : expandRule p nd map d st r = .ok st') {c : Option Nat} {q : Nat × Nat × Nat × BitVec 16} {P : Datum → Prop}
    {N : BitVec 32 → Option XPerms → ClassPerm → Prop} (hq : q.2.2.2 ∉ tKinds) (hcomp : Compat q.2.2.2 P N)
    (hX : q.2.2.2 ∈ [0x100#16, 0x200#16, 0x400#16] → X ∨ c = none) (B : Prop) :
    Inv X Z d st' ∧ Effect B (Asks st' c q P) (Asks st c q P) (c = d.ctx ∧ AvAdds p nd map q N r) := by
  rw [expandRule_eq hp hm hr] at h
  split at h
  · rename_i hn
    simp only [Res.ok.injEq] at h
    subst h
    refine ⟨hi, effect_of_iff ?_⟩
    simp [AvAdds, (never_ne hn).1]
  · rename_i hn
    have hk := (List.mem_append.1 hr.kind).resolve_right hn
    by_cases hav : r.specified ∈ avKinds ++ xKinds
    · obtain ⟨i1, e1⟩ := forM_effect (Inv := Inv X Z d) (Q := fun st => Asks st c q P) (B := B)
        (N := fun ij => c = d.ctx ∧ skipped nd r.specified = false ∧
          ∃ cp ∈ r.perms, q = core (mkKey r.specified ij.1 ij.2 cp.tclass) ∧ N r.specified r.xperms cp)
        (by
          intro s ij s' _ hs hsok
          obtain ⟨s2, g1, g2, g3⟩ := onePair_av hs hz nd map hav hr.xperms ij (c := c) hcomp (by
            intro h0 h1 h2
            have : X ∨ c = none := hX (by
              rw [h2]
              simp only [xKinds, List.mem_cons, List.not_mem_nil, or_false] at h1
              rcases h1 with h | h | h <;> rw [h] <;> decide)
            rcases this with h | h
            · exact .inl h
            · exact .inr (by rw [← h0, h]))
          rw [g1] at hsok
          simp only [Res.ok.injEq] at hsok
          subst hsok
          exact ⟨g2, effect_of_iff g3⟩) hi h
      refine ⟨i1, e1.1 |> fun f => ⟨fun h => ?_, fun hb h => e1.2 hb ?_⟩⟩
      · rcases f h with h | ⟨ij, h1, h2, h3, h4⟩
        · exact .inl h
        · exact .inr ⟨h2, hav, h3, ij, h1, h4⟩
      · rcases h with h | ⟨h2, _, h3, ij, h1, h4⟩
        · exact .inl h
        · exact .inr ⟨ij, h1, h2, h3, h4⟩
    · have hty := disjoint_kinds hk hav
      obtain ⟨i1, e1⟩ := forM_effect (Inv := Inv X Z d) (Q := fun st => Asks st c q P) (B := B) (N := fun _ => False)
        (by
          intro s ij s' _ hs hsok
          rw [onePair_type hty] at hsok
          obtain ⟨g1, g2, _⟩ := teClasses_spec hd hz hty hs hsok
          exact ⟨g1, effect_of_iff (by rw [g2 c q P (.inl hq)]; simp)⟩) hi h
      refine ⟨i1, fun h => ?_, fun hb h => e1.2 hb ?_⟩
      · rcases e1.1 h with h | ⟨_, _, h⟩
        · exact .inl h
        · exact h.elim
      · rcases h with h | ⟨_, h, _⟩
        · exact .inl h
        · exact absurd h hav

/-- A rule and a query about types. -/
theorem expandRule_type {p : Types} (hp : TypesOk p) {map : List Nat} (hm : MapOk p map) {r : Rule} (hr : RuleOk map r) (nd : Bool)
    {X : Prop} {Z : Nat → Prop} {d : Dest} (hd : DestOk d) (hz : ∀ c, d.ctx = some c → ¬ Z c) {st st' : State} (hi : Inv X Z d st)
    (h : expandRule p nd map d st r = .ok st') {c : Option Nat} {q : Nat × Nat × Nat × BitVec 16} (hq : q.2.2.2 ∈ tKinds) (w : BitVec 32)
    {B : Prop} (hB : B → (X ∨ c = none) ∧ (r.specified ∈ typeKinds → r.perms.length ≤ 1)) :
    Inv X Z d st' ∧ Effect B (Asks st' c q fun x => x.data = w) (Asks st c q fun x => x.data = w) (c = d.ctx ∧ TypeAdds p map q w r) := by
  rw [expandRule_eq hp hm hr] at h
  split at h
  · rename_i hn
    simp only [Res.ok.injEq] at h
    subst h
    refine ⟨hi, effect_of_iff ?_⟩
    simp [TypeAdds, (never_ne hn).2]
  · rename_i hn
    have hk := (List.mem_append.1 hr.kind).resolve_right hn
    by_cases hav : r.specified ∈ avKinds ++ xKinds
    · have hcomp : Compat q.2.2.2 (fun x => x.data = w) (fun _ _ _ => False) :=
        ⟨fun s x cp d d' h1 h2 => absurd (h2 ▸ hq) (av_not_type h1), fun s k h1 h2 => absurd (h2 ▸ hq) (av_not_type h1)⟩
      obtain ⟨i1, e1⟩ := forM_effect (Inv := Inv X Z d) (Q := fun st => Asks st c q fun x => x.data = w) (B := B) (N := fun _ => False)
        (by
          intro s ij s' _ hs hsok
          obtain ⟨s2, g1, g2, g3⟩ := onePair_av hs hz nd map hav hr.xperms ij (c := c) hcomp
            (fun _ _ h2 => absurd (h2 ▸ hq) (av_not_type hav))
          rw [g1] at hsok
          simp only [Res.ok.injEq] at hsok
          subst hsok
          exact ⟨g2, effect_of_iff (by rw [g3]; simp)⟩) hi h
      refine ⟨i1, fun h => ?_, fun hb h => e1.2 hb ?_⟩
      · rcases e1.1 h with h | ⟨_, _, h⟩
        · exact .inl h
        · exact h.elim
      · rcases h with h | ⟨_, h, _⟩
        · exact .inl h
        · exact absurd hav (type_ne_av h)
    · have hty := disjoint_kinds hk hav
      obtain ⟨i1, e1⟩ := forM_effect (Inv := Inv X Z d) (Q := fun st => Asks st c q fun x => x.data = w) (B := B)
        (N := fun ij => c = d.ctx ∧ ∃ cp ∈ r.perms, q = core (mkKey r.specified ij.1 ij.2 cp.tclass) ∧
          ∃ v, map[(cp.data - 1#32).toNat]? = some v ∧ w = BitVec.ofNat 32 v)
        (by
          intro s ij s' _ hs hsok
          rw [onePair_type hty] at hsok
          obtain ⟨g1, g2, g3, g4⟩ := teClasses_spec hd hz hty hs hsok
          refine ⟨g1, g3 c q w, fun hb h => ?_⟩
          obtain ⟨b1, b2⟩ := hB hb
          by_cases hc : c = d.ctx
          · exact (g4 (by rw [← hc]; exact b1) (b2 hty) c q w).2 h
          · refine (g2 c q _ (.inr hc)).2 ?_
            rcases h with h | h
            · exact h
            · exact absurd h.1 hc) hi h
      refine ⟨i1, fun h => ?_, fun hb h => e1.2 hb ?_⟩
      · rcases e1.1 h with h | ⟨ij, h1, h2, h3⟩
        · exact .inl h
        · exact .inr ⟨h2, hty, ij, h1, h3⟩
      · rcases h with h | ⟨h2, _, ij, h1, h3⟩
        · exact .inl h
        · exact .inr ⟨ij, h1, h2, h3⟩

/-- The conditionals of the steps. -/
def condsOf : List Step → List Nat
  | [] => []
  | .rule _ :: l => condsOf l
  | .cond k _ _ _ :: l => k :: condsOf l

theorem inv_te {X : Prop} {Z : Nat → Prop} {d : Dest} {st : State} (h : Inv X Z d st) : Inv X Z .te st :=
  ⟨h.te, h.cond, fun _ c hc => (by cases hc), h.none, h.types⟩

theorem inv_cond {X : Prop} {Z : Nat → Prop} {d : Dest} {st : State} (h : Inv X Z d st) {c : Nat} (hz : X → Z c) (o : Nat) (e : Bool) :
    Inv X (fun c' => Z c' ∧ c' ≠ c) (.cond c o e) st := by
  refine ⟨h.te, h.cond, fun hx c' hc' => ?_, fun n hn c' hz' => h.none n hn c' hz'.1, h.types⟩
  simp only [Dest.ctx, Option.some.injEq] at hc'
  subst hc'
  exact ⟨[], st.cond.nodes, rfl, by simp, fun n hn => h.none n hn c (hz hx)⟩

theorem inv_empty (X : Prop) (Z : Nat → Prop) : Inv X Z .te emptyState :=
  ⟨tabInv_empty _, tabInv_empty _, fun _ c hc => (by cases hc), by simp [emptyState, emptyTab],
    ⟨by simp [emptyState, emptyTab], by simp [emptyState, emptyTab], by simp [emptyState, emptyTab], by simp [emptyState, emptyTab]⟩⟩

/-- The effect of all steps. -/
theorem steps_effect {p : Types} {map : List Nat} {nd : Bool} {X B : Prop} {c : Option Nat} {Q : State → Prop} {C : Rule → Prop} :
    ∀ {steps : List Step} {Z : Nat → Prop} {st st' : State},
      (∀ place r, RuleAt steps place r → ∀ d Z st st', d.ctx = place → DestOk d → (∀ c, d.ctx = some c → ¬ Z c) → Inv X Z d st →
        expandRule p nd map d st r = .ok st' → Inv X Z d st' ∧ Effect B (Q st') (Q st) (c = d.ctx ∧ C r)) →
      (X → (condsOf steps).Nodup ∧ ∀ k ∈ condsOf steps, Z (2 * k) ∧ Z (2 * k + 1)) →
      Inv X Z .te st → forM (step p nd map) st steps = .ok st' →
      (∃ Z', Inv X Z' .te st') ∧ Effect B (Q st') (Q st) (∃ r, RuleAt steps c r ∧ C r)
  | [], Z, st, st', _, _, hi, h => by
    simp only [forM, Res.ok.injEq] at h
    subst h
    refine ⟨⟨Z, hi⟩, effect_of_iff ?_⟩
    have : ∀ r, ¬ RuleAt [] c r := by
      intro r hr
      cases c <;> simp [RuleAt] at hr
    simp [this]
  | .rule r :: l, Z, st, st', hH, hX, hi, h => by
    simp only [forM] at h
    obtain ⟨s1, h1, h2⟩ := Res.bind_ok.1 h
    obtain ⟨i1, e1⟩ := hH none r (by simp [RuleAt]) .te Z st s1 rfl trivial (fun c hc => by cases hc) hi h1
    have hsub : ∀ place r', RuleAt l place r' → RuleAt (.rule r :: l) place r' := by
      intro place r' hr
      cases place with
      | none => exact List.mem_cons_of_mem _ hr
      | some c =>
        obtain ⟨k, cur, a, b, hm, hx⟩ := hr
        exact ⟨k, cur, a, b, List.mem_cons_of_mem _ hm, hx⟩
    obtain ⟨i2, e2⟩ := steps_effect (steps := l) (fun place r hr => hH place r (hsub place r hr)) hX i1 h2
    refine ⟨i2, effect_trans e1 e2 ?_⟩
    constructor
    · rintro (⟨rfl, h⟩ | ⟨r', h, hc⟩)
      · exact ⟨r, by simp [RuleAt, Dest.ctx], h⟩
      · exact ⟨r', hsub _ _ h, hc⟩
    · rintro ⟨r', h, hc⟩
      cases c with
      | none =>
        simp only [RuleAt, List.mem_cons, Step.rule.injEq] at h
        rcases h with rfl | h
        · exact .inl ⟨rfl, hc⟩
        · exact .inr ⟨r', h, hc⟩
      | some c =>
        obtain ⟨k, cur, a, b, hm, hx⟩ := h
        simp only [List.mem_cons, reduceCtorEq, false_or] at hm
        exact .inr ⟨r', ⟨k, cur, a, b, hm, hx⟩, hc⟩
  | .cond k cur rt rf :: l, Z, st, st', hH, hX, hi, h => by
    simp only [forM] at h
    obtain ⟨s2, h1, h2⟩ := Res.bind_ok.1 h
    simp only [step] at h1
    obtain ⟨s1, h1, h3⟩ := Res.bind_ok.1 h1
    have ha := inv_cond hi (c := 2 * k) (fun hx => ((hX hx).2 k (by simp [condsOf])).1) (2 * k + 1) cur
    obtain ⟨i1, e1⟩ := forM_effect (B := B) (Q := Q) (N := fun r => c = some (2 * k) ∧ C r)
      (fun s r s' hr hs hok => hH (some (2 * k)) r ⟨k, cur, rt, rf, by simp, .inl ⟨rfl, hr⟩⟩ (.cond (2 * k) (2 * k + 1) cur) _ s s' rfl
        ⟨by omega, by omega⟩ (fun c hc hz => hz.2 (by simpa [Dest.ctx] using hc.symm)) hs hok) ha h1
    have hb := inv_cond i1 (c := 2 * k + 1) (fun hx => ⟨((hX hx).2 k (by simp [condsOf])).2, by omega⟩) (2 * k) (!cur)
    obtain ⟨i2, e2⟩ := forM_effect (B := B) (Q := Q) (N := fun r => c = some (2 * k + 1) ∧ C r)
      (fun s r s' hr hs hok => hH (some (2 * k + 1)) r ⟨k, cur, rt, rf, by simp, .inr ⟨rfl, hr⟩⟩ (.cond (2 * k + 1) (2 * k) (!cur)) _ s s' rfl
        ⟨by omega, by omega⟩ (fun c hc hz => hz.2 (by simpa [Dest.ctx] using hc.symm)) hs hok) hb h3
    have hsub : ∀ place r', RuleAt l place r' → RuleAt (.cond k cur rt rf :: l) place r' := by
      intro place r' hr
      cases place with
      | none => exact List.mem_cons_of_mem _ hr
      | some c =>
        obtain ⟨k, cur, a, b, hm, hx⟩ := hr
        exact ⟨k, cur, a, b, List.mem_cons_of_mem _ hm, hx⟩
    obtain ⟨i3, e3⟩ := steps_effect (steps := l) (fun place r hr => hH place r (hsub place r hr)) (by
      intro hx
      obtain ⟨n1, n2⟩ := hX hx
      simp only [condsOf, List.nodup_cons] at n1
      refine ⟨n1.2, fun k' hk' => ?_⟩
      obtain ⟨z1, z2⟩ := n2 k' (by simp [condsOf, hk'])
      have hne : k' ≠ k := fun he => n1.1 (he ▸ hk')
      exact ⟨⟨⟨z1, by omega⟩, by omega⟩, ⟨z2, by omega⟩, by omega⟩) (inv_te i2) h2
    refine ⟨i3, effect_trans (effect_trans e1 e2 Iff.rfl) e3 ?_⟩
    constructor
    · rintro ((⟨r', hr, rfl, hc⟩ | ⟨r', hr, rfl, hc⟩) | ⟨r', hr, hc⟩)
      · exact ⟨r', ⟨k, cur, rt, rf, by simp, .inl ⟨rfl, hr⟩⟩, hc⟩
      · exact ⟨r', ⟨k, cur, rt, rf, by simp, .inr ⟨rfl, hr⟩⟩, hc⟩
      · exact ⟨r', hsub _ _ hr, hc⟩
    · rintro ⟨r', h, hc⟩
      cases c with
      | none =>
        simp only [RuleAt, List.mem_cons, reduceCtorEq, false_or] at h
        exact .inr ⟨r', h, hc⟩
      | some c =>
        obtain ⟨k', cur', a, b, hm, hx⟩ := h
        simp only [List.mem_cons, Step.cond.injEq] at hm
        rcases hm with ⟨rfl, rfl, rfl, rfl⟩ | hm
        · rcases hx with ⟨rfl, hr⟩ | ⟨rfl, hr⟩
          · exact .inl (.inl ⟨r', hr, rfl, hc⟩)
          · exact .inl (.inr ⟨r', hr, rfl, hc⟩)
        · exact .inr ⟨r', ⟨k', cur', a, b, hm, hx⟩, hc⟩

end Verif.Expand
