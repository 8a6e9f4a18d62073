import Verif.Expand.Lemmas6

/-!
# The expansion does not fail; enabled rules
-/

namespace Verif.Expand
open Avtab (Key XPerms Datum hits)
open Ebitmap (Ebitmap getBit WF)

theorem forM_good {α σ : Type} {f : σ → α → Res σ} {J : σ → Prop} {K : Prop} :
    ∀ {l : List α} {s : σ}, (∀ a ∈ l, ∀ s, J s → (∃ s', f s a = .ok s' ∧ J s') ∨ (f s a = .conflict ∧ K)) → J s →
      (∃ s', forM f s l = .ok s' ∧ J s') ∨ (forM f s l = .conflict ∧ K)
  | [], s, _, hs => .inl ⟨s, rfl, hs⟩
  | a :: l, s, h, hs => by
    simp only [forM]
    rcases h a (by simp) s hs with ⟨s', h1, h2⟩ | ⟨h1, h2⟩
    · rw [h1]
      exact forM_good (l := l) (fun a ha => h a (by simp [ha])) h2
    · rw [h1]
      exact .inr ⟨rfl, h2⟩

/-- The flag for enabled rules of a node is that of its branch. -/
def En (val : Nat → Bool) (st : State) : Prop :=
  (∀ n ∈ st.te.nodes, n.key.specified.getLsbD 15 = false) ∧
  ∀ n ∈ st.cond.nodes, ∀ c, n.ctx = some c → n.key.specified.getLsbD 15 = val c

/-- The destination agrees with the values of the branches. -/
def DestVal (val : Nat → Bool) : Dest → Prop
  | .te => True
  | .cond c _ e => e = val c

theorem setEnabled_bit (e : Bool) (n : ENode) : (setEnabled e n).key.specified.getLsbD 15 = e := by
  unfold setEnabled
  cases e
  · simp only [Bool.false_eq_true, if_false, BitVec.getLsbD_and]
    have : (~~~ Avtab.ENABLED).getLsbD 15 = false := by decide
    rw [this]; simp
  · simp only [if_true, BitVec.getLsbD_or]
    have : Avtab.ENABLED.getLsbD 15 = true := by decide
    rw [this]; simp

theorem mod_en {t : Tab} {te : Bool} (hi : TabInv t te) {k : Key} (hk : k.specified ∈ tabKinds) {c : Option Nat}
    (hc : te = true ↔ c = none) (x : Option XPerms) {e : Bool} {f : ENode → ENode} (hf : ∀ n, (f n).ctx = n.ctx ∧ (f n).key.specified.getLsbD 15 = e) :
    ∀ m ∈ (modify (findAvtabNode t k c x).1 (findAvtabNode t k c x).2 f).nodes, m ∈ t.nodes ∨ (m.ctx = c ∧ m.key.specified.getLsbD 15 = e) := by
  obtain ⟨n, h1, h2, h3, h4, h5, h6, h7, h8, h9⟩ := findAvtabNode_spec hi hk hc x
  intro m hm
  simp only [modify, List.mem_map] at hm
  obtain ⟨m', hm', rfl⟩ := hm
  by_cases h : m'.id = (findAvtabNode t k c x).2
  · rw [if_pos h]
    rw [h2] at h
    have := eq_of_id h6 hm' h3 h
    subst this
    exact .inr ⟨by rw [(hf m').1, h5], (hf m').2⟩
  · rw [if_neg h]
    rcases (h7 m').1 hm' with h' | rfl
    · exact .inl h'
    · exact absurd h2.symm h

theorem en_put {val : Nat → Bool} {d : Dest} (hd : DestVal val d) {st : State} (h : En val st) {t' : Tab}
    (ht : ∀ m ∈ t'.nodes, m ∈ (d.tab st).nodes ∨ (m.ctx = d.ctx ∧ m.key.specified.getLsbD 15 = d.enabled)) : En val (d.put st t') := by
  cases d with
  | te =>
    refine ⟨fun n hn => ?_, h.2⟩
    rcases ht n hn with h' | ⟨_, h'⟩
    · exact h.1 n h'
    · exact h'
  | cond c o e =>
    refine ⟨h.1, fun n hn c' hc' => ?_⟩
    rcases ht n hn with h' | ⟨h1, h'⟩
    · exact h.2 n h' c' hc'
    · rw [h']
      simp only [Dest.ctx] at h1
      rw [h1] at hc'
      cases hc'
      exact hd

theorem avClass_en {s : BitVec 32} (hs : s ∈ avKinds ++ xKinds) {x : Option XPerms} {t t' : Tab} {te : Bool}
    (hi : TabInv t te) {c : Option Nat} (hc : te = true ↔ c = none) {enabled : Bool} {i j : Nat} {cp : ClassPerm}
    (h : avClass s c enabled x i j t cp = .ok t') : ∀ m ∈ t'.nodes, m ∈ t.nodes ∨ (m.ctx = c ∧ m.key.specified.getLsbD 15 = enabled) := by
  simp only [avClass] at h
  split at h
  · cases h
  · split at h
    · cases h
    · split at h
      · cases h
      · simp only [Res.ok.injEq] at h
        subst h
        exact mod_en hi (spec_tabKinds (List.mem_append_left _ hs)) hc x fun n => ⟨rfl, setEnabled_bit _ _⟩

/-- What holds of the tables between rules. -/
def Ok (E : Prop) (val : Nat → Bool) (st : State) : Prop := Inv False (fun _ => False) .te st ∧ (E → En val st)

theorem inv_any {d d' : Dest} {st : State} (h : Inv False (fun _ => False) d st) : Inv False (fun _ => False) d' st :=
  ⟨h.te, h.cond, fun h => h.elim, fun _ _ _ h => h.elim, h.types⟩

/-- A pair of a rule. -/
theorem onePair_good {map : List Nat} {r : Rule} (hr : RuleOk map r) (hn : r.specified ∉ neverKinds) (nd : Bool) {E : Prop} {val : Nat → Bool} {d : Dest}
    (hd : DestOk d) (hv : E → DestVal val d) (ij : Nat × Nat) {st : State} (h : Ok E val st) :
    (∃ st', onePair nd map d r st ij = .ok st' ∧ Ok E val st') ∨ (onePair nd map d r st ij = .conflict ∧ r.specified ∈ typeKinds) := by
  have hk := (List.mem_append.1 hr.kind).resolve_right hn
  by_cases hav : r.specified ∈ avKinds ++ xKinds
  · left
    have hcomp : Compat 0x10#16 (fun _ => False) (fun _ _ _ => False) := ⟨fun _ _ _ _ _ _ _ _ _ => by simp, fun _ _ _ _ _ => id⟩
    obtain ⟨st', h1, h2, _⟩ := onePair_av (inv_any h.1 (d' := d)) (fun _ _ => id) nd map hav hr.xperms ij (c := none) (q := (0, 0, 0, 0x10#16)) hcomp
      (fun _ _ h2 => absurd (show avtabSpec r.specified ∈ tKinds by rw [← h2]; decide) (av_not_type hav))
    refine ⟨st', h1, inv_any h2, fun hE => ?_⟩
    have hv := hv hE
    have hen0 := h.2 hE
    have hav' : anyBit r.specified (AVRULE_AV ||| AVRULE_XPERMS) = true := by
      simp only [avKinds, xKinds, List.mem_cons, List.mem_append, List.not_mem_nil, or_false] at hav
      rcases hav with (h | h | h | h) | h | h | h <;> rw [h] <;> decide
    simp only [onePair, hav', if_true, avruleHelper] at h1
    obtain ⟨t', h3, h4⟩ := Res.bind_ok.1 h1
    simp only [Res.ok.injEq] at h4
    subst h4
    split at h3
    · simp only [Res.ok.injEq] at h3
      subst h3
      cases d <;> exact hen0
    · have hi := inv_any h.1 (d' := d)
      clear h1 h2
      suffices hl : ∀ (l : List ClassPerm) (t : Tab), Inv False (fun _ => False) d (d.put st t) → En val (d.put st t) →
          forM (avClass r.specified d.ctx d.enabled r.xperms ij.1 ij.2) t l = .ok t' → En val (d.put st t') by
        have hput : d.put st (d.tab st) = st := by cases d <;> rfl
        exact hl r.perms (d.tab st) (by rw [hput]; exact hi) (by rw [hput]; exact hen0) h3
      intro l
      induction l with
      | nil =>
        intro t _ he hok
        simp only [forM, Res.ok.injEq] at hok
        subst hok
        exact he
      | cons cp l ih =>
        intro t ht he hok
        simp only [forM] at hok
        obtain ⟨t1, k1, k2⟩ := Res.bind_ok.1 hok
        have htab : d.tab (d.put st t) = t := by cases d <;> rfl
        have hput2 : ∀ t', d.put (d.put st t) t' = d.put st t' := fun t' => by cases d <;> rfl
        have hti := tab_inv ht
        rw [htab] at hti
        have hen := avClass_en hav hti (by simp) k1
        obtain ⟨t1', g1, g2, g3, g4, g6, g5⟩ := avClass_spec hav hr.xperms hti (c := d.ctx) (by simp) d.enabled ij.1 ij.2 cp
        rw [k1] at g1
        simp only [Res.ok.injEq] at g1
        subst g1
        have hinv := inv_put ht (fun _ _ => id) g2 (by rw [htab]; exact g3) (by rw [htab]; exact g4) (typeInv_same ht.types
          (by cases d with
              | te => exact g6
              | cond _ _ _ => exact fun _ _ => Iff.rfl)
          (by cases d with
              | te => exact fun _ _ => Iff.rfl
              | cond _ _ _ => exact g6))
        rw [hput2] at hinv
        refine ih t1 hinv ?_ k2
        have := en_put hv he (t' := t1) (by rw [htab]; exact hen)
        rwa [hput2] at this
  · have hty := disjoint_kinds hk hav
    rw [onePair_type hty]
    obtain ⟨s1, s2⟩ := teClasses_safe (s := r.specified) (d := d) (i := ij.1) (j := ij.2) (st := st) (hr.types hty)
    cases hc : teClasses map r.specified d ij.1 ij.2 st r.perms with
    | err => exact absurd hc s1
    | ub => exact absurd hc s2
    | conflict => exact .inr ⟨rfl, hty⟩
    | ok st' =>
      refine .inl ⟨st', rfl, inv_any (teClasses_spec hd (fun _ _ => id) hty (inv_any h.1) hc).1, fun hE => ?_⟩
      have hv := hv hE
      have hi := inv_any h.1 (d' := d)
      have he := h.2 hE
      clear s1 s2 h
      revert st hc
      generalize r.perms = l
      induction l with
      | nil =>
        intro st hc _ he
        simp only [teClasses, Res.ok.injEq] at hc
        subst hc
        exact he
      | cons cp l ih =>
        intro st hc hi he
        obtain ⟨v, hv', h⟩ := teClasses_cons hc
        rcases h with ⟨n, b, h1, h2, h3, rfl⟩ | ⟨he', h⟩
        · exact he
        · obtain ⟨p1, _⟩ := tePut_spec hd hi (fun _ _ => id) hty (v := v) he'
          refine ih h p1 ?_
          unfold tePut
          refine en_put hv he ?_
          exact mod_en (tab_inv hi) (type_spec hty).2 (by simp) none fun n => ⟨rfl, setEnabled_bit _ _⟩

/-- A rule. -/
theorem expandRule_good {p : Types} (hp : TypesOk p) {map : List Nat} (hm : MapOk p map) {r : Rule} (hr : RuleOk map r) (nd : Bool) {E : Prop} {val : Nat → Bool}
    {d : Dest} (hd : DestOk d) (hv : E → DestVal val d) {st : State} (h : Ok E val st) :
    (∃ st', expandRule p nd map d st r = .ok st' ∧ Ok E val st') ∨ (expandRule p nd map d st r = .conflict ∧ r.specified ∈ typeKinds) := by
  rw [expandRule_eq hp hm hr]
  split
  · exact .inl ⟨st, rfl, h⟩
  · rename_i hn
    exact forM_good (fun ij _ st hst => onePair_good hr hn nd hd hv ij hst) h

/-- All steps. -/
theorem all_good {p : Types} {map : List Nat} {steps : List Step} (hin : Input p map steps) (nd : Bool) {E : Prop} {val : Nat → Bool}
    (hval : E → ∀ k cur rt rf, Step.cond k cur rt rf ∈ steps → val (2 * k) = cur ∧ val (2 * k + 1) = !cur) :
    (∃ st, expandAll p nd map steps = .ok st ∧ Ok E val st) ∨
    (expandAll p nd map steps = .conflict ∧ ∃ place r, RuleAt steps place r ∧ r.specified ∈ typeKinds) := by
  refine forM_good (J := Ok E val) (fun s hs st hst => ?_) ⟨inv_empty _ _, fun _ => ⟨by simp [emptyState, emptyTab], by simp [emptyState, emptyTab]⟩⟩
  cases s with
  | rule r =>
    rcases expandRule_good hin.types hin.copies (hin.rules none r hs) nd (d := .te) trivial (fun _ => trivial) hst with h | ⟨h1, h2⟩
    · exact .inl h
    · exact .inr ⟨h1, none, r, hs, h2⟩
  | cond k cur rt rf =>
    have v1 := fun hE => (hval hE k cur rt rf hs).1
    have v2 := fun hE => (hval hE k cur rt rf hs).2
    have ht : ∀ r ∈ rt, RuleAt steps (some (2 * k)) r := fun r hr => ⟨k, cur, rt, rf, hs, .inl ⟨rfl, hr⟩⟩
    have hf : ∀ r ∈ rf, RuleAt steps (some (2 * k + 1)) r := fun r hr => ⟨k, cur, rt, rf, hs, .inr ⟨rfl, hr⟩⟩
    simp only [step]
    have g1 := forM_good (f := expandRule p nd map (.cond (2 * k) (2 * k + 1) cur)) (J := Ok E val)
      (K := ∃ place r, RuleAt steps place r ∧ r.specified ∈ typeKinds) (l := rt) (s := st) (fun r hr st hst => by
        rcases expandRule_good hin.types hin.copies (hin.rules _ r (ht r hr)) nd (d := .cond (2 * k) (2 * k + 1) cur)
          ⟨by omega, by omega⟩ (fun hE => (v1 hE).symm) hst with h | ⟨h1, h2⟩
        · exact .inl h
        · exact .inr ⟨h1, _, r, ht r hr, h2⟩) hst
    rcases g1 with ⟨st1, h1, h2⟩ | ⟨h1, h2⟩
    · rw [h1]
      exact forM_good (f := expandRule p nd map (.cond (2 * k + 1) (2 * k) (!cur))) (J := Ok E val)
        (K := ∃ place r, RuleAt steps place r ∧ r.specified ∈ typeKinds) (l := rf) (s := st1) (fun r hr st hst => by
          rcases expandRule_good hin.types hin.copies (hin.rules _ r (hf r hr)) nd (d := .cond (2 * k + 1) (2 * k) (!cur))
            ⟨by omega, by omega⟩ (fun hE => (v2 hE).symm) hst with h | ⟨h1, h2⟩
          · exact .inl h
          · exact .inr ⟨h1, _, r, hf r hr, h2⟩) h2
    · rw [h1]
      exact .inr ⟨rfl, h2⟩

end Verif.Expand
