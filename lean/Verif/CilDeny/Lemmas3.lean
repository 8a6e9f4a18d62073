import Verif.CilDeny.Lemmas2

/-!
# Lemmas on rules
-/

namespace Verif.CilDeny
open Ebitmap (Ebitmap)

/-! ### Matching rules -/

theorem selfMatch_ok {n : Nat} (hn : n < 2 ^ 31) {s1 s2 t2 : Datum} (h1 : s1.Ok n) (h2 : s2.Ok n) (h3 : t2.Ok n) :
    ∃ b, selfMatchAny s1 s2 t2 = .ok b ∧ ((∃ s, s1.Mem s ∧ s2.Mem s ∧ t2.Mem s) → b = true) := by
  cases s1 with
  | type v =>
    refine ⟨_, rfl, ?_⟩
    rintro ⟨s, m1, _, m3⟩
    exact typeMatchAny_ok h1 h3 m1 m3
  | attr t i a =>
    obtain ⟨e, he, ho⟩ := typeMatches_ok hn h2 h3
    simp only [selfMatchAny, he]
    split
    · rename_i hc
      refine ⟨_, rfl, ?_⟩
      rintro ⟨s, _, m2, m3⟩
      exact absurd ⟨m2, m3⟩ ((isEmpty_ok ho).1 hc s)
    · refine ⟨_, rfl, ?_⟩
      rintro ⟨s, m1, m2, m3⟩
      exact (matchAny_ok ho h1.bits).2 ⟨s, ⟨m2, m3⟩, m1⟩

theorem notselfMatch_ok {n : Nat} (hn : n < 2 ^ 31) {s1 s2 t2 : Datum} (h1 : s1.Ok n) (h2 : s2.Ok n) (h3 : t2.Ok n) :
    ∃ b, notselfMatchAny s1 s2 t2 = .ok b ∧ ((∃ s t, s1.Mem s ∧ s2.Mem s ∧ t2.Mem t ∧ t ≠ s) → b = true) := by
  cases s1 with
  | type v =>
    cases t2 with
    | type w =>
      refine ⟨_, rfl, ?_⟩
      rintro ⟨s, t, m1, _, m3, hne⟩
      have e1 : s = v := m1
      have e2 : t = w := m3
      subst e1 e2
      simpa using hne.symm
    | attr t i a =>
      obtain ⟨l, hl, ml⟩ := bits_ok h3.bits
      simp only [notselfMatchAny, hl]
      refine ⟨_, rfl, ?_⟩
      rintro ⟨s, t, m1, _, m3, hne⟩
      have e1 : s = v := m1
      subst e1
      exact List.any_eq_true.2 ⟨t, (ml t).2 m3, by simpa using hne⟩
  | attr t i a =>
    obtain ⟨e, he, ho⟩ := typeMatches_ok hn h1 h2
    simp only [notselfMatchAny, he]
    split
    · rename_i hc
      refine ⟨_, rfl, ?_⟩
      rintro ⟨s, t, m1, m2, _⟩
      exact absurd ⟨m1, m2⟩ ((isEmpty_ok ho).1 hc s)
    · obtain ⟨l, hl, ml⟩ := bits_ok ho
      simp only [hl]
      cases t2 with
      | type w =>
        refine ⟨_, rfl, ?_⟩
        rintro ⟨s, t, m1, m2, m3, hne⟩
        have e2 : t = w := m3
        subst e2
        exact List.any_eq_true.2 ⟨s, (ml s).2 ⟨m1, m2⟩, by simpa using hne.symm⟩
      | attr t' i' b =>
        obtain ⟨l', hl', ml'⟩ := bits_ok h3.bits
        simp only [hl']
        refine ⟨_, rfl, ?_⟩
        rintro ⟨s, t, m1, m2, m3, hne⟩
        exact List.any_eq_true.2 ⟨s, (ml s).2 ⟨m1, m2⟩, List.any_eq_true.2 ⟨t, (ml' t).2 m3, by simpa using hne.symm⟩⟩

theorem otherMatch_ok {n : Nat} (hn : n < 2 ^ 31) {s1 s2 t2 : Datum} (h1 : s1.Ok n) (h2 : s2.Ok n) (h3 : t2.Ok n) :
    ∃ b, otherMatchAny s1 s2 t2 = .ok b ∧
      ((∃ s t, s1.Mem s ∧ s2.Mem s ∧ s1.Mem t ∧ t2.Mem t ∧ t ≠ s) → b = true) := by
  cases s1 with
  | type v =>
    refine ⟨_, rfl, ?_⟩
    rintro ⟨s, t, m1, _, m3, _, hne⟩
    have e1 : s = v := m1
    have e2 : t = v := m3
    exact absurd (e2.trans e1.symm) hne
  | attr t i a =>
    obtain ⟨e, he, ho⟩ := typeMatches_ok hn h1 h2
    obtain ⟨e', he', ho'⟩ := typeMatches_ok hn h1 h3
    simp only [otherMatchAny, he]
    split
    · rename_i hc
      refine ⟨_, rfl, ?_⟩
      rintro ⟨s, t, m1, m2, _⟩
      exact absurd ⟨m1, m2⟩ ((isEmpty_ok ho).1 hc s)
    · simp only [he']
      split
      · rename_i hc
        refine ⟨_, rfl, ?_⟩
        rintro ⟨s, t, _, _, m3, m4, _⟩
        exact absurd ⟨m3, m4⟩ ((isEmpty_ok ho').1 hc t)
      · obtain ⟨l, hl, ml⟩ := bits_ok ho
        obtain ⟨l', hl', ml'⟩ := bits_ok ho'
        simp only [hl, hl']
        refine ⟨_, rfl, ?_⟩
        rintro ⟨s, t, m1, m2, m3, m4, hne⟩
        exact List.any_eq_true.2 ⟨s, (ml s).2 ⟨m1, m2⟩,
          List.any_eq_true.2 ⟨t, (ml' t).2 ⟨m3, m4⟩, by simpa using hne.symm⟩⟩

theorem notselfOther_ok {n : Nat} {d : Datum} (h : d.Ok n) {s t : Nat} (m1 : d.Mem s) (m2 : d.Mem t) (hne : t ≠ s) :
    notselfOtherMatchAny d = true := by
  cases d with
  | type v =>
    have e1 : s = v := m1
    have e2 : t = v := m2
    exact absurd (e2.trans e1.symm) hne
  | attr t' i a =>
    rw [notselfOtherMatchAny, decide_eq_true_iff]
    by_contra hc
    exact hne (card_le h.bits hc m2 m1)

theorem targetsMatch_ok {n : Nat} (hn : n < 2 ^ 31) {s1 s2 : Datum} {t1 t2 : Target} (h1 : s1.Ok n) (h2 : t1.Ok n)
    (h3 : s2.Ok n) (h4 : t2.Ok n) :
    ∃ b, targetsMatch s1 t1 s2 t2 = .ok b ∧ ((∃ s t, Covers n s1 t1 s t ∧ Covers n s2 t2 s t) → b = true) := by
  cases t1 with
  | self =>
    cases t2 with
    | self => exact ⟨_, rfl, fun _ => rfl⟩
    | notself =>
      refine ⟨_, rfl, ?_⟩
      rintro ⟨s, t, ⟨_, e⟩, ⟨_, _, ne⟩⟩
      exact absurd e ne
    | other =>
      refine ⟨_, rfl, ?_⟩
      rintro ⟨s, t, ⟨_, e⟩, ⟨_, _, ne⟩⟩
      exact absurd e ne
    | datum t2 =>
      obtain ⟨b, hb, hm⟩ := selfMatch_ok hn h1 h3 h4
      refine ⟨b, hb, ?_⟩
      rintro ⟨s, t, ⟨m1, rfl⟩, ⟨m2, m3⟩⟩
      exact hm ⟨_, m1, m2, m3⟩
  | notself =>
    cases t2 with
    | self =>
      refine ⟨_, rfl, ?_⟩
      rintro ⟨s, t, ⟨_, _, ne⟩, ⟨_, e⟩⟩
      exact absurd e ne
    | notself => exact ⟨_, rfl, fun _ => rfl⟩
    | other =>
      refine ⟨_, rfl, ?_⟩
      rintro ⟨s, t, _, ⟨m1, m2, ne⟩⟩
      exact notselfOther_ok h3 m1 m2 ne
    | datum t2 =>
      obtain ⟨b, hb, hm⟩ := notselfMatch_ok hn h1 h3 h4
      refine ⟨b, hb, ?_⟩
      rintro ⟨s, t, ⟨m1, _, ne⟩, ⟨m2, m3⟩⟩
      exact hm ⟨_, _, m1, m2, m3, ne⟩
  | other =>
    cases t2 with
    | self =>
      refine ⟨_, rfl, ?_⟩
      rintro ⟨s, t, ⟨_, _, ne⟩, ⟨_, e⟩⟩
      exact absurd e ne
    | notself =>
      refine ⟨_, rfl, ?_⟩
      rintro ⟨s, t, ⟨m1, m2, ne⟩, _⟩
      exact notselfOther_ok h1 m1 m2 ne
    | other => exact ⟨_, rfl, fun _ => rfl⟩
    | datum t2 =>
      obtain ⟨b, hb, hm⟩ := otherMatch_ok hn h1 h3 h4
      refine ⟨b, hb, ?_⟩
      rintro ⟨s, t, ⟨m1, m2, ne⟩, ⟨m3, m4⟩⟩
      exact hm ⟨_, _, m1, m3, m2, m4, ne⟩
  | datum t1 =>
    cases t2 with
    | self =>
      obtain ⟨b, hb, hm⟩ := selfMatch_ok hn h3 h1 h2
      refine ⟨b, hb, ?_⟩
      rintro ⟨s, t, ⟨m1, m2⟩, ⟨m3, rfl⟩⟩
      exact hm ⟨_, m3, m1, m2⟩
    | notself =>
      obtain ⟨b, hb, hm⟩ := notselfMatch_ok hn h3 h1 h2
      refine ⟨b, hb, ?_⟩
      rintro ⟨s, t, ⟨m1, m2⟩, ⟨m3, _, ne⟩⟩
      exact hm ⟨_, _, m3, m1, m2, ne⟩
    | other =>
      obtain ⟨b, hb, hm⟩ := otherMatch_ok hn h3 h1 h2
      refine ⟨b, hb, ?_⟩
      rintro ⟨s, t, ⟨m1, m2⟩, ⟨m3, m4, ne⟩⟩
      exact hm ⟨_, _, m3, m1, m4, m2, ne⟩
    | datum t2 =>
      refine ⟨_, rfl, ?_⟩
      rintro ⟨s, t, ⟨_, m2⟩, ⟨_, m4⟩⟩
      exact typeMatchAny_ok h2 h4 m2 m4

theorem covers_src {n : Nat} {d : Datum} {t : Target} {a b : Nat} (h : Covers n d t a b) : d.Mem a := by
  cases t <;> exact h.1

/-- What is known of a rule that does not match: it has nothing in common with the deny rule; of a
rule that does: what is needed to take it apart. -/
theorem matchingRule_ok {n : Nat} (hn : n < 2 ^ 31) {r : Rule} {d : Deny} (h1 : r.src.Ok n) (h2 : r.tgt.Ok n)
    (h3 : d.src.Ok n) (h4 : d.tgt.Ok n) :
    (matchingRule r d = .ok false ∧
      ∀ s t c p, r.kind = .allowed → Covers n r.src r.tgt s t → Perms r.perms c p →
        ¬ (Covers n d.src d.tgt s t ∧ Perms d.perms c p)) ∨
    (matchingRule r d = .ok true ∧ r.kind = .allowed ∧ targetsMatch r.src r.tgt d.src d.tgt = .ok true ∧
      ∃ a, a ∈ flat r.perms ∧ a ∈ flat d.perms) := by
  unfold matchingRule
  by_cases hk : r.kind ≠ .allowed
  · rw [if_pos hk]
    exact .inl ⟨rfl, fun s t c p h => absurd h hk⟩
  rw [if_neg hk]
  by_cases hs : typeMatchAny r.src d.src = true
  · simp only [hs, Bool.not_true, Bool.false_eq_true, if_false]
    obtain ⟨b, hb, hm⟩ := targetsMatch_ok hn h1 h2 h3 h4
    rw [hb]
    cases b with
    | false =>
      refine .inl ⟨rfl, fun s t c p _ hc _ hd => ?_⟩
      exact Bool.noConfusion (hm ⟨s, t, hc, hd.1⟩)
    | true =>
      simp only
      by_cases hf : findMatch d.perms r.perms = true
      · rw [hf]
        exact .inr ⟨rfl, by simpa using hk, trivial, (find_iff _ _).1 hf⟩
      · refine .inl ⟨by simp [hf], fun s t c p _ _ hp hd => hf ((find_iff _ _).2 ⟨(c, p), ?_, ?_⟩)⟩
        · exact perms_iff.1 hp
        · exact perms_iff.1 hd.2
  · simp only [hs, Bool.not_false, if_true]
    exact .inl ⟨trivial, fun s t c p _ hc _ hd => hs (typeMatchAny_ok h1 h3 (covers_src hc) (covers_src hd.1))⟩

/-! ### New rules -/

/-- The rules are allow rules of a branch that grant just what `P` says. -/
def Grants (n : Nat) (cond : Option (Nat × Bool)) (P : Nat → Nat → Nat → Nat → Prop) (l : List Rule) : Prop :=
  RulesOk n l ∧ ∀ k cond' s t c p, Granted n l k cond' s t c p ↔ k = .allowed ∧ cond' = cond ∧ P s t c p

theorem Grants.congr {n cond P Q l} (h : Grants n cond P l) (hq : ∀ s t c p, P s t c p ↔ Q s t c p) : Grants n cond Q l :=
  ⟨h.1, fun k cond' s t c p => by rw [h.2, hq]⟩

theorem grants_nil (n cond) : Grants n cond (fun _ _ _ _ => False) [] :=
  ⟨fun _ h => (by cases h), fun k cond' s t c p => by simp [Granted]⟩

theorem Grants.append {n cond P Q l l'} (h : Grants n cond P l) (h' : Grants n cond Q l') :
    Grants n cond (fun s t c p => P s t c p ∨ Q s t c p) (l ++ l') := by
  refine ⟨fun r hr => ?_, fun k cond' s t c p => ?_⟩
  · rcases List.mem_append.1 hr with hr | hr
    · exact h.1 r hr
    · exact h'.1 r hr
  · have h1 := h.2 k cond' s t c p
    have h2 := h'.2 k cond' s t c p
    have : Granted n (l ++ l') k cond' s t c p ↔ Granted n l k cond' s t c p ∨ Granted n l' k cond' s t c p := by
      simp only [Granted, List.mem_append, or_and_right, exists_or]
    rw [this, h1, h2]
    tauto

/-- The pairs of a rule that there may not be. -/
def OCov (n : Nat) (o : Option Datum) (tgt : Option Target) (s t : Nat) : Prop :=
  ∃ d t', o = some d ∧ tgt = some t' ∧ Covers n d t' s t

theorem grants_add {n : Nat} {cond} {o : Option Datum} {tgt : Option Target} {perms : List CP} (h1 : OOk n o)
    (h2 : ∀ t, tgt = some t → t.Ok n) :
    Grants n cond (fun s t c p => OCov n o tgt s t ∧ Perms perms c p) (addRule cond o tgt perms) := by
  unfold addRule
  split
  · rename_i d t'
    refine ⟨fun r hr => ?_, fun k cond' s t c p => ?_⟩
    · rw [List.mem_singleton] at hr; subst hr
      exact ⟨h1 _ rfl, h2 _ rfl⟩
    · simp only [Granted, List.mem_singleton, exists_eq_left, OCov, Option.some.injEq]
      constructor
      · rintro ⟨rfl, rfl, hc, hp⟩
        exact ⟨rfl, rfl, ⟨_, _, rfl, rfl, hc⟩, hp⟩
      · rintro ⟨rfl, rfl, ⟨_, _, rfl, rfl, hc⟩, hp⟩
        exact ⟨rfl, rfl, hc, hp⟩
  · rename_i hne
    refine (grants_nil n cond).congr fun s t c p => ?_
    simp only [false_iff]
    rintro ⟨⟨d, t', rfl, rfl, _⟩, _⟩
    exact hne d t' rfl rfl

theorem ocov_some {n : Nat} {d : Datum} {t' : Target} {s t : Nat} : OCov n (some d) (some t') s t ↔ Covers n d t' s t := by
  simp [OCov]

theorem grants_self {n : Nat} {cond} {o : Option Datum} {perms : List CP} (h1 : OOk n o) :
    Grants n cond (fun s t c p => (OMem o s ∧ t = s) ∧ Perms perms c p) (addRule cond o (some .self) perms) := by
  refine (grants_add h1 (fun t h => by cases h; trivial)).congr fun s t c p => ?_
  cases o with
  | none => simp [OCov, OMem]
  | some d => simp only [ocov_some, Covers, OMem]

theorem grants_other {n : Nat} {cond} {o : Option Datum} {perms : List CP} (h1 : OOk n o) :
    Grants n cond (fun s t c p => (OMem o s ∧ OMem o t ∧ t ≠ s) ∧ Perms perms c p)
      (if datumCardinality o > 1 then addRule cond o (some .other) perms else []) := by
  split
  · refine (grants_add h1 (fun t h => by cases h; trivial)).congr fun s t c p => ?_
    cases o with
    | none => simp [OCov, OMem]
    | some d => simp only [ocov_some, Covers, OMem]
  · rename_i hc
    refine (grants_nil n cond).congr fun s t c p => ?_
    simp only [false_iff]
    rintro ⟨⟨m1, m2, hne⟩, _⟩
    exact hne (datumCard h1 hc m2 m1)

theorem grants_datum {n : Nat} {cond} {o o2 : Option Datum} {perms : List CP} (h1 : OOk n o) (h2 : OOk n o2) :
    Grants n cond (fun s t c p => (OMem o s ∧ OMem o2 t) ∧ Perms perms c p) (addRule cond o (o2.map .datum) perms) := by
  refine (grants_add h1 (fun t h => ?_)).congr fun s t c p => ?_
  · cases o2 with
    | none => cases h
    | some d => cases h; exact h2 _ rfl
  · cases o with
    | none => simp [OCov, OMem]
    | some d =>
      cases o2 with
      | none => simp [OCov, OMem]
      | some d2 => simp only [Option.map_some, ocov_some, Covers, OMem]

theorem grants_tgt {n : Nat} {cond} {o : Option Datum} {src : Datum} {tgt : Target} {perms : List CP} (h1 : OOk n o)
    (h2 : tgt.Ok n) (hsub : ∀ s, OMem o s → src.Mem s) (ht : tgt ≠ .other) :
    Grants n cond (fun s t c p => (OMem o s ∧ Covers n src tgt s t) ∧ Perms perms c p)
      (addRule cond o (some tgt) perms) := by
  refine (grants_add h1 (fun t h => by cases h; exact h2)).congr fun s t c p => ?_
  cases o with
  | none => simp [OCov, OMem]
  | some d =>
    rw [ocov_some]
    have := hsub s
    cases tgt with
    | other => exact absurd rfl ht
    | _ => simp only [Covers, OMem] at *; tauto

end Verif.CilDeny
