import Verif.Restore.Lemmas2

/-! # Lemmas: labelling the files of a list -/

namespace Verif.Restore
open Verif.Context (Res)

theorem names_iff {root : Option Bytes} {path p : Bytes} : lookupPath root path = some p ↔ Names root path p := by
  unfold lookupPath Names
  cases root with
  | none => simp [eq_comm]
  | some r =>
    simp only
    constructor
    · intro h
      split at h
      · cases h
      · rename_i h1
        rw [not_not] at h1
        refine ⟨path.drop r.length, ?_, ?_⟩
        · have := List.take_append_drop r.length path
          rw [h1] at this
          exact this.symm
        · split at h <;> · cases h; simp [*]
    · rintro ⟨rest, h1, h2⟩
      have h3 : path.take r.length = r := by rw [h1]; simp
      have h4 : path.drop r.length = rest := by rw [h1]; simp
      rw [h4, if_neg (by simp [h3]), h2]
      split <;> rfl

/-- What is done to one file. -/
structure Act where
  fail : Bool
  set : Option Bytes
  say : List Msg

/-- A file is treated so. -/
def St.act (s : St) (e : Ent) (a : Act) : St :=
  { s with w := (match a.set with | none => s.w | some c => s.w.setLabel e.key c), log := s.log ++ a.say }

open Classical in
/-- What is done to a file with the context `cur` for which there is the context `new`. -/
noncomputable def actNew (env : Env) (fl : Flags) (e : Ent) (cur : Option Parts) (new : Parts) : Act :=
  if env.canGet e.key = false then ⟨true, none, []⟩
  else if cur = some (newLabel fl env.custom cur new) then ⟨false, none, []⟩
  else if fl.nochange then ⟨false, none, if fl.verbose then [⟨false, e.path, cur.map Parts.text, (newLabel fl env.custom cur new).text⟩] else []⟩
  else if env.canSet e.key (newLabel fl env.custom cur new).text = false then ⟨true, none, []⟩
  else ⟨false, some (newLabel fl env.custom cur new).text,
    if fl.verbose then [⟨true, e.path, cur.map Parts.text, (newLabel fl env.custom cur new).text⟩] else []⟩

theorem relabel_act {env : Env} {fl : Flags} {e : Ent} {cur : Option Parts} {new : Parts} {s : St} (hc : ∀ c, cur = some c → c.Good) (hn : new.Good)
    (hl : s.w.label e.key = cur.map Parts.text) (hraw : ∀ p : Parts, p.Good → env.toRaw p.text = some p.text) :
    relabel env fl e new.text s = some ((actNew env fl e cur new).fail, s.act e (actNew env fl e cur new)) := by
  have hnil : ∀ s : St, s.act e ⟨false, none, []⟩ = s := fun s => by simp [St.act]
  have hnil' : ∀ s : St, s.act e ⟨true, none, []⟩ = s := fun s => by simp [St.act]
  unfold relabel actNew
  by_cases h1 : env.canGet e.key = false
  · rw [if_pos h1, if_pos h1, hnil']
  · rw [if_neg h1, if_neg h1, hl, decision_spec hc hn]
    by_cases h2 : cur = some (newLabel fl env.custom cur new)
    · rw [if_pos h2, if_pos h2, hnil]
    · rw [if_neg h2, if_neg h2]
      simp only [hraw _ (newLabel_good hc hn)]
      cases h3 : fl.nochange with
      | true =>
        simp only [if_true]
        unfold St.tell St.act
        cases fl.verbose <;> simp [h3]
      | false =>
        simp only [Bool.false_eq_true, if_false]
        by_cases h4 : env.canSet e.key (newLabel fl env.custom cur new).text = false
        · rw [if_pos h4, if_pos h4, hnil']
        · rw [if_neg h4, if_neg h4]
          unfold St.tell St.act
          cases fl.verbose <;> simp [h3]

open Classical in
/-- What is done to a file with the context `cur`. -/
noncomputable def actOf (env : Env) (fl : Flags) (cur : Option Parts) (e : Ent) : Act :=
  if h : ∃ new : Parts, new.Good ∧ Specified env e new.text then actNew env fl e cur h.choose
  else if Fails env fl cur e then ⟨true, none, []⟩ else ⟨false, none, []⟩

theorem specified_unique {env : Env} {e : Ent} {x y : Bytes} (hx : Specified env e x) (hy : Specified env e y) : x = y := by
  obtain ⟨p, a, b⟩ := hx
  obtain ⟨q, c, d⟩ := hy
  rw [← names_iff] at a c
  rw [a] at c; cases c
  rw [b] at d; cases d
  rfl

theorem actOf_new {env : Env} {fl : Flags} {cur : Option Parts} {e : Ent} {new : Parts} (hg : new.Good) (hs : Specified env e new.text) :
    actOf env fl cur e = actNew env fl e cur new := by
  have h : ∃ new : Parts, new.Good ∧ Specified env e new.text := ⟨new, hg, hs⟩
  unfold actOf
  rw [dif_pos h, text_inj h.choose_spec.1 hg (specified_unique h.choose_spec.2 hs)]

theorem actOf_none {env : Env} {fl : Flags} {cur : Option Parts} {e : Ent} (h : ¬ ∃ x, Specified env e x) :
    (actOf env fl cur e).set = none ∧ (actOf env fl cur e).say = [] ∧ ((actOf env fl cur e).fail = true ↔ Fails env fl cur e) := by
  unfold actOf
  rw [dif_neg (fun ⟨n, _, hs⟩ => h ⟨_, hs⟩)]
  split <;> simp [*]

theorem actOf_fail {env : Env} {fl : Flags} {cur : Option Parts} {e : Ent} (hspec : ∀ x, Specified env e x → ∃ p : Parts, p.Good ∧ x = p.text) :
    (actOf env fl cur e).fail = true ↔ Fails env fl cur e := by
  by_cases h : ∃ x, Specified env e x
  · obtain ⟨x, hx⟩ := h
    obtain ⟨new, hg, rfl⟩ := hspec x hx
    rw [actOf_new hg hx]
    unfold actNew
    constructor
    · intro hf
      split at hf
      · exact .get _ hx ‹_›
      · split at hf
        · cases hf
        · split at hf
          · cases hf
          · split at hf
            · rename_i a b c d
              exact .set new hg hx (by simpa using c) (fun e => b e.symm) d
            · cases hf
    · intro hf
      cases hf with
      | outside ho =>
        obtain ⟨p, hp, _⟩ := hx
        exact absurd ⟨p, hp⟩ ho
      | lookup p hp hl =>
        obtain ⟨q, hq, hl'⟩ := hx
        rw [← names_iff] at hp hq
        rw [hp] at hq; cases hq
        rw [hl] at hl'; cases hl'
      | get y hy hg => rw [if_pos hg]
      | set new' hg' hs hn hne hset =>
        have := text_inj hg' hg (specified_unique hs hx)
        subst this
        split
        · rfl
        · rw [if_neg (fun e => hne e.symm)]
          simp [hn, hset]
  · exact (actOf_none h).2.2

/-! ## A run -/

/-- Errors are noted. -/
def St.note (s : St) (fl : Flags) (b : Bool) : St :=
  if b then (if fl.countErrors then { s with skipped := s.skipped + 1 } else { s with error := true }) else s

theorem entry_note {env : Env} {fl : Flags} {e : Ent} {s : St} (hs : e.path.length < 4096) (ha : fl.abortOnError = false) :
    entry env fl e s = (restoreconSb env fl e s).map fun r => r.2.note fl r.1 := by
  unfold entry
  rw [if_neg (by omega)]
  cases restoreconSb env fl e s with
  | none => rfl
  | some r =>
    obtain ⟨b, s'⟩ := r
    cases b with
    | false => rfl
    | true =>
      simp only [ha, Option.map_some, St.note, if_true]
      rw [if_neg (by simp)]
      split <;> rfl

theorem sb_act {env : Env} {fl : Flags} {e : Ent} {cur : Option Parts} {s : St} (hc : HasSpec env e → ∀ c, cur = some c → c.Good)
    (hl : HasSpec env e → s.w.label e.key = cur.map Parts.text) (hraw : ∀ p : Parts, p.Good → env.toRaw p.text = some p.text)
    (hspec : ∀ x, Specified env e x → ∃ p : Parts, p.Good ∧ x = p.text) (hno : fl.addAssoc = false) :
    restoreconSb env fl e s = some ((actOf env fl cur e).fail, s.act e (actOf env fl cur e)) := by
  have hnil : ∀ a : Act, a.set = none → a.say = [] → s.act e a = s := fun a h1 h2 => by simp [St.act, h1, h2]
  unfold restoreconSb
  cases hp : lookupPath env.root e.path with
  | none =>
    have hns : ¬ ∃ x, Specified env e x := by rintro ⟨x, p, h, -⟩; rw [← names_iff, hp] at h; cases h
    obtain ⟨a1, a2, a3⟩ := actOf_none (fl := fl) (cur := cur) hns
    rw [hnil _ a1 a2, a3.2 (.outside (by rintro ⟨p, h⟩; rw [← names_iff, hp] at h; cases h))]
  | some p =>
    simp only
    have hn := names_iff.1 hp
    cases hlk : env.lookup p e.mode with
    | error =>
      have hns : ¬ ∃ x, Specified env e x := by
        rintro ⟨x, q, h, h'⟩; rw [← names_iff, hp] at h; cases h; rw [hlk] at h'; cases h'
      obtain ⟨a1, a2, a3⟩ := actOf_none (fl := fl) (cur := cur) hns
      rw [hnil _ a1 a2, a3.2 (.lookup p hn hlk)]
    | noMatch =>
      have hns : ¬ ∃ x, Specified env e x := by
        rintro ⟨x, q, h, h'⟩; rw [← names_iff, hp] at h; cases h; rw [hlk] at h'; cases h'
      obtain ⟨a1, a2, a3⟩ := actOf_none (fl := fl) (cur := cur) hns
      have hf : (actOf env fl cur e).fail = false := by
        rw [← Bool.not_eq_true, a3]
        intro hf
        cases hf with
        | outside ho => exact ho ⟨p, hn⟩
        | lookup q hq hl' => rw [← names_iff, hp] at hq; cases hq; rw [hlk] at hl'; cases hl'
        | get y hy _ => exact hns ⟨y, hy⟩
        | set y _ hy _ _ _ => exact hns ⟨_, hy⟩
      rw [hnil _ a1 a2, hf]
    | found x =>
      have hs : Specified env e x := ⟨p, hn, hlk⟩
      obtain ⟨new, hg, rfl⟩ := hspec x hs
      simp only [hno, Bool.false_eq_true, if_false]
      rw [actOf_new hg hs]
      exact relabel_act (hc ⟨_, hs⟩) hg (hl ⟨_, hs⟩) hraw

theorem exists_cur {w : World} (h : ∀ k x, w.label k = some x → ∃ p : Parts, p.Good ∧ x = p.text) (k : Nat × Nat) : ∃ cur, Cur w k cur := by
  cases hl : w.label k with
  | none => exact ⟨none, by simp [hl], by simp⟩
  | some x =>
    obtain ⟨p, hg, rfl⟩ := h k x hl
    exact ⟨some p, by simp [hl], by rintro c ⟨⟩; exact hg⟩

/-- What a run over a list of different files does. -/
theorem runAll_acts {env : Env} {fl : Flags} (hno : fl.addAssoc = false) (ha : fl.abortOnError = false)
    (hraw : ∀ p : Parts, p.Good → env.toRaw p.text = some p.text) (cur : Nat × Nat → Option Parts) : ∀ (es : List Ent) (s : St),
    (∀ e ∈ es, e.path.length < 4096 ∧ (∀ x, Specified env e x → ∃ p : Parts, p.Good ∧ x = p.text) ∧ (HasSpec env e → Cur s.w e.key (cur e.key))) →
    Different env es → s.abort = false →
    ∃ s', runAll env fl es s = some s' ∧
      (∀ e ∈ es, HasSpec env e → s'.w.label e.key = (match (actOf env fl (cur e.key) e).set with | none => s.w.label e.key | some c => some c)) ∧
      (∀ k, (∀ e ∈ es, e.key = k → (actOf env fl (cur k) e).set = none) → s'.w.label k = s.w.label k) ∧
      s'.log = s.log ++ es.flatMap (fun e => (actOf env fl (cur e.key) e).say) ∧
      (s'.error = true ↔ s.error = true ∨ (fl.countErrors = false ∧ ∃ e ∈ es, (actOf env fl (cur e.key) e).fail = true)) ∧
      (s.skipped < s'.skipped ↔ (fl.countErrors = true ∧ ∃ e ∈ es, (actOf env fl (cur e.key) e).fail = true)) ∧ s'.abort = false
  | [], s, _, _, hab => ⟨s, rfl, by simp, by simp, by simp, by simp, by simp, hab⟩
  | e :: es, s, hes, hp, hab => by
    obtain ⟨h1, h2, h3⟩ := hes e (by simp)
    rw [Different, List.pairwise_cons] at hp
    have hsb := sb_act (s := s) (fun h => (h3 h).2) (fun h => (h3 h).1) hraw h2 hno
    have hent := entry_note (env := env) (s := s) h1 ha
    rw [hsb] at hent
    simp only [Option.map_some] at hent
    rw [runAll, if_neg (by simp [hab]), hent]
    simp only
    generalize hA : actOf env fl (cur e.key) e = A at *
    have hw1 : ((s.act e A).note fl A.fail).w = (s.act e A).w := by unfold St.note; split <;> (try split) <;> rfl
    have hlog : ((s.act e A).note fl A.fail).log = s.log ++ A.say := by unfold St.note; split <;> (try split) <;> rfl
    have habt : ((s.act e A).note fl A.fail).abort = false := by unfold St.note; split <;> (try split) <;> exact hab
    have hother : ∀ k, k ≠ e.key → (s.act e A).w.label k = s.w.label k := fun k hk => by
      unfold St.act
      cases A.set with
      | none => rfl
      | some c => simp [World.setLabel, hk]
    have hsome : A.set ≠ none → HasSpec env e := fun h => by
      by_contra hno
      exact h (by rw [← hA]; exact (actOf_none hno).1)
    have hkeep : ∀ x ∈ es, HasSpec env x → (s.act e A).w.label x.key = s.w.label x.key := fun x hx hs => by
      by_cases h : x.key = e.key
      · have : A.set = none := by
          by_contra hne
          exact hp.1 x hx h.symm ⟨hsome hne, hs⟩
        unfold St.act
        rw [this]
      · exact hother _ h
    have hself : (s.act e A).w.label e.key = (match A.set with | none => s.w.label e.key | some c => some c) := by
      unfold St.act
      cases A.set with
      | none => rfl
      | some c => simp [World.setLabel]
    obtain ⟨s', r1, r2, r3, r4, r5, r6, r7⟩ := runAll_acts hno ha hraw cur es ((s.act e A).note fl A.fail) (fun x hx => by
      obtain ⟨a, b, c⟩ := hes x (List.mem_cons_of_mem _ hx)
      refine ⟨a, b, fun hs => ⟨?_, (c hs).2⟩⟩
      rw [hw1, hkeep x hx hs]
      exact (c hs).1) hp.2 habt
    refine ⟨s', r1, ?_, ?_, ?_, ?_, ?_, r7⟩
    · intro x hx hs
      rcases List.mem_cons.1 hx with rfl | hx
      · rw [r3 x.key (fun y hy hk => (actOf_none fun hy' => hp.1 y hy hk.symm ⟨hs, hy'⟩).1), hw1, hself, hA]
      · rw [r2 x hx hs, hw1, hkeep x hx hs]
    · intro k hk
      rw [r3 k (fun x hx => hk x (List.mem_cons_of_mem _ hx)), hw1]
      by_cases h : k = e.key
      · subst h
        have := hk e (by simp) rfl
        rw [hA] at this
        rw [hself, this]
      · exact hother k h
    · rw [r4, hlog, List.flatMap_cons, hA]
      simp
    · rw [r5]
      have : ((s.act e A).note fl A.fail).error = true ↔ s.error = true ∨ (fl.countErrors = false ∧ A.fail = true) := by
        unfold St.note
        cases A.fail <;> cases fl.countErrors <;> simp [St.act]
      rw [this]
      simp only [List.mem_cons, exists_eq_or_imp, hA]
      constructor
      · rintro ((h | ⟨a, b⟩) | ⟨a, b⟩)
        · exact Or.inl h
        · exact Or.inr ⟨a, Or.inl b⟩
        · exact Or.inr ⟨a, Or.inr b⟩
      · rintro (h | ⟨a, b | b⟩)
        · exact Or.inl (Or.inl h)
        · exact Or.inl (Or.inr ⟨a, b⟩)
        · exact Or.inr ⟨a, b⟩
    · have hk : ((s.act e A).note fl A.fail).skipped = s.skipped + (if fl.countErrors = true ∧ A.fail = true then 1 else 0) := by
        unfold St.note
        cases A.fail <;> cases fl.countErrors <;> simp [St.act]
      have hmono := (runAll_keeps r1).2.2.2.1
      simp only [List.mem_cons, exists_eq_or_imp, hA]
      by_cases hc : fl.countErrors = true ∧ A.fail = true
      · rw [if_pos hc] at hk
        constructor
        · intro _; exact ⟨hc.1, Or.inl hc.2⟩
        · intro _; omega
      · rw [if_neg hc] at hk
        rw [hk] at r6
        rw [Nat.add_zero] at r6
        rw [r6]
        exact ⟨fun ⟨a, b⟩ => ⟨a, Or.inr b⟩, fun ⟨a, b⟩ => ⟨a, b.resolve_left fun h => hc ⟨a, h⟩⟩⟩

end Verif.Restore
