import Verif.Restore.Lemmas5

/-! # Lemmas: what a walk does -/

namespace Verif.Restore
open Verif.Context (Res)

theorem runAll_tab {env : Env} {fl : Flags} {t : Nat → List Fs} : ∀ (es : List Ent) (s : St),
    runAll env fl.noAssoc es (s.tab t) = (runAll env fl.noAssoc es s).map fun s => s.tab t
  | [], s => rfl
  | e :: es, s => by
    rw [runAll, runAll]
    have h : (s.tab t).abort = s.abort := rfl
    rw [h]
    split
    · rfl
    · rw [entry_tab]
      cases entry env fl.noAssoc e s with
      | none => rfl
      | some s1 => exact runAll_tab es s1

theorem entry_assoc_same {env : Env} {fl : Flags} {e : Ent} {s s' : St} (h : entry env fl.noAssoc e s = some s') : s'.assoc = s.assoc := by
  have h1 := entry_tab (env := env) (fl := fl) (e := e) (s := s) (t := s.assoc)
  have h2 : s.tab s.assoc = s := rfl
  rw [h2, h] at h1
  have h3 := Option.some.inj h1
  rw [h3]
  rfl

theorem runAll_assoc {env : Env} {fl : Flags} (hf : fl.addAssoc = true) (hc : fl.conflictError = false) : ∀ (es : List Ent) (s : St) (seen : List Nat),
    (∀ e ∈ es, env.inoAt e.path = some e.ino ∧ e.path.length < 4096) → Tab env s.assoc seen →
    ∃ t, runAll env fl es s = (runAll env fl.noAssoc (winners env seen es) s).map fun s => s.tab t
  | [], s, seen, _, _ => ⟨s.assoc, rfl⟩
  | e :: es, s, seen, hes, ht => by
    have hes' : ∀ e ∈ es, env.inoAt e.path = some e.ino ∧ e.path.length < 4096 := fun x hx => hes x (List.mem_cons_of_mem _ hx)
    by_cases hab : s.abort = true
    · rw [runAll_abort hab, runAll_abort hab]
      exact ⟨s.assoc, rfl⟩
    have key : ∀ (seen' : List Nat) (t : Nat → List Fs), Tab env t seen' →
        entry env fl e s = (entry env fl.noAssoc e s).map (fun s => s.tab t) →
        ∃ t, (if s.abort = true then some s else match entry env fl e s with
          | none => none
          | some s => runAll env fl es s) = (runAll env fl.noAssoc (e :: winners env seen' es) s).map fun s => s.tab t := by
      intro seen' t htab he
      rw [if_neg hab, runAll, if_neg hab, he]
      cases hn : entry env fl.noAssoc e s with
      | none => exact ⟨s.assoc, rfl⟩
      | some s1 =>
        simp only [Option.map_some]
        obtain ⟨t2, h2⟩ := runAll_assoc hf hc es (s1.tab t) seen' hes' htab
        refine ⟨t2, ?_⟩
        rw [h2, runAll_tab, Option.map_map]
        rfl
    rw [runAll, winners]
    rcases entry_assoc hf hc (hes e (by simp)).1 (hes e (by simp)).2 ht with ⟨a, b, t, c, d⟩ | ⟨a, b, t, c, d⟩ | ⟨a, t, c, d⟩
    · rw [if_pos a, if_pos b, if_neg hab, d]
      obtain ⟨t2, h2⟩ := runAll_assoc hf hc es (s.tab t) seen hes' c
      refine ⟨t2, ?_⟩
      simp only
      rw [h2, runAll_tab, Option.map_map]
      rfl
    · rw [if_pos a, if_neg b]
      exact key _ t c d
    · rw [if_neg a]
      exact key _ t c d

theorem mem_winners {env : Env} : ∀ (es : List Ent) (seen : List Nat) (e : Ent), e ∈ winners env seen es ↔
    ∃ pre post, es = pre ++ e :: post ∧ (HasSpec env e → e.ino ∉ seen ∧ ∀ x ∈ pre, HasSpec env x → x.ino ≠ e.ino)
  | [], seen, e => by simp [winners]
  | a :: es, seen, e => by
    have fwd : ∀ seen', (∀ x, x ∈ seen → x ∈ seen') → (HasSpec env a → a.ino ∈ seen') → (e ∈ winners env seen' es → ∃ pre post, a :: es = pre ++ e :: post ∧
        (HasSpec env e → e.ino ∉ seen ∧ ∀ x ∈ pre, HasSpec env x → x.ino ≠ e.ino)) := by
      intro seen' hsub hain h
      obtain ⟨pre, post, rfl, h2⟩ := (mem_winners es seen' e).1 h
      refine ⟨a :: pre, post, rfl, fun hs => ⟨fun hx => (h2 hs).1 (hsub _ hx), fun x hx hxs => ?_⟩⟩
      rcases List.mem_cons.1 hx with rfl | hx
      · exact fun hxe => (h2 hs).1 (hxe ▸ hain hxs)
      · exact (h2 hs).2 x hx hxs
    rw [winners]
    by_cases ha : HasSpec env a
    · rw [if_pos ha]
      by_cases hin : a.ino ∈ seen
      · rw [if_pos hin]
        refine ⟨fwd seen (fun _ => id) (fun _ => hin), ?_⟩
        rintro ⟨pre, post, h1, h2⟩
        cases pre with
        | nil =>
          cases h1
          exact absurd hin (h2 ha).1
        | cons b pre =>
          cases h1
          exact (mem_winners _ seen e).2 ⟨pre, post, rfl, fun hs => ⟨(h2 hs).1, fun x hx => (h2 hs).2 x (List.mem_cons_of_mem _ hx)⟩⟩
      · rw [if_neg hin, List.mem_cons]
        constructor
        · rintro (rfl | h)
          · exact ⟨[], es, rfl, fun _ => ⟨hin, by simp⟩⟩
          · exact fwd (a.ino :: seen) (fun x hx => List.mem_cons_of_mem _ hx) (fun _ => by simp) h
        · rintro ⟨pre, post, h1, h2⟩
          cases pre with
          | nil => cases h1; exact Or.inl rfl
          | cons b pre =>
            cases h1
            refine Or.inr ((mem_winners _ _ e).2 ⟨pre, post, rfl, fun hs => ⟨?_, fun x hx => (h2 hs).2 x (List.mem_cons_of_mem _ hx)⟩⟩)
            rw [List.mem_cons]
            rintro (h | h)
            · exact (h2 hs).2 a (by simp) ha h.symm
            · exact (h2 hs).1 h
    · rw [if_neg ha, List.mem_cons]
      constructor
      · rintro (rfl | h)
        · exact ⟨[], es, rfl, fun hs => absurd hs ha⟩
        · exact fwd seen (fun _ => id) (fun h => absurd h ha) h
      · rintro ⟨pre, post, h1, h2⟩
        cases pre with
        | nil => cases h1; exact Or.inl rfl
        | cons b pre =>
          cases h1
          exact Or.inr ((mem_winners _ seen e).2 ⟨pre, post, rfl, fun hs => ⟨(h2 hs).1, fun x hx => (h2 hs).2 x (List.mem_cons_of_mem _ hx)⟩⟩)

theorem winners_not_seen {env : Env} {es : List Ent} {seen : List Nat} {e : Ent} (h : e ∈ winners env seen es) (hs : HasSpec env e) : e.ino ∉ seen := by
  obtain ⟨_, _, _, h⟩ := (mem_winners es seen e).1 h
  exact (h hs).1

theorem winners_different {env : Env} : ∀ (es : List Ent) (seen : List Nat), Different env (winners env seen es)
  | [], _ => by simp [winners, Different]
  | a :: es, seen => by
    rw [winners]
    split
    · split
      · exact winners_different es seen
      · refine List.pairwise_cons.2 ⟨fun b hb hk ⟨_, hs⟩ => ?_, winners_different es _⟩
        have := winners_not_seen hb hs
        apply this
        have : a.ino = b.ino := by unfold Ent.key at hk; exact (Prod.mk.injEq _ _ _ _ ▸ hk).2
        rw [this]; simp
    · rename_i hn
      exact List.pairwise_cons.2 ⟨fun b _ _ ⟨h, _⟩ => hn h, winners_different es _⟩

theorem fails_noAssoc {env : Env} {fl : Flags} {cur : Option Parts} {e : Ent} : Fails env fl.noAssoc cur e ↔ Fails env fl cur e := by
  constructor
  · intro h
    cases h with
    | outside h => exact .outside h
    | lookup p a b => exact .lookup p a b
    | get n a b => exact .get n a b
    | set n a b c d f => exact .set n a b c d f
  · intro h
    cases h with
    | outside h => exact .outside h
    | lookup p a b => exact .lookup p a b
    | get n a b => exact .get n a b
    | set n a b c d f => exact .set n a b c d f

/-- The flags with which a list is run. -/
def Flags.plain (fl : Flags) : Flags := fl.noAssoc

theorem plain_eq {fl : Flags} (h : fl.addAssoc = false) : fl.noAssoc = fl := by
  unfold Flags.noAssoc; cases fl; simp only at h; subst h; rfl

open Classical in
/-- The files that are looked at in earnest. -/
noncomputable def chosen (env : Env) (fl : Flags) (es : List Ent) : List Ent := if fl.addAssoc = true then winners env [] es else es

theorem mem_chosen {env : Env} {fl : Flags} {es : List Ent} {e : Ent} : e ∈ chosen env fl es ↔ Chosen env fl es e := by
  unfold chosen Chosen
  split
  · rename_i h
    rw [mem_winners]
    simp [h]
  · rename_i h
    simp only [h, false_implies, and_true, Bool.false_eq_true]
    exact List.mem_iff_append

theorem chosen_different {env : Env} {fl : Flags} {es : List Ent} (h : Apart env fl es) : Different env (chosen env fl es) := by
  unfold chosen
  split
  · exact winners_different es []
  · rename_i hf; exact h.1 (by simpa using hf)

theorem chosen_subset {env : Env} {fl : Flags} {es : List Ent} {e : Ent} (h : e ∈ chosen env fl es) : e ∈ es := by
  obtain ⟨a, b, rfl, -⟩ := mem_chosen.1 h
  simp

/-- What a run does. -/
theorem run_chosen {env : Env} {fl : Flags} {es : List Ent} {s : St} (h : Apart env fl es) (hes : ∀ e ∈ es, e.path.length < 4096)
    (hs : s.assoc = fun _ => []) :
    ∃ t, runAll env fl es s = (runAll env fl.noAssoc (chosen env fl es) s).map fun s => s.tab t := by
  unfold chosen
  cases hf : fl.addAssoc with
  | false =>
    rw [if_neg (by simp), plain_eq hf]
    refine ⟨s.assoc, ?_⟩
    have h1 := runAll_tab (env := env) (fl := fl) (t := s.assoc) es s
    rw [plain_eq hf] at h1
    exact h1
  | true =>
    rw [if_pos rfl]
    exact runAll_assoc hf (h.2 hf).1 es s [] (fun e he => ⟨(h.2 hf).2 e he, hes e he⟩)
      (by rw [hs]; exact ⟨fun _ => List.Pairwise.nil, by simp, by simp⟩)

end Verif.Restore
