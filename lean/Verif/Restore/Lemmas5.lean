import Verif.Restore.Lemmas4

/-! # Lemmas: hard links -/

namespace Verif.Restore
open Verif.Context (Res)

/-- The list is in descending order of the inodes. -/
def Desc (l : List Fs) : Prop := l.Pairwise fun a b => b.ino < a.ino

theorem addBucket_spec {env : Env} {fl : Flags} (hc : fl.conflictError = false) {ino : Nat} {con file : Bytes} (hfile : env.inoAt file = some ino) :
    ∀ (l : List Fs), Desc l → (∀ f ∈ l, env.inoAt f.file = some f.ino) →
    Desc (addBucket env fl ino con file l).2 ∧ (∀ f ∈ (addBucket env fl ino con file l).2, env.inoAt f.file = some f.ino) ∧
      (∀ i, (∃ f ∈ (addBucket env fl ino con file l).2, f.ino = i) ↔ i = ino ∨ ∃ f ∈ l, f.ino = i) ∧
      (addBucket env fl ino con file l).1 = if (∃ f ∈ l, f.ino = ino) then .present else .added
  | [], _, _ => by simp [addBucket, Desc, hfile, eq_comm]
  | f :: l, hd, hv => by
    have hd' := List.pairwise_cons.1 hd
    unfold addBucket
    by_cases h1 : ino = f.ino
    · rw [if_pos h1]
      have hvf := hv f (by simp)
      rw [if_neg (by rw [h1, hvf]; simp)]
      have hex : ∃ g ∈ f :: l, g.ino = ino := ⟨f, by simp, h1.symm⟩
      by_cases h2 : f.con = con
      · rw [if_pos h2]
        refine ⟨hd, hv, fun i => ?_, by rw [if_pos hex]⟩
        constructor
        · exact Or.inr
        · rintro (rfl | h)
          · exact hex
          · exact h
      · rw [if_neg h2, hc]
        refine ⟨List.pairwise_cons.2 ⟨fun g hg => hd'.1 g hg, hd'.2⟩, fun g hg => ?_, fun i => ?_, by rw [if_pos hex]; rfl⟩
        · rcases List.mem_cons.1 hg with rfl | hg
          · rw [← h1]; exact hfile
          · exact hv g (List.mem_cons_of_mem _ hg)
        · simp only [List.mem_cons, exists_eq_or_imp]
          constructor
          · rintro (h | h)
            · exact Or.inr (Or.inl h)
            · exact Or.inr (Or.inr h)
          · rintro (h | h | h)
            · exact Or.inl (by rw [h, h1])
            · exact Or.inl h
            · exact Or.inr h
    · rw [if_neg h1]
      by_cases h2 : ino > f.ino
      · rw [if_pos h2]
        refine ⟨List.pairwise_cons.2 ⟨fun g hg => ?_, hd⟩, fun g hg => ?_, fun i => ?_, ?_⟩
        · rcases List.mem_cons.1 hg with rfl | hg
          · exact h2
          · exact Nat.lt_trans (hd'.1 g hg) h2
        · rcases List.mem_cons.1 hg with rfl | hg
          · exact hfile
          · exact hv g hg
        · simp only [List.mem_cons, exists_eq_or_imp]
          rw [eq_comm (a := ino)]
        · rw [if_neg]
          rintro ⟨g, hg, hgi⟩
          rcases List.mem_cons.1 hg with rfl | hg
          · exact h1 hgi.symm
          · have := hd'.1 g hg
            omega
      · rw [if_neg h2]
        obtain ⟨a1, a2, a3, a4⟩ := addBucket_spec hc (con := con) hfile l hd'.2 (fun g hg => hv g (List.mem_cons_of_mem _ hg))
        refine ⟨List.pairwise_cons.2 ⟨fun g hg => ?_, a1⟩, fun g hg => ?_, fun i => ?_, ?_⟩
        · rcases (a3 g.ino).1 ⟨g, hg, rfl⟩ with h | ⟨g', hg', h⟩
          · omega
          · rw [← h]; exact hd'.1 g' hg'
        · rcases List.mem_cons.1 hg with rfl | hg
          · exact hv _ (by simp)
          · exact a2 g hg
        · simp only [List.mem_cons, exists_eq_or_imp]
          rw [a3 i]
          exact or_left_comm
        · simp only
          rw [a4]
          have : (∃ g ∈ l, g.ino = ino) ↔ (∃ g ∈ f :: l, g.ino = ino) := by
            simp only [List.mem_cons, exists_eq_or_imp]
            exact ⟨Or.inr, fun h => h.elim (fun x => absurd x.symm h1) id⟩
          simp only [this]

/-- The table has the inodes of the set. -/
structure Tab (env : Env) (t : Nat → List Fs) (seen : List Nat) : Prop where
  desc : ∀ h, Desc (t h)
  valid : ∀ h, ∀ f ∈ t h, env.inoAt f.file = some f.ino
  inos : ∀ i, i ∈ seen ↔ ∃ f ∈ t (bucket i), f.ino = i

theorem filespecAdd_spec {env : Env} {fl : Flags} (hc : fl.conflictError = false) {e : Ent} {con : Bytes} (hfile : env.inoAt e.path = some e.ino)
    {t : Nat → List Fs} {seen : List Nat} (ht : Tab env t seen) :
    (filespecAdd env fl e con t).1 = (if e.ino ∈ seen then .present else .added) ∧ Tab env (filespecAdd env fl e con t).2 (e.ino :: seen) := by
  obtain ⟨a1, a2, a3, a4⟩ := addBucket_spec hc (con := con) hfile (t (bucket e.ino)) (ht.desc _) (ht.valid _)
  refine ⟨?_, fun h => ?_, fun h => ?_, fun i => ?_⟩
  · unfold filespecAdd
    simp only
    rw [a4]
    simp only [ht.inos e.ino]
  · unfold filespecAdd
    simp only
    split
    · exact a1
    · exact ht.desc h
  · unfold filespecAdd
    simp only
    split
    · exact a2
    · exact ht.valid h
  · unfold filespecAdd
    simp only
    by_cases hb : bucket i = bucket e.ino
    · rw [if_pos hb, a3 i, List.mem_cons, ht.inos i, hb]
    · rw [if_neg hb, List.mem_cons, ht.inos i]
      exact ⟨fun h => h.elim (fun x => absurd (by rw [x]) hb) id, Or.inr⟩

/-- The state with another table. -/
def St.tab (s : St) (t : Nat → List Fs) : St := { s with assoc := t }

/-- The flags without the table. -/
def Flags.noAssoc (fl : Flags) : Flags := { fl with addAssoc := false }

theorem relabel_tab {env : Env} {fl : Flags} {e : Ent} {new : Bytes} {s : St} {t : Nat → List Fs} :
    relabel env fl e new (s.tab t) = (relabel env fl e new s).map fun r => (r.1, r.2.tab t) := by
  unfold relabel
  have h : ∀ s : St, ∀ o c, (s.tab t).tell fl e o c = (s.tell fl e o c).tab t := fun s o c => by
    unfold St.tell; split <;> rfl
  have h0 : (s.tab t).w = s.w := rfl
  have h1 : ∀ raw, { s.tab t with w := s.w.setLabel e.key raw } = ({ s with w := s.w.setLabel e.key raw } : St).tab t := fun _ => rfl
  simp only [h0, h, h1]
  split
  · rfl
  · split
    · rfl
    · rfl
    · rfl
    · split
      · rfl
      · split
        · rfl
        · split <;> rfl

theorem sb_tab {env : Env} {fl : Flags} {e : Ent} {s : St} {t : Nat → List Fs} :
    restoreconSb env fl.noAssoc e (s.tab t) = (restoreconSb env fl.noAssoc e s).map fun r => (r.1, r.2.tab t) := by
  unfold restoreconSb
  have hno : fl.noAssoc.addAssoc = false := rfl
  simp only [hno, Bool.false_eq_true, if_false, relabel_tab]
  split
  · rfl
  · split <;> rfl

theorem entry_tab {env : Env} {fl : Flags} {e : Ent} {s : St} {t : Nat → List Fs} :
    entry env fl.noAssoc e (s.tab t) = (entry env fl.noAssoc e s).map fun s => s.tab t := by
  unfold entry
  split
  · rfl
  · rw [sb_tab]
    cases restoreconSb env fl.noAssoc e s with
    | none => rfl
    | some r =>
      obtain ⟨b, s1⟩ := r
      cases b with
      | false => rfl
      | true =>
        simp only [Option.map_some]
        split
        · rfl
        · split <;> rfl

open Classical in
/-- The files whose inode has not been met at a file with a context before. -/
noncomputable def winners (env : Env) : List Nat → List Ent → List Ent
  | _, [] => []
  | seen, e :: es =>
    if HasSpec env e then (if e.ino ∈ seen then winners env seen es else e :: winners env (e.ino :: seen) es)
    else e :: winners env seen es

theorem tab_subset {env : Env} {t : Nat → List Fs} {i : Nat} {seen : List Nat} (h : Tab env t (i :: seen)) (hi : i ∈ seen) : Tab env t seen :=
  ⟨h.desc, h.valid, fun j => by
    rw [← h.inos j, List.mem_cons]
    exact ⟨Or.inr, fun x => x.elim (fun y => y ▸ hi) id⟩⟩

/-- One file. -/
theorem entry_assoc {env : Env} {fl : Flags} (hf : fl.addAssoc = true) (hc : fl.conflictError = false) {e : Ent} {s : St} {seen : List Nat}
    (hfile : env.inoAt e.path = some e.ino) (hlen : e.path.length < 4096) (ht : Tab env s.assoc seen) :
    (HasSpec env e ∧ e.ino ∈ seen ∧ ∃ t, Tab env t seen ∧ entry env fl e s = some (s.tab t)) ∨
    (HasSpec env e ∧ e.ino ∉ seen ∧ ∃ t, Tab env t (e.ino :: seen) ∧ entry env fl e s = (entry env fl.noAssoc e s).map fun s => s.tab t) ∨
    (¬ HasSpec env e ∧ ∃ t, Tab env t seen ∧ entry env fl e s = (entry env fl.noAssoc e s).map fun s => s.tab t) := by
  classical
  have hrel : ∀ (new : Bytes) (s : St), relabel env fl.noAssoc e new s = relabel env fl e new s := fun _ _ => rfl
  have hno : fl.noAssoc.addAssoc = false := rfl
  have hself : s.tab s.assoc = s := rfl
  by_cases hs : HasSpec env e
  · obtain ⟨new, p, hp, hl⟩ := id hs
    rw [← names_iff] at hp
    obtain ⟨f1, f2⟩ := filespecAdd_spec hc (con := new) hfile ht
    have hsb : restoreconSb env fl e s = match (filespecAdd env fl e new s.assoc).1 with
        | .failed => some (true, s.tab (filespecAdd env fl e new s.assoc).2)
        | .present => some (false, s.tab (filespecAdd env fl e new s.assoc).2)
        | .added => relabel env fl e new (s.tab (filespecAdd env fl e new s.assoc).2) := by
      unfold restoreconSb
      rw [hp]
      simp only [hl, hf, if_true]
      rfl
    have hsb0 : restoreconSb env fl.noAssoc e s = relabel env fl e new s := by
      unfold restoreconSb
      rw [hp]
      simp only [hl, hno, Bool.false_eq_true, if_false]
      rfl
    rw [f1] at hsb
    by_cases hin : e.ino ∈ seen
    · rw [if_pos hin] at hsb
      simp only at hsb
      refine Or.inl ⟨hs, hin, _, tab_subset f2 hin, ?_⟩
      unfold entry
      rw [if_neg (by omega), hsb]
    · rw [if_neg hin] at hsb
      simp only at hsb
      refine Or.inr (Or.inl ⟨hs, hin, _, f2, ?_⟩)
      unfold entry
      rw [if_neg (by omega), if_neg (by omega), hsb, hsb0, relabel_tab]
      cases relabel env fl e new s with
      | none => rfl
      | some r =>
        obtain ⟨b, s1⟩ := r
        cases b with
        | false => rfl
        | true =>
          simp only [Option.map_some]
          have e1 : fl.noAssoc.abortOnError = fl.abortOnError := rfl
          have e2 : fl.noAssoc.countErrors = fl.countErrors := rfl
          rw [e1, e2]
          split
          · rfl
          · split <;> rfl
  · refine Or.inr (Or.inr ⟨hs, s.assoc, ht, ?_⟩)
    have hsb : restoreconSb env fl e s = restoreconSb env fl.noAssoc e s ∧
        ∀ r, restoreconSb env fl.noAssoc e s = some r → r.2 = s := by
      unfold restoreconSb
      cases hp : lookupPath env.root e.path with
      | none => exact ⟨rfl, by rintro _ ⟨⟩; rfl⟩
      | some p =>
        simp only
        cases hl : env.lookup p e.mode with
        | error => exact ⟨rfl, by rintro _ ⟨⟩; rfl⟩
        | noMatch => exact ⟨rfl, by rintro _ ⟨⟩; rfl⟩
        | found new => exact absurd ⟨new, p, names_iff.1 hp, hl⟩ hs
    unfold entry
    rw [if_neg (by omega), if_neg (by omega), hsb.1]
    cases hr : restoreconSb env fl.noAssoc e s with
    | none => rfl
    | some r =>
      have := hsb.2 r hr
      obtain ⟨b, s1⟩ := r
      cases this
      cases b with
      | false => rfl
      | true =>
        simp only
        have e1 : fl.noAssoc.abortOnError = fl.abortOnError := rfl
        have e2 : fl.noAssoc.countErrors = fl.countErrors := rfl
        rw [e1, e2]
        split
        · rfl
        · split <;> rfl

end Verif.Restore
