import Verif.Restore.Lemmas7

/-! # Lemmas: calls that change nothing, flags that make no difference, single files -/

namespace Verif.Restore
open Verif.Context (Res)

/-! ## Without changes -/

theorem relabel_nochange {env : Env} {fl : Flags} {e : Ent} {new : Bytes} {s : St} (h : fl.nochange = true) :
    ∀ r, relabel env fl e new s = some r → r.2.w = s.w := by
  intro r hr
  unfold relabel at hr
  split at hr
  · cases hr; rfl
  · split at hr
    · cases hr
    · cases hr; rfl
    · cases hr; rfl
    · try rw [if_pos h] at hr
      cases hr
      unfold St.tell
      split <;> rfl

theorem sb_nochange {env : Env} {fl : Flags} {e : Ent} {s : St} (h : fl.nochange = true) :
    ∀ r, restoreconSb env fl e s = some r → r.2.w = s.w := by
  intro r hr
  unfold restoreconSb at hr
  split at hr
  · cases hr; rfl
  · split at hr
    · cases hr; rfl
    · cases hr; rfl
    · split at hr
      · simp only at hr
        split at hr
        · cases hr; rfl
        · cases hr; rfl
        · exact (relabel_nochange h r hr).trans rfl
      · exact relabel_nochange h r hr

theorem entry_nochange {env : Env} {fl : Flags} {e : Ent} {s s' : St} (h : fl.nochange = true) (hr : entry env fl e s = some s') : s'.w = s.w := by
  unfold entry at hr
  split at hr
  · cases hr; rfl
  · cases hsb : restoreconSb env fl e s with
    | none => rw [hsb] at hr; cases hr
    | some r =>
      have := sb_nochange h r hsb
      rw [hsb] at hr
      obtain ⟨b, s1⟩ := r
      cases b with
      | false => cases hr; exact this
      | true =>
        simp only at hr
        split at hr
        · cases hr; exact this
        · split at hr
          · cases hr; exact this
          · cases hr; exact this

mutual
theorem walk_nochange {env : Env} {fl : Flags} (h : fl.nochange = true) : ∀ (t : Tree) (s s' : St), walk env fl t s = some s' → s'.w = s.w
  | .node e info kids, s, s', hw => by
    rw [walk.eq_def] at hw
    simp only at hw
    split at hw
    · cases hw; rfl
    · split at hw
      · cases hw; rfl
      · have hdir : (if (fl.sysfs && !env.partialMatch e.path) = true then some s
          else if checkExcluded env.excl e.path = true then some s
          else
            let d := digestStep env fl e.path s
            if d.1 = true then some d.2
            else match entry env fl e d.2 with
              | none => none
              | some s => if info = .dir then walks env fl kids s else some s) = some s' → s'.w = s.w := by
          intro hw
          obtain ⟨-, hh, ds2⟩ := digestStep_spec env fl s.w e.path s rfl
          simp only at hw
          rw [ds2] at hw
          split at hw
          · cases hw; rfl
          · split at hw
            · cases hw; rfl
            · split at hw
              · cases hw; rfl
              · cases hen : entry env fl e (s.put hh) with
                | none => rw [hen] at hw; cases hw
                | some s1 =>
                  rw [hen] at hw
                  have h1 := entry_nochange h hen
                  simp only at hw
                  split at hw
                  · exact (walks_nochange h kids s1 s' hw).trans h1
                  · cases hw; exact h1
        cases info with
        | cycle => cases hw; rfl
        | nostat => cases hw; rfl
        | other => exact entry_nochange h hw
        | dir => exact hdir hw
        | unreadable => exact hdir hw
theorem walks_nochange {env : Env} {fl : Flags} (h : fl.nochange = true) : ∀ (ts : List Tree) (s s' : St), walks env fl ts s = some s' → s'.w = s.w
  | [], s, s', hw => by cases hw; rfl
  | t :: ts, s, s', hw => by
    rw [walks] at hw
    cases hx : walk env fl t s with
    | none => rw [hx] at hw; cases hw
    | some s1 =>
      rw [hx] at hw
      exact (walks_nochange h ts s1 s' hw).trans (walk_nochange h t s s1 hx)
end

/-! ## What the files to be labelled depend on -/

/-- The flags that say which files are labelled. -/
def Flags.SameWalk (fl fl' : Flags) : Prop :=
  fl.xdev = fl'.xdev ∧ fl.devNum = fl'.devNum ∧ fl.sysfs = fl'.sysfs ∧ fl.setDigest = fl'.setDigest ∧ fl.ignoreDigest = fl'.ignoreDigest

theorem entered_congr {env : Env} {fl fl' : Flags} {w w' : World} {e : Ent} (h : fl.SameWalk fl') (hd : fl.setDigest = true → w.digest = w'.digest) :
    Entered env fl w e ↔ Entered env fl' w' e := by
  obtain ⟨h1, h2, h3, h4, h5⟩ := h
  unfold Entered OnDevice UpToDate
  rw [h1, h2, h3, ← h4, h5]
  cases hs : fl.setDigest with
  | false => simp
  | true => rw [hd hs]

mutual
theorem files_congr {env : Env} {fl fl' : Flags} {w w' : World} (h : fl.SameWalk fl') (hd : fl.setDigest = true → w.digest = w'.digest) :
    ∀ t, files env fl w t = files env fl' w' t
  | .node e info kids => by
    rw [files, files]
    have h1 : OnDevice fl e = OnDevice fl' e := by unfold OnDevice; rw [h.1, h.2.1]
    have h2 : Entered env fl w e = Entered env fl' w' e := propext (entered_congr h hd)
    rw [h1, h2, filess_congr h hd kids]
theorem filess_congr {env : Env} {fl fl' : Flags} {w w' : World} (h : fl.SameWalk fl') (hd : fl.setDigest = true → w.digest = w'.digest) :
    ∀ ts, filess env fl w ts = filess env fl' w' ts
  | [] => by rw [filess, filess]
  | t :: ts => by rw [filess, filess, files_congr h hd t, filess_congr h hd ts]
end

/-! ## One file -/

theorem sb_single {env : Env} {fl : Flags} {e : Ent} {w : World} :
    ∃ t, restoreconSb env fl e { w := w } = (restoreconSb env fl.noAssoc e { w := w }).map fun r => (r.1, r.2.tab t) := by
  unfold restoreconSb
  have hno : fl.noAssoc.addAssoc = false := rfl
  cases hp : lookupPath env.root e.path with
  | none => exact ⟨fun _ => [], rfl⟩
  | some p =>
    simp only [hno, Bool.false_eq_true, if_false]
    cases hl : env.lookup p e.mode with
    | error => exact ⟨fun _ => [], rfl⟩
    | noMatch => exact ⟨fun _ => [], rfl⟩
    | found new =>
      simp only
      have hrel : ∀ (new : Bytes) (s : St), relabel env fl.noAssoc e new s = relabel env fl e new s := fun _ _ => rfl
      cases hf : fl.addAssoc with
      | false =>
        refine ⟨fun _ => [], ?_⟩
        rw [if_neg (by simp), hrel]
        have h1 := relabel_tab (env := env) (fl := fl) (e := e) (new := new) (s := { w := w }) (t := fun _ => [])
        exact h1
      | true =>
        refine ⟨(filespecAdd env fl e new (fun _ => [])).2, ?_⟩
        rw [if_pos rfl, hrel, ← relabel_tab]
        rfl

end Verif.Restore
