import Verif.Restore.Props2

/-!
# C103, continued: what ends a walk
-/

namespace Verif.Restore
open Verif.Context (Res b)

/-- The walk comes to a directory that leads back to one above it, or to a file whose path is too long. -/
inductive Trouble (env : Env) (fl : Flags) (w : World) : Tree → Prop
  | cycle (e : Ent) (kids : List Tree) : OnDevice fl e → Trouble env fl w (.node e .cycle kids)
  | long (e : Ent) (kids : List Tree) : OnDevice fl e → 4096 ≤ e.path.length → Trouble env fl w (.node e .other kids)
  | longDir (e : Ent) (info : Info) (kids : List Tree) : (info = .dir ∨ info = .unreadable) → Entered env fl w e → 4096 ≤ e.path.length →
      Trouble env fl w (.node e info kids)
  | inside (e : Ent) (kids : List Tree) (k : Tree) : Entered env fl w e → k ∈ kids → Trouble env fl w k → Trouble env fl w (.node e .dir kids)

theorem entry_long {env : Env} {fl : Flags} {e : Ent} {s s' : St} (h : entry env fl e s = some s') (hl : 4096 ≤ e.path.length) :
    s'.error = true := by
  unfold entry at h
  rw [if_pos hl] at h
  cases h; rfl

mutual
theorem walk_trouble {env : Env} {fl : Flags} {w : World} : ∀ (t : Tree) (s s' : St), s.w.digest = w.digest → (s.abort = true → s.error = true) →
    walk env fl t s = some s' →
    s'.w.digest = w.digest ∧ (s'.abort = true → s'.error = true) ∧ (s.error = true → s'.error = true) ∧
      (Trouble env fl w t → s'.error = true)
  | .node e info kids, s, s', hw, ha, h => by
    unfold walk at h
    split at h
    · rename_i hab
      cases h
      exact ⟨hw, ha, id, fun _ => ha hab⟩
    split at h
    · rename_i hx
      cases h
      refine ⟨hw, ha, id, fun ht => ?_⟩
      simp only [Bool.and_eq_true, decide_eq_true_eq] at hx
      have : ¬ OnDevice fl e := fun hd => hx.2 (hd hx.1)
      cases ht with
      | cycle _ _ hd => exact absurd hd this
      | long _ _ hd => exact absurd hd this
      | longDir _ _ _ _ hd => exact absurd hd.1 this
      | inside _ _ _ hd => exact absurd hd.1 this
    have hdir : (if fl.sysfs && !env.partialMatch e.path then some s
        else if checkExcluded env.excl e.path then some s
        else
          let d := digestStep env fl e.path s
          if d.1 then some d.2
          else match entry env fl e d.2 with
            | none => none
            | some s => if info = .dir then walks env fl kids s else some s) = some s' → (info = .dir ∨ info = .unreadable) →
        s'.w.digest = w.digest ∧ (s'.abort = true → s'.error = true) ∧ (s.error = true → s'.error = true) ∧
          (Trouble env fl w (.node e info kids) → s'.error = true) := by
      intro h hinfo
      have hent : ∀ ht : Trouble env fl w (.node e info kids), Entered env fl w e := by
        intro ht
        cases ht with
        | cycle _ _ _ => simp at hinfo
        | long _ _ _ => simp at hinfo
        | longDir _ _ _ _ hd => exact hd
        | inside _ _ _ hd => exact hd
      split at h
      · rename_i hx
        cases h
        refine ⟨hw, ha, id, fun ht => ?_⟩
        simp only [Bool.and_eq_true, Bool.not_eq_true'] at hx
        have := (hent ht).2.1 hx.1
        rw [hx.2] at this; cases this
      split at h
      · rename_i hx
        cases h
        exact ⟨hw, ha, id, fun ht => absurd ((checkExcluded_iff _ _).1 hx) (hent ht).2.2.1⟩
      obtain ⟨ds1, hs, ds2⟩ := digestStep_spec env fl w e.path s hw
      simp only [ds2] at h
      split at h
      · rename_i hx
        cases h
        exact ⟨hw, ha, id, fun ht => absurd (ds1.1 hx) (hent ht).2.2.2⟩
      · split at h
        · cases h
        · rename_i s1 he
          obtain ⟨k1, k2, k3, k4, k5⟩ := entry_keeps he
          have hw1 : s1.w.digest = w.digest := k1.trans hw
          have ha1 : s1.abort = true → s1.error = true := fun h => (k5 h).elim (fun h => k3 (ha h)) id
          split at h
          · rename_i hd
            obtain ⟨r1, r2, r3, r4⟩ := walks_trouble kids s1 s' hw1 ha1 h
            refine ⟨r1, r2, fun h => r3 (k3 h), fun ht => ?_⟩
            subst hd
            cases ht with
            | longDir _ _ _ _ _ hl => exact r3 (entry_long he hl)
            | inside _ _ k _ hk ht => exact r4 k hk ht
          · rename_i hd
            cases h
            refine ⟨hw1, ha1, k3, fun ht => ?_⟩
            cases ht with
            | cycle _ _ _ => simp at hinfo
            | long _ _ _ => simp at hinfo
            | longDir _ _ _ _ _ hl => exact entry_long he hl
            | inside _ _ k _ hk ht => exact absurd rfl hd
    cases info with
    | cycle =>
      cases h
      exact ⟨hw, fun _ => rfl, fun _ => rfl, fun _ => rfl⟩
    | nostat =>
      cases h
      refine ⟨hw, ha, id, fun ht => ?_⟩
      cases ht with
      | longDir _ _ _ hi => simp at hi
    | other =>
      obtain ⟨k1, k2, k3, k4, k5⟩ := entry_keeps h
      refine ⟨k1.trans hw, fun h => (k5 h).elim (fun h => k3 (ha h)) id, k3, fun ht => ?_⟩
      cases ht with
      | long _ _ _ hl => exact entry_long h hl
      | longDir _ _ _ hi => simp at hi
    | dir => exact hdir h (Or.inl rfl)
    | unreadable => exact hdir h (Or.inr rfl)
theorem walks_trouble {env : Env} {fl : Flags} {w : World} : ∀ (ts : List Tree) (s s' : St), s.w.digest = w.digest →
    (s.abort = true → s.error = true) → walks env fl ts s = some s' →
    s'.w.digest = w.digest ∧ (s'.abort = true → s'.error = true) ∧ (s.error = true → s'.error = true) ∧
      (∀ t ∈ ts, Trouble env fl w t → s'.error = true)
  | [], s, s', hw, ha, h => by
    unfold walks at h
    cases h
    exact ⟨hw, ha, id, fun _ h => nomatch h⟩
  | t :: ts, s, s', hw, ha, h => by
    unfold walks at h
    split at h
    · cases h
    · rename_i s1 h1
      obtain ⟨a1, a2, a3, a4⟩ := walk_trouble t s s1 hw ha h1
      obtain ⟨b1, b2, b3, b4⟩ := walks_trouble ts s1 s' a1 a2 h
      refine ⟨b1, b2, fun h => b3 (a3 h), fun x hx ht => ?_⟩
      rcases List.mem_cons.1 hx with rfl | hx
      · exact b3 (a4 ht)
      · exact b4 x hx ht
end

/-- **C103.** If the walk comes to a directory that leads back to one above it, or to a file whose path is too long, the call fails, and
no digest is written. -/
theorem C103_trouble {env : Env} {c : Call} {w : World} {t : Tree} {s : St} (hr : c.recurse = true) (h : restorecon env c t w = some s)
    (ht : Trouble env c.flags w t) : s.error = true ∧ s.w.digest = w.digest := by
  cases t with
  | node e info kids =>
    unfold restorecon at h
    simp only [hr, Bool.true_eq_false, if_false] at h
    split at h
    · cases h
    · rename_i s1 h1
      obtain ⟨a1, -, -, a4⟩ := walk_trouble _ { w := w } s1 rfl (by intro h; cases h) h1
      have he := a4 ht
      rw [if_neg (by simp [he])] at h
      cases h
      exact ⟨he, a1⟩

/-- A tree meets the hypothesis: a directory with one inside that leads back to it. -/
example (env : Env) (fl : Flags) (w : World) (e e' : Ent) (h : Entered env fl w e) (h' : OnDevice fl e') :
    Trouble env fl w (.node e .dir [.node e' .cycle []]) := .inside e _ _ h List.mem_cons_self (.cycle e' [] h')

end Verif.Restore
