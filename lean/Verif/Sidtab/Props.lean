import Verif.Sidtab.Lemmas2

/-!
# C20, C21, C48, C49: SIDs and policy reload
-/

namespace Verif.Sidtab
open Verif.Policy Verif.Mls

theorem convertCtx_wf {e : Bool} {oldp newp : Policy} (hv : CatVals newp) {c c' : Context} (hw : WFRange c.range)
    (h : convertCtx e oldp newp c = some c') : WFRange c'.range ∧ SameNames oldp newp c c' ∧
      (e = true → isValid newp c' = true) := by
  unfold convertCtx at h
  simp only [Option.bind_eq_bind, Option.bind_eq_some_iff] at h
  obtain ⟨u, ⟨un, hu1, hu2⟩, r, ⟨rn, hr1, hr2⟩, t, ⟨tn, ht1, ht2⟩, rg, hrg, h⟩ := h
  have hc : c' = ⟨u.value, r.value, t.value, rg⟩ ∧ (e = true → isValid newp c' = true) := by
    cases hval : isValid newp ⟨u.value, r.value, t.value, rg⟩ <;> cases e <;> simp [hval] at h <;>
      subst h <;> simp [hval]
  obtain ⟨rfl, hval⟩ := hc
  refine ⟨?_, ?_, hval⟩
  · cases hm : oldp.mls with
    | false => unfold convertContext at hrg; simp [hm] at hrg; subst hrg; exact hw
    | true =>
      have := C45_convert hm hw hv hrg
      exact ⟨(this _ _ (Or.inl ⟨rfl, rfl⟩)).1, (this _ _ (Or.inr ⟨rfl, rfl⟩)).1⟩
  · refine ⟨⟨un, u, hu1, hu2, rfl⟩, ⟨rn, r, hr1, hr2, rfl⟩, ⟨tn, t, ht1, ht2, rfl⟩, ?_, ?_, ?_⟩
    · intro hm l l' hl
      exact (C45_convert hm hw hv hrg l l' hl).2.1
    · intro hm l l' hl
      exact (C45_convert hm hw hv hrg l l' hl).2.2
    · intro hm
      unfold convertContext at hrg; simp [hm] at hrg; exact hrg.symm

/-- What `sepol_load_policy` does on a table that satisfies the invariant. -/
theorem load_spec {s : Sidtab} (hi : Inv s) {e : Bool} {old new : Db} (hv : CatVals new.pol) :
    (validateClasses old new = false ∧ loadPolicy e ⟨some old, s⟩ (some new) = (⟨some old, s⟩, false)) ∨
    (validateClasses old new = true ∧ ∃ s', loadPolicy e ⟨some old, s⟩ (some new) = (⟨some new, s'⟩, true) ∧
      Inv s' ∧ s'.shutdown = false ∧ (∀ x, lookup s' x = (lookup s x).bind (convertCtx e old.pol new.pol)) ∧
      (∀ x, (lookup s x).isSome → x < s'.nextSid) ∧ s'.nextSid ≤ s.nextSid) := by
  unfold loadPolicy
  simp only
  cases hvc : validateClasses old new with
  | false => left; simp
  | true =>
    right
    refine ⟨rfl, ?_⟩
    simp only [Bool.not_true, Bool.false_eq_true, if_false]
    have hi0 : Inv (setShutdown s) := ⟨hi.sorted, hi.bucket, hi.small, hi.next, hi.wf⟩
    have hnodes : ∀ n ∈ nodes (setShutdown s), 0 < n.1 ∧ n.1 < s.nextSid ∧ WFRange n.2.range := by
      intro n hn
      unfold nodes at hn
      obtain ⟨i, _, h⟩ := List.mem_flatMap.mp hn
      exact ⟨(hi0.small i n h).1, (hi0.small i n h).2, hi0.wf i n h⟩
    have hnx := hi.next
    have hempty : ∀ x, lookup init x = none := fun x => by simp [lookup, init, walk]
    obtain ⟨t, h1, h2, h3, h4, h5, h6, h7⟩ := cloneInto_spec (nodes (setShutdown s)) init inv_init (nodes_nodup hi0)
      (fun n _ => hempty _) (fun n hn => by have := hnodes n hn; exact ⟨this.1, by omega, this.2.2⟩)
    rw [h1]
    obtain ⟨m1, m2⟩ := mapRemove_spec h2 (convertCtx e old.pol new.pol) (fun c c' hw h => (convertCtx_wf hv hw h).1)
    have hlk : ∀ x, lookup t x = lookup s x := by
      intro x
      apply Option.ext
      intro c
      rw [h5, mem_nodes hi0, hempty]
      simp only [reduceCtorEq, or_false]
      rfl
    refine ⟨_, rfl, ⟨m1.sorted, m1.bucket, m1.small, m1.next, m1.wf⟩, rfl, ?_, ?_, ?_⟩
    · intro x
      rw [← hlk]; exact m2 x
    · intro x hx
      show x < t.nextSid
      rw [← hlk] at hx
      obtain ⟨c, hc⟩ := Option.isSome_iff_exists.mp hx
      rw [lookup_iff h2] at hc
      exact (h2.small _ _ hc).2
    · show t.nextSid ≤ s.nextSid
      exact h7 _ (by show 1 ≤ _; omega) (fun n hn => (hnodes n hn).2.1)

theorem reach_inv {s : Sidtab} (h : Reach s) : Inv s := by
  induction h with
  | init => exact inv_init
  | call _ ho ih => exact inv_step ih ho
  | reload _ hv hl ih =>
    rename_i s s' old new db e _
    rcases load_spec (e := e) (old := old) ih hv with ⟨_, h⟩ | ⟨_, s1, h, hi, _⟩
    · rw [h] at hl; simp at hl
    · rw [h] at hl
      simp only [Prod.mk.injEq, Server.mk.injEq, and_true] at hl
      rw [← hl.2]; exact hi

/-! ## C20 -/

/-- C20: converting a context yields a non-zero SID that maps to exactly this context; the
mapping of every other SID is untouched. It fails only when the context is new and either
all SIDs are used up or the table was shut down. -/
theorem C20_convert {s : Sidtab} (hr : Reach s) {c : Context} (hc : WFRange c.range) :
    (∀ s' sid, contextToSid s c = some (s', sid) →
      0 < sid ∧ search s' sid = some c ∧ ∀ x, x ≠ sid → lookup s' x = lookup s x) ∧
    (contextToSid s c = none ↔
      (∀ x, lookup s x ≠ some c) ∧ (s.nextSid = 2 ^ 32 - 1 ∨ s.shutdown = true)) := by
  obtain ⟨h1, h2⟩ := contextToSid_spec (reach_inv hr) hc
  refine ⟨?_, h1⟩
  intro s' sid h
  obtain ⟨_, a2, a3, a4, _⟩ := h2 s' sid h
  exact ⟨a2, by unfold search; rw [a3], a4⟩

/-- C20: a SID, once it maps to a context, keeps mapping to this context whatever legal calls
follow. -/
theorem C20_stable {s : Sidtab} (hr : Reach s) {x : Nat} {c : Context} (h : lookup s x = some c)
    {ops : List Op} (hops : ∀ o ∈ ops, o.Ok) : search (run s ops) x = some c := by
  unfold search
  rw [run_keeps (reach_inv hr) hops h]

/-- C20: in any history of conversions, two conversions give the same SID exactly when the
contexts are equal. -/
theorem C20_same_iff {s : Sidtab} (hr : Reach s) {c d : Context} (hc : WFRange c.range) (hd : WFRange d.range)
    {cs : List Context} (hcs : ∀ e ∈ cs, WFRange e.range) {s1 s2 : Sidtab} {x y : Nat}
    (h1 : contextToSid s c = some (s1, x)) (h2 : contextToSid (run s1 (conversions cs)) d = some (s2, y)) :
    x = y ↔ c = d := by
  have hi := reach_inv hr
  obtain ⟨a1, a2, a3, a4, a5⟩ := (contextToSid_spec hi hc).2 s1 x h1
  have hops : ∀ o ∈ conversions cs, o.Ok := by
    intro o ho
    obtain ⟨e, he, rfl⟩ := List.mem_map.mp ho
    exact hcs e he
  have hi2 := inv_run a1 hops
  obtain ⟨b1, b2, b3, b4, b5⟩ := (contextToSid_spec hi2 hd).2 s2 y h2
  constructor
  · rintro rfl
    have hk := run_keeps a1 hops a3
    rcases b5 with b5 | b5
    · rw [b5.1, hk] at b3; simpa using b3
    · have := lookup_next hi2 (run s1 (conversions cs)).nextSid (Nat.le_refl _)
      rw [← b5.2.1, hk] at this; simp at this
  · rintro rfl
    have hs1 : searchContext s1 c = x := by
      rcases a5 with a5 | ⟨a5, a6, a7, t, t1, t2, t3, t4⟩
      · rw [a5.1]; exact a5.2
      · have hne : searchContext s1 c ≠ 0 := by
          intro h
          exact (searchContext_spec a1 hc).1.mp h x a3
        by_contra hx
        have hl := (searchContext_spec a1 hc).2 hne
        rw [a4 _ hx] at hl
        exact a5 _ hl
    have := conversions_keep_search cs a1 hc hcs hs1 (by omega)
    rcases b5 with b5 | b5
    · rw [b5.2] at this; exact this.symm
    · rw [b5.2.2.1] at this; omega

/-- C20: a SID that maps to nothing resolves to the context of SID 3 (unlabeled); a SID that
maps to a context resolves to it. -/
theorem C20_unknown {s : Sidtab} (x : Nat) :
    (lookup s x = none → search s x = lookup s 3) ∧ (∀ c, lookup s x = some c → search s x = some c) := by
  unfold search
  constructor
  · intro h; rw [h]; rfl
  · intro c h; rw [h]

/-- The element count is the number of entries. -/
theorem C20_count {ops : List Op} (hops : ∀ o ∈ ops, o.Ok) :
    (run init ops).nel = (nodes (run init ops)).length := by
  suffices ∀ (s : Sidtab), Inv s → s.nel = (nodes s).length → (run s ops).nel = (nodes (run s ops)).length from
    this init inv_init (by decide)
  induction ops with
  | nil => intro s _ h; exact h
  | cons o ops ih =>
    intro s hi h
    refine ih (fun o' ho' => hops o' (by simp [ho'])) (step s o) (inv_step hi (hops o (by simp))) ?_
    have ho := hops o (by simp)
    cases o with
    | insert sid c =>
      simp only [step]
      cases hins : insert s sid c with
      | none => exact h
      | some s' => exact nel_inv h hi hins
    | convert c =>
      simp only [step]
      cases hcv : contextToSid s c with
      | none => exact h
      | some r =>
        simp only [Option.map_some, Option.getD_some]
        rcases ((contextToSid_spec hi ho).2 r.1 r.2 hcv).2.2.2.2 with h5 | ⟨_, h6, _, _⟩
        · rw [h5.1]; exact h
        · unfold contextToSid at hcv
          dsimp only at hcv
          split at hcv
          · simp only [Option.some.injEq] at hcv; rw [← hcv]; exact h
          · split at hcv
            · simp at hcv
            · rename_i hn
              cases hins : insert { s with nextSid := s.nextSid + 1 } s.nextSid c with
              | none => rw [hins] at hcv; simp at hcv
              | some s' =>
                rw [hins] at hcv
                simp only [Option.some.injEq] at hcv
                have := nel_inv (s := { s with nextSid := s.nextSid + 1 }) h
                  (inv_bump hi (fun hh => hn (Or.inl hh))) hins
                rw [← hcv]; exact this

/-- A context whose type is `t`. -/
def ctx (t : Nat) : Context := ⟨1, 1, t, ⟨⟨1, Ebitmap.init⟩, ⟨1, Ebitmap.init⟩⟩⟩

theorem ctx_wf (t : Nat) : WFRange (ctx t).range := by
  have : Ebitmap.WF Ebitmap.init := ⟨by decide, by decide, by decide, by decide, by decide⟩
  exact ⟨this, this⟩

def demoOps : List Op := [.insert 3 (ctx 3), .insert 1 (ctx 1), .insert 130 (ctx 4), .convert (ctx 9), .convert (ctx 1)]

/-- Non-vacuity: initial SIDs 3, 1, 130 (130 and 2 share a bucket), then conversions. -/
example : (∀ o ∈ demoOps, o.Ok) ∧ lookup (run init demoOps) 130 = some (ctx 4) ∧
    (contextToSid (run init demoOps) (ctx 9)).map (·.2) = some 131 ∧
    (contextToSid (run init demoOps) (ctx 10)).map (·.2) = some 132 ∧
    search (run init demoOps) 77 = some (ctx 3) ∧ (run init demoOps).nel = 4 := by
  refine ⟨?_, by decide +kernel, by decide +kernel, by decide +kernel, by decide +kernel, by decide +kernel⟩
  intro o ho
  simp only [demoOps, List.mem_cons, List.not_mem_nil, or_false] at ho
  rcases ho with rfl | rfl | rfl | rfl | rfl
  · exact ⟨by decide, by decide, ctx_wf _⟩
  · exact ⟨by decide, by decide, ctx_wf _⟩
  · exact ⟨by decide, by decide, ctx_wf _⟩
  · exact ctx_wf _
  · exact ctx_wf _

/-- F9: the bound on initial SIDs in `Op.Ok` is needed: after inserting SID UINT_MAX the next SID
wraps to 0, and the next conversion issues SID 0, the invalid SID, so that the same context
gets a different SID on the following conversion. -/
theorem C20_wrap_refuted :
    let s := run init [.insert (2 ^ 32 - 1) (ctx 1)]
    (contextToSid s (ctx 2)).map (·.2) = some 0 ∧
    ((contextToSid s (ctx 2)).bind (fun r => contextToSid r.1 (ctx 2))).map (·.2) = some 1 := by
  decide +kernel

/-- F10: initial SIDs must be loaded before contexts are converted: a context inserted again under
an initial SID changes the SID that conversions of it return. -/
theorem C20_late_insert_refuted :
    let s := run init [.insert 5 (ctx 1)]
    (contextToSid s (ctx 1)).map (·.2) = some 5 ∧
    ((contextToSid s (ctx 1)).bind (fun r => contextToSid (step r.1 (.insert 2 (ctx 1))) (ctx 1))).map (·.2) = some 2 := by
  decide +kernel

/-! ## C21 -/

/-- C21, part: if the image can be parsed and `sepol_load_policy` fails, nothing has changed.
Missing: images that cannot be parsed, see `C21_refuted`; allocation failures. -/
theorem C21_load_failure_partial {s : Sidtab} (hr : Reach s) {e : Bool} {old new : Db} (hv : CatVals new.pol)
    {s' : Server} (h : loadPolicy e ⟨some old, s⟩ (some new) = (s', false)) : s' = ⟨some old, s⟩ := by
  rcases load_spec (e := e) (old := old) (reach_inv hr) hv with ⟨_, h'⟩ | ⟨_, s1, h', _⟩
  · rw [h'] at h; simp only [Prod.mk.injEq, and_true] at h; exact h.symm
  · rw [h'] at h; simp at h

/-- F11: C21 does not hold: when the image cannot be parsed, the *active* policy is destroyed (the new
one leaks), services.c:1824-1827. -/
theorem C21_refuted (e : Bool) (s : Server) :
    (loadPolicy e s none).2 = false ∧ (loadPolicy e s none).1.db = none := ⟨rfl, rfl⟩

/-- When a parsed image is accepted: every class of the active policy exists in the new one with the
same value, the same use of a common, and every permission keeps its value. -/
theorem C21_accepted_iff {s : Sidtab} (hr : Reach s) {e : Bool} {old new : Db} (hv : CatVals new.pol) :
    (loadPolicy e ⟨some old, s⟩ (some new)).2 = true ↔
      ∀ k d, (k, d) ∈ old.classes → ∃ d2, new.classes.lookup k = some d2 ∧ d2.value = d.value ∧
        (d2.common.isSome ↔ d.common.isSome) ∧
        (∀ c c2, d.common = some c → d2.common = some c2 → ∀ p v, (p, v) ∈ c → c2.lookup p = some v) ∧
        (∀ p v, (p, v) ∈ d.perms → d2.perms.lookup p = some v) := by
  have hperm : ∀ a b, validatePerms a b = true ↔ ∀ p v, (p, v) ∈ a → b.lookup p = some v := by
    intro a b
    unfold validatePerms
    rw [List.all_eq_true]
    constructor
    · intro h p v hm
      have := h _ hm
      simp only at this
      split at this
      · simp at this
      · rename_i w hw
        rw [hw]; simp only [beq_iff_eq] at this; rw [this]
    · intro h kv hm
      rw [h kv.1 kv.2 hm]; simp
  have hclass : validateClasses old new = true ↔
      ∀ k d, (k, d) ∈ old.classes → ∃ d2, new.classes.lookup k = some d2 ∧ d2.value = d.value ∧
        (d2.common.isSome ↔ d.common.isSome) ∧
        (∀ c c2, d.common = some c → d2.common = some c2 → ∀ p v, (p, v) ∈ c → c2.lookup p = some v) ∧
        (∀ p v, (p, v) ∈ d.perms → d2.perms.lookup p = some v) := by
    unfold validateClasses
    rw [List.all_eq_true]
    have key : ∀ k d, validateClass new.classes k d = true ↔
        ∃ d2, new.classes.lookup k = some d2 ∧ d2.value = d.value ∧
        (d2.common.isSome ↔ d.common.isSome) ∧
        (∀ c c2, d.common = some c → d2.common = some c2 → ∀ p v, (p, v) ∈ c → c2.lookup p = some v) ∧
        (∀ p v, (p, v) ∈ d.perms → d2.perms.lookup p = some v) := by
      intro k d
      unfold validateClass
      cases hl : new.classes.lookup k with
      | none => simp
      | some d2 =>
        simp only [Option.some.injEq, exists_eq_left']
        by_cases h1 : d.value = d2.value
        · rw [if_neg (by simpa using h1), Bool.eq_iff_iff.symm.eq]
          cases hc : d.common <;> cases hc2 : d2.common <;> simp [h1, hperm]
        · rw [if_pos h1]
          simp only [Bool.false_eq_true, false_iff, not_and]
          intro h; exact absurd h.symm h1
    constructor
    · intro h k d hm; exact (key k d).mp (h (k, d) hm)
    · intro h kd hm; exact (key kd.1 kd.2).mpr (h kd.1 kd.2 hm)
  rw [← hclass]
  rcases load_spec (e := e) (old := old) (reach_inv hr) hv with ⟨h, h'⟩ | ⟨h, s1, h', _⟩
  · rw [h', h]
  · rw [h', h]

/-! ## C48: what a reload does to SIDs -/

/-- C48: after a successful reload the new policy is active, the table issues SIDs again, and every SID
either maps to the context with the same names under the new policy (valid there, in enforcing
mode) or to nothing; a SID that mapped to nothing still does. -/
theorem C48_reload {s : Sidtab} (hr : Reach s) {e : Bool} {old new : Db} (hv : CatVals new.pol) {s' : Server}
    (h : loadPolicy e ⟨some old, s⟩ (some new) = (s', true)) :
    s'.db = some new ∧ s'.sidtab.shutdown = false ∧
    (∀ x, lookup s x = none → lookup s'.sidtab x = none) ∧
    ∀ x c', lookup s'.sidtab x = some c' → ∃ c, lookup s x = some c ∧ SameNames old.pol new.pol c c' ∧
      (e = true → isValid new.pol c' = true) := by
  have hi := reach_inv hr
  rcases load_spec (e := e) (old := old) hi hv with ⟨_, h'⟩ | ⟨_, s1, h', i1, i2, i3, i4, i5⟩
  · rw [h'] at h; simp at h
  · rw [h'] at h
    simp only [Prod.mk.injEq, and_true] at h
    subst h
    refine ⟨rfl, i2, ?_, ?_⟩
    · intro x hx; show lookup s1 x = none; rw [i3, hx]; rfl
    · intro x c' hx
      change lookup s1 x = some c' at hx
      rw [i3, Option.bind_eq_some_iff] at hx
      obtain ⟨c, hc, hcv⟩ := hx
      have hw : WFRange c.range := by rw [lookup_iff hi] at hc; exact hi.wf _ _ hc
      obtain ⟨_, a2, a3⟩ := convertCtx_wf hv hw hcv
      exact ⟨c, hc, a2, a3⟩

/-- C48: no SID is dropped without reason: a SID whose context has user, role, type and levels
of the same names in the new policy, forming a valid context there, stays mapped. -/
theorem C48_kept {s : Sidtab} (hr : Reach s) {e : Bool} {old new : Db} (hv : CatVals new.pol) {s' : Server}
    (h : loadPolicy e ⟨some old, s⟩ (some new) = (s', true)) {x : Nat} {c : Context} (hx : lookup s x = some c)
    {u : UserDatum} {r : RoleDatum} {t : TypeDatum} {rg : Range} {un rn tn : Str}
    (hu : old.pol.userName (c.user - 1) = some un ∧ new.pol.users un = some u)
    (hrl : old.pol.roleName (c.role - 1) = some rn ∧ new.pol.roles rn = some r)
    (ht : old.pol.typeName (c.type - 1) = some tn ∧ new.pol.types tn = some t)
    (hrg : convertContext old.pol new.pol c.range = some rg)
    (hval : isValid new.pol ⟨u.value, r.value, t.value, rg⟩ = true) :
    search s'.sidtab x = some ⟨u.value, r.value, t.value, rg⟩ := by
  rcases load_spec (e := e) (old := old) (reach_inv hr) hv with ⟨_, h'⟩ | ⟨_, s1, h', i1, i2, i3, i4, i5⟩
  · rw [h'] at h; simp at h
  · rw [h'] at h
    simp only [Prod.mk.injEq, and_true] at h
    subst h
    have : lookup s1 x = some ⟨u.value, r.value, t.value, rg⟩ := by
      rw [i3, hx]
      simp only [Option.bind_some]
      unfold convertCtx
      simp [hu, hrl, ht, hrg, hval]
    show search s1 x = _
    unfold search; rw [this]

/-! ## C49: SIDs are not reused -/

/-- C49, part: a SID issued after one successful reload differs from every SID that mapped to a
context before that reload, unless it still maps to one. Missing: further reloads, see
`C49_refuted`. -/
theorem C49_no_reuse_partial {s : Sidtab} (hr : Reach s) {e : Bool} {old new : Db} (hv : CatVals new.pol) {s' : Server}
    (h : loadPolicy e ⟨some old, s⟩ (some new) = (s', true)) {d : Context} (hd : WFRange d.range)
    {ops : List Op} (hops : ∀ o ∈ ops, ∃ c, o = .convert c ∧ o.Ok)
    {s2 : Sidtab} {x : Nat} (hcv : contextToSid (run s'.sidtab ops) d = some (s2, x))
    (hold : (lookup s x).isSome) : (lookup s'.sidtab x).isSome := by
  rcases load_spec (e := e) (old := old) (reach_inv hr) hv with ⟨_, h'⟩ | ⟨_, s1, h', i1, i2, i3, i4, i5⟩
  · rw [h'] at h; simp at h
  · rw [h'] at h
    simp only [Prod.mk.injEq, and_true] at h
    subst h
    have hx := i4 x hold
    show (lookup s1 x).isSome
    change contextToSid (run s1 ops) d = some (s2, x) at hcv
    clear h' i3 i2 i4 i5 hold
    induction ops generalizing s1 with
    | nil =>
      obtain ⟨_, _, b3, _, b5⟩ := (contextToSid_spec i1 hd).2 s2 x hcv
      rcases b5 with b5 | b5
      · rw [← b5.1]; change lookup s2 x = _ at b3; rw [b3]; rfl
      · have := b5.2.1; change x = s1.nextSid at this; omega
    | cons o ops ih =>
      obtain ⟨c, rfl, ho⟩ := hops o (by simp)
      have hi' := inv_step i1 ho
      have hnx : s1.nextSid ≤ (step s1 (.convert c)).nextSid ∧
          (x < s1.nextSid → lookup (step s1 (.convert c)) x = lookup s1 x) := by
        simp only [step]
        cases hc : contextToSid s1 c with
        | none => exact ⟨Nat.le_refl _, fun _ => rfl⟩
        | some r =>
          simp only [Option.map_some, Option.getD_some]
          obtain ⟨b1, _, b3, b4, b5⟩ := (contextToSid_spec i1 ho).2 r.1 r.2 hc
          rcases b5 with b5 | b5
          · rw [b5.1]; exact ⟨Nat.le_refl _, fun _ => rfl⟩
          · constructor
            · rw [lookup_iff b1] at b3
              have := (b1.small _ _ b3).2
              simp only at this
              rw [b5.2.1] at this; omega
            · intro hlt; exact b4 x (by rw [b5.2.1]; omega)
      have := ih (fun o ho => hops o (by simp [ho])) (step s1 (.convert c)) hi' (by omega) hcv
      rw [hnx.2 hx] at this
      exact this

/-- A policy without MLS, with user `u`, role `r`, types `a`, `b` (value 1 and 2) if wanted, and type `c` (value 3). -/
def polOf (a b : Bool) : Policy where
  mls := false
  nUsers := 1
  nRoles := 1
  nTypes := 3
  nLevels := 0
  nCats := 0
  users := fun n => if n = ['u'] then some ⟨1, ⟨[⟨0, 1#64⟩], 64⟩, ⟨⟨0, Ebitmap.init⟩, ⟨0, Ebitmap.init⟩⟩, ⟨0, Ebitmap.init⟩⟩ else none
  roles := fun n => if n = ['r'] then some ⟨1, ⟨[⟨0, 7#64⟩], 64⟩, Ebitmap.init⟩ else none
  types := fun n => if n = ['a'] ∧ a = true then some ⟨1, 0, 0⟩ else if n = ['b'] ∧ b = true then some ⟨2, 0, 0⟩
    else if n = ['c'] then some ⟨3, 0, 0⟩ else none
  levels := fun _ => none
  cats := fun _ => none
  userName := fun i => if i = 0 then some ['u'] else none
  roleName := fun i => if i = 0 then some ['r'] else none
  typeName := fun i => if i = 0 then some ['a'] else if i = 1 then some ['b'] else if i = 2 then some ['c'] else none
  sensName := fun _ => none
  catName := fun _ => none
  userStruct := fun i => if i = 0 then some ⟨1, ⟨[⟨0, 1#64⟩], 64⟩, ⟨⟨0, Ebitmap.init⟩, ⟨0, Ebitmap.init⟩⟩, ⟨0, Ebitmap.init⟩⟩ else none
  roleStruct := fun i => if i = 0 then some ⟨1, ⟨[⟨0, 7#64⟩], 64⟩, Ebitmap.init⟩ else none

def dbOf (a b : Bool) : Db := ⟨polOf a b, []⟩

theorem polOf_cats (a b : Bool) : CatVals (polOf a b) := by intro n v h; simp [polOf] at h

/-- Load `new` over `old`, keeping only the SID table. -/
def reload (old new : Db) (s : Sidtab) : Sidtab := (loadPolicy true ⟨some old, s⟩ (some new)).1.sidtab

/-- F12: C49 does not hold over two reloads: SID 2 names the context of type `b`; the first reload drops type
`b`; after a second reload SID 2 is issued for the context of type `c`. -/
theorem C49_refuted :
    let s := run init [.insert 1 (ctx 1), .convert (ctx 2)]
    let s1 := reload (dbOf true true) (dbOf true false) s
    let s2 := reload (dbOf true false) (dbOf true true) s1
    lookup s 2 = some (ctx 2) ∧ lookup s1 2 = none ∧
    (contextToSid s1 (ctx 3)).map (·.2) = some 3 ∧ (contextToSid s2 (ctx 3)).map (·.2) = some 2 ∧
    isValid (polOf true true) (ctx 3) = true := by
  decide +kernel

/-- Non-vacuity of C21, C48, C49: both loads are accepted; SID 1 is kept, SID 2 dropped. -/
example : Reach (run init [.insert 1 (ctx 1), .convert (ctx 2)]) ∧ CatVals (dbOf true false).pol ∧
    (loadPolicy true ⟨some (dbOf true true), run init [.insert 1 (ctx 1), .convert (ctx 2)]⟩ (some (dbOf true false))).2 = true ∧
    lookup (reload (dbOf true true) (dbOf true false) (run init [.insert 1 (ctx 1), .convert (ctx 2)])) 1 = some (ctx 1) := by
  refine ⟨?_, polOf_cats _ _, by decide +kernel, by decide +kernel⟩
  exact .call (.call .init (show Op.Ok (.insert 1 (ctx 1)) from ⟨by decide, by decide, ctx_wf _⟩))
    (show Op.Ok (.convert (ctx 2)) from ctx_wf _)

/-- Non-vacuity of C21: a class that lost a permission makes the load fail. -/
example : (loadPolicy true ⟨some ⟨polOf true true, [(['f'], ⟨1, none, [(['p'], 1)]⟩)]⟩, init⟩
    (some ⟨polOf true true, [(['f'], ⟨1, none, []⟩)]⟩)).2 = false := by decide +kernel

end Verif.Sidtab
