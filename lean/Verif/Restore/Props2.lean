import Verif.Restore.Props

/-!
# C103, continued: repeated calls, digests, exclusion, single files, and where the code falls short
-/

namespace Verif.Restore
open Verif.Context (Res b)

theorem cur_unique {w : World} {k : Nat × Nat} {p q : Option Parts} (hp : Cur w k p) (hq : Cur w k q) : p = q := by
  have h := hq.1
  rw [hp.1] at h
  cases p with
  | none => cases q with
    | none => rfl
    | some q => cases h
  | some p => cases q with
    | none => cases h
    | some q => rw [text_inj (hp.2 p rfl) (hq.2 q rfl) (Option.some.inj h)]

/-! ## Again -/

/-- What there is after a call, file by file. -/
theorem after {env : Env} {c : Call} {w : World} {t : Tree} {s : St} (hr : c.recurse = true) (hN : Normal env c.flags w t)
    (hA : Apart env c.flags (files env c.flags w t)) (hs : restorecon env c t w = some s) (k : Nat × Nat) :
    (s.w.label k = w.label k ∧ ∀ e, Chosen env c.flags (files env c.flags w t) e → e.key = k → HasSpec env e →
      c.fl.nochange = true ∨ ∀ cur, Cur w k cur → Fails env c.flags cur e) ∨
    (∃ e cur new, Chosen env c.flags (files env c.flags w t) e ∧ e.key = k ∧ Cur w k cur ∧ Parts.Good new ∧ Specified env e new.text ∧
      c.fl.nochange = false ∧ ¬ Fails env c.flags cur e ∧ s.w.label k = some (newLabel c.fl env.custom cur new).text) := by
  classical
  obtain ⟨s', hs', h1, h2, -⟩ := C103_label hr hN hA
  rw [hs] at hs'
  cases hs'
  obtain ⟨cur, hcur⟩ := exists_cur hN.labels k
  by_cases hex : ∃ e, Chosen env c.flags (files env c.flags w t) e ∧ e.key = k ∧ HasSpec env e ∧ c.fl.nochange = false ∧ ¬ Fails env c.flags cur e
  · obtain ⟨e, he, rfl, ⟨x, hx⟩, hn, hf⟩ := hex
    obtain ⟨new, hg, rfl⟩ := hN.specs e x hx
    refine Or.inr ⟨e, cur, new, he, rfl, hcur, hg, hx, hn, hf, ?_⟩
    rw [h1 e cur new he hcur hg hx, if_neg (by rintro (h | h); rw [hn] at h; cases h; exact hf h)]
  · refine Or.inl ⟨?_, fun e he hk hsp => ?_⟩
    · by_cases hsp : ∃ e, Chosen env c.flags (files env c.flags w t) e ∧ e.key = k ∧ HasSpec env e
      · obtain ⟨e, he, rfl, ⟨x, hx⟩⟩ := hsp
        obtain ⟨new, hg, rfl⟩ := hN.specs e x hx
        rw [h1 e cur new he hcur hg hx, if_pos]
        by_contra hno
        refine hex ⟨e, he, rfl, ⟨_, hx⟩, ?_, fun h => hno (Or.inr h)⟩
        cases hn : c.fl.nochange with
        | false => rfl
        | true => exact absurd (Or.inl hn) hno
      · exact h2 k fun e he hk hs => hsp ⟨e, he, hk, hs⟩
    · cases hn : c.fl.nochange with
      | true => exact Or.inl rfl
      | false =>
        right
        intro cur' hc'
        rw [cur_unique hc' hcur]
        by_contra hf
        exact hex ⟨e, he, hk, hsp, hn, hf⟩

/-- **C103.** A call that follows the same call changes no label, and if changes were allowed it has nothing to say. -/
theorem C103_idempotent {env : Env} {c : Call} {w : World} {t : Tree} {s : St} (hr : c.recurse = true) (hN : Normal env c.flags w t)
    (hA : Apart env c.flags (files env c.flags w t)) (hd : c.flags.setDigest = false) (hs : restorecon env c t w = some s) :
    ∃ s2, restorecon env c t s.w = some s2 ∧ s2.w.label = s.w.label ∧ (c.fl.nochange = false → s2.log = []) := by
  classical
  have hfiles : files env c.flags s.w t = files env c.flags w t :=
    files_congr ⟨rfl, rfl, rfl, rfl, rfl⟩ (fun h => by rw [hd] at h; cases h) t
  have hN2 : Normal env c.flags s.w t := by
    refine ⟨hN.acyclic, fun e he => ?_, hN.goOn, fun k x hk => ?_, hN.specs, hN.raw⟩
    · rw [← mem_files, hfiles, mem_files] at he
      exact hN.short e he
    · rcases after hr hN hA hs k with ⟨h, -⟩ | ⟨e, cur, new, -, -, hcur, hg, -, -, -, h⟩
      · exact hN.labels k x (h ▸ hk)
      · rw [h] at hk
        exact ⟨_, newLabel_good hcur.2 hg, (Option.some.inj hk).symm⟩
  have hA2 : Apart env c.flags (files env c.flags s.w t) := by rw [hfiles]; exact hA
  obtain ⟨s2, hs2, h1, h2, -⟩ := C103_label hr hN2 hA2
  obtain ⟨s2', hs2', hm1, hm2⟩ := C103_messages hr hN2 hA2
  rw [hs2] at hs2'
  cases hs2'
  have key : ∀ e cur' new, Chosen env c.flags (files env c.flags w t) e → Cur s.w e.key cur' → Parts.Good new → Specified env e new.text →
      c.fl.nochange = false → ¬ Fails env c.flags cur' e → cur' = some (newLabel c.fl env.custom cur' new) := by
    intro e cur' new he hc' hg hsp hn hf
    obtain ⟨cur, hcur⟩ := exists_cur hN.labels e.key
    obtain ⟨s', hs', g1, -⟩ := C103_label hr hN hA
    rw [hs] at hs'
    cases hs'
    have := g1 e cur new he hcur hg hsp
    by_cases hF : Fails env c.flags cur e
    · rw [if_pos (Or.inr hF)] at this
      have : Cur w e.key cur' := ⟨this.symm.trans hc'.1, hc'.2⟩
      rw [cur_unique this hcur] at hf
      exact absurd hF hf
    · rw [if_neg (by rintro (h | h); rw [hn] at h; cases h; exact hF h)] at this
      have hcn : Cur s.w e.key (some (newLabel c.fl env.custom cur new)) :=
        ⟨this, by rintro _ ⟨⟩; exact newLabel_good hcur.2 hg⟩
      rw [cur_unique hc' hcn, newLabel_idem]
  refine ⟨s2, hs2, ?_, ?_⟩
  · funext k
    rcases after hr hN2 hA2 hs2 k with ⟨h, -⟩ | ⟨e, cur, new, he, rfl, hcur, hg, hsp, hn, hf, h⟩
    · exact h
    · rw [hfiles] at he
      rw [h, hcur.1, key e cur new he hcur hg hsp hn hf]
      simp only [Option.map_some]
      rw [newLabel_idem]
  · intro hn
    cases hl : s2.log with
    | nil => rfl
    | cons m l =>
      obtain ⟨-, e, cur, new, he, hcur, hg, hsp, hf, hne, -⟩ := (hm2 m).1 (by rw [hl]; simp)
      rw [hfiles] at he
      exact absurd (key e cur new he hcur hg hsp hn hf) hne

/-- **C103.** A call that changes nothing announces what the call that does would do: if setting labels succeeds, the messages are about the same
files and labels. -/
theorem C103_dry_run {env : Env} {c c' : Call} {w : World} {t : Tree} (hr : c.recurse = true) (hc : c.fl.nochange = false)
    (hc' : c' = { c with fl := { c.fl with nochange := true } }) (hN : Normal env c.flags w t) (hA : Apart env c.flags (files env c.flags w t))
    (hset : ∀ k x, env.canSet k x = true) :
    ∃ s s', restorecon env c t w = some s ∧ restorecon env c' t w = some s' ∧
      ∀ p o n, (⟨true, p, o, n⟩ : Msg) ∈ s.log ↔ (⟨false, p, o, n⟩ : Msg) ∈ s'.log := by
  subst hc'
  generalize hcc : ({ c with fl := { c.fl with nochange := true } } : Call) = c'
  have hfiles : files env c'.flags w t = files env c.flags w t :=
    files_congr (by subst hcc; exact ⟨rfl, rfl, rfl, rfl, rfl⟩) (fun _ => rfl) t
  have hN2 : Normal env c'.flags w t := by
    refine ⟨hN.acyclic, fun e he => ?_, by subst hcc; exact hN.goOn, hN.labels, hN.specs, hN.raw⟩
    rw [← mem_files, hfiles, mem_files] at he
    exact hN.short e he
  have hA2 : Apart env c'.flags (files env c'.flags w t) := by rw [hfiles]; subst hcc; exact hA
  obtain ⟨s, hs, -, h1⟩ := C103_messages hr hN hA
  obtain ⟨s', hs', -, h2⟩ := C103_messages (c := c') (by subst hcc; exact hr) hN2 hA2
  refine ⟨s, s', hs, hs', fun p o n => ?_⟩
  have hch : ∀ e, Chosen env c'.flags (files env c'.flags w t) e ↔ Chosen env c.flags (files env c.flags w t) e := fun e => by
    rw [hfiles]; subst hcc; exact Iff.rfl
  have hfa : ∀ cur e, Fails env c'.flags cur e ↔ Fails env c.flags cur e := fun cur e => by
    constructor
    · intro h
      cases h with
      | outside h => exact .outside h
      | lookup p a b => exact .lookup p a b
      | get n a b => exact .get n a b
      | set n a b c d f => rw [hset] at f; cases f
    · intro h
      cases h with
      | outside h => exact .outside h
      | lookup p a b => exact .lookup p a b
      | get n a b => exact .get n a b
      | set n a b c d f => rw [hset] at f; cases f
  have hnl : ∀ cur new, newLabel c'.fl env.custom cur new = newLabel c.fl env.custom cur new := fun cur new => by subst hcc; rfl
  have hv : c'.fl.verbose = c.fl.verbose := by subst hcc; rfl
  have hn : c'.fl.nochange = true := by subst hcc; rfl
  rw [h1, h2]
  simp only [hch, hfa, hnl, hv, hn, hc, Bool.not_false, Bool.not_true, Msg.mk.injEq, true_and]

/-! ## Digests -/

open Classical in
/-- **C103.** Digests: after a recursive call that was to write them and has not failed, the directories that were gone into have the digests of the
specifications that concern them; all others keep theirs, and after a failure all do. -/
theorem C103_digests {env : Env} {c : Call} {w : World} {t : Tree} {s : St} (hr : c.recurse = true) (hac : Acyclic t)
    (h : restorecon env c t w = some s) (p : Bytes) :
    s.w.digest p = if c.flags.setDigest = true ∧ c.fl.nochange = false ∧ s.error = false ∧ s.skipped = 0 ∧
        (∃ e, ReachedDir env c.flags w t e ∧ e.path = p) ∧ env.specDigest p ≠ none then env.specDigest p else w.digest p := by
  cases hx : walk env c.flags t { w := w } with
  | none =>
    cases t with
    | node e info kids =>
      unfold restorecon at h
      simp only at h
      rw [if_neg (by simp [hr]), hx] at h
      cases h
  | some s1 =>
    obtain ⟨s', hs', -, he, hk, -, hw⟩ := digest_part hr hx
    rw [h] at hs'
    cases hs'
    have hdig : s1.w.digest = w.digest := (walk_keeps hac hx).1
    rw [hw, he, hk]
    have hnf : c.flags.nochange = c.fl.nochange := rfl
    by_cases hc : (c.flags.setDigest && !c.flags.nochange && !s1.error && decide (s1.skipped = 0)) = true
    · rw [if_pos hc]
      simp only [Bool.and_eq_true, Bool.not_eq_true', decide_eq_true_eq, hnf] at hc
      obtain ⟨⟨⟨a1, a2⟩, a3⟩, a4⟩ := hc
      rw [(walk_digests hac hx a3 p).1]
      cases hsd : env.specDigest p with
      | none => simp
      | some d => simp only [a1, a2, a3, a4, true_and, ne_eq, reduceCtorEq, not_false_eq_true, and_true]
    · rw [if_neg hc, hdig, if_neg]
      rintro ⟨a1, a2, a3, a4, -⟩
      exact hc (by simp [a1, a2, a3, a4, hnf])

/-! ## Exclusion -/

/-- The path of an entry of a directory. -/
def childPath (dir name : Bytes) : Bytes := (if dir = [47] then [] else dir) ++ 47 :: name

/-- The paths of a tree are those of a file system: an entry of a directory has the path of the directory, a slash and a name. -/
inductive WellNamed : Tree → Prop
  | node (e : Ent) (info : Info) (kids : List Tree) :
      (∀ k ∈ kids, WellNamed k) → (∀ k ∈ kids, ∀ e' i ks, k = .node e' i ks → ∃ name, 47 ∉ name ∧ e'.path = childPath e.path name) →
        WellNamed (.node e info kids)

/-- The path is below a directory. -/
def Below (d path : Bytes) : Prop := ∃ rest, path = d ++ 47 :: rest

theorem below_child {d p name : Bytes} (hd : d ≠ []) (hn : 47 ∉ name) (h : Below d (childPath p name)) : p = d ∨ Below d p := by
  obtain ⟨rest, h⟩ := h
  unfold childPath at h
  have key : ∀ q : Bytes, q ++ 47 :: name = d ++ 47 :: rest → q = d ∨ Below d q := by
    intro q hq
    rcases List.append_eq_append_iff.1 hq with ⟨l, h1, h2⟩ | ⟨l, h1, h2⟩
    · cases l with
      | nil => left; simpa using h1.symm
      | cons a l =>
        simp only [List.cons_append, List.cons.injEq] at h2
        exact absurd (by rw [h2.2]; simp) hn
    · cases l with
      | nil => left; simpa using h1
      | cons a l =>
        simp only [List.cons_append, List.cons.injEq] at h2
        right
        exact ⟨l, by rw [h1, ← h2.1]⟩
  split at h
  · rcases key [] h with h1 | ⟨r, h1⟩
    · exact absurd h1.symm hd
    · simp at h1
  · exact key p h

theorem reached_below {env : Env} {fl : Flags} {w : World} {x : Edir} (hx : x ∈ env.excl) (hd : x.dir ≠ []) {e : Ent} {t : Tree}
    (h : Reached env fl w t e) : WellNamed t → (∀ e' ks, t = .node e' .other ks → ¬ Below x.dir e'.path) → ¬ Below x.dir e.path := by
  induction h with
  | file e kids _ => exact fun _ hroot => hroot _ _ rfl
  | dir e info kids _ hent => exact fun _ _ ⟨rest, h⟩ => hent.2.2.1 ⟨x, hx, Or.inr ⟨rest, h⟩⟩
  | inside r kids k e' hent hk _ ih =>
    intro hw _
    cases hw with
    | node _ _ _ hk1 hk2 =>
      refine ih (hk1 k hk) fun e'' ks he hb => ?_
      obtain ⟨name, hn, hp⟩ := hk2 k hk e'' _ ks he
      rw [hp] at hb
      rcases below_child hd hn hb with h | ⟨rest, h⟩
      · exact hent.2.2.1 ⟨x, hx, Or.inl h⟩
      · exact hent.2.2.1 ⟨x, hx, Or.inr ⟨rest, h⟩⟩

/-- **C103.** No file below an excluded directory is labelled by a recursive call, unless the call is for a file there that is no directory; and no
excluded directory is. -/
theorem C103_excluded_partial {env : Env} {fl : Flags} {w : World} {t : Tree} {e : Ent} {x : Edir} (hx : x ∈ env.excl) (hd : x.dir ≠ [])
    (hw : WellNamed t) (hroot : ∀ e' ks, t = .node e' .other ks → ¬ Below x.dir e'.path) (h : Reached env fl w t e) :
    ¬ Below x.dir e.path ∧ (ReachedDir env fl w t e → e.path ≠ x.dir) := by
  refine ⟨reached_below hx hd h hw hroot, ?_⟩
  intro hrd
  induction hrd with
  | here e info kids _ hent => exact fun hp => hent.2.2.1 ⟨x, hx, Or.inl hp⟩
  | inside e kids k e' _ hk hrk ih =>
    cases hw with
    | node _ _ _ hk1 hk2 =>
      have hrr : Reached env fl w k e' := by
        clear ih hk1 hk2 hroot h hk
        induction hrk with
        | here e i ks hi hent => exact .dir _ _ _ hi hent
        | inside e ks k e' hent hk _ ih => exact .inside _ _ k _ hent hk ih
      refine ih (hk1 k hk) ?_ hrr
      intro e'' ks he
      subst he
      cases hrk with
      | here _ _ _ hi => simp at hi

/-! ## One file -/

open Classical in
/-- **C103.** A call that is not recursive labels the one file, by the same rule, unless it is excluded. -/
theorem C103_single {env : Env} {c : Call} {w : World} {e : Ent} {info : Info} {kids : List Tree} {cur : Option Parts} (hr : c.recurse = false)
    (hcur : Cur w e.key cur) (hspecs : ∀ x, Specified env e x → ∃ p : Parts, p.Good ∧ x = p.text)
    (hraw : ∀ p : Parts, p.Good → env.toRaw p.text = some p.text) :
    ∃ s, restorecon env c (.node e info kids) w = some s ∧
      (∀ k, k ≠ e.key → s.w.label k = w.label k) ∧ s.w.digest = w.digest ∧
      (Excluded env.excl e.path → s.w = w ∧ s.error = false) ∧
      (¬ Excluded env.excl e.path → (s.error = true ↔ Fails env c.fl cur e) ∧ (¬ HasSpec env e → s.w.label = w.label) ∧
        ∀ new : Parts, new.Good → Specified env e new.text →
          s.w.label e.key = if c.fl.nochange = true ∨ Fails env c.fl cur e then w.label e.key else some (newLabel c.fl env.custom cur new).text) := by
  unfold restorecon
  simp only
  rw [if_pos hr]
  by_cases hx : Excluded env.excl e.path
  · rw [if_pos ((checkExcluded_iff _ _).2 hx)]
    exact ⟨_, rfl, fun _ _ => rfl, rfl, fun _ => ⟨rfl, rfl⟩, fun h => absurd hx h⟩
  · rw [if_neg (fun h => hx ((checkExcluded_iff _ _).1 h))]
    obtain ⟨tab, ht⟩ := sb_single (env := env) (fl := c.fl) (e := e) (w := w)
    rw [sb_act (env := env) (fl := c.fl.noAssoc) (s := { w := w }) (fun _ => hcur.2) (fun _ => hcur.1) hraw hspecs rfl] at ht
    rw [ht]
    have hfail := actOf_fail (env := env) (fl := c.fl.noAssoc) (cur := cur) hspecs
    rw [fails_noAssoc] at hfail
    have hnone := actOf_none (env := env) (fl := c.fl.noAssoc) (cur := cur) (e := e)
    have hact := fun new hg hs => act_ok (env := env) (fl := c.fl) (cur := cur) (e := e) (new := new) hg hs hspecs
    generalize hA : actOf env c.fl.noAssoc cur e = A at *
    refine ⟨_, rfl, fun k hk => ?_, ?_, fun h => absurd h hx, fun _ => ⟨hfail, fun hns => ?_, fun new hg hsp => ?_⟩⟩
    · show (match A.set with | none => w | some c => w.setLabel e.key c).label k = _
      cases A.set with
      | none => rfl
      | some c => simp [World.setLabel, hk]
    · show (match A.set with | none => w | some c => w.setLabel e.key c).digest = _
      cases A.set <;> rfl
    · show (match A.set with | none => w | some c => w.setLabel e.key c).label = _
      rw [(hnone hns).1]
    · show (match A.set with | none => w | some c => w.setLabel e.key c).label e.key = _
      obtain ⟨a1, a2, a3, -⟩ := hact new hg hsp
      by_cases hf : Fails env c.fl cur e
      · rw [(a1 hf).1, if_pos (Or.inr hf)]
      · cases hn : c.fl.nochange with
        | true => rw [a3 hn, if_pos (Or.inl rfl)]
        | false =>
          rw [if_neg (by rintro (h | h); cases h; exact hf h)]
          rcases a2 hf hn with ⟨h1, h2⟩ | h
          · rw [h2]
            simp only
            rw [hcur.1, h1]
            simp only [Option.map_some]
            rw [← h1]
          · rw [h]
            simp [World.setLabel]

end Verif.Restore
