import Verif.Restore.Examples

/-!
# C105: restoring labels with several threads

Model and theorems.
-/

namespace Verif.Restore
open Verif.Context (Res b)

/-! ## The model -/

/-- How far a thread is with a file: not begun, its context looked up, its label read, done (with whether it failed). -/
inductive Pc
  | todo
  | ready (new : Bytes)
  | got (new : Bytes) (cur : Option Bytes)
  | done (failed : Bool)
deriving DecidableEq

/-- What the threads share. -/
structure PSt where
  w : World
  assoc : Nat → List Fs := fun _ => []
  pc : Nat → Pc := fun _ => .todo
  ub : Bool := false

/-- A file is as far as this now. -/
def PSt.at (s : PSt) (i : Nat) (p : Pc) : PSt := { s with pc := fun j => if j = i then p else s.pc j }

/-- The end of `restorecon_sb` for a file whose label was `cur` when it was read, selinux_restorecon.c:733-808. -/
def finish (env : Env) (fl : Flags) (e : Ent) (new : Bytes) (cur : Option Bytes) (w : World) : Option (Bool × World) :=
  match decision env fl cur new with
  | .ub => none
  | .err => some (true, w)
  | .ok none => some (false, w)
  | .ok (some c) =>
    if fl.nochange then some (false, w)
    else match env.toRaw c with
      | none => some (true, w)
      | some raw => if env.canSet e.key raw = false then some (true, w) else some (false, w.setLabel e.key raw)

/-- A step of the thread that has file number `i`, selinux_restorecon.c:984-1025 and 645-808 with `state->parallel`: the lookup with the
entry into the table of inodes, which has its own lock; the reading of the label; the rest.  `fts_read` is under a lock, so that each file is
given to one thread; a thread may be held up before each step, so that a later file may be ahead. -/
def pstep (env : Env) (fl : Flags) (es : List Ent) (s : PSt) (i : Nat) : PSt :=
  match es[i]? with
  | none => s
  | some e => match s.pc i with
    | .todo => (match lookupPath env.root e.path with
      | none => s.at i (.done true)
      | some p => match env.lookup p e.mode with
        | .error => s.at i (.done true)
        | .noMatch => s.at i (.done false)
        | .found new =>
          if fl.addAssoc then
            let r := filespecAdd env fl e new s.assoc
            let s := { s with assoc := r.2 }
            match r.1 with
            | .failed => s.at i (.done true)
            | .present => s.at i (.done false)
            | .added => s.at i (.ready new)
          else s.at i (.ready new))
    | .ready new => if env.canGet e.key = false then s.at i (.done true) else s.at i (.got new (s.w.label e.key))
    | .got new cur => (match finish env fl e new cur s.w with
      | none => { s with ub := true }
      | some r => { s with w := r.2 }.at i (.done r.1))
    | .done _ => s

/-- The threads, in the order `sch` of their steps. -/
def prun (env : Env) (fl : Flags) (es : List Ent) (sch : List Nat) (w : World) : PSt := sch.foldl (pstep env fl es) { w := w }

/-! ## Lemmas -/

/-- The label after an action. -/
def Act.after (a : Act) (old : Option Bytes) : Option Bytes := match a.set with | none => old | some c => some c

theorem finish_relabel {env : Env} {fl : Flags} {e : Ent} {new : Bytes} {w : World} (hg : env.canGet e.key = true) :
    finish env fl e new (w.label e.key) w = (relabel env fl e new { w := w }).map fun r => (r.1, r.2.w) := by
  unfold finish relabel
  rw [if_neg (by simp [hg])]
  have ht : ∀ s : St, ∀ o c, (s.tell fl e o c).w = s.w := fun s o c => by unfold St.tell; split <;> rfl
  simp only
  cases hd : decision env fl (w.label e.key) new with
  | ub => rfl
  | err => rfl
  | ok o =>
    cases o with
    | none => rfl
    | some c =>
      simp only
      split
      · simp [ht]
      · cases env.toRaw c with
        | none => rfl
        | some raw =>
          simp only
          split
          · rfl
          · simp [ht]

/-- What holds at all times. -/
structure Inv (env : Env) (fl : Flags) (es : List Ent) (w : World) (cur : Nat × Nat → Option Parts) (s : PSt) : Prop where
  ub : s.ub = false
  digest : s.w.digest = w.digest
  other : ∀ k, (∀ e ∈ es, e.key = k → ¬ HasSpec env e) → s.w.label k = w.label k
  todo : ∀ i e, es[i]? = some e → s.pc i = .todo → HasSpec env e → s.w.label e.key = w.label e.key
  ready : ∀ i e new, es[i]? = some e → s.pc i = .ready new → Specified env e new ∧ s.w.label e.key = w.label e.key
  got : ∀ i e new c, es[i]? = some e → s.pc i = .got new c → Specified env e new ∧ env.canGet e.key = true ∧ c = w.label e.key ∧
    s.w.label e.key = w.label e.key
  done : ∀ i e f, es[i]? = some e → s.pc i = .done f → f = (actOf env fl (cur e.key) e).fail ∧
    (HasSpec env e → s.w.label e.key = (actOf env fl (cur e.key) e).after (w.label e.key))

theorem different_at {env : Env} {es : List Ent} (h : Different env es) {i j : Nat} {a c : Ent} (hi : es[i]? = some a) (hj : es[j]? = some c) (hij : i ≠ j)
    (hk : a.key = c.key) : ¬ (HasSpec env a ∧ HasSpec env c) := by
  obtain ⟨hi', rfl⟩ := List.getElem?_eq_some_iff.1 hi
  obtain ⟨hj', rfl⟩ := List.getElem?_eq_some_iff.1 hj
  have hp := List.pairwise_iff_getElem.1 h
  rcases Nat.lt_or_gt_of_ne hij with h1 | h1
  · exact hp i j hi' hj' h1 hk
  · exact fun hh => hp j i hj' hi' h1 hk.symm ⟨hh.2, hh.1⟩

/-- A step that changes the world at most at one file and the place of that file. -/
theorem inv_step {env : Env} {fl : Flags} {es : List Ent} {w : World} {cur : Nat × Nat → Option Parts} {s : PSt} (hD : Different env es)
    (h : Inv env fl es w cur s) {i : Nat} {e : Ent} (he : es[i]? = some e) {w' : World} {t : Nat → List Fs} {p : Pc}
    (hw : w' = s.w ∨ (HasSpec env e ∧ w'.digest = s.w.digest ∧ ∀ k, k ≠ e.key → w'.label k = s.w.label k))
    (htodo : p ≠ .todo)
    (hready : ∀ new, p = .ready new → Specified env e new ∧ w'.label e.key = w.label e.key)
    (hgot : ∀ new c, p = .got new c → Specified env e new ∧ env.canGet e.key = true ∧ c = w.label e.key ∧ w'.label e.key = w.label e.key)
    (hdone : ∀ f, p = .done f → f = (actOf env fl (cur e.key) e).fail ∧
      (HasSpec env e → w'.label e.key = (actOf env fl (cur e.key) e).after (w.label e.key))) :
    Inv env fl es w cur ({ s with w := w', assoc := t }.at i p) := by
  have hsame : ∀ j e', es[j]? = some e' → j ≠ i → HasSpec env e' → w'.label e'.key = s.w.label e'.key := by
    intro j e' hj hji hs
    rcases hw with rfl | ⟨h1, -, h2⟩
    · rfl
    · refine h2 _ fun hk => ?_
      exact different_at hD hj he hji hk ⟨hs, h1⟩
  have hmem : e ∈ es := List.mem_of_getElem? he
  refine ⟨h.ub, ?_, fun k hk => ?_, fun j e' hj hp hs => ?_, fun j e' new hj hp => ?_, fun j e' new c hj hp => ?_, fun j e' f hj hp => ?_⟩
  · show w'.digest = _
    rcases hw with rfl | ⟨-, h1, -⟩
    · exact h.digest
    · rw [h1]; exact h.digest
  · show w'.label k = _
    rcases hw with rfl | ⟨h1, -, h2⟩
    · exact h.other k hk
    · rw [h2 k (fun hke => hk e hmem hke.symm h1)]
      exact h.other k hk
  · simp only [PSt.at] at hp ⊢
    by_cases hji : j = i
    · subst hji
      rw [if_pos rfl] at hp
      rw [he] at hj
      cases hj
      exact absurd hp htodo
    · rw [if_neg hji] at hp
      rw [hsame j e' hj hji hs]
      exact h.todo j e' hj hp hs
  · simp only [PSt.at] at hp ⊢
    by_cases hji : j = i
    · subst hji
      rw [if_pos rfl] at hp
      rw [he] at hj
      cases hj
      exact hready new hp
    · rw [if_neg hji] at hp
      obtain ⟨a1, a2⟩ := h.ready j e' new hj hp
      exact ⟨a1, by rw [hsame j e' hj hji ⟨_, a1⟩]; exact a2⟩
  · simp only [PSt.at] at hp ⊢
    by_cases hji : j = i
    · subst hji
      rw [if_pos rfl] at hp
      rw [he] at hj
      cases hj
      exact hgot new c hp
    · rw [if_neg hji] at hp
      obtain ⟨a1, a2, a3, a4⟩ := h.got j e' new c hj hp
      exact ⟨a1, a2, a3, by rw [hsame j e' hj hji ⟨_, a1⟩]; exact a4⟩
  · simp only [PSt.at] at hp ⊢
    by_cases hji : j = i
    · subst hji
      rw [if_pos rfl] at hp
      rw [he] at hj
      cases hj
      exact hdone f hp
    · rw [if_neg hji] at hp
      obtain ⟨a1, a2⟩ := h.done j e' f hj hp
      exact ⟨a1, fun hs => by rw [hsame j e' hj hji hs]; exact a2 hs⟩

theorem pstep_inv {env : Env} {fl : Flags} {es : List Ent} {w : World} {cur : Nat × Nat → Option Parts} (hno : fl.addAssoc = false)
    (hD : Different env es) (hcur : ∀ k, Cur w k (cur k)) (hspecs : ∀ e x, Specified env e x → ∃ p : Parts, p.Good ∧ x = p.text)
    (hraw : ∀ p : Parts, p.Good → env.toRaw p.text = some p.text) {s : PSt} (h : Inv env fl es w cur s) (i : Nat) :
    Inv env fl es w cur (pstep env fl es s i) := by
  unfold pstep
  cases he : es[i]? with
  | none => exact h
  | some e =>
    simp only
    cases hp : s.pc i with
    | done f => exact h
    | todo =>
      simp only
      cases hl : lookupPath env.root e.path with
      | none =>
        have hns : ¬ HasSpec env e := by rintro ⟨x, p, h, -⟩; rw [← names_iff, hl] at h; cases h
        have hf : Fails env fl (cur e.key) e := .outside (by rintro ⟨p, hp⟩; rw [← names_iff, hl] at hp; cases hp)
        have := (actOf_none (env := env) (fl := fl) (cur := cur e.key) hns).2.2.2 hf
        exact inv_step hD h he (w' := s.w) (t := s.assoc) (Or.inl rfl) (by simp) (by simp) (by simp)
          (by rintro f ⟨⟩; exact ⟨this.symm, fun h => absurd h hns⟩)
      | some p =>
        have hn : Names env.root e.path p := names_iff.1 hl
        have hone : ∀ q, Names env.root e.path q → q = p := fun q hq => by rw [← names_iff, hl] at hq; exact (Option.some.inj hq).symm
        simp only
        cases hlk : env.lookup p e.mode with
        | error =>
          have hns : ¬ HasSpec env e := by rintro ⟨x, q, h1, h2⟩; rw [hone q h1, hlk] at h2; cases h2
          have := (actOf_none (env := env) (fl := fl) (cur := cur e.key) hns).2.2.2 (.lookup p hn hlk)
          exact inv_step hD h he (w' := s.w) (t := s.assoc) (Or.inl rfl) (by simp) (by simp) (by simp)
            (by rintro f ⟨⟩; exact ⟨this.symm, fun h => absurd h hns⟩)
        | noMatch =>
          have hns : ¬ HasSpec env e := by rintro ⟨x, q, h1, h2⟩; rw [hone q h1, hlk] at h2; cases h2
          have hnf : ¬ Fails env fl (cur e.key) e := by
            intro hf
            cases hf with
            | outside h => exact h ⟨p, hn⟩
            | lookup q h1 h2 => rw [hone q h1, hlk] at h2; cases h2
            | get n a _ => exact hns ⟨_, a⟩
            | set n _ a _ _ _ => exact hns ⟨_, a⟩
          have hh : (actOf env fl (cur e.key) e).fail = false := by
            cases hx : (actOf env fl (cur e.key) e).fail with
            | false => rfl
            | true => exact absurd ((actOf_none (env := env) (fl := fl) (cur := cur e.key) hns).2.2.1 hx) hnf
          exact inv_step hD h he (w' := s.w) (t := s.assoc) (Or.inl rfl) (by simp) (by simp) (by simp)
            (by rintro f ⟨⟩; exact ⟨hh.symm, fun h => absurd h hns⟩)
        | found new =>
          simp only [hno, Bool.false_eq_true, if_false]
          have hsp : Specified env e new := ⟨p, hn, hlk⟩
          exact inv_step hD h he (w' := s.w) (t := s.assoc) (Or.inl rfl) (by simp)
            (by rintro n ⟨⟩; exact ⟨hsp, h.todo i e he hp ⟨_, hsp⟩⟩) (by simp) (by simp)
    | ready new =>
      simp only
      obtain ⟨a1, a2⟩ := h.ready i e new he hp
      split
      · rename_i hg
        obtain ⟨n, hgood, rfl⟩ := hspecs e new a1
        have hact : actOf env fl (cur e.key) e = ⟨true, none, []⟩ := by
          rw [actOf_new hgood a1]; unfold actNew; rw [if_pos hg]
        exact inv_step hD h he (w' := s.w) (t := s.assoc) (Or.inl rfl) (by simp) (by simp) (by simp)
          (by rintro f ⟨⟩; rw [hact]; exact ⟨rfl, fun _ => a2⟩)
      · rename_i hg
        exact inv_step hD h he (w' := s.w) (t := s.assoc) (Or.inl rfl) (by simp) (by simp)
          (by rintro n c ⟨⟩; exact ⟨a1, by simpa using hg, a2, a2⟩) (by simp)
    | got new c =>
      simp only
      obtain ⟨a1, a2, a3, a4⟩ := h.got i e new c he hp
      obtain ⟨n, hgood, rfl⟩ := hspecs e new a1
      have hc : c = s.w.label e.key := a3.trans a4.symm
      rw [hc, finish_relabel a2, relabel_act (cur := cur e.key) (s := { w := s.w }) (hcur e.key).2 hgood (by show s.w.label e.key = _; rw [a4]; exact (hcur e.key).1) hraw,
        ← actOf_new hgood a1]
      simp only [Option.map_some]
      generalize hA : actOf env fl (cur e.key) e = A
      refine inv_step hD h he (t := s.assoc) (p := .done A.fail) (w' := (match A.set with | none => s.w | some c => s.w.setLabel e.key c)) ?_ (by simp) (by simp) (by simp) ?_
      · cases A.set with
        | none => exact Or.inl rfl
        | some v => exact Or.inr ⟨⟨_, a1⟩, rfl, fun k hk => by simp [World.setLabel, hk]⟩
      · rintro f ⟨⟩
        rw [hA]
        refine ⟨rfl, fun _ => ?_⟩
        unfold Act.after
        cases A.set with
        | none => exact a4
        | some v => simp [World.setLabel]

theorem prun_inv {env : Env} {fl : Flags} {es : List Ent} {w : World} {cur : Nat × Nat → Option Parts} (hno : fl.addAssoc = false)
    (hD : Different env es) (hcur : ∀ k, Cur w k (cur k)) (hspecs : ∀ e x, Specified env e x → ∃ p : Parts, p.Good ∧ x = p.text)
    (hraw : ∀ p : Parts, p.Good → env.toRaw p.text = some p.text) : ∀ (sch : List Nat) (s : PSt), Inv env fl es w cur s →
    Inv env fl es w cur (sch.foldl (pstep env fl es) s)
  | [], _, h => h
  | i :: sch, s, h => prun_inv hno hD hcur hspecs hraw sch _ (pstep_inv hno hD hcur hspecs hraw h i)

/-! ## Theorems -/

open Classical in
/-- **C105.** Whatever the number of threads and the order of their steps: when all files are done, the labels are those that the rule for one file
says, and there is a failure exactly if a file fails, as with one thread (`C103_label`). -/
theorem C105_parallel_partial {env : Env} {fl : Flags} {w : World} {t : Tree} {sch : List Nat} (hN : Normal env fl w t) (hno : fl.addAssoc = false)
    (hD : Different env (files env fl w t))
    (hall : ∀ i < (files env fl w t).length, ∃ f, (prun env fl (files env fl w t) sch w).pc i = .done f) :
    (prun env fl (files env fl w t) sch w).ub = false ∧
      (∀ e cur new, Reached env fl w t e → Cur w e.key cur → Parts.Good new → Specified env e new.text →
        (prun env fl (files env fl w t) sch w).w.label e.key =
          if fl.nochange = true ∨ Fails env fl cur e then w.label e.key else some (newLabel fl env.custom cur new).text) ∧
      (∀ k, (∀ e, Reached env fl w t e → e.key = k → ¬ HasSpec env e) → (prun env fl (files env fl w t) sch w).w.label k = w.label k) ∧
      ((∃ i < (files env fl w t).length, (prun env fl (files env fl w t) sch w).pc i = .done true) ↔
        ∃ e cur, Reached env fl w t e ∧ Cur w e.key cur ∧ Fails env fl cur e) := by
  obtain ⟨cur, hcur⟩ : ∃ cur : Nat × Nat → Option Parts, ∀ k, Cur w k (cur k) :=
    ⟨fun k => (exists_cur hN.labels k).choose, fun k => (exists_cur hN.labels k).choose_spec⟩
  have h0 : Inv env fl (files env fl w t) w cur { w := w } :=
    ⟨rfl, rfl, fun _ _ => rfl, fun _ _ _ _ _ => rfl, (fun _ _ _ _ h => nomatch h), (fun _ _ _ _ _ h => nomatch h), (fun _ _ _ _ h => nomatch h)⟩
  have h := prun_inv hno hD hcur hN.specs hN.raw sch _ h0
  change Inv env fl (files env fl w t) w cur (prun env fl (files env fl w t) sch w) at h
  generalize hs : prun env fl (files env fl w t) sch w = s at *
  have hfl : fl.noAssoc = fl := plain_eq hno
  refine ⟨h.ub, fun e p new he hp hg hsp => ?_, fun k hk => h.other k fun e he => hk e ((mem_files t).1 he), ?_⟩
  · obtain ⟨i, hi, hie⟩ := List.getElem_of_mem ((mem_files t).2 he)
    obtain ⟨f, hf⟩ := hall i hi
    have hie' : (files env fl w t)[i]? = some e := by rw [List.getElem?_eq_getElem hi, hie]
    rw [(h.done i e f hie' hf).2 ⟨_, hsp⟩, cur_unique hp (hcur e.key)]
    obtain ⟨a1, a2, a3, -⟩ := act_ok (fl := fl) (cur := cur e.key) hg hsp (fun x hx => hN.specs e x hx)
    rw [hfl] at a1 a2 a3
    unfold Act.after
    by_cases hF : Fails env fl (cur e.key) e
    · rw [(a1 hF).1, if_pos (Or.inr hF)]
    · cases hn : fl.nochange with
      | true => rw [a3 hn, if_pos (Or.inl rfl)]
      | false =>
        rw [if_neg (by rintro (h | h); cases h; exact hF h)]
        rcases a2 hF hn with ⟨h1, h2⟩ | h
        · rw [h2]
          simp only
          rw [(hcur e.key).1, h1]
          simp only [Option.map_some]
          rw [← h1]
        · rw [h]
  · constructor
    · rintro ⟨i, hi, hd⟩
      have hie' : (files env fl w t)[i]? = some (files env fl w t)[i] := List.getElem?_eq_getElem hi
      have := (h.done i _ _ hie' hd).1
      rw [eq_comm, actOf_fail (fun x hx => hN.specs _ x hx)] at this
      exact ⟨_, _, (mem_files t).1 (List.getElem_mem hi), hcur _, this⟩
    · rintro ⟨e, p, he, hp, hF⟩
      obtain ⟨i, hi, hie⟩ := List.getElem_of_mem ((mem_files t).2 he)
      obtain ⟨f, hf⟩ := hall i hi
      have hie' : (files env fl w t)[i]? = some e := by rw [List.getElem?_eq_getElem hi, hie]
      have hfe := (h.done i e f hie' hf).1
      rw [cur_unique hp (hcur e.key), ← actOf_fail (fun x hx => hN.specs e x hx)] at hF
      rw [hF] at hfe
      exact ⟨i, hi, by rw [hf, hfe]⟩

/-- **C105.** The labels after a run of several threads are those after a run of one. -/
theorem C105_same_partial {env : Env} {c : Call} {w : World} {t : Tree} {sch : List Nat} {s : St} (hr : c.recurse = true) (hN : Normal env c.flags w t)
    (hno : c.fl.addAssoc = false) (hD : Different env (files env c.flags w t))
    (hall : ∀ i < (files env c.flags w t).length, ∃ f, (prun env c.flags (files env c.flags w t) sch w).pc i = .done f)
    (hs : restorecon env c t w = some s) : (prun env c.flags (files env c.flags w t) sch w).w.label = s.w.label := by
  classical
  obtain ⟨-, p1, p2, -⟩ := C105_parallel_partial hN hno hD hall
  obtain ⟨s', hs', q1, q2, -⟩ := C103_label hr hN ⟨fun _ => hD, fun h => by rw [show c.flags.addAssoc = c.fl.addAssoc from rfl, hno] at h; cases h⟩
  rw [hs] at hs'
  cases hs'
  have hch : ∀ e, Chosen env c.flags (files env c.flags w t) e ↔ Reached env c.flags w t e := fun e => C103_reached.2.1 hno
  funext k
  by_cases hex : ∃ e, Reached env c.flags w t e ∧ e.key = k ∧ HasSpec env e
  · obtain ⟨e, he, rfl, x, hx⟩ := hex
    obtain ⟨new, hg, rfl⟩ := hN.specs e x hx
    obtain ⟨cur, hcur⟩ := exists_cur hN.labels e.key
    rw [p1 e cur new he hcur hg hx, q1 e cur new ((hch e).2 he) hcur hg hx]
    rfl
  · rw [p2 k (fun e he hk hsp => hex ⟨e, he, hk, hsp⟩), q2 k (fun e he hk hsp => hex ⟨e, (hch e).1 he, hk, hsp⟩)]

/-- A schedule in which the file is ahead of the directory. -/
example : (∀ i < (files Ex.env Ex.call.flags Ex.w Ex.tree).length,
      ∃ f, (prun Ex.env Ex.call.flags (files Ex.env Ex.call.flags Ex.w Ex.tree) [1, 1, 0, 1, 0, 0] Ex.w).pc i = .done f) ∧
    (prun Ex.env Ex.call.flags (files Ex.env Ex.call.flags Ex.w Ex.tree) [1, 1, 0, 1, 0, 0] Ex.w).w.label (1, 2) = some (b "user_u:object_r:etc_t:s0:c1") := by
  rw [Ex.files_tree]
  refine ⟨fun i hi => ?_, by decide +kernel⟩
  have : i = 0 ∨ i = 1 := by simp at hi; omega
  rcases this with rfl | rfl
  · exact ⟨false, by decide +kernel⟩
  · exact ⟨false, by decide +kernel⟩

/-- **C105, refuted.** With the table of inodes the label of a file with two names depends on the order of the threads: two runs over the same files that
both end without failure leave it with different labels. -/
theorem C105_links_refuted : ∃ (env : Env) (fl : Flags) (es : List Ent) (w : World) (k : Nat × Nat) (sch sch' : List Nat), fl.addAssoc = true ∧
    (∀ i < es.length, (prun env fl es sch w).pc i = .done false ∧ (prun env fl es sch' w).pc i = .done false) ∧
    (prun env fl es sch w).w.label k ≠ (prun env fl es sch' w).w.label k := by
  refine ⟨{ Ex.env with
      lookup := fun p _ => if p = b "/d/f" then .found (b "system_u:object_r:etc_t:s0") else .found (b "system_u:object_r:tmp_t:s0")
      inoAt := fun _ => some 2 },
    { addAssoc := true }, [Ex.f, { Ex.f with path := b "/d/g" }], { Ex.w with label := fun _ => none }, (1, 2), [0, 0, 0, 1], [1, 1, 1, 0], rfl, ?_, by decide +kernel⟩
  intro i hi
  have : i = 0 ∨ i = 1 := by simp at hi; omega
  rcases this with rfl | rfl <;> exact ⟨by decide +kernel, by decide +kernel⟩

end Verif.Restore
