import Verif.Dbase.SysLemmas

/-!
# Properties of the record databases

C35: a database of records behaves as a list of records.
C38: queries do not leave locks behind.
C58: what a query returns was committed, or belongs to the transaction of the caller.
C59: the transaction lock is held exactly during a transaction.
-/

namespace Verif.Dbase
variable {R K : Type}

/-! ## C35 -/

/-- **C35 (partial).**  After any history of additions, changes, removals and clearings of a database that
was read from a file, in which memory does not run out while a record is *replaced*, no invalid memory is
used, the statuses are as specified, and counting, listing, iterating, looking up and querying give what
the list of records says.  (`C35_refuted`: the hypothesis cannot be dropped.) -/
theorem C35_history_partial (cmp : R → K → Bool) (io : Io) (n : Nat) (file : List (Line R)) (d0 d1 : Llist R)
    (h0 : d0.serial = none) (hload : fileCache io (some n) (some n) file d0 = some (d1, .ok))
    (os : List (Op R K)) :
    ∃ rs, records file = some rs ∧ (NoLosses cmp os rs.reverse →
      ∃ d, runOps cmp os d1 = some (d, (specOps cmp os rs.reverse).2) ∧
        count d = (specOps cmp os rs.reverse).1.length ∧
        list d = some (specOps cmp os rs.reverse).1.reverse ∧
        (∀ k, exists_ cmp d k = some ((specOps cmp os rs.reverse).1.any (cmp · k))) ∧
        (∀ k, query cmp true d k = some ((specOps cmp os rs.reverse).1.find? (cmp · k))) ∧
        ∀ fn, iterate fn d = some (specIterate fn 0 (specOps cmp os rs.reverse).1.reverse)) := by
  have hl : fileCache io (some n) (some n) file (cacheInit d0) = some (d1, .ok) := by
    rw [← hload]
    simp [fileCache, needsResync, h0, cacheInit]
  obtain ⟨d', st, e1, e2, e3, e4, _⟩ := fileCache_ok io n file file (cacheInit d0) (some n) (some n)
    (Or.inl ⟨rfl, rfl, rfl⟩) (Or.inl rfl) (Or.inr rfl)
  rw [hl] at e1
  simp only [Option.some.injEq, Prod.mk.injEq] at e1
  obtain ⟨rfl, rfl⟩ := e1
  have hs := e4 rfl
  rcases e2 with ⟨k1, _⟩ | ⟨t, l, k1, k2, _, _, k5⟩
  · rw [k1] at hs; simp at hs
  · have ht : t = n := by rw [k1] at hs; simpa using hs
    have hf := (k5 ht).1
    refine ⟨l.reverse, by rw [hf, fileOf, records_map], fun hn => ?_⟩
    rw [List.reverse_reverse] at hn ⊢
    obtain ⟨d, g1, g2, _⟩ := runOps_rep cmp os d1 l k2 (by simp [hs]) hn
    refine ⟨d, g1, rep_sz g2, list_rep g2, fun k => ?_, fun k => ?_, fun fn => iterate_rep fn g2⟩
    · rw [← find_any]
      rcases locate_find cmp g2 k with ⟨n1, n2⟩ | ⟨a, r, en, n1, n2, _, _⟩
      · simp [exists_, n2, n1]
      · simp [exists_, n2, n1]
    · rcases locate_find cmp g2 k with ⟨n1, n2⟩ | ⟨a, r, en, n1, n2, n3, n4⟩
      · simp [query, n2, n1]
      · simp [query, n2, n3, n4, n1]

/-! A database of numbers whose key is the tens digit. -/

/-- The keys of the examples. -/
def tens (r k : Nat) : Bool := r / 10 == k

/-- Nothing goes wrong. -/
def ioFine : Io := ⟨true, fun _ => true, fun _ => .ok⟩

/-- A database that was read from a file with two records. -/
def exDb : Llist Nat :=
  ((fileCache ioFine (some 3) (some 3) [.record 10, .record 20] (Sys.start [] 0).db).map (·.1)).getD
    (Sys.start [] 0).db

/-- The hypotheses of `C35_history_partial` hold of a history with additions, a replacement, removals in
the middle, of the newest and of the oldest record. -/
example : (fileCache ioFine (some 3) (some 3) [.record 10, .record 20] (Sys.start [] 0).db).map (·.2) = some .ok ∧
    NoLosses tens [.add .ok 30, .modify .ok 2 25, .modify .ok 4 40, .del 3, .del 1, .add .noEntry 7,
      .set .ok 9 99, .add .ok 41, .modify .ok 4 49] [20, 10] := by
  refine ⟨by decide +kernel, ?_⟩
  simp [NoLosses, NoLoss]

example : (runOps tens [.add .ok 30, .modify .ok 2 25, .modify .ok 4 40, .del 3, .del 1, .add .noEntry 7,
      .set .ok 9 99, .add .ok 41, .modify .ok 4 49] exDb).map (fun x => (list x.1, x.2)) =
    some (some [25, 40, 49], [.ok, .ok, .ok, .ok, .ok, .err, .err, .ok, .ok]) := by decide +kernel

/-- **C35 is false in general.**  When there is no memory for the copy of the new record, changing a
record fails, and the next listing uses freed memory. -/
theorem C35_refuted :
    ∃ (d : Llist Nat) (os : List (Op Nat Nat)), list d = some [10, 20] ∧
      (runOps tens os d).map (·.2) = some [.err] ∧ (runOps tens os d).map (fun x => list x.1) = some none :=
  ⟨exDb, [.modify .noClone 2 25], by decide +kernel, by decide +kernel, by decide +kernel⟩

/-! ## C58 -/

/-- **C58 (partial).**  From a connection to any store on, every history of a handle — with commits of other
processes in between, any errors while locking, reading and writing — uses no invalid memory, and every
result is allowed by the view: a query outside a transaction returns committed records, one inside a
transaction the committed records with the changes of the transaction, a commit makes these changes the
committed records.  At every point a query that meets no error is answered from the view.

What must not have happened (`Quiet`): a commit failed other than by failing to write the databases; in a
transaction the commit number could not be read; memory ran out while a record was replaced.
(`C58_failed_commit_refuted`, `C58_lost_changes_refuted`, `C35_refuted` show that none of this can be
dropped.) -/
theorem C58_view_partial (cmp : R → K → Bool) (file : List (Line R)) (num : Nat) (evs : List (Ev R K)) :
    Behaves cmp ⟨false, file, none⟩ evs (Sys.start file num) :=
  behaves cmp evs _ _ ⟨rfl, rfl, fun _ => ⟨rfl, fun h => by simp at h⟩, fun h => by simp [Sys.start] at h⟩

/-- Environments in which nothing goes wrong. -/
def cFine : CEnv := ⟨true, true, ioFine⟩
/-- See `cFine`. -/
def qFine : QEnv := ⟨true, cFine, cFine, true, true⟩
/-- See `cFine`. -/
def mFine : MEnv := ⟨cFine, cFine, .ok⟩
/-- See `cFine`. -/
def kFine : KEnv := ⟨false, true, none, true, false, false, false, true⟩

example : qFine.Fine := ⟨rfl, ⟨rfl, rfl, rfl, fun _ => rfl, fun _ => rfl⟩,
  ⟨rfl, rfl, rfl, fun _ => rfl, fun _ => rfl⟩, rfl, rfl⟩

/-- A history that meets all hypotheses: another process commits, a transaction sees its own changes,
another process cannot commit meanwhile, and afterwards it can. -/
example : (run tens [.connect, .list qFine, .other [.record 10, .record 20], .list qFine, .begin true true,
      .modify mFine 2 25, .del mFine 1, .other [.record 70], .list qFine, .commit kFine, .query qFine 2,
      .other [.record 70], .count qFine, .exists_ qFine 7, .disconnect true]
      (Sys.start [] 0)).map (·.2) =
    some [.done, .all [], .done, .all [10, 20], .done, .done, .done, .err, .all [25], .done, .record 25,
      .done, .num 1, .present true, .done] := by decide +kernel

/-- **C58 is false after a failed commit**: the policy does not link, `semanage_commit` fails, nothing is
committed — and the same handle lists the record that was never committed. -/
theorem C58_failed_commit_refuted :
    (run tens [.connect, .begin true true, .modify mFine 2 25, .commit { kFine with early := true }, .list qFine]
      (Sys.start [] 0)).map (fun x => (x.2, x.1.inTx, x.1.active)) =
    some ([.done, .done, .done, .err, .all [25]], false, []) := by decide +kernel

/-- **C58 is false when the commit number cannot be read once**: the changes of the transaction are gone
although every function succeeded (`exists_` here gets its answer), and the commit commits nothing. -/
theorem C58_lost_changes_refuted :
    (run tens [.connect, .begin true true, .modify mFine 2 25, .count qFine,
      .count { qFine with c1 := { cFine with s1 := false } }, .commit kFine, .list qFine]
      (Sys.start [] 0)).map (fun x => (x.2, x.1.active)) =
    some ([.done, .done, .done, .num 1, .num 0, .done, .all []], []) := by decide +kernel

/-! ## C38 -/

/-- The query functions. -/
def isQuery : Ev R K → Option QEnv
  | .query e _ => some e
  | .exists_ e _ => some e
  | .count e => some e
  | .iterate e _ => some e
  | .list e => some e
  | _ => none

/-- The records can be loaded once the lock is taken (or the lock is not taken at all). -/
def Loads (e : QEnv) (s : Sys R) : Prop :=
  match getActiveLock e.lock s with
  | none => True
  | some s => ∃ s', cacheStep e.c1 s = some (s', .ok)

theorem cacheStep_locks {e : CEnv} {s s' : Sys R} {st : Status} (h : cacheStep e s = some (s', st)) :
    s'.inTx = s.inTx ∧ s'.activeFd = s.activeFd ∧ s'.transFd = s.transFd ∧ s'.lostActive = s.lostActive ∧
      s'.lostTrans = s.lostTrans ∧ s'.connected = s.connected := by
  unfold cacheStep at h
  cases hf : fileCache e.io (getSerial e.s1 s) (getSerial e.s2 s) (if s.inTx then s.sandbox else s.active) s.db with
  | none => simp [hf] at h
  | some x =>
    rw [hf] at h
    simp only [Option.map_some, Option.some.injEq, Prod.mk.injEq] at h
    rw [← h.1]
    exact ⟨rfl, rfl, rfl, rfl, rfl, rfl⟩

/-- The locks apart from the one for reading. -/
def Same (s s' : Sys R) : Prop :=
  s'.inTx = s.inTx ∧ s'.transFd = s.transFd ∧ s'.lostActive = s.lostActive ∧ s'.lostTrans = s.lostTrans ∧
    s'.connected = s.connected

theorem Same.trans {a b c : Sys R} (h1 : Same a b) (h2 : Same b c) : Same a c :=
  ⟨h2.1.trans h1.1, h2.2.1.trans h1.2.1, h2.2.2.1.trans h1.2.2.1, h2.2.2.2.1.trans h1.2.2.2.1,
    h2.2.2.2.2.trans h1.2.2.2.2⟩

theorem exitRo_locks (e : QEnv) (s : Sys R) : Same s (exitRo e s).1 ∧
    (s.inTx = false → (exitRo e s).1.activeFd = false) ∧
    (s.inTx = true → (exitRo e s).1.activeFd = s.activeFd) := by
  unfold exitRo
  cases hs : s.inTx <;> simp [Same, hs]

theorem enterRo_locks {e : QEnv} {s s' : Sys R} {st : Status} (h : enterRo e s = some (s', st)) :
    Same s s' ∧ (s.inTx = true → s'.activeFd = s.activeFd) ∧
    (s.inTx = false → Loads e s → st = .err → s'.activeFd = s.activeFd ∧ getActiveLock e.lock s = none) := by
  unfold enterRo at h
  split_ifs at h with ht
  · obtain ⟨h1, h2, h3, h4, h5, h6⟩ := cacheStep_locks h
    exact ⟨⟨h1, h3, h4, h5, h6⟩, fun _ => h2, fun hf => by simp [ht] at hf⟩
  · cases hl : getActiveLock e.lock s with
    | none =>
      rw [hl] at h
      simp only [Option.some.injEq, Prod.mk.injEq] at h
      rw [← h.1]
      exact ⟨⟨rfl, rfl, rfl, rfl, rfl⟩, fun _ => rfl, fun _ _ _ => ⟨rfl, rfl⟩⟩
    | some s1 =>
      rw [hl] at h
      have hs1 : Same s s1 := by
        unfold getActiveLock at hl
        split_ifs at hl <;> simp at hl <;> subst hl <;> exact ⟨rfl, rfl, rfl, rfl, rfl⟩
      obtain ⟨h1, h2, h3, h4, h5, h6⟩ := cacheStep_locks h
      refine ⟨hs1.trans ⟨h1, h3, h4, h5, h6⟩, fun hf => absurd hf ht, fun _ hld hst => ?_⟩
      unfold Loads at hld
      rw [hl] at hld
      obtain ⟨s2, hs2⟩ := hld
      rw [hst] at h
      have : some (s', Status.err) = some (s2, Status.ok) := h.symm.trans hs2
      simp at this

theorem finish_locks (e : QEnv) (s : Sys R) (r : Res R) : (finish e s r).1 = (exitRo e s).1 := by
  unfold finish
  cases hx : exitRo e s with
  | mk s' st => cases st <;> rfl

/-- All queries: what happens to the locks. -/
theorem query_locks (cmp : R → K → Bool) (ev : Ev R K) (e : QEnv) (he : isQuery ev = some e) (s s' : Sys R)
    (r : Res R) (h : step cmp ev s = some (s', r)) :
    Same s s' ∧ (s.inTx = true → s'.activeFd = s.activeFd) ∧
    (s.inTx = false → Loads e s → s'.activeFd = false ∨
      (s'.activeFd = s.activeFd ∧ getActiveLock e.lock s = none)) := by
  have key : ∃ s1 st, enterRo e s = some (s1, st) ∧ ((st = .err ∧ s' = s1) ∨
      (∃ s2, Same s1 s2 ∧ s2.activeFd = s1.activeFd ∧ s' = (exitRo e s2).1)) := by
    cases ev with
    | query e' k =>
      simp only [isQuery, Option.some.injEq] at he
      subst he
      change dbQuery cmp e' k s = _ at h
      unfold dbQuery at h
      cases h1 : enterRo e' s with
      | none => simp [h1] at h
      | some x =>
        obtain ⟨s1, st⟩ := x
        rw [h1] at h
        cases st with
        | err => simp at h; exact ⟨s1, _, rfl, Or.inl ⟨rfl, h.1.symm⟩⟩
        | ok =>
          refine ⟨s1, _, rfl, Or.inr ?_⟩
          dsimp only at h
          cases h2 : cacheStep e'.c2 s1 with
          | none => simp [h2] at h
          | some y =>
            obtain ⟨s2, st2⟩ := y
            obtain ⟨a1, a2, a3, a4, a5, a6⟩ := cacheStep_locks h2
            rw [h2] at h
            cases st2 with
            | err => simp at h; exact ⟨s2, ⟨a1, a3, a4, a5, a6⟩, a2, h.1.symm⟩
            | ok =>
              dsimp only at h
              cases h3 : query cmp e'.clone s2.db k with
              | none => simp [h3] at h
              | some z =>
                rw [h3] at h
                cases z with
                | none => simp at h; exact ⟨s2, ⟨a1, a3, a4, a5, a6⟩, a2, h.1.symm⟩
                | some z =>
                  simp only [Option.some.injEq] at h
                  exact ⟨s2, ⟨a1, a3, a4, a5, a6⟩, a2, by rw [← finish_locks e' s2 (.record z), h]⟩
    | exists_ e' k =>
      simp only [isQuery, Option.some.injEq] at he
      subst he
      change dbExists cmp e' k s = _ at h
      unfold dbExists at h
      cases h1 : enterRo e' s with
      | none => simp [h1] at h
      | some x =>
        obtain ⟨s1, st⟩ := x
        rw [h1] at h
        cases st with
        | err => simp at h; exact ⟨s1, _, rfl, Or.inl ⟨rfl, h.1.symm⟩⟩
        | ok =>
          refine ⟨s1, _, rfl, Or.inr ?_⟩
          dsimp only at h
          cases h2 : cacheStep e'.c2 s1 with
          | none => simp [h2] at h
          | some y =>
            obtain ⟨s2, st2⟩ := y
            obtain ⟨a1, a2, a3, a4, a5, a6⟩ := cacheStep_locks h2
            rw [h2] at h
            cases st2 with
            | err => simp at h; exact ⟨s2, ⟨a1, a3, a4, a5, a6⟩, a2, h.1.symm⟩
            | ok =>
              dsimp only at h
              cases h3 : exists_ cmp s2.db k with
              | none => simp [h3] at h
              | some z =>
                rw [h3] at h
                simp only [Option.some.injEq] at h
                exact ⟨s2, ⟨a1, a3, a4, a5, a6⟩, a2, by rw [← finish_locks e' s2 (.present z), h]⟩
    | count e' =>
      simp only [isQuery, Option.some.injEq] at he
      subst he
      change dbCount e' s = _ at h
      unfold dbCount at h
      cases h1 : enterRo e' s with
      | none => simp [h1] at h
      | some x =>
        obtain ⟨s1, st⟩ := x
        rw [h1] at h
        cases st with
        | err => simp at h; exact ⟨s1, _, rfl, Or.inl ⟨rfl, h.1.symm⟩⟩
        | ok =>
          simp only [Option.some.injEq] at h
          exact ⟨s1, _, rfl, Or.inr ⟨s1, ⟨rfl, rfl, rfl, rfl, rfl⟩, rfl,
            by rw [← finish_locks e' s1 (.num (count s1.db)), h]⟩⟩
    | iterate e' fn =>
      simp only [isQuery, Option.some.injEq] at he
      subst he
      change dbIterate fn e' s = _ at h
      unfold dbIterate at h
      cases h1 : enterRo e' s with
      | none => simp [h1] at h
      | some x =>
        obtain ⟨s1, st⟩ := x
        rw [h1] at h
        cases st with
        | err => simp at h; exact ⟨s1, _, rfl, Or.inl ⟨rfl, h.1.symm⟩⟩
        | ok =>
          refine ⟨s1, _, rfl, Or.inr ⟨s1, ⟨rfl, rfl, rfl, rfl, rfl⟩, rfl, ?_⟩⟩
          dsimp only at h
          cases h3 : iterate fn s1.db with
          | none => simp [h3] at h
          | some z =>
            obtain ⟨vs, st3⟩ := z
            rw [h3] at h
            cases st3 with
            | err => simp at h; exact h.1.symm
            | ok =>
              simp only [Option.some.injEq] at h
              rw [← finish_locks e' s1 (.visited vs), h]
    | list e' =>
      simp only [isQuery, Option.some.injEq] at he
      subst he
      change dbList e' s = _ at h
      unfold dbList at h
      cases h1 : enterRo e' s with
      | none => simp [h1] at h
      | some x =>
        obtain ⟨s1, st⟩ := x
        rw [h1] at h
        cases st with
        | err => simp at h; exact ⟨s1, _, rfl, Or.inl ⟨rfl, h.1.symm⟩⟩
        | ok =>
          refine ⟨s1, _, rfl, Or.inr ⟨s1, ⟨rfl, rfl, rfl, rfl, rfl⟩, rfl, ?_⟩⟩
          dsimp only at h
          cases h3 : list s1.db with
          | none => simp [h3] at h
          | some z =>
            rw [h3] at h
            cases hc : e'.clone with
            | false => simp [hc] at h; exact h.1.symm
            | true =>
              simp only [hc, if_true, Option.some.injEq] at h
              rw [← finish_locks e' s1 (.all z), h]
    | connect => simp [isQuery] at he
    | disconnect _ => simp [isQuery] at he
    | begin _ _ => simp [isQuery] at he
    | commit _ => simp [isQuery] at he
    | other _ => simp [isQuery] at he
    | modify _ _ _ => simp [isQuery] at he
    | set _ _ _ => simp [isQuery] at he
    | del _ _ => simp [isQuery] at he
  obtain ⟨s1, st, h1, h2⟩ := key
  obtain ⟨a1, a2, a3⟩ := enterRo_locks h1
  rcases h2 with ⟨hst, rfl⟩ | ⟨s2, b1, b2, rfl⟩
  · exact ⟨a1, a2, fun hf hl => Or.inr (a3 hf hl hst)⟩
  · obtain ⟨c1, c2, c3⟩ := exitRo_locks e s2
    have hin : s2.inTx = s.inTx := b1.1.trans a1.1
    exact ⟨(a1.trans b1).trans c1,
      fun ht => (c3 (hin.trans ht)).trans (b2.trans (a2 ht)),
      fun hf _ => Or.inl (c2 (hin.trans hf))⟩

/-- **C38 (partial).**  A query outside a transaction that can load its records (if it gets the lock) returns
with the lock released, whatever else fails in it; a query inside a transaction does not touch the
lock. -/
theorem C38_release_partial (cmp : R → K → Bool) (ev : Ev R K) (e : QEnv) (he : isQuery ev = some e)
    (s s' : Sys R) (r : Res R) (h : step cmp ev s = some (s', r)) :
    (s.inTx = false → Loads e s → s'.activeFd = false) ∧
    (s.inTx = true → s'.activeFd = s.activeFd) := by
  obtain ⟨_, h2, h3⟩ := query_locks cmp ev e he s s' r h
  refine ⟨fun hf hl => ?_, h2⟩
  rcases h3 hf hl with h4 | ⟨h4, h5⟩
  · exact h4
  · rw [h4]
    unfold getActiveLock at h5
    cases ha : s.activeFd
    · rfl
    · simp [ha] at h5

/-- A connection that was just made. -/
def exSys : Sys Nat := (connect (Sys.start [.record 10, .record 20] 4)).1

theorem loads_of {e : QEnv} {s : Sys R}
    (h : ((getActiveLock e.lock s).bind (cacheStep e.c1)).map (·.2) = some .ok) : Loads e s := by
  unfold Loads
  cases hl : getActiveLock e.lock s with
  | none => trivial
  | some s1 =>
    rw [hl] at h
    simp only [Option.bind_some, Option.map_eq_some_iff] at h
    obtain ⟨⟨s2, st⟩, h1, h2⟩ := h
    exact ⟨s2, by rw [h1]; simpa using h2⟩

example : Loads qFine exSys ∧ (step tens (.query { qFine with clone := false } 2) exSys).map
    (fun x => (x.2, x.1.activeFd)) = some (.err, false) := by
  exact ⟨loads_of (by decide +kernel), by decide +kernel⟩

/-- A query that cannot read the file of its database. -/
def qBroken : QEnv := { qFine with c1 := { cFine with io := { ioFine with openOk := false } } }

/-- **C38 is false in general.**  A query whose file cannot be read fails and keeps the lock: another process
cannot commit any more. -/
theorem C38_refuted :
    (run tens [.connect, .count qBroken, .other []] (Sys.start [.record 10] 4)).map
      (fun x => (x.2, x.1.activeFd)) = some ([.done, .err, .err], true) := by
  decide +kernel

theorem enterRw_same {e : MEnv} {s s' : Sys R} {st : Status} (h : enterRw e s = some (s', st)) :
    Same s s' := by
  unfold enterRw at h
  split_ifs at h with ht
  · obtain ⟨h1, h2, h3, h4, h5, h6⟩ := cacheStep_locks h
    exact ⟨h1, h3, h4, h5, h6⟩
  · simp at h; rw [← h.1]; exact ⟨rfl, rfl, rfl, rfl, rfl⟩

theorem change_same (cmp : R → K → Bool) (ev : Ev R K) (hev : (∃ e k x, ev = .modify e k x) ∨
    (∃ e k x, ev = .set e k x) ∨ ∃ e k, ev = .del e k) (s s' : Sys R) (r : Res R)
    (h : step cmp ev s = some (s', r)) : Same s s' := by
  rcases hev with ⟨e, k, x, rfl⟩ | ⟨e, k, x, rfl⟩ | ⟨e, k, rfl⟩
  · change dbModify cmp e k x s = _ at h
    unfold dbModify at h
    cases h1 : enterRw e s with
    | none => simp [h1] at h
    | some y =>
      obtain ⟨s1, st⟩ := y
      have hs := enterRw_same h1
      rw [h1] at h
      cases st with
      | err => simp at h; rw [← h.1]; exact hs
      | ok =>
        dsimp only at h
        cases h2 : cacheStep e.c2 s1 with
        | none => simp [h2] at h
        | some y =>
          obtain ⟨s2, st2⟩ := y
          obtain ⟨a1, a2, a3, a4, a5, a6⟩ := cacheStep_locks h2
          have hs2 : Same s s2 := hs.trans ⟨a1, a3, a4, a5, a6⟩
          rw [h2] at h
          cases st2 with
          | err => simp at h; rw [← h.1]; exact hs2
          | ok =>
            simp only [Option.map_eq_some_iff] at h
            obtain ⟨y, _, hy⟩ := h
            simp only [Prod.mk.injEq] at hy
            rw [← hy.1]
            exact hs2
  · change dbSet cmp e k x s = _ at h
    unfold dbSet at h
    cases h1 : enterRw e s with
    | none => simp [h1] at h
    | some y =>
      obtain ⟨s1, st⟩ := y
      have hs := enterRw_same h1
      rw [h1] at h
      cases st with
      | err => simp at h; rw [← h.1]; exact hs
      | ok =>
        dsimp only at h
        cases h2 : cacheStep e.c2 s1 with
        | none => simp [h2] at h
        | some y =>
          obtain ⟨s2, st2⟩ := y
          obtain ⟨a1, a2, a3, a4, a5, a6⟩ := cacheStep_locks h2
          have hs2 : Same s s2 := hs.trans ⟨a1, a3, a4, a5, a6⟩
          rw [h2] at h
          cases st2 with
          | err => simp at h; rw [← h.1]; exact hs2
          | ok =>
            simp only [Option.map_eq_some_iff] at h
            obtain ⟨y, _, hy⟩ := h
            simp only [Prod.mk.injEq] at hy
            rw [← hy.1]
            exact hs2
  · change dbDel cmp e k s = _ at h
    unfold dbDel at h
    cases h1 : enterRw e s with
    | none => simp [h1] at h
    | some y =>
      obtain ⟨s1, st⟩ := y
      have hs := enterRw_same h1
      rw [h1] at h
      cases st with
      | err => simp at h; rw [← h.1]; exact hs
      | ok =>
        simp only [Option.map_eq_some_iff] at h
        obtain ⟨y, _, hy⟩ := h
        simp only [Prod.mk.injEq] at hy
        rw [← hy.1]
        exact hs

/-- What a commit does to the locks. -/
theorem commit_locks {e : KEnv} {s s' : Sys R} {r : Res R} (h : commit e s = some (s', r)) :
    s'.lostActive = s.lostActive ∧ s'.lostTrans = s.lostTrans ∧ s'.connected = s.connected ∧ s'.inTx = false ∧
      (s.inTx = true → s'.transFd = false) ∧ (s.inTx = false → s'.transFd = s.transFd) := by
  unfold commit at h
  split_ifs at h with ht
  · simp at h; rw [← h.1]; exact ⟨rfl, rfl, rfl, ht, fun hf => by simp [ht] at hf, fun _ => rfl⟩
  · cases hc : commitCore e s with
    | none => simp [hc] at h
    | some y =>
      obtain ⟨s1, st⟩ := y
      rw [hc] at h
      simp only [Option.some.injEq, Prod.mk.injEq] at h
      have hs : s1.lostActive = s.lostActive ∧ s1.lostTrans = s.lostTrans ∧ s1.connected = s.connected := by
        unfold commitCore at hc
        by_cases h1 : e.early = true
        · rw [if_pos h1] at hc
          simp at hc; rw [← hc.1]; exact ⟨rfl, rfl, rfl⟩
        · rw [if_neg h1] at hc
          dsimp only at hc
          cases hf : flush e.openOk e.fails e.closeOk s.db s.sandbox with
          | none => simp [hf] at hc
          | some z =>
            obtain ⟨d, f, st2⟩ := z
            rw [hf] at hc
            cases st2 with
            | err =>
              simp only [Option.map_eq_some_iff, Prod.mk.injEq] at hc
              obtain ⟨d', _, hd, _⟩ := hc
              rw [← hd]; exact ⟨rfl, rfl, rfl⟩
            | ok =>
              dsimp only at hc
              split_ifs at hc
              · simp only [Option.map_eq_some_iff, Prod.mk.injEq] at hc
                obtain ⟨d', _, hd, _⟩ := hc
                rw [← hd]; exact ⟨rfl, rfl, rfl⟩
              all_goals
                simp only [Option.some.injEq, Prod.mk.injEq] at hc
                rw [← hc.1]; exact ⟨rfl, rfl, rfl⟩
      rw [← h.1]
      exact ⟨hs.1, hs.2.1, hs.2.2, rfl, fun _ => rfl, fun hf => absurd hf ht⟩

theorem disconnect_locks {rm : Bool} {s s' : Sys R} {r : Res R} (h : disconnect rm s = some (s', r)) :
    s'.lostActive = s.lostActive ∧ s'.lostTrans = s.lostTrans ∧ s'.connected = false ∧
      (s.connected = false → s' = s) ∧
      (s.connected = true → s'.inTx = false ∧ s'.transFd = (if s.inTx then false else s.transFd)) := by
  unfold disconnect at h
  by_cases h1 : s.connected = false
  · rw [if_pos h1] at h
    simp at h; rw [← h.1]; exact ⟨rfl, rfl, h1, fun _ => rfl, fun hf => by simp [h1] at hf⟩
  · rw [if_neg h1] at h
    by_cases h2 : (s.inTx && !rm) = true
    · rw [if_pos h2] at h; simp at h
    rw [if_neg h2] at h
    cases hd : dropCache s.db with
    | none => simp [hd] at h
    | some d =>
      rw [hd] at h
      simp only [Option.some.injEq, Prod.mk.injEq] at h
      rw [← h.1]
      exact ⟨rfl, rfl, rfl, fun hf => absurd hf h1, fun _ => ⟨rfl, rfl⟩⟩

theorem begin_locks (l o : Bool) (s : Sys R) :
    (begin_ l o s).1.lostActive = s.lostActive ∧ (begin_ l o s).1.lostTrans = s.lostTrans ∧
    (begin_ l o s).1.connected = s.connected ∧
    (o = true → s.transFd = s.inTx → (begin_ l o s).1.transFd = (begin_ l o s).1.inTx) ∧
    (s.connected = false → (begin_ l o s).1 = s) := by
  unfold begin_
  by_cases h1 : s.connected = false
  · rw [if_pos h1]
    exact ⟨rfl, rfl, rfl, fun _ h => h, fun _ => rfl⟩
  rw [if_neg h1]
  by_cases h2 : s.inTx = true
  · rw [if_pos h2]
    exact ⟨rfl, rfl, rfl, fun _ h => h, fun _ => rfl⟩
  · rw [if_neg h2]
    cases hg : getTransLock l s with
    | none => exact ⟨rfl, rfl, rfl, fun _ h => h, fun _ => rfl⟩
    | some s1 =>
      have hs1 : s1 = { s with transFd := true } := by
        unfold getTransLock at hg
        split_ifs at hg with h1
        · simp at hg; subst hg; cases s; simp_all
        · simp at hg; exact hg.symm
      subst hs1
      cases o with
      | true => exact ⟨rfl, rfl, rfl, fun _ _ => rfl, fun hf => absurd hf h1⟩
      | false => exact ⟨rfl, rfl, rfl, fun hf => by simp at hf, fun hf => absurd hf h1⟩

/-- Descriptors that were overwritten stay lost. -/
theorem step_lost (cmp : R → K → Bool) (ev : Ev R K) (s s' : Sys R) (r : Res R)
    (h : step cmp ev s = some (s', r)) :
    (s.lostActive = true → s'.lostActive = true) ∧ (s.lostTrans = true → s'.lostTrans = true) := by
  have ofSame : Same s s' → (s.lostActive = true → s'.lostActive = true) ∧
      (s.lostTrans = true → s'.lostTrans = true) := fun hs =>
    ⟨fun h => hs.2.2.1.trans h, fun h => hs.2.2.2.1.trans h⟩
  cases ev with
  | connect =>
    simp only [step, connect, Option.some.injEq, Prod.mk.injEq] at h
    rw [← h.1]
    exact ⟨fun h => by simp [h], fun h => by simp [h]⟩
  | disconnect rm =>
    obtain ⟨h1, h2, _⟩ := disconnect_locks h
    exact ⟨fun h => h1.trans h, fun h => h2.trans h⟩
  | begin l o =>
    simp only [step, Option.some.injEq] at h
    obtain ⟨h1, h2, _⟩ := begin_locks l o s
    rw [h] at h1 h2
    exact ⟨fun h => h1.trans h, fun h => h2.trans h⟩
  | commit e =>
    obtain ⟨h1, h2, _⟩ := commit_locks h
    exact ⟨fun h => h1.trans h, fun h => h2.trans h⟩
  | other f =>
    simp only [step, otherCommit, Option.some.injEq] at h
    split_ifs at h <;> (simp only [Prod.mk.injEq] at h; rw [← h.1]; exact ⟨id, id⟩)
  | query e k => exact ofSame (query_locks cmp _ e rfl s s' r h).1
  | exists_ e k => exact ofSame (query_locks cmp _ e rfl s s' r h).1
  | count e => exact ofSame (query_locks cmp _ e rfl s s' r h).1
  | iterate e fn => exact ofSame (query_locks cmp _ e rfl s s' r h).1
  | list e => exact ofSame (query_locks cmp _ e rfl s s' r h).1
  | modify e k x => exact ofSame (change_same cmp _ (Or.inl ⟨e, k, x, rfl⟩) s s' r h)
  | set e k x => exact ofSame (change_same cmp _ (Or.inr (Or.inl ⟨e, k, x, rfl⟩)) s s' r h)
  | del e k => exact ofSame (change_same cmp _ (Or.inr (Or.inr ⟨e, k, rfl⟩)) s s' r h)

theorem run_lost (cmp : R → K → Bool) : ∀ (evs : List (Ev R K)) (s s' : Sys R) (rs : List (Res R)),
    run cmp evs s = some (s', rs) →
    (s.lostActive = true → s'.lostActive = true) ∧ (s.lostTrans = true → s'.lostTrans = true)
  | [], s, s', rs, h => by
    simp [run] at h; rw [← h.1]; exact ⟨id, id⟩
  | ev :: evs, s, s', rs, h => by
    unfold run at h
    cases h1 : step cmp ev s with
    | none => simp [h1] at h
    | some x =>
      obtain ⟨s1, r⟩ := x
      rw [h1] at h
      dsimp only at h
      cases h2 : run cmp evs s1 with
      | none => simp [h2] at h
      | some y =>
        obtain ⟨s2, rs2⟩ := y
        rw [h2] at h
        simp only [Option.some.injEq, Prod.mk.injEq] at h
        obtain ⟨a1, a2⟩ := step_lost cmp ev s s1 r h1
        obtain ⟨b1, b2⟩ := run_lost cmp evs s1 s2 rs2 h2
        rw [← h.1]
        exact ⟨fun h => b1 (a1 h), fun h => b2 (a2 h)⟩

theorem run_append (cmp : R → K → Bool) : ∀ (xs ys : List (Ev R K)) (s : Sys R),
    run cmp (xs ++ ys) s = match run cmp xs s with
      | none => none
      | some (s1, r1) =>
        match run cmp ys s1 with
        | none => none
        | some (s2, r2) => some (s2, r1 ++ r2)
  | [], ys, s => by
    simp only [List.nil_append, run]
    cases run cmp ys s <;> rfl
  | x :: xs, ys, s => by
    simp only [List.cons_append, run]
    cases step cmp x s with
    | none => rfl
    | some y =>
      obtain ⟨s1, r⟩ := y
      dsimp only
      rw [run_append cmp xs ys s1]
      cases run cmp xs s1 with
      | none => rfl
      | some z =>
        obtain ⟨s2, r2⟩ := z
        dsimp only
        cases run cmp ys s2 <;> rfl

/-- **What becomes of the lock of `C38_refuted`.**  When the handle is closed and connected again, the lock
is held through a forgotten descriptor: whatever the process does afterwards, another process can never
commit and a query outside a transaction never succeeds. -/
theorem C38_stuck (cmp : R → K → Bool) (evs : List (Ev R K)) (s s' : Sys R) (rs : List (Res R))
    (hlost : s.lostActive = true) (h : run cmp evs s = some (s', rs)) :
    (∀ f, (otherCommit f s').2 = .err) ∧
    (∀ ev e s'' r, isQuery ev = some e → s'.inTx = false → s'.activeFd = false →
      step cmp ev s' = some (s'', r) → r = .err) := by
  have hl := (run_lost cmp evs s s' rs h).1 hlost
  refine ⟨fun f => by simp [otherCommit, Sys.holds, hl], ?_⟩
  intro ev e s'' r he ht ha hs
  have hlk : getActiveLock e.lock s' = none := by simp [getActiveLock, ha, hl]
  have hen : enterRo e s' = some (s', .err) := by simp [enterRo, ht, hlk]
  cases ev with
  | query e' k =>
    simp only [isQuery, Option.some.injEq] at he; subst he
    simp only [step, dbQuery, hen, Option.some.injEq, Prod.mk.injEq] at hs; exact hs.2.symm
  | exists_ e' k =>
    simp only [isQuery, Option.some.injEq] at he; subst he
    simp only [step, dbExists, hen, Option.some.injEq, Prod.mk.injEq] at hs; exact hs.2.symm
  | count e' =>
    simp only [isQuery, Option.some.injEq] at he; subst he
    simp only [step, dbCount, hen, Option.some.injEq, Prod.mk.injEq] at hs; exact hs.2.symm
  | iterate e' fn =>
    simp only [isQuery, Option.some.injEq] at he; subst he
    simp only [step, dbIterate, hen, Option.some.injEq, Prod.mk.injEq] at hs; exact hs.2.symm
  | list e' =>
    simp only [isQuery, Option.some.injEq] at he; subst he
    simp only [step, dbList, hen, Option.some.injEq, Prod.mk.injEq] at hs; exact hs.2.symm
  | connect => simp [isQuery] at he
  | disconnect _ => simp [isQuery] at he
  | begin _ _ => simp [isQuery] at he
  | commit _ => simp [isQuery] at he
  | other _ => simp [isQuery] at he
  | modify _ _ _ => simp [isQuery] at he
  | set _ _ _ => simp [isQuery] at he
  | del _ _ => simp [isQuery] at he

/-- The hypothesis of `C38_stuck` is reached by one failed query and a new connection. -/
example : (run tens [.connect, .count qBroken, .disconnect true, .connect, .count qFine, .other []]
      (Sys.start [.record 10] 4)).map (fun x => (x.2, x.1.lostActive)) =
    some ([.done, .err, .done, .done, .err, .err], true) := by decide +kernel

/-! ## C59 -/

/-- Connections are opened only while there is none, and the sandbox can be made whenever a transaction is
begun. -/
def Proper : Bool → List (Ev R K) → Prop
  | _, [] => True
  | c, .connect :: evs => c = false ∧ Proper true evs
  | _, .disconnect _ :: evs => Proper false evs
  | c, .begin _ o :: evs => o = true ∧ Proper c evs
  | c, _ :: evs => Proper c evs

/-- **C59 (partial).**  In every history in which the sandbox of a transaction can be made, the handle holds the
transaction lock exactly during a transaction, and never loses it.  (`C59_refuted`: the hypothesis cannot be
dropped.) -/
theorem C59_lock_partial (cmp : R → K → Bool) (file : List (Line R)) (num : Nat) (evs : List (Ev R K))
    (hp : Proper false evs) (s : Sys R) (rs : List (Res R))
    (h : run cmp evs (Sys.start file num) = some (s, rs)) :
    s.transFd = s.inTx ∧ s.lostTrans = false := by
  have key : ∀ (evs : List (Ev R K)) (c : Bool) (s0 s : Sys R) (rs : List (Res R)), Proper c evs →
      s0.connected = c → s0.transFd = s0.inTx → s0.lostTrans = false → (c = false → s0.inTx = false) →
      run cmp evs s0 = some (s, rs) → s.transFd = s.inTx ∧ s.lostTrans = false := by
    intro evs
    induction evs with
    | nil =>
      intro c s0 s rs _ _ h1 h2 _ h
      simp [run] at h; rw [← h.1]; exact ⟨h1, h2⟩
    | cons ev evs ih =>
      intro c s0 s rs hp hc h1 h2 h3 h
      unfold run at h
      cases hs : step cmp ev s0 with
      | none => simp [hs] at h
      | some x =>
        obtain ⟨s1, r⟩ := x
        rw [hs] at h
        dsimp only at h
        cases hr : run cmp evs s1 with
        | none => simp [hr] at h
        | some y =>
          obtain ⟨s2, rs2⟩ := y
          rw [hr] at h
          simp only [Option.some.injEq, Prod.mk.injEq] at h
          rw [← h.1]
          have ofSame : Proper c evs → Same s0 s1 → s2.transFd = s2.inTx ∧ s2.lostTrans = false :=
            fun hp hsm => ih c s1 s2 rs2 hp (hsm.2.2.2.2.trans hc) (by rw [hsm.2.1, hsm.1, h1])
              (hsm.2.2.2.1.trans h2) (fun hcf => hsm.1.trans (h3 hcf)) hr
          cases ev with
          | connect =>
            obtain ⟨hcf, hp⟩ := hp
            simp only [step, connect, Option.some.injEq, Prod.mk.injEq] at hs
            have hin := h3 hcf
            have htf : s0.transFd = false := h1.trans hin
            refine ih true s1 s2 rs2 hp (by rw [← hs.1]) (by rw [← hs.1]; exact hin.symm)
              (by rw [← hs.1]; simp [h2, htf]) (by simp) hr
          | disconnect rm =>
            have hp : Proper false evs := hp
            obtain ⟨b1, b2, b3, b4, b5⟩ := disconnect_locks hs
            cases hcc : s0.connected with
            | false =>
              have := b4 hcc
              subst this
              exact ih false s1 s2 rs2 hp hcc h1 h2 (fun _ => h3 (hc.symm.trans hcc)) hr
            | true =>
              obtain ⟨b6, b7⟩ := b5 hcc
              refine ih false s1 s2 rs2 hp b3 ?_ (b2.trans h2) (fun _ => b6) hr
              rw [b7, b6, h1]
              cases s0.inTx <;> rfl
          | begin l o =>
            obtain ⟨ho, hp⟩ := hp
            simp only [step, Option.some.injEq] at hs
            obtain ⟨b1, b2, b3, b4, b5⟩ := begin_locks l o s0
            rw [hs] at b2 b3 b4 b5
            refine ih c s1 s2 rs2 hp (b3.trans hc) (b4 ho h1) (b2.trans h2) (fun hcf => ?_) hr
            have := b5 (hc.trans hcf)
            dsimp only at this
            rw [this]; exact h3 hcf
          | commit e =>
            have hp : Proper c evs := hp
            obtain ⟨b1, b2, b3, b4, b5, b6⟩ := commit_locks hs
            refine ih c s1 s2 rs2 hp (b3.trans hc) ?_ (b2.trans h2) (fun _ => b4) hr
            rw [b4]
            cases hin : s0.inTx with
            | true => exact b5 hin
            | false => rw [b6 hin, h1, hin]
          | other f =>
            have hp : Proper c evs := hp
            refine ofSame hp ?_
            simp only [step, otherCommit, Option.some.injEq] at hs
            split_ifs at hs <;>
              (simp only [Prod.mk.injEq] at hs; rw [← hs.1]; exact ⟨rfl, rfl, rfl, rfl, rfl⟩)
          | query e k => exact ofSame hp (query_locks cmp _ e rfl s0 s1 r hs).1
          | exists_ e k => exact ofSame hp (query_locks cmp _ e rfl s0 s1 r hs).1
          | count e => exact ofSame hp (query_locks cmp _ e rfl s0 s1 r hs).1
          | iterate e fn => exact ofSame hp (query_locks cmp _ e rfl s0 s1 r hs).1
          | list e => exact ofSame hp (query_locks cmp _ e rfl s0 s1 r hs).1
          | modify e k x => exact ofSame hp (change_same cmp _ (Or.inl ⟨e, k, x, rfl⟩) s0 s1 r hs)
          | set e k x => exact ofSame hp (change_same cmp _ (Or.inr (Or.inl ⟨e, k, x, rfl⟩)) s0 s1 r hs)
          | del e k => exact ofSame hp (change_same cmp _ (Or.inr (Or.inr ⟨e, k, rfl⟩)) s0 s1 r hs)
  exact key evs false (Sys.start file num) s rs hp rfl rfl rfl (fun _ => rfl) h

example : Proper false ([.connect, .begin true true, .begin false true, .commit { kFine with late := true },
    .disconnect true, .connect, .begin true true, .count qBroken] : List (Ev Nat Nat)) ∧
    (run tens [.connect, .begin true true, .begin false true, .commit { kFine with late := true },
      .disconnect true, .connect, .begin true true, .count qBroken] (Sys.start [.record 10] 4)).map
      (fun x => (x.2, x.1.transFd, x.1.inTx)) =
    some ([.done, .done, .done, .err, .done, .done, .done, .err], true, true) := by
  refine ⟨by simp [Proper], by decide +kernel⟩

/-- **C59 is false in general.**  When the sandbox cannot be made, beginning a transaction fails and keeps the
transaction lock; closing the handle does not release it, and after a new connection the process can
neither begin a transaction nor can anybody else. -/
theorem C59_refuted :
    (run tens [.connect, .begin true false, .other [], .disconnect true, .connect, .begin true true, .other []]
      (Sys.start [.record 10] 4)).map (fun x => (x.2, x.1.inTx, x.1.lostTrans)) =
    some ([.done, .err, .err, .done, .done, .err, .err], false, true) := by
  decide +kernel

end Verif.Dbase
