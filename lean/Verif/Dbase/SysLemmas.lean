import Verif.Dbase.SysSpec
import Verif.Dbase.Lemmas

namespace Verif.Dbase
variable {R K : Type}

theorem records_map (rs : List R) : records (rs.map Line.record) = some rs := by
  induction rs with
  | nil => rfl
  | cons r rs ih => simp [records, ih]

theorem records_eq : ∀ {ls : List (Line R)} {rs : List R}, records ls = some rs → ls = rs.map Line.record
  | [], rs, h => by simp [records] at h; subst h; rfl
  | .bad :: ls, rs, h => by simp [records] at h
  | .record r :: ls, rs, h => by
    simp [records] at h
    obtain ⟨rs', h1, h2⟩ := h
    rw [← h2, records_eq h1]; rfl

/-- The database in memory and its file: `lines` is what a caller sees. -/
def DbOk (cur : Nat) (file lines : List (Line R)) (d : Llist R) : Prop :=
  (d.serial = none ∧ d.modified = false ∧ lines = file) ∨
  (∃ t l, d.serial = some t ∧ Rep d l ∧ t ≤ cur ∧ (t ≠ cur → d.modified = false ∧ lines = file) ∧
    (t = cur → lines = fileOf l ∧ (d.modified = false → lines = file)))

theorem readLoop_fine (io : Io) (h1 : ∀ i, io.createOk i = true) (h2 : ∀ i, io.mem i = .ok) :
    ∀ (ls : List (Line R)) (i : Nat) (d : Llist R) (l : List R), Rep d l → (records ls).isSome →
      ∃ d', readLoop io i ls d = some (d', .ok) := by
  intro ls
  induction ls with
  | nil => intro i d l _ _; exact ⟨d, by unfold readLoop; simp [h1]⟩
  | cons x ls ih =>
    intro i d l h hr
    cases x with
    | bad => simp [records] at hr
    | record r =>
      obtain ⟨d1, e1, e2, e3, e4⟩ := prepend_rep h r
      obtain ⟨d2, g⟩ := ih (i + 1) d1 _ e2 (by simpa [records] using hr)
      exact ⟨d2, by unfold readLoop; simp [h1, h2, e1, g]⟩

/-- Reading the file into an emptied database. -/
theorem reload_ok (io : Io) (cur : Nat) (file : List (Line R)) (d : Llist R) (s2 : Option Nat)
    (h2 : s2 = none ∨ s2 = some cur) :
    ∃ d' st, (match setSerial s2 (cacheInit d) with
      | (d, .err) => (dropCache d).map (·, Status.err)
      | (d, .ok) =>
        if io.openOk = false then (dropCache d).map (·, .err)
        else
          match readLoop io 0 file d with
          | none => none
          | some (d, .ok) => some (d, .ok)
          | some (d, .err) => (dropCache d).map (·, .err)) = some (d', st) ∧ DbOk cur file file d' ∧
      d'.modified = false ∧ (st = .ok → d'.serial = some cur) ∧
      (s2 = some cur → io.openOk = true → (∀ i, io.createOk i = true) → (∀ i, io.mem i = .ok) →
        (records file).isSome → st = .ok) := by
  rcases h2 with rfl | rfl
  · refine ⟨cacheInit d, .err, rfl, Or.inl ⟨rfl, rfl, rfl⟩, rfl, by simp, by simp⟩
  · have hr0 : Rep { cacheInit d with serial := some cur } [] :=
      rep_of_fields (rep_cacheInit d) rfl rfl rfl rfl rfl
    by_cases ho : io.openOk = false
    · obtain ⟨d', e1, e2, e3⟩ := dropCache_rep hr0
      refine ⟨d', .err, by simp only [setSerial, ho, if_true, e1]; rfl, Or.inl ⟨e2, e3 rfl, rfl⟩, e3 rfl,
        by simp, fun _ h => by simp [ho] at h⟩
    · obtain ⟨d1, st, g1, g2, g3, ⟨l', g4⟩, g5⟩ := readLoop_rep io file 0 _ [] hr0 rfl
      cases st with
      | ok =>
        obtain ⟨rs, k1, k2⟩ := g5 rfl
        refine ⟨d1, .ok, by simp only [setSerial, if_neg ho, g1], Or.inr ⟨cur, rs.reverse, g2, by simpa using k2,
          Nat.le_refl _, fun h => absurd rfl h, fun _ => ⟨?_, fun _ => rfl⟩⟩, g3, fun _ => g2, fun _ _ _ _ _ => rfl⟩
        rw [fileOf, List.reverse_reverse]
        exact records_eq k1
      | err =>
        obtain ⟨d', e1, e2, e3⟩ := dropCache_rep g4
        have hm : d'.modified = false := e3 (by rw [g2]; rfl)
        refine ⟨d', .err, by simp only [setSerial, if_neg ho, g1, e1]; rfl, Or.inl ⟨e2, hm, rfl⟩, hm,
          by simp, fun _ _ h3 h4 h5 => ?_⟩
        obtain ⟨d'', hd''⟩ := readLoop_fine io h3 h4 file 0 _ [] hr0 h5
        rw [hd''] at g1
        simp at g1

theorem fileCache_ok (io : Io) (cur : Nat) (file lines : List (Line R)) (d : Llist R) (s1 s2 : Option Nat)
    (hd : DbOk cur file lines d) (h1 : s1 = some cur ∨ (s1 = none ∧ lines = file))
    (h2 : s2 = none ∨ s2 = some cur) :
    ∃ d' st, fileCache io s1 s2 file d = some (d', st) ∧ DbOk cur file lines d' ∧
      (d'.modified = true → d.modified = true) ∧ (st = .ok → d'.serial = some cur) ∧
      (s1 = some cur → s2 = some cur → io.openOk = true → (∀ i, io.createOk i = true) →
        (∀ i, io.mem i = .ok) → (records lines).isSome → st = .ok) := by
  have fin : ∀ (d0 : Llist R), lines = file → needsResync s1 d = some (d0, true) →
      ∃ d' st, fileCache io s1 s2 file d = some (d', st) ∧ DbOk cur file lines d' ∧
      (d'.modified = true → d.modified = true) ∧ (st = .ok → d'.serial = some cur) ∧
      (s1 = some cur → s2 = some cur → io.openOk = true → (∀ i, io.createOk i = true) →
        (∀ i, io.mem i = .ok) → (records lines).isSome → st = .ok) := by
    intro d0 hl hn
    obtain ⟨d', st, e1, e2, e3, e4, e5⟩ := reload_ok io cur file d0 s2 h2
    subst hl
    exact ⟨d', st, by unfold fileCache; rw [hn]; exact e1, e2, fun h => by simp [e3] at h, e4,
      fun _ => e5⟩
  rcases hd with ⟨hs, hm, hl⟩ | ⟨t, l, hs, hr, hle, hne, heq⟩
  · exact fin d hl (by simp [needsResync, hs])
  · rcases h1 with rfl | ⟨rfl, hl⟩
    · by_cases ht : t = cur
      · subst ht
        refine ⟨d, .ok, by simp [fileCache, needsResync, hs], Or.inr ⟨t, l, hs, hr, hle, hne, heq⟩, id,
          fun _ => hs, fun _ _ _ _ _ _ => rfl⟩
      · obtain ⟨d', e1, e2, e3⟩ := dropCache_rep hr
        refine fin { d' with serial := none } (hne ht).2 ?_
        simp [needsResync, hs, Ne.symm ht, e1]
    · exact fin d hl (by simp [needsResync, hs])

/-- The state agrees with the view. -/
structure Inv (v : View R) (s : Sys R) : Prop where
  active : s.active = v.committed
  conn : s.connected = v.connected
  out : s.inTx = false → v.pending = none ∧
    (v.connected = true → DbOk s.num s.active s.active s.db ∧ s.db.modified = false)
  inside : s.inTx = true → v.connected = true ∧ s.snum = s.num ∧ s.sandbox = s.active ∧ s.transFd = true ∧
    ∃ p, v.pending = some p ∧ DbOk s.snum s.sandbox p s.db

/-- The current file and its commit number. -/
theorem Inv.db {v : View R} {s : Sys R} (h : Inv v s) (hc : v.connected = true) :
    DbOk (if s.inTx then s.snum else s.num) (if s.inTx then s.sandbox else s.active) v.lines s.db ∧
    (v.pending = none → v.lines = (if s.inTx then s.sandbox else s.active)) := by
  cases ht : s.inTx with
  | false =>
    obtain ⟨h1, h2⟩ := h.out ht
    have hl : v.lines = s.active := by simp [View.lines, h1, h.active]
    rw [hl]
    exact ⟨(h2 hc).1, fun _ => rfl⟩
  | true =>
    obtain ⟨_, h2, h3, _, p, h5, h6⟩ := h.inside ht
    have hl : v.lines = p := by simp [View.lines, h5]
    rw [hl]
    exact ⟨h6, fun h => by simp [h5] at h⟩

/-- A change of the database in memory that a caller does not see. -/
theorem Inv.setDb {v : View R} {s : Sys R} (h : Inv v s) {d : Llist R}
    (hd : DbOk (if s.inTx then s.snum else s.num) (if s.inTx then s.sandbox else s.active) v.lines d)
    (hm : d.modified = true → s.db.modified = true) : Inv v { s with db := d } := by
  refine ⟨h.active, h.conn, fun ht => ?_, fun ht => ?_⟩
  · obtain ⟨h1, h2⟩ := h.out ht
    have ht' : s.inTx = false := ht
    refine ⟨h1, fun hc => ⟨?_, ?_⟩⟩
    · have hl : v.lines = s.active := by simp [View.lines, h1, h.active]
      rw [ht', hl] at hd
      exact hd
    · have := (h2 hc).2
      show d.modified = false
      cases hdm : d.modified
      · rfl
      · rw [hm hdm] at this; exact this
  · obtain ⟨h1, h2, h3, h4, p, h5, h6⟩ := h.inside ht
    have ht' : s.inTx = true := ht
    refine ⟨h1, h2, h3, h4, p, h5, ?_⟩
    have hl : v.lines = p := by simp [View.lines, h5]
    rw [ht', hl] at hd
    exact hd

/-- Changing the descriptor of the active lock. -/
theorem Inv.setActiveFd {v : View R} {s : Sys R} (h : Inv v s) (b : Bool) : Inv v { s with activeFd := b } :=
  ⟨h.active, h.conn, h.out, h.inside⟩

/-- After a successful call of `cache` the records of the view are in memory. -/
def Loaded (v : View R) (s : Sys R) : Prop :=
  s.db.serial = some (if s.inTx then s.snum else s.num) ∧
    ∃ l, Rep s.db l ∧ v.lines = fileOf l ∧ records v.lines = some l.reverse

theorem cacheStep_inv {v : View R} {s : Sys R} (h : Inv v s) (hc : v.connected = true) (e : CEnv)
    (hq : Readable e v) :
    ∃ d st, cacheStep e s = some ({ s with db := d }, st) ∧ Inv v { s with db := d } ∧
      (st = .ok → Loaded v { s with db := d }) ∧
      (e.Fine → (records v.lines).isSome → st = .ok) := by
  obtain ⟨hd, hp⟩ := h.db hc
  have h1 : getSerial e.s1 s = some (if s.inTx then s.snum else s.num) ∨
      (getSerial e.s1 s = none ∧ v.lines = (if s.inTx then s.sandbox else s.active)) := by
    cases he : e.s1 with
    | true => left; simp [getSerial]
    | false =>
      right
      refine ⟨by simp [getSerial], hp ?_⟩
      by_contra hn
      rw [hq hn] at he
      exact absurd he (by simp)
  have h2 : getSerial e.s2 s = none ∨ getSerial e.s2 s = some (if s.inTx then s.snum else s.num) := by
    cases e.s2 <;> simp [getSerial]
  obtain ⟨d', st, g1, g2, g3, g4, g5⟩ := fileCache_ok e.io _ _ _ s.db _ _ hd h1 h2
  refine ⟨d', st, by simp [cacheStep, g1], h.setDb g2 g3, fun hst => ?_, fun hf hr => ?_⟩
  · have hs := g4 hst
    refine ⟨hs, ?_⟩
    rcases g2 with ⟨k1, _⟩ | ⟨t, l, k1, k2, _, _, k5⟩
    · rw [k1] at hs; simp at hs
    · rw [k1] at hs
      simp only [Option.some.injEq] at hs
      have := (k5 hs).1
      exact ⟨l, k2, this, by rw [this, fileOf, records_map]⟩
  · exact g5 (by simp [getSerial, hf.1]) (by simp [getSerial, hf.2.1]) hf.2.2.1 hf.2.2.2.1 hf.2.2.2.2 hr

theorem exitRo_inv {v : View R} {s : Sys R} (h : Inv v s) (e : QEnv) : Inv v (exitRo e s).1 := by
  unfold exitRo
  dsimp only
  split_ifs
  · exact h
  · exact h.setActiveFd false

theorem enterRo_inv {v : View R} {s : Sys R} (h : Inv v s) (hc : v.connected = true) (e : QEnv)
    (hq : Readable e.c1 v) :
    ∃ s' st, enterRo e s = some (s', st) ∧ Inv v s' ∧ (st = .ok → Loaded v s') ∧
      (e.lock = true → s.lostActive = false → e.c1.Fine → (records v.lines).isSome → st = .ok) := by
  unfold enterRo
  split_ifs with ht
  · obtain ⟨d, st, g1, g2, g3, g4⟩ := cacheStep_inv h hc e.c1 hq
    exact ⟨_, st, g1, g2, g3, fun _ _ => g4⟩
  · cases hl : getActiveLock e.lock s with
    | none =>
      refine ⟨s, .err, rfl, h, by simp, fun h1 h2 => ?_⟩
      simp only [getActiveLock, h1, h2] at hl
      cases hf : s.activeFd <;> simp [hf] at hl
    | some s1 =>
      have hs1 : s1 = { s with activeFd := true } := by
        unfold getActiveLock at hl
        split_ifs at hl with h1
        · simp at hl; subst hl; cases s; simp_all
        · simp at hl; exact hl.symm
      have hi : Inv v s1 := hs1 ▸ h.setActiveFd true
      obtain ⟨d, st, g1, g2, g3, g4⟩ := cacheStep_inv hi hc e.c1 hq
      exact ⟨_, st, g1, g2, g3, fun _ _ => g4⟩

theorem find_any {l : List R} {p : R → Bool} : (l.find? p).isSome = l.any p := by
  rw [Bool.eq_iff_iff, List.find?_isSome, List.any_eq_true]

/-- `locate` on a loaded database. -/
theorem locate_find {d : Llist R} {l : List R} (cmp : R → K → Bool) (h : Rep d l) (k : K) :
    (l.find? (cmp · k) = none ∧ locate cmp d.heap k d.fresh d.cache = some none) ∨
    ∃ a r e, l.find? (cmp · k) = some r ∧ locate cmp d.heap k d.fresh d.cache = some (some a) ∧
      d.heap a = some e ∧ e.data = some r := by
  rcases locate_rep cmp h k with ⟨f1, f2⟩ | ⟨pre, a, r', post, n, q, h1, h2, h3, h4, h5, h6, h7, h8, h9, h10⟩
  · left
    refine ⟨?_, f2⟩
    rw [List.find?_eq_none]
    rw [List.any_eq_false] at f1
    exact f1
  · right
    refine ⟨a, r', _, ?_, h9, h2, rfl⟩
    rw [List.find?_eq_some_iff_append]
    exact ⟨h6, _, _, h4, fun x hx => by simp [h5 x hx]⟩

/-- The end of a query. -/
theorem finish_ok {v : View R} {s : Sys R} (h : Inv v s) (e : QEnv) (f : List R → Option (Res R)) {rs : List R}
    (hr : records v.lines = some rs) {r : Res R} (hf : f rs = some r) :
    Inv v (finish e s r).1 ∧ Answers f v (finish e s r).2 v ∧ (e.s3 = true → (finish e s r).2 = r) := by
  have hi := exitRo_inv h e
  unfold finish
  cases hx : exitRo e s with
  | mk s' st =>
    rw [hx] at hi
    cases st with
    | ok => exact ⟨hi, ⟨rfl, Or.inr ⟨rs, hr, hf⟩⟩, fun _ => rfl⟩
    | err =>
      refine ⟨hi, ⟨rfl, Or.inl rfl⟩, fun h3 => ?_⟩
      simp [exitRo, getSerial, h3] at hx

/-- What a step must give. -/
def StepOk (cmp : R → K → Bool) (ev : Ev R K) (v : View R) (s : Sys R) : Prop :=
  ∃ s' r, step cmp ev s = some (s', r) ∧ (Quiet cmp ev v r → ∃ v', Allowed cmp ev v r v' ∧ Inv v' s')

/-- What a query gives when nothing goes wrong. -/
def Fine (e : QEnv) (s : Sys R) : Prop := e.Fine ∧ s.lostActive = false

theorem query_step {v : View R} {s : Sys R} (cmp : R → K → Bool) (h : Inv v s) (hc : v.connected = true)
    (e : QEnv) (k : K) (hq : Readable e.c1 v ∧ Readable e.c2 v) :
    ∃ s' r, dbQuery cmp e k s = some (s', r) ∧ Inv v s' ∧
      Answers (fun rs => (rs.reverse.find? (cmp · k)).map .record) v r v ∧
      (Fine e s → ∀ rs, records v.lines = some rs → r = ((rs.reverse.find? (cmp · k)).map .record).getD .err) := by
  obtain ⟨s1, st, g1, g2, g3, g4⟩ := enterRo_inv h hc e hq.1
  unfold dbQuery
  rw [g1]
  cases st with
  | err =>
    refine ⟨s1, .err, rfl, g2, ⟨rfl, Or.inl rfl⟩, fun hf rs hr => ?_⟩
    exact absurd (g4 hf.1.1 hf.2 hf.1.2.1 (by simp [hr])) (by simp)
  | ok =>
    obtain ⟨d, st2, k1, k2, k3, k4⟩ := cacheStep_inv g2 hc e.c2 hq.2
    dsimp only
    rw [k1]
    cases st2 with
    | err =>
      refine ⟨_, .err, rfl, exitRo_inv k2 e, ⟨rfl, Or.inl rfl⟩, fun hf rs hr => ?_⟩
      exact absurd (k4 hf.1.2.2.1 (by simp [hr])) (by simp)
    | ok =>
      obtain ⟨_, l, m1, m2, m3⟩ := k3 rfl
      dsimp only at m1 ⊢
      rcases locate_find cmp m1 k with ⟨n1, n2⟩ | ⟨a, r, en, n1, n2, n3, n4⟩
      · refine ⟨_, .err, by simp only [query, n2], exitRo_inv k2 e, ⟨rfl, Or.inl rfl⟩, fun hf rs hr => ?_⟩
        rw [m3] at hr
        simp only [Option.some.injEq] at hr
        subst hr
        simp [n1]
      · cases hcl : e.clone with
        | false =>
          refine ⟨_, .err, by simp only [query, n2, n3, n4]; rfl, exitRo_inv k2 e, ⟨rfl, Or.inl rfl⟩,
            fun hf rs hr => ?_⟩
          have := hf.1.2.2.2.1
          rw [hcl] at this
          exact absurd this (by simp)
        | true =>
          have hfr : (fun rs : List R => (rs.reverse.find? (cmp · k)).map Res.record) l.reverse =
              some (.record r) := by simp [n1]
          obtain ⟨p1, p2, p3⟩ := finish_ok k2 e (fun rs : List R => (rs.reverse.find? (cmp · k)).map Res.record) m3 hfr
          refine ⟨_, _, by simp only [query, n2, n3, n4]; rfl, p1, p2, fun hf rs hr => ?_⟩
          rw [m3] at hr
          simp only [Option.some.injEq] at hr
          subst hr
          rw [p3 hf.1.2.2.2.2]
          simp [n1]

theorem exists_step {v : View R} {s : Sys R} (cmp : R → K → Bool) (h : Inv v s) (hc : v.connected = true)
    (e : QEnv) (k : K) (hq : Readable e.c1 v ∧ Readable e.c2 v) :
    ∃ s' r, dbExists cmp e k s = some (s', r) ∧ Inv v s' ∧
      Answers (fun rs => some (.present (rs.any (cmp · k)))) v r v ∧
      (Fine e s → ∀ rs, records v.lines = some rs → r = .present (rs.any (cmp · k))) := by
  obtain ⟨s1, st, g1, g2, g3, g4⟩ := enterRo_inv h hc e hq.1
  unfold dbExists
  rw [g1]
  cases st with
  | err =>
    refine ⟨s1, .err, rfl, g2, ⟨rfl, Or.inl rfl⟩, fun hf rs hr => ?_⟩
    exact absurd (g4 hf.1.1 hf.2 hf.1.2.1 (by simp [hr])) (by simp)
  | ok =>
    obtain ⟨d, st2, k1, k2, k3, k4⟩ := cacheStep_inv g2 hc e.c2 hq.2
    dsimp only
    rw [k1]
    cases st2 with
    | err =>
      refine ⟨_, .err, rfl, exitRo_inv k2 e, ⟨rfl, Or.inl rfl⟩, fun hf rs hr => ?_⟩
      exact absurd (k4 hf.1.2.2.1 (by simp [hr])) (by simp)
    | ok =>
      obtain ⟨_, l, m1, m2, m3⟩ := k3 rfl
      dsimp only at m1 ⊢
      have hex : exists_ cmp d k = some (l.any (cmp · k)) := by
        rw [← find_any]
        rcases locate_find cmp m1 k with ⟨n1, n2⟩ | ⟨a, r, en, n1, n2, n3, n4⟩
        · simp [exists_, n2, n1]
        · simp [exists_, n2, n1]
      obtain ⟨p1, p2, p3⟩ := finish_ok k2 e (fun rs => some (.present (rs.any (cmp · k)))) m3 rfl
      rw [List.any_reverse] at p1 p2 p3
      refine ⟨_, _, by simp only [hex], p1, p2, fun hf rs hr => ?_⟩
      rw [m3] at hr
      simp only [Option.some.injEq] at hr
      subst hr
      rw [List.any_reverse]
      exact p3 hf.1.2.2.2.2

theorem count_step {v : View R} {s : Sys R} (h : Inv v s) (hc : v.connected = true)
    (e : QEnv) (hq : Readable e.c1 v) :
    ∃ s' r, dbCount e s = some (s', r) ∧ Inv v s' ∧ Answers (fun rs => some (.num rs.length)) v r v ∧
      (Fine e s → ∀ rs, records v.lines = some rs → r = .num rs.length) := by
  obtain ⟨s1, st, g1, g2, g3, g4⟩ := enterRo_inv h hc e hq
  unfold dbCount
  rw [g1]
  cases st with
  | err =>
    refine ⟨s1, .err, rfl, g2, ⟨rfl, Or.inl rfl⟩, fun hf rs hr => ?_⟩
    exact absurd (g4 hf.1.1 hf.2 hf.1.2.1 (by simp [hr])) (by simp)
  | ok =>
    obtain ⟨_, l, m1, m2, m3⟩ := g3 rfl
    obtain ⟨p1, p2, p3⟩ := finish_ok g2 e (fun rs => some (.num rs.length)) m3 rfl
    rw [List.length_reverse, ← rep_sz m1] at p1 p2 p3
    refine ⟨_, _, rfl, p1, p2, fun hf rs hr => ?_⟩
    rw [m3] at hr
    simp only [Option.some.injEq] at hr
    subst hr
    rw [List.length_reverse, ← rep_sz m1]
    exact p3 hf.1.2.2.2.2

theorem list_rep {d : Llist R} {l : List R} (h : Rep d l) : list d = some l.reverse := by
  unfold list
  split_ifs with hs
  · rw [walkBack_rep h]
    simp [rep_sz h]
  · have : l.length = 0 := by have := rep_sz h; omega
    rw [List.length_eq_zero_iff.1 this]; rfl

theorem list_step {v : View R} {s : Sys R} (h : Inv v s) (hc : v.connected = true)
    (e : QEnv) (hq : Readable e.c1 v) :
    ∃ s' r, dbList e s = some (s', r) ∧ Inv v s' ∧ Answers (fun rs => some (.all rs)) v r v ∧
      (Fine e s → ∀ rs, records v.lines = some rs → r = .all rs) := by
  obtain ⟨s1, st, g1, g2, g3, g4⟩ := enterRo_inv h hc e hq
  unfold dbList
  rw [g1]
  cases st with
  | err =>
    refine ⟨s1, .err, rfl, g2, ⟨rfl, Or.inl rfl⟩, fun hf rs hr => ?_⟩
    exact absurd (g4 hf.1.1 hf.2 hf.1.2.1 (by simp [hr])) (by simp)
  | ok =>
    obtain ⟨_, l, m1, m2, m3⟩ := g3 rfl
    dsimp only
    rw [list_rep m1]
    dsimp only
    cases hcl : e.clone with
    | false =>
      refine ⟨_, .err, rfl, exitRo_inv g2 e, ⟨rfl, Or.inl rfl⟩, fun hf rs hr => ?_⟩
      have := hf.1.2.2.2.1
      rw [hcl] at this
      exact absurd this (by simp)
    | true =>
      obtain ⟨p1, p2, p3⟩ := finish_ok g2 e (fun rs => some (.all rs)) m3 rfl
      refine ⟨_, _, rfl, p1, p2, fun hf rs hr => ?_⟩
      rw [m3] at hr
      simp only [Option.some.injEq] at hr
      subst hr
      exact p3 hf.1.2.2.2.2

theorem iterate_rep {d : Llist R} {l : List R} (fn : Nat → R → Int) (h : Rep d l) :
    iterate fn d = some (specIterate fn 0 l.reverse) :=
  iterLoop_of_walkBack fn d.heap d.fresh 0 d.tail _ (walkBack_rep h)

theorem iterate_step {v : View R} {s : Sys R} (h : Inv v s) (hc : v.connected = true) (fn : Nat → R → Int)
    (e : QEnv) (hq : Readable e.c1 v) :
    ∃ s' r, dbIterate fn e s = some (s', r) ∧ Inv v s' ∧ Answers (iterAnswer fn) v r v ∧
      (Fine e s → ∀ rs, records v.lines = some rs → r = (iterAnswer fn rs).getD .err) := by
  obtain ⟨s1, st, g1, g2, g3, g4⟩ := enterRo_inv h hc e hq
  unfold dbIterate
  rw [g1]
  cases st with
  | err =>
    refine ⟨s1, .err, rfl, g2, ⟨rfl, Or.inl rfl⟩, fun hf rs hr => ?_⟩
    exact absurd (g4 hf.1.1 hf.2 hf.1.2.1 (by simp [hr])) (by simp)
  | ok =>
    obtain ⟨_, l, m1, m2, m3⟩ := g3 rfl
    dsimp only
    rw [iterate_rep fn m1]
    cases hsp : specIterate fn 0 l.reverse with
    | mk vs st2 =>
      cases st2 with
      | err =>
        refine ⟨_, .err, rfl, exitRo_inv g2 e, ⟨rfl, Or.inl rfl⟩, fun hf rs hr => ?_⟩
        rw [m3] at hr
        simp only [Option.some.injEq] at hr
        subst hr
        simp [iterAnswer, hsp]
      | ok =>
        obtain ⟨p1, p2, p3⟩ := finish_ok g2 e (iterAnswer fn) m3 (r := .visited vs) (by simp [iterAnswer, hsp])
        refine ⟨_, _, rfl, p1, p2, fun hf rs hr => ?_⟩
        rw [m3] at hr
        simp only [Option.some.injEq] at hr
        subst hr
        refine (p3 hf.1.2.2.2.2).trans ?_
        simp [iterAnswer, hsp]

/-- A change of the records in a transaction. -/
theorem Inv.change {v : View R} {s : Sys R} (h : Inv v s) (ht : s.inTx = true) (hl : Loaded v s)
    {d : Llist R} {l : List R} (hr : Rep d l) (hs : d.serial = s.db.serial) (hm : d.modified = true) :
    Inv { v with pending := some (fileOf l) } { s with db := d } := by
  obtain ⟨h1, h2, h3, h4, p, h5, h6⟩ := h.inside ht
  refine ⟨h.active, h.conn, fun hf => by simp [ht] at hf, fun _ => ⟨h1, h2, h3, h4, _, rfl, Or.inr
    ⟨s.snum, l, ?_, hr, Nat.le_refl _, fun hn => absurd rfl hn, fun _ => ⟨rfl, fun hf => ?_⟩⟩⟩⟩
  · have := hl.1
    rw [ht] at this
    exact hs.trans this
  · have : d.modified = false := hf
    rw [hm] at this
    exact absurd this (by simp)

theorem Inv.pending {v : View R} {s : Sys R} (h : Inv v s) (ht : s.inTx = true) :
    v.pending = some v.lines := by
  obtain ⟨_, _, _, _, p, h5, _⟩ := h.inside ht
  simp [View.lines, h5]

theorem modify_rep {d : Llist R} {l : List R} (cmp : R → K → Bool) (h : Rep d l) (k : K) (r : R) (m : Mem)
    (hn : l.any (cmp · k) = true → m = .ok) :
    (modify cmp m d k r = some (d, .err)) ∨
    ∃ d', modify cmp m d k r = some (d', .ok) ∧ Rep d' (specOp cmp (.modify .ok k r) l).1 ∧ d'.serial = d.serial ∧
      d'.modified = true := by
  rcases locate_rep cmp h k with ⟨f1, f2⟩ | ⟨pre, a, r', post, n, q, h1, h2, h3, h4, h5, h6, h7, h8, h9, h10⟩
  · cases m with
    | noEntry => left; simp [modify, f2, prepend]
    | noClone => left; simp [modify, f2, prepend]
    | ok =>
      right
      obtain ⟨d', e1, e2, e3, _⟩ := prepend_rep h r
      refine ⟨{ d' with modified := true }, by simp [modify, f2, e1], ?_, e3, rfl⟩
      simp only [specOp, f1]
      exact rep_of_fields e2 rfl rfl rfl rfl rfl
  · right
    have hany : l.any (cmp · k) = true := by
      rw [h4, List.any_eq_true]; exact ⟨r', by simp, h6⟩
    have hm : m = .ok := hn hany
    subst hm
    obtain ⟨d', e1, e2, e3, e4⟩ := replaceAt_rep cmp k r h1 h2 h3 h4 h5 h6 h7 h8 (rep_sz h)
    refine ⟨d', by simp [modify, h9, e1], ?_, e3, e4⟩
    simp only [specOp, hany]
    exact e2

theorem set_rep {d : Llist R} {l : List R} (cmp : R → K → Bool) (h : Rep d l) (k : K) (r : R) (m : Mem)
    (hn : l.any (cmp · k) = true → m = .ok) :
    (set_ cmp m d k r = some (d, .err)) ∨
    ∃ d', set_ cmp m d k r = some (d', .ok) ∧ Rep d' (specOp cmp (.set .ok k r) l).1 ∧ d'.serial = d.serial ∧
      d'.modified = true ∧ (specOp cmp (.set .ok k r) l).2 = .ok := by
  rcases locate_rep cmp h k with ⟨f1, f2⟩ | ⟨pre, a, r', post, n, q, h1, h2, h3, h4, h5, h6, h7, h8, h9, h10⟩
  · left; simp [set_, f2]
  · right
    have hany : l.any (cmp · k) = true := by
      rw [h4, List.any_eq_true]; exact ⟨r', by simp, h6⟩
    have hm : m = .ok := hn hany
    subst hm
    obtain ⟨d', e1, e2, e3, e4⟩ := replaceAt_rep cmp k r h1 h2 h3 h4 h5 h6 h7 h8 (rep_sz h)
    refine ⟨d', by simp [set_, h9, e1], ?_, e3, e4, by simp [specOp, hany]⟩
    simp only [specOp, hany]
    exact e2

theorem enterRw_inv {v : View R} {s : Sys R} (h : Inv v s) (hc : v.connected = true) (e : MEnv)
    (hq : Readable e.c1 v) :
    ∃ s' st, enterRw e s = some (s', st) ∧ Inv v s' ∧ (st = .ok → Loaded v s' ∧ s'.inTx = true) := by
  unfold enterRw
  split_ifs with ht
  · obtain ⟨d, st, g1, g2, g3, _⟩ := cacheStep_inv h hc e.c1 hq
    exact ⟨_, st, g1, g2, fun hs => ⟨g3 hs, ht⟩⟩
  · exact ⟨s, .err, rfl, h, by simp⟩

theorem changes_of {v : View R} {s : Sys R} (cmp : R → K → Bool) (h : Inv v s) (ht : s.inTx = true)
    (hl : Loaded v s) (o : Op R K) {l : List R} (hrl : records v.lines = some l.reverse) {d : Llist R}
    (hr : Rep d (specOp cmp o l).1) (hs : d.serial = s.db.serial) (hm : d.modified = true)
    (hok : (specOp cmp o l).2 = .ok) :
    ∃ v', Changes cmp o v .done v' ∧ Inv v' { s with db := d } := by
  refine ⟨_, Or.inr ⟨v.lines, l.reverse, h.pending ht, hrl, ?_, rfl, rfl⟩, ?_⟩
  · rw [List.reverse_reverse]; exact hok
  · rw [List.reverse_reverse]
    exact h.change ht hl hr hs hm

theorem modify_step {v : View R} {s : Sys R} (cmp : R → K → Bool) (h : Inv v s) (hc : v.connected = true)
    (e : MEnv) (k : K) (x : R) : StepOk cmp (.modify e k x) v s ∨
      ¬ (Readable e.c1 v ∧ Readable e.c2 v ∧
      (∀ rs, records v.lines = some rs → rs.any (cmp · k) = true → e.mem = .ok)) := by
  by_cases hq : Readable e.c1 v ∧ Readable e.c2 v ∧
      (∀ rs, records v.lines = some rs → rs.any (cmp · k) = true → e.mem = .ok)
  swap
  · exact Or.inr hq
  left
  show ∃ s' r, dbModify cmp e k x s = some (s', r) ∧ _
  unfold dbModify
  obtain ⟨s1, st, g1, g2, g3⟩ := enterRw_inv h hc e hq.1
  rw [g1]
  cases st with
  | err => exact ⟨s1, .err, rfl, fun _ => ⟨v, Or.inl ⟨rfl, rfl⟩, g2⟩⟩
  | ok =>
    obtain ⟨_, ht⟩ := g3 rfl
    obtain ⟨d, st2, k1, k2, k3, _⟩ := cacheStep_inv g2 hc e.c2 hq.2.1
    dsimp only
    rw [k1]
    cases st2 with
    | err => exact ⟨_, .err, rfl, fun _ => ⟨v, Or.inl ⟨rfl, rfl⟩, k2⟩⟩
    | ok =>
      have hld := k3 rfl
      obtain ⟨_, l, m1, m2, m3⟩ := id hld
      dsimp only at m1 ⊢
      rcases modify_rep cmp m1 k x e.mem (fun ha => hq.2.2 _ m3 (by rw [List.any_reverse]; exact ha)) with n1 | ⟨d', n1, n2, n3, n4⟩
      · rw [n1]
        exact ⟨_, .err, rfl, fun _ => ⟨v, Or.inl ⟨rfl, rfl⟩, k2⟩⟩
      · rw [n1]
        refine ⟨_, .done, rfl, fun _ => ?_⟩
        refine changes_of cmp k2 ht hld (.modify .ok k x) m3 n2 n3 n4 ?_
        simp only [specOp, if_true]
        split_ifs <;> rfl

theorem set_step {v : View R} {s : Sys R} (cmp : R → K → Bool) (h : Inv v s) (hc : v.connected = true)
    (e : MEnv) (k : K) (x : R) : StepOk cmp (.set e k x) v s ∨
      ¬ (Readable e.c1 v ∧ Readable e.c2 v ∧
      (∀ rs, records v.lines = some rs → rs.any (cmp · k) = true → e.mem = .ok)) := by
  by_cases hq : Readable e.c1 v ∧ Readable e.c2 v ∧
      (∀ rs, records v.lines = some rs → rs.any (cmp · k) = true → e.mem = .ok)
  swap
  · exact Or.inr hq
  left
  show ∃ s' r, dbSet cmp e k x s = some (s', r) ∧ _
  unfold dbSet
  obtain ⟨s1, st, g1, g2, g3⟩ := enterRw_inv h hc e hq.1
  rw [g1]
  cases st with
  | err => exact ⟨s1, .err, rfl, fun _ => ⟨v, Or.inl ⟨rfl, rfl⟩, g2⟩⟩
  | ok =>
    obtain ⟨_, ht⟩ := g3 rfl
    obtain ⟨d, st2, k1, k2, k3, _⟩ := cacheStep_inv g2 hc e.c2 hq.2.1
    dsimp only
    rw [k1]
    cases st2 with
    | err => exact ⟨_, .err, rfl, fun _ => ⟨v, Or.inl ⟨rfl, rfl⟩, k2⟩⟩
    | ok =>
      have hld := k3 rfl
      obtain ⟨_, l, m1, m2, m3⟩ := id hld
      dsimp only at m1 ⊢
      rcases set_rep cmp m1 k x e.mem (fun ha => hq.2.2 _ m3 (by rw [List.any_reverse]; exact ha)) with n1 | ⟨d', n1, n2, n3, n4, n5⟩
      · rw [n1]
        exact ⟨_, .err, rfl, fun _ => ⟨v, Or.inl ⟨rfl, rfl⟩, k2⟩⟩
      · rw [n1]
        exact ⟨_, .done, rfl, fun _ => changes_of cmp k2 ht hld (.set .ok k x) m3 n2 n3 n4 n5⟩

theorem fileOf_inj {l : List R} {ls : List (Line R)} (h : records ls = some l.reverse) : ls = fileOf l :=
  records_eq h

theorem del_step {v : View R} {s : Sys R} (cmp : R → K → Bool) (h : Inv v s) (hc : v.connected = true)
    (e : MEnv) (k : K) : StepOk cmp (.del e k) v s ∨ ¬ Readable e.c1 v := by
  by_cases hq : Readable e.c1 v
  swap
  · exact Or.inr hq
  left
  show ∃ s' r, dbDel cmp e k s = some (s', r) ∧ _
  unfold dbDel
  obtain ⟨s1, st, g1, g2, g3⟩ := enterRw_inv h hc e hq
  rw [g1]
  cases st with
  | err => exact ⟨s1, .err, rfl, fun _ => ⟨v, Or.inl ⟨rfl, rfl⟩, g2⟩⟩
  | ok =>
    obtain ⟨hld, ht⟩ := g3 rfl
    obtain ⟨_, l, m1, m2, m3⟩ := id hld
    dsimp only
    obtain ⟨d', n1, n2, n3, n4⟩ := del_rep cmp m1 k
    rw [n1]
    refine ⟨_, .done, rfl, fun _ => ?_⟩
    cases ha : l.any (cmp · k) with
    | true => exact changes_of cmp g2 ht hld (.del k) m3 n2 n3 (by rw [n4, ha]; simp) rfl
    | false =>
      -- nothing was removed
      have he : l.eraseP (cmp · k) = l := by
        rw [List.eraseP_of_forall_not]
        rw [List.any_eq_false] at ha; exact ha
      rw [he] at n2
      refine ⟨v, Or.inr ⟨v.lines, l.reverse, g2.pending ht, m3, rfl, rfl, ?_⟩, ?_⟩
      · rw [List.reverse_reverse]
        show v = { v with pending := some (fileOf (l.eraseP (cmp · k))) }
        rw [he, ← m2, ← g2.pending ht]
      · refine g2.setDb ?_ (by rw [n4, ha]; simp)
        obtain ⟨hdb, _⟩ := g2.db hc
        rcases hdb with ⟨q1, _⟩ | ⟨t, l2, q1, q2, q3, q4, q5⟩
        · rw [hld.1] at q1; simp at q1
        · have ht2 : t = (if s1.inTx then s1.snum else s1.num) := by
            rw [hld.1] at q1; simpa using q1.symm
          refine Or.inr ⟨t, l, n3.trans q1, n2, q3, fun hn => absurd ht2 hn, fun _ => ⟨m2, fun hm => ?_⟩⟩
          rw [n4, ha] at hm
          exact (q5 ht2).2 (by simpa using hm)

/-- Steps other than queries and changes. -/
theorem connect_step {v : View R} {s : Sys R} (cmp : R → K → Bool) (h : Inv v s) (hl : v.connected = false) :
    StepOk cmp .connect v s := by
  refine ⟨_, _, rfl, fun _ => ⟨_, ⟨rfl, rfl⟩, ?_⟩⟩
  have ht : s.inTx = false := by
    cases hx : s.inTx
    · rfl
    · rw [(h.inside hx).1] at hl; exact absurd hl (by simp)
  exact ⟨h.active, rfl, fun _ => ⟨(h.out ht).1, fun _ => ⟨Or.inl ⟨rfl, rfl, rfl⟩, rfl⟩⟩,
    fun hx => absurd (show s.inTx = true from hx) (by simp [ht])⟩

theorem DbOk.drop {cur : Nat} {file lines : List (Line R)} {d : Llist R} (h : DbOk cur file lines d) :
    ∃ d', dropCache d = some d' ∧ d'.serial = none ∧ d'.modified = false := by
  rcases h with ⟨h1, h2, _⟩ | ⟨t, l, h1, h2, _⟩
  · exact ⟨d, by simp [dropCache, h1], h1, h2⟩
  · obtain ⟨d', e1, e2, e3⟩ := dropCache_rep h2
    exact ⟨d', e1, e2, e3 (by simp [h1])⟩

theorem disconnect_step {v : View R} {s : Sys R} (cmp : R → K → Bool) (h : Inv v s) (rm : Bool)
    (hl : v.connected = true) (hrm : v.pending ≠ none → rm = true) : StepOk cmp (.disconnect rm) v s := by
  have h1 : ¬ s.connected = false := by rw [h.conn, hl]; simp
  have h2 : (s.inTx && !rm) = false := by
    cases hx : s.inTx
    · rfl
    · obtain ⟨_, _, _, _, p, h5, _⟩ := h.inside hx
      simp [hrm (by simp [h5])]
  obtain ⟨d', e1, e2, e3⟩ := (h.db hl).1.drop
  refine ⟨_, .done, by show disconnect rm s = _; unfold disconnect; rw [if_neg h1, h2]; simp only [e1]; rfl, fun _ =>
    ⟨_, ⟨rfl, rfl⟩, ?_⟩⟩
  exact ⟨h.active, rfl, fun _ => ⟨rfl, fun hf => by simp at hf⟩, fun hf => by simp at hf⟩

theorem begin_step {v : View R} {s : Sys R} (cmp : R → K → Bool) (h : Inv v s) (l o : Bool)
    (hc : v.connected = true) : StepOk cmp (.begin l o) v s := by
  show ∃ s' r, some (begin_ l o s) = some (s', r) ∧ _
  unfold begin_
  have h1 : ¬ s.connected = false := by rw [h.conn, hc]; simp
  rw [if_neg h1]
  by_cases ht : s.inTx = true
  · rw [if_pos ht]
    refine ⟨s, .done, rfl, fun _ => ⟨v, Or.inr ⟨rfl, ?_⟩, h⟩⟩
    rw [← h.pending ht]
  · rw [if_neg ht]
    have ht' : s.inTx = false := by simpa using ht
    have hset : ∀ b, Inv v { s with transFd := b } := fun b =>
      ⟨h.active, h.conn, h.out, fun hx => absurd hx ht⟩
    cases hg : getTransLock l s with
    | none => exact ⟨s, .err, rfl, fun _ => ⟨v, Or.inl ⟨rfl, rfl⟩, h⟩⟩
    | some s1 =>
      have hs1 : s1 = { s with transFd := true } := by
        unfold getTransLock at hg
        split_ifs at hg with h1
        · simp at hg; subst hg; cases s; simp_all
        · simp at hg; exact hg.symm
      dsimp only
      split_ifs with ho
      · refine ⟨_, .done, rfl, fun _ => ⟨_, Or.inr ⟨rfl, rfl⟩, ?_⟩⟩
        subst hs1
        obtain ⟨k1, k2⟩ := h.out ht'
        refine ⟨h.active, h.conn, fun hf => by simp at hf, fun _ => ⟨hc, rfl, rfl, rfl, _, rfl, ?_⟩⟩
        have hl : v.lines = s.active := by simp [View.lines, k1, h.active]
        rw [hl]
        exact (k2 hc).1
      · refine ⟨_, .err, rfl, fun _ => ⟨v, Or.inl ⟨rfl, rfl⟩, ?_⟩⟩
        rw [hs1]; exact hset true

theorem other_step {v : View R} {s : Sys R} (cmp : R → K → Bool) (h : Inv v s) (f : List (Line R)) :
    StepOk cmp (.other f : Ev R K) v s := by
  show ∃ s' r, some (otherCommit f s) = some (s', r) ∧ _
  unfold otherCommit
  split_ifs with hh
  · exact ⟨s, .err, rfl, fun _ => ⟨v, Or.inl ⟨rfl, rfl⟩, h⟩⟩
  · have ht : s.inTx = false := by
      cases hx : s.inTx
      · rfl
      · exact absurd (by simp [Sys.holds, (h.inside hx).2.2.2.1]) hh
    obtain ⟨k1, k2⟩ := h.out ht
    refine ⟨_, .done, rfl, fun _ => ⟨{ v with committed := f }, Or.inr ⟨rfl, k1, rfl⟩, ?_⟩⟩
    refine ⟨rfl, h.conn, fun _ => ⟨k1, fun hc => ⟨?_, (k2 hc).2⟩⟩, fun hx => by
      rw [show ({ s with active := f, num := s.num + 1 } : Sys R).inTx = s.inTx from rfl, ht] at hx
      simp at hx⟩
    rcases (k2 hc).1 with ⟨h1, h2, _⟩ | ⟨t, l, h1, h2, h3, _, _⟩
    · exact Or.inl ⟨h1, h2, rfl⟩
    · refine Or.inr ⟨t, l, h1, h2, by show t ≤ s.num + 1; omega, fun _ => ⟨(k2 hc).2, rfl⟩, fun ht => ?_⟩
      have : t = s.num + 1 := ht
      omega

theorem flush_ok {cur : Nat} {file p : List (Line R)} {d : Llist R} (h : DbOk cur file p d) (e : KEnv) :
    ∃ d' f st, flush e.openOk e.fails e.closeOk d file = some (d', f, st) ∧
      (∃ d'', dropCache d' = some d'' ∧ d''.serial = none ∧ d''.modified = false) ∧
      (st = .ok → f = p ∧ d'.modified = false ∧
        (d'.serial = none ∨ ∃ t l, d'.serial = some t ∧ Rep d' l ∧ t ≤ cur ∧ (t = cur → p = fileOf l))) := by
  have hdrop := h.drop
  unfold flush
  by_cases hm : d.modified = false
  · rw [if_pos hm]
    refine ⟨d, file, .ok, rfl, hdrop, fun _ => ⟨?_, hm, ?_⟩⟩
    · rcases h with ⟨_, _, h3⟩ | ⟨t, l, h1, h2, h3, h4, h5⟩
      · exact h3.symm
      · by_cases ht : t = cur
        · exact ((h5 ht).2 hm).symm
        · exact (h4 ht).2.symm
    · rcases h with ⟨h1, _, _⟩ | ⟨t, l, h1, h2, h3, h4, h5⟩
      · exact Or.inl h1
      · exact Or.inr ⟨t, l, h1, h2, h3, fun ht => (h5 ht).1⟩
  rw [if_neg hm]
  by_cases ho : e.openOk = false
  · rw [if_pos ho]
    exact ⟨d, file, .err, rfl, hdrop, by simp⟩
  · rw [if_neg ho]
    have hmt : d.modified = true := by simpa using hm
    rcases h with ⟨_, h2, _⟩ | ⟨t, l, h1, h2, h3, h4, h5⟩
    · exact absurd h2 hm
    · have ht : t = cur := by
        by_contra hn
        exact hm (h4 hn).1
      rw [walkBack_rep h2]
      dsimp only
      cases hf : e.fails with
      | some n => exact ⟨d, _, .err, rfl, hdrop, by simp⟩
      | none =>
        have hr2 : Rep { d with modified := false } l := rep_of_fields h2 rfl rfl rfl rfl rfl
        refine ⟨{ d with modified := false }, _, _, rfl, ?_, fun _ => ⟨(h5 ht).1.symm, rfl, Or.inr ⟨t, l, h1, hr2, h3, fun ht => (h5 ht).1⟩⟩⟩
        obtain ⟨d'', e1, e2, e3⟩ := dropCache_rep hr2
        exact ⟨d'', e1, e2, e3 (by show d.serial.isSome = true; simp [h1])⟩

theorem commit_step {v : View R} {s : Sys R} (cmp : R → K → Bool) (h : Inv v s) (e : KEnv) : StepOk cmp (.commit e) v s := by
  show ∃ s' r, commit e s = some (s', r) ∧ _
  unfold commit
  split_ifs with ht
  · refine ⟨s, .err, rfl, fun _ => ⟨v, Or.inr ⟨rfl, Or.inl ?_⟩, h⟩⟩
    rw [← (h.out ht).1]
  · have ht' : s.inTx = true := by simpa using ht
    obtain ⟨h1, h2, h3, h4, p, h5, h6⟩ := h.inside ht'
    obtain ⟨d', f, st, f1, ⟨d'', f2, f3, f4⟩, f5⟩ := flush_ok h6 e
    unfold commitCore
    cases he : e.early with
    | true =>
      refine ⟨_, _, by rw [if_pos rfl], fun hq => ?_⟩
      rcases hq with hq | hq
      · simp at hq
      · simp [he] at hq
    | false =>
      rw [if_neg (by simp)]
      simp only [f1]
      -- the state after a failure with dropped records
      have hdropped : Inv { v with pending := none }
          { s with db := d'', sandbox := f, inTx := false, transFd := false } :=
        ⟨h.active, h.conn, fun _ => ⟨rfl, fun _ => ⟨Or.inl ⟨f3, f4, rfl⟩, f4⟩⟩, fun hx => by simp at hx⟩
      cases st with
      | err =>
        simp only [f2]
        exact ⟨_, _, rfl, fun _ => ⟨_, Or.inr ⟨by simp, Or.inl rfl⟩, hdropped⟩⟩
      | ok =>
        obtain ⟨g1, g2, g3⟩ := f5 rfl
        dsimp only
        cases hof : e.otherFlush with
        | true =>
          simp only [if_true, f2]
          exact ⟨_, _, rfl, fun _ => ⟨_, Or.inr ⟨by simp, Or.inl rfl⟩, hdropped⟩⟩
        | false =>
          simp only [Bool.false_eq_true, if_false]
          cases hlt : e.late with
          | true =>
            refine ⟨_, _, by simp only [if_true]; rfl, fun hq => ?_⟩
            rcases hq with hq | hq
            · simp at hq
            · simp [hof] at hq
          | false =>
            simp only [Bool.false_eq_true, if_false]
            cases hin : (s.db.modified || e.other) with
            | true =>
              simp only [if_true]
              cases hla : s.lostActive with
              | true =>
                refine ⟨_, _, by simp only [if_true]; rfl, fun hq => ?_⟩
                rcases hq with hq | hq
                · simp at hq
                · simp [hof] at hq
              | false =>
                simp only [Bool.false_eq_true, if_false]
                refine ⟨_, _, rfl, fun _ => ⟨{ v with committed := p, pending := none }, ?_, ?_⟩⟩
                · split_ifs
                  · exact Or.inl ⟨rfl, p, h5, rfl⟩
                  · exact Or.inr ⟨rfl, Or.inr ⟨p, h5, rfl⟩⟩
                · refine ⟨g1, h.conn, fun _ => ⟨rfl, fun _ => ⟨?_, g2⟩⟩, fun hx => by simp at hx⟩
                  rcases g3 with g3 | ⟨t, l, k1, k2, k3, k4⟩
                  · exact Or.inl ⟨g3, g2, rfl⟩
                  · refine Or.inr ⟨t, l, k1, k2, by show t ≤ s.snum + 1; omega, fun _ => ⟨g2, rfl⟩, fun hx => ?_⟩
                    have : t = s.snum + 1 := hx
                    omega
            | false =>
              simp only [Bool.false_eq_true, if_false]
              have hm : s.db.modified = false := by
                cases hx : s.db.modified
                · rfl
                · simp [hx] at hin
              have hp : p = s.active := by
                rcases h6 with ⟨_, _, q3⟩ | ⟨t, l, q1, q2, q3, q4, q5⟩
                · exact q3.trans h3
                · by_cases htt : t = s.snum
                  · exact ((q5 htt).2 hm).trans h3
                  · exact (q4 htt).2.trans h3
              refine ⟨_, _, rfl, fun _ => ⟨{ v with committed := p, pending := none }, ?_, ?_⟩⟩
              · split_ifs
                · exact Or.inl ⟨rfl, p, h5, rfl⟩
                · exact Or.inr ⟨rfl, Or.inr ⟨p, h5, rfl⟩⟩
              · refine ⟨hp.symm, h.conn, fun _ => ⟨rfl, fun _ => ⟨?_, g2⟩⟩, fun hx => by simp at hx⟩
                rcases g3 with g3 | ⟨t, l, k1, k2, k3, k4⟩
                · exact Or.inl ⟨g3, g2, rfl⟩
                · refine Or.inr ⟨t, l, k1, k2, by show t ≤ s.num; omega, fun _ => ⟨g2, rfl⟩, fun hx => ⟨?_, fun _ => rfl⟩⟩
                  show s.active = fileOf l
                  rw [← hp]
                  refine k4 ?_
                  have : t = s.num := hx
                  omega

/-! ### Memory safety, whatever happens -/

/-- The records in memory, if there are any, are a proper list. -/
def Safe (d : Llist R) : Prop := (d.serial = none ∧ d.modified = false) ∨ ∃ l, Rep d l

theorem DbOk.safe {cur : Nat} {file lines : List (Line R)} {d : Llist R} (h : DbOk cur file lines d) : Safe d := by
  rcases h with ⟨h1, h2, _⟩ | ⟨t, l, _, h2, _⟩
  · exact Or.inl ⟨h1, h2⟩
  · exact Or.inr ⟨l, h2⟩

theorem Safe.drop {d : Llist R} (h : Safe d) : ∃ d', dropCache d = some d' := by
  rcases h with ⟨h1, h2⟩ | ⟨l, h2⟩
  · exact ⟨d, by simp [dropCache, h1]⟩
  · obtain ⟨d', e1, _⟩ := dropCache_rep h2
    exact ⟨d', e1⟩

theorem fileCache_safe (io : Io) (file : List (Line R)) (d : Llist R) (s1 s2 : Option Nat) (hd : Safe d) :
    ∃ d' st, fileCache io s1 s2 file d = some (d', st) ∧ Safe d' ∧ (st = .ok → ∃ l, Rep d' l) := by
  have fin : ∀ (d0 : Llist R), needsResync s1 d = some (d0, true) →
      ∃ d' st, fileCache io s1 s2 file d = some (d', st) ∧ Safe d' ∧ (st = .ok → ∃ l, Rep d' l) := by
    intro d0 hn
    obtain ⟨d', st, e1, e2, e3, e4, _⟩ := reload_ok io (s2.getD 0) file d0 s2 (by cases s2 <;> simp)
    refine ⟨d', st, by unfold fileCache; rw [hn]; exact e1, e2.safe, fun hs => ?_⟩
    rcases e2 with ⟨k1, _⟩ | ⟨t, l, _, k2, _⟩
    · rw [e4 hs] at k1; simp at k1
    · exact ⟨l, k2⟩
  cases hs : d.serial with
  | none => exact fin d (by simp [needsResync, hs])
  | some t =>
    rcases hd with ⟨h1, _⟩ | ⟨l, h2⟩
    · rw [h1] at hs; simp at hs
    · cases s1 with
      | none => exact fin d (by simp [needsResync, hs])
      | some u =>
        by_cases hu : u = t
        · subst hu
          exact ⟨d, .ok, by simp [fileCache, needsResync, hs], Or.inr ⟨l, h2⟩, fun _ => ⟨l, h2⟩⟩
        · obtain ⟨d', e1, _⟩ := dropCache_rep h2
          exact fin { d' with serial := none } (by simp [needsResync, hs, hu, e1])

theorem cacheStep_safe (e : CEnv) (s : Sys R) (h : Safe s.db) :
    ∃ d st, cacheStep e s = some ({ s with db := d }, st) ∧ Safe d ∧ (st = .ok → ∃ l, Rep d l) := by
  obtain ⟨d, st, h1, h2, h3⟩ := fileCache_safe e.io (if s.inTx then s.sandbox else s.active) s.db
    (getSerial e.s1 s) (getSerial e.s2 s) h
  exact ⟨d, st, by simp [cacheStep, h1], h2, h3⟩

theorem enterRo_safe (e : QEnv) (s : Sys R) (h : Safe s.db) :
    ∃ s' st, enterRo e s = some (s', st) ∧ Safe s'.db ∧ (st = .ok → ∃ l, Rep s'.db l) := by
  unfold enterRo
  split_ifs with ht
  · obtain ⟨d, st, g1, g2, g3⟩ := cacheStep_safe e.c1 s h
    exact ⟨_, st, g1, g2, g3⟩
  · cases hl : getActiveLock e.lock s with
    | none => exact ⟨s, .err, rfl, h, by simp⟩
    | some s1 =>
      have hs1 : s1.db = s.db := by
        unfold getActiveLock at hl
        split_ifs at hl <;> simp at hl <;> subst hl <;> rfl
      obtain ⟨d, st, g1, g2, g3⟩ := cacheStep_safe e.c1 s1 (hs1 ▸ h)
      exact ⟨_, st, g1, g2, g3⟩

theorem enterRw_safe (e : MEnv) (s : Sys R) (h : Safe s.db) :
    ∃ s' st, enterRw e s = some (s', st) ∧ Safe s'.db ∧ (st = .ok → ∃ l, Rep s'.db l) := by
  unfold enterRw
  split_ifs with ht
  · obtain ⟨d, st, g1, g2, g3⟩ := cacheStep_safe e.c1 s h
    exact ⟨_, st, g1, g2, g3⟩
  · exact ⟨s, .err, rfl, h, by simp⟩

theorem replaceAt_some (m : Mem) (d : Llist R) (a : Nat) (r : R) {e : Entry R} (h : d.heap a = some e) :
    ∃ x, replaceAt m d a r = some x := by
  unfold replaceAt
  rw [h]
  cases m <;> exact ⟨_, rfl⟩

theorem query_safe (cmp : R → K → Bool) (c : Bool) (d : Llist R) (k : K) {l : List R} (h : Rep d l) :
    ∃ x, query cmp c d k = some x := by
  rcases locate_find cmp h k with ⟨_, n2⟩ | ⟨a, r, en, _, n2, n3, n4⟩
  · exact ⟨none, by simp [query, n2]⟩
  · exact ⟨_, by simp only [query, n2, n3, n4]; rfl⟩

theorem modify_safe (cmp : R → K → Bool) (m : Mem) (d : Llist R) (k : K) (r : R) {l : List R} (h : Rep d l) :
    ∃ x, modify cmp m d k r = some x := by
  rcases locate_find cmp h k with ⟨_, n2⟩ | ⟨a, r', en, _, n2, n3, n4⟩
  · cases m with
    | ok =>
      obtain ⟨d', e1, _⟩ := prepend_rep h r
      exact ⟨_, by simp only [modify, n2, e1]; rfl⟩
    | noEntry => exact ⟨_, by simp only [modify, n2, prepend]; rfl⟩
    | noClone => exact ⟨_, by simp only [modify, n2, prepend]; rfl⟩
  · obtain ⟨x, hx⟩ := replaceAt_some m d a r n3
    exact ⟨x, by simp only [modify, n2, hx]⟩

theorem set_safe (cmp : R → K → Bool) (m : Mem) (d : Llist R) (k : K) (r : R) {l : List R} (h : Rep d l) :
    ∃ x, set_ cmp m d k r = some x := by
  rcases locate_find cmp h k with ⟨_, n2⟩ | ⟨a, r', en, _, n2, n3, n4⟩
  · exact ⟨_, by simp only [set_, n2]; rfl⟩
  · obtain ⟨x, hx⟩ := replaceAt_some m d a r n3
    exact ⟨x, by simp only [set_, n2, hx]⟩

/-- The step is defined. -/
theorem step_defined {v : View R} {s : Sys R} (cmp : R → K → Bool) (h : Inv v s) (ev : Ev R K)
    (hl : Legal ev v) : ∃ s' r, step cmp ev s = some (s', r) := by
  have hsafe : v.connected = true → Safe s.db := fun hc => (h.db hc).1.safe
  cases ev with
  | connect => exact ⟨_, _, rfl⟩
  | disconnect rm =>
    obtain ⟨s', r, e, _⟩ := disconnect_step cmp h rm hl.1 hl.2
    exact ⟨s', r, e⟩
  | begin l o => exact ⟨_, _, rfl⟩
  | commit e =>
    obtain ⟨s', r, e, _⟩ := commit_step cmp h e
    exact ⟨s', r, e⟩
  | other f => exact ⟨_, _, rfl⟩
  | query e k =>
    obtain ⟨s1, st, g1, g2, g3⟩ := enterRo_safe e s (hsafe hl)
    show ∃ s' r, dbQuery cmp e k s = some (s', r)
    unfold dbQuery
    rw [g1]
    cases st with
    | err => exact ⟨_, _, rfl⟩
    | ok =>
      obtain ⟨d, st2, k1, k2, k3⟩ := cacheStep_safe e.c2 s1 g2
      dsimp only
      rw [k1]
      cases st2 with
      | err => exact ⟨_, _, rfl⟩
      | ok =>
        obtain ⟨l, hr⟩ := k3 rfl
        obtain ⟨x, hx⟩ := query_safe cmp e.clone d k hr
        simp only [hx]
        cases x <;> exact ⟨_, _, rfl⟩
  | exists_ e k =>
    obtain ⟨s1, st, g1, g2, g3⟩ := enterRo_safe e s (hsafe hl)
    show ∃ s' r, dbExists cmp e k s = some (s', r)
    unfold dbExists
    rw [g1]
    cases st with
    | err => exact ⟨_, _, rfl⟩
    | ok =>
      obtain ⟨d, st2, k1, k2, k3⟩ := cacheStep_safe e.c2 s1 g2
      dsimp only
      rw [k1]
      cases st2 with
      | err => exact ⟨_, _, rfl⟩
      | ok =>
        obtain ⟨l, hr⟩ := k3 rfl
        rcases locate_find cmp hr k with ⟨n1, n2⟩ | ⟨a, r, en, n1, n2, n3, n4⟩ <;>
          exact ⟨_, _, by simp only [exists_, n2, Option.map_some]; rfl⟩
  | count e =>
    obtain ⟨s1, st, g1, g2, g3⟩ := enterRo_safe e s (hsafe hl)
    show ∃ s' r, dbCount e s = some (s', r)
    unfold dbCount
    rw [g1]
    cases st <;> exact ⟨_, _, rfl⟩
  | iterate e fn =>
    obtain ⟨s1, st, g1, g2, g3⟩ := enterRo_safe e s (hsafe hl)
    show ∃ s' r, dbIterate fn e s = some (s', r)
    unfold dbIterate
    rw [g1]
    cases st with
    | err => exact ⟨_, _, rfl⟩
    | ok =>
      obtain ⟨l, hr⟩ := g3 rfl
      dsimp only
      rw [iterate_rep fn hr]
      rcases specIterate fn 0 l.reverse with ⟨vs, st2⟩
      cases st2 <;> exact ⟨_, _, rfl⟩
  | list e =>
    obtain ⟨s1, st, g1, g2, g3⟩ := enterRo_safe e s (hsafe hl)
    show ∃ s' r, dbList e s = some (s', r)
    unfold dbList
    rw [g1]
    cases st with
    | err => exact ⟨_, _, rfl⟩
    | ok =>
      obtain ⟨l, hr⟩ := g3 rfl
      dsimp only
      rw [list_rep hr]
      cases e.clone <;> exact ⟨_, _, rfl⟩
  | modify e k x =>
    obtain ⟨s1, st, g1, g2, g3⟩ := enterRw_safe e s (hsafe hl)
    show ∃ s' r, dbModify cmp e k x s = some (s', r)
    unfold dbModify
    rw [g1]
    cases st with
    | err => exact ⟨_, _, rfl⟩
    | ok =>
      obtain ⟨d, st2, k1, k2, k3⟩ := cacheStep_safe e.c2 s1 g2
      dsimp only
      rw [k1]
      cases st2 with
      | err => exact ⟨_, _, rfl⟩
      | ok =>
        obtain ⟨l, hr⟩ := k3 rfl
        obtain ⟨y, hy⟩ := modify_safe cmp e.mem d k x hr
        simp only [hy]
        exact ⟨_, _, rfl⟩
  | set e k x =>
    obtain ⟨s1, st, g1, g2, g3⟩ := enterRw_safe e s (hsafe hl)
    show ∃ s' r, dbSet cmp e k x s = some (s', r)
    unfold dbSet
    rw [g1]
    cases st with
    | err => exact ⟨_, _, rfl⟩
    | ok =>
      obtain ⟨d, st2, k1, k2, k3⟩ := cacheStep_safe e.c2 s1 g2
      dsimp only
      rw [k1]
      cases st2 with
      | err => exact ⟨_, _, rfl⟩
      | ok =>
        obtain ⟨l, hr⟩ := k3 rfl
        obtain ⟨y, hy⟩ := set_safe cmp e.mem d k x hr
        simp only [hy]
        exact ⟨_, _, rfl⟩
  | del e k =>
    obtain ⟨s1, st, g1, g2, g3⟩ := enterRw_safe e s (hsafe hl)
    show ∃ s' r, dbDel cmp e k s = some (s', r)
    unfold dbDel
    rw [g1]
    cases st with
    | err => exact ⟨_, _, rfl⟩
    | ok =>
      obtain ⟨l, hr⟩ := g3 rfl
      obtain ⟨d', e1, _⟩ := del_rep cmp hr k
      simp only [e1]
      exact ⟨_, _, rfl⟩

/-- Every legal step is defined and, unless something went wrong that must not, allowed. -/
theorem step_ok {v : View R} {s : Sys R} (cmp : R → K → Bool) (h : Inv v s) (ev : Ev R K) (hl : Legal ev v) :
    StepOk cmp ev v s := by
  obtain ⟨s0, r0, hdef⟩ := step_defined cmp h ev hl
  cases ev with
  | connect => exact connect_step cmp h hl
  | disconnect rm => exact disconnect_step cmp h rm hl.1 hl.2
  | begin l o => exact begin_step cmp h l o hl
  | commit e => exact commit_step cmp h e
  | other f => exact other_step cmp h f
  | query e k =>
    refine ⟨s0, r0, hdef, fun hq => ?_⟩
    obtain ⟨s', r, e1, e2, e3, _⟩ := query_step cmp h hl e k hq
    obtain ⟨rfl, rfl⟩ : s0 = s' ∧ r0 = r := by
      have : some (s', r) = some (s0, r0) := e1.symm.trans hdef
      simp at this; exact ⟨this.1.symm, this.2.symm⟩
    exact ⟨v, e3, e2⟩
  | exists_ e k =>
    refine ⟨s0, r0, hdef, fun hq => ?_⟩
    obtain ⟨s', r, e1, e2, e3, _⟩ := exists_step cmp h hl e k hq
    obtain ⟨rfl, rfl⟩ : s0 = s' ∧ r0 = r := by
      have : some (s', r) = some (s0, r0) := e1.symm.trans hdef
      simp at this; exact ⟨this.1.symm, this.2.symm⟩
    exact ⟨v, e3, e2⟩
  | count e =>
    refine ⟨s0, r0, hdef, fun hq => ?_⟩
    obtain ⟨s', r, e1, e2, e3, _⟩ := count_step h hl e hq
    obtain ⟨rfl, rfl⟩ : s0 = s' ∧ r0 = r := by
      have : some (s', r) = some (s0, r0) := e1.symm.trans hdef
      simp at this; exact ⟨this.1.symm, this.2.symm⟩
    exact ⟨v, e3, e2⟩
  | iterate e fn =>
    refine ⟨s0, r0, hdef, fun hq => ?_⟩
    obtain ⟨s', r, e1, e2, e3, _⟩ := iterate_step h hl fn e hq
    obtain ⟨rfl, rfl⟩ : s0 = s' ∧ r0 = r := by
      have : some (s', r) = some (s0, r0) := e1.symm.trans hdef
      simp at this; exact ⟨this.1.symm, this.2.symm⟩
    exact ⟨v, e3, e2⟩
  | list e =>
    refine ⟨s0, r0, hdef, fun hq => ?_⟩
    obtain ⟨s', r, e1, e2, e3, _⟩ := list_step h hl e hq
    obtain ⟨rfl, rfl⟩ : s0 = s' ∧ r0 = r := by
      have : some (s', r) = some (s0, r0) := e1.symm.trans hdef
      simp at this; exact ⟨this.1.symm, this.2.symm⟩
    exact ⟨v, e3, e2⟩
  | modify e k x =>
    rcases modify_step cmp h hl e k x with hs | hn
    · exact hs
    · exact ⟨s0, r0, hdef, fun hq => absurd hq hn⟩
  | set e k x =>
    rcases set_step cmp h hl e k x with hs | hn
    · exact hs
    · exact ⟨s0, r0, hdef, fun hq => absurd hq hn⟩
  | del e k =>
    rcases del_step cmp h hl e k with hs | hn
    · exact hs
    · exact ⟨s0, r0, hdef, fun hq => absurd hq hn⟩

theorem truthful {v : View R} {s : Sys R} (cmp : R → K → Bool) (h : Inv v s) : Truthful cmp v s := by
  intro hc hla e he rs hr
  have h1 : Readable e.c1 v := fun _ => he.2.1.1
  have h2 : Readable e.c2 v := fun _ => he.2.2.1.1
  have hf : Fine e s := ⟨he, hla⟩
  refine ⟨fun k => ?_, fun k => ?_, ?_, ?_, fun fn => ?_⟩
  · obtain ⟨s', r, e1, _, _, e4⟩ := query_step cmp h hc e k ⟨h1, h2⟩
    exact ⟨s', by rw [e1, e4 hf rs hr]⟩
  · obtain ⟨s', r, e1, _, _, e4⟩ := exists_step cmp h hc e k ⟨h1, h2⟩
    exact ⟨s', by rw [e1, e4 hf rs hr]⟩
  · obtain ⟨s', r, e1, _, _, e4⟩ := count_step h hc e h1
    exact ⟨s', by rw [e1, e4 hf rs hr]⟩
  · obtain ⟨s', r, e1, _, _, e4⟩ := list_step h hc e h1
    exact ⟨s', by rw [e1, e4 hf rs hr]⟩
  · obtain ⟨s', r, e1, _, _, e4⟩ := iterate_step h hc fn e h1
    exact ⟨s', by rw [e1, e4 hf rs hr]⟩

theorem behaves (cmp : R → K → Bool) : ∀ (evs : List (Ev R K)) (v : View R) (s : Sys R), Inv v s →
    Behaves cmp v evs s
  | [], _, _, h => truthful cmp h
  | ev :: evs, v, s, h => ⟨truthful cmp h, fun hl => by
    obtain ⟨s', r, e1, e2⟩ := step_ok cmp h ev hl
    refine ⟨s', r, e1, fun hq => ?_⟩
    obtain ⟨v', a1, a2⟩ := e2 hq
    exact ⟨v', a1, a2.active, behaves cmp evs v' s' a2⟩⟩

end Verif.Dbase
