import Verif.Dbase.SysModel

/-!
# What a connection promises

The view of a caller: the committed file of the store and, in a transaction, the file as it will be
committed.  A step may fail without effect; when it does not fail, its result is the one the view
gives.
-/

namespace Verif.Dbase
variable {R K : Type}

/-- The view of a caller. -/
structure View (R : Type) where
  connected : Bool
  committed : List (Line R)
  pending : Option (List (Line R))

/-- What queries are about. -/
def View.lines (v : View R) : List (Line R) := v.pending.getD v.committed

/-- A file with the given records, newest first. -/
def fileOf (l : List R) : List (Line R) := l.reverse.map .record

/-- A change `o` of the records in a transaction. -/
def Changes (cmp : R → K → Bool) (o : Op R K) (v : View R) (r : Res R) (v' : View R) : Prop :=
  (r = .err ∧ v' = v) ∨
  ∃ p rs, v.pending = some p ∧ records p = some rs ∧ (specOp cmp o rs.reverse).2 = .ok ∧ r = .done ∧
    v' = { v with pending := some (fileOf (specOp cmp o rs.reverse).1) }

/-- A query: an error, or what `f` says about the records, which are in the order of their insertion. -/
def Answers (f : List R → Option (Res R)) (v : View R) (r : Res R) (v' : View R) : Prop :=
  v' = v ∧ (r = .err ∨ ∃ rs, records v.lines = some rs ∧ f rs = some r)

/-- The answer to an iteration: the records that the callback saw, unless it failed. -/
def iterAnswer (fn : Nat → R → Int) (rs : List R) : Option (Res R) :=
  match specIterate fn 0 rs with
  | (l, .ok) => some (.visited l)
  | (_, .err) => none

/-- What a step may do. -/
def Allowed (cmp : R → K → Bool) : Ev R K → View R → Res R → View R → Prop
  | .connect, v, r, v' => r = .done ∧ v' = { v with connected := true }
  | .disconnect _, v, r, v' => r = .done ∧ v' = { v with connected := false, pending := none }
  | .begin _ _, v, r, v' => (r = .err ∧ v' = v) ∨ (r = .done ∧ v' = { v with pending := some v.lines })
  | .commit _, v, r, v' =>
    (r = .done ∧ ∃ p, v.pending = some p ∧ v' = { v with committed := p, pending := none }) ∨
    (r = .err ∧ (v' = { v with pending := none } ∨
      ∃ p, v.pending = some p ∧ v' = { v with committed := p, pending := none }))
  | .other f, v, r, v' =>
    (r = .err ∧ v' = v) ∨ (r = .done ∧ v.pending = none ∧ v' = { v with committed := f })
  | .query _ k, v, r, v' => Answers (fun rs => (rs.reverse.find? (cmp · k)).map .record) v r v'
  | .exists_ _ k, v, r, v' => Answers (fun rs => some (.present (rs.any (cmp · k)))) v r v'
  | .count _, v, r, v' => Answers (fun rs => some (.num rs.length)) v r v'
  | .iterate _ fn, v, r, v' => Answers (iterAnswer fn) v r v'
  | .list _, v, r, v' => Answers (fun rs => some (.all rs)) v r v'
  | .modify _ k x, v, r, v' => Changes cmp (.modify .ok k x) v r v'
  | .set _ k x, v, r, v' => Changes cmp (.set .ok k x) v r v'
  | .del _ k, v, r, v' => Changes cmp (.del k) v r v'

/-- The functions of a connection are used while there is one; a second one is not opened.  Removing
the temporary directories works when a transaction is given up. -/
def Legal : Ev R K → View R → Prop
  | .connect, v => v.connected = false
  | .disconnect rmOk, v => v.connected = true ∧ (v.pending ≠ none → rmOk = true)
  | .other _, _ => True
  | _, v => v.connected = true

/-- The commit number can be read in a transaction. -/
def Readable (c : CEnv) (v : View R) : Prop := v.pending ≠ none → c.s1 = true

/-- What must not happen: in a transaction the commit number cannot be read; memory runs out while a
record is replaced; a commit fails, other than by failing to write the databases. -/
def Quiet (cmp : R → K → Bool) : Ev R K → View R → Res R → Prop
  | .commit e, _, r => r = .done ∨ (e.early = false ∧ e.otherFlush = true)
  | .query e _, v, _ => Readable e.c1 v ∧ Readable e.c2 v
  | .exists_ e _, v, _ => Readable e.c1 v ∧ Readable e.c2 v
  | .count e, v, _ => Readable e.c1 v
  | .iterate e _, v, _ => Readable e.c1 v
  | .list e, v, _ => Readable e.c1 v
  | .modify e k _, v, _ => Readable e.c1 v ∧ Readable e.c2 v ∧
      (∀ rs, records v.lines = some rs → rs.any (cmp · k) = true → e.mem = .ok)
  | .set e k _, v, _ => Readable e.c1 v ∧ Readable e.c2 v ∧
      (∀ rs, records v.lines = some rs → rs.any (cmp · k) = true → e.mem = .ok)
  | .del e _, v, _ => Readable e.c1 v
  | _, _, _ => True

/-- Nothing goes wrong in a call of `cache`. -/
def CEnv.Fine (c : CEnv) : Prop :=
  c.s1 = true ∧ c.s2 = true ∧ c.io.openOk = true ∧ (∀ i, c.io.createOk i = true) ∧ ∀ i, c.io.mem i = .ok

/-- Nothing goes wrong in a query. -/
def QEnv.Fine (e : QEnv) : Prop :=
  e.lock = true ∧ e.c1.Fine ∧ e.c2.Fine ∧ e.clone = true ∧ e.s3 = true

/-- When nothing goes wrong, and the file can be parsed, the queries give exactly what the view says. -/
def Truthful (cmp : R → K → Bool) (v : View R) (s : Sys R) : Prop :=
  v.connected = true → s.lostActive = false → ∀ e : QEnv, e.Fine → ∀ rs, records v.lines = some rs →
    (∀ k, ∃ s', dbQuery cmp e k s = some (s', ((rs.reverse.find? (cmp · k)).map .record).getD .err)) ∧
    (∀ k, ∃ s', dbExists cmp e k s = some (s', .present (rs.any (cmp · k)))) ∧
    (∃ s', dbCount e s = some (s', .num rs.length)) ∧
    (∃ s', dbList e s = some (s', .all rs)) ∧
    (∀ fn, ∃ s', dbIterate fn e s = some (s', (iterAnswer fn rs).getD .err))

/-- Every step of the history is defined (no invalid memory is used) and is allowed, as long as nothing
happened that must not happen, and queries could be answered at every point. -/
def Behaves (cmp : R → K → Bool) : View R → List (Ev R K) → Sys R → Prop
  | v, [], s => Truthful cmp v s
  | v, ev :: evs, s => Truthful cmp v s ∧ (Legal ev v →
    ∃ s' r, step cmp ev s = some (s', r) ∧
      (Quiet cmp ev v r → ∃ v', Allowed cmp ev v r v' ∧ s'.active = v'.committed ∧ Behaves cmp v' evs s'))

end Verif.Dbase
