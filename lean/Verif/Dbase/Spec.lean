import Verif.Dbase.Model

/-!
# What a record database is

A list of records, the newest one first.  Operations with a key work on the newest record that
matches it.
-/

namespace Verif.Dbase
variable {R K : Type}

/-- Replace the newest record with the key. -/
def replaceNewest (cmp : R → K → Bool) (k : K) (r : R) : List R → List R
  | [] => []
  | x :: xs => if cmp x k then r :: xs else x :: replaceNewest cmp k r xs

/-- Operations on a database whose records are in memory, with what the memory does. -/
inductive Op (R K : Type) where
  | add (m : Mem) (r : R)
  | modify (m : Mem) (k : K) (r : R)
  | set (m : Mem) (k : K) (r : R)
  | del (k : K)
  | clear (serial : Option Nat)

/-- The records after an operation, newest first, and its status. -/
def specOp (cmp : R → K → Bool) : Op R K → List R → List R × Status
  | .add m r, l => if m = .ok then (r :: l, .ok) else (l, .err)
  | .modify m k r, l =>
    if m = .ok then
      if l.any (cmp · k) then (replaceNewest cmp k r l, .ok) else (r :: l, .ok)
    else (l, .err)
  | .set m k r, l =>
    if m = .ok ∧ l.any (cmp · k) then (replaceNewest cmp k r l, .ok) else (l, .err)
  | .del k, l => (l.eraseP (cmp · k), .ok)
  | .clear s, l => if s.isSome then ([], .ok) else (l, .err)

/-- The operation does not run out of memory while it replaces a record. -/
def NoLoss (cmp : R → K → Bool) : Op R K → List R → Prop
  | .modify m k _, l => l.any (cmp · k) → m = .ok
  | .set m k _, l => l.any (cmp · k) → m = .ok
  | _, _ => True

/-- The code of an operation. -/
def runOp (cmp : R → K → Bool) : Op R K → Llist R → Option (Llist R × Status)
  | .add m r, d => add m d r
  | .modify m k r, d => modify cmp m d k r
  | .set m k r, d => set_ cmp m d k r
  | .del k, d => (del cmp d k).map (·, .ok)
  | .clear s, d => clear s d

/-- A history: the records and the statuses. -/
def specOps (cmp : R → K → Bool) : List (Op R K) → List R → List R × List Status
  | [], l => (l, [])
  | o :: os, l =>
    let (l, s) := specOp cmp o l
    let (l, ss) := specOps cmp os l
    (l, s :: ss)

/-- No operation of a history runs out of memory while it replaces a record. -/
def NoLosses (cmp : R → K → Bool) : List (Op R K) → List R → Prop
  | [], _ => True
  | o :: os, l => NoLoss cmp o l ∧ NoLosses cmp os (specOp cmp o l).1

/-- The code of a history. -/
def runOps (cmp : R → K → Bool) : List (Op R K) → Llist R → Option (Llist R × List Status)
  | [], d => some (d, [])
  | o :: os, d =>
    match runOp cmp o d with
    | none => none
    | some (d, s) =>
      match runOps cmp os d with
      | none => none
      | some (d, ss) => some (d, s :: ss)

/-- The records that a callback is given: in the order of their insertion, until it returns something
other than 0; and whether that was negative. -/
def specIterate (fn : Nat → R → Int) : Nat → List R → List R × Status
  | _, [] => ([], .ok)
  | i, r :: rs =>
    if fn i r < 0 then ([r], .err)
    else if fn i r > 0 then ([r], .ok)
    else
      let (l, s) := specIterate fn (i + 1) rs
      (r :: l, s)

/-- All lines of a file are records. -/
def records : List (Line R) → Option (List R)
  | [] => some []
  | .bad :: _ => none
  | .record r :: ls => (records ls).map (r :: ·)

end Verif.Dbase
