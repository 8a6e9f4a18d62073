import Verif.FileLabel.Spec
/-! # Specification: what it means that specifications are among others -/
namespace Verif.FcCmp.Spec
open Verif.FileLabel.Spec (Entry plain leading)

/-- How many lines name a path for a kind of file. -/
def times (path : Bytes) (kind : Nat) (es : List Entry) : Nat :=
  (es.filter (fun e => decide (plain e.regex = some path ∧ e.kind = kind))).length

/-- The expressions with these fixed leading directories, with their kinds, in order. -/
def exprs (dir : List Bytes) (es : List Entry) : List (Bytes × Nat) :=
  (es.filter (fun e => decide (plain e.regex = none ∧ leading e.regex = dir))).map (fun e => (e.regex, e.kind))

/-- Each specification is among the others: paths as often, expressions in the same
order. -/
structure Included (es es' : List Entry) : Prop where
  paths : ∀ path kind, times path kind es ≤ times path kind es'
  exprs : ∀ dir, (exprs dir es).Sublist (exprs dir es')

end Verif.FcCmp.Spec
