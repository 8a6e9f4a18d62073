import Verif.FileLabel.Model
/-!
# Comparing two handles

Models `selabel_cmp` for file contexts: `cmp` and `spec_node_cmp`
(libselinux/src/label_file.c).

Simplifications:
* `none` is `SELABEL_INCOMPARABLE`.
* Indexes into the arrays are the rest of the lists.
* The messages that are logged are left out.
* A missing stem and an empty one are the same.
-/
namespace Verif.FcCmp
open Verif.FileLabel (Node Lit Re Data strcmp)

/-- `enum selabel_cmp_result` (label.h:139-144), without `SELABEL_INCOMPARABLE`. -/
inductive Res
  | subset
  | equal
  | superset
  deriving DecidableEq, Repr

/-- The first handle has something more: superset, if it was not a subset so far
(label_file.c:2208-2216 and others like it). -/
def more (r : Res) : Option Res := if r = .equal ∨ r = .superset then some .superset else none

/-- The second handle has something more (label_file.c:2218-2226 and others like
it). -/
def less (r : Res) : Option Res := if r = .equal ∨ r = .subset then some .subset else none

/-- The comparison of the literals (label_file.c:2199-2269). -/
def lits (r : Res) : List Lit → List Lit → Option Res
  | [], [] => some r
  | _ :: _, [] => more r
  | [], _ :: _ => less r
  | a :: as, b :: bs =>
    if strcmp a.literalMatch b.literalMatch < 0 then (more r).bind (fun r => lits r as (b :: bs))
    else if strcmp a.literalMatch b.literalMatch > 0 then (less r).bind (fun r => lits r (a :: as) bs)
    else if a.kind > b.kind then (more r).bind (fun r => lits r as (b :: bs))
    else if a.kind < b.kind then (less r).bind (fun r => lits r (a :: as) bs)
    else lits r as bs
termination_by as bs => as.length + bs.length

/-- Whether two expressions count as the same (label_file.c:2279). -/
def same (a b : Re) : Bool := a.kind = b.kind && strcmp a.regexStr b.regexStr = 0

/-- The search for a successor (label_file.c:2297-2326): what comes after
the first one that is the same. -/
def after (p : Re → Bool) : List Re → Option (List Re)
  | [] => none
  | x :: xs => if p x then some xs else after p xs

theorem after_length {p : Re → Bool} {l t : List Re} (h : after p l = some t) : t.length < l.length := by
  induction l with
  | nil => simp [after] at h
  | cons x xs ih =>
    rw [after] at h
    split at h
    · simp only [Option.some.injEq] at h; rw [h]; simp
    · have := ih h; simp only [List.length_cons]; omega

/-- The comparison of the regular expressions (label_file.c:2271-2355). -/
def res (r : Res) : List Re → List Re → Option Res
  | [], [] => some r
  | _ :: _, [] => more r
  | [], _ :: _ => less r
  | a :: as, b :: bs =>
    if same a b then res r as bs
    else if r = .superset then res r as (b :: bs)
    else if r = .subset then res r (a :: as) bs
    else
      match h : after (fun x => same a x) (b :: bs) with
      | some bs' => res .subset as bs'
      | none =>
        match h' : after (fun x => same x b) (a :: as) with
        | some as' => res .superset as' bs
        | none => none
termination_by as bs => as.length + bs.length
decreasing_by
  all_goals simp_wf
  · omega
  · have := after_length h; simp only [List.length_cons] at this; omega
  · have := after_length h'; simp only [List.length_cons] at this; omega

/-- The loop over the children (label_file.c:2357-2434), with the comparison of
two children as a parameter. -/
def kids (f : Node → Node → Option Res) (r : Res) : List Node → List Node → Option Res
  | [], [] => some r
  | _ :: _, [] => more r
  | [], _ :: _ => less r
  | c :: cs, d :: ds =>
    if strcmp c.stem d.stem < 0 then (more r).bind (fun r => kids f r cs (d :: ds))
    else if strcmp c.stem d.stem > 0 then (less r).bind (fun r => kids f r (c :: cs) ds)
    else
      match f c d with
      | some .subset => (less r).bind (fun r => kids f r cs ds)
      | some .equal => kids f r cs ds
      | some .superset => (more r).bind (fun r => kids f r cs ds)
      | none => none
termination_by cs ds => cs.length + ds.length

/-- `spec_node_cmp` (label_file.c:2187-2437). The number bounds the levels of the
trees, of which there are at most 32. -/
def cmpTree : Nat → Node → Node → Option Res
  | 0, _, _ => none
  | k + 1, n, m =>
    if strcmp n.stem m.stem ≠ 0 then none
    else (lits .equal n.lits m.lits).bind fun r => (res r n.res m.res).bind fun r => kids (cmpTree k) r n.children m.children

/-- `cmp` (label_file.c:2439-2455). -/
def cmp (d e : Data) : Option Res :=
  if d.num = 0 then (if e.num = 0 then some .equal else some .subset)
  else if e.num = 0 then some .superset
  else cmpTree 32 d.root e.root

end Verif.FcCmp
