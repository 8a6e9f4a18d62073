import Verif.CilDeny.Model
import Verif.Ebitmap.Spec

/-!
# Specification of deny rules

What an access vector rule says, by itself: which pairs of types it covers and which permissions of
which classes it has.
-/

namespace Verif.CilDeny
open Ebitmap (Ebitmap)

/-- A class permission item has permission `p` of class `c`: it lists it, or one of the items its
class map permissions or its set stand for has it. -/
inductive Has (c p : Nat) : CP → Prop
  | cls {ps : List Nat} (h : p ∈ ps) : Has c p (.cls c ps)
  | map {m n : Nat} {ms : List MP} {l : List CP} {x : CP} (h1 : .mk n l ∈ ms) (h2 : x ∈ l) (h3 : Has c p x) :
      Has c p (.map m ms)
  | set {n : Nat} {l : List CP} {x : CP} (h1 : x ∈ l) (h2 : Has c p x) : Has c p (.set n l)

/-- A list of class permissions has permission `p` of class `c`. -/
def Perms (l : List CP) (c p : Nat) : Prop := ∃ x ∈ l, Has c p x

/-- The types a symbol stands for. -/
def Datum.Mem : Datum → Nat → Prop
  | .type v, t => t = v
  | .attr _ _ a, t => Ebitmap.getBit a t = true

/-- The pairs of types a rule is about, in a policy with types `0 .. n - 1`: `self` is the source,
`notself` is any other type, `other` is any other type of the source attribute. -/
def Covers (n : Nat) (src : Datum) : Target → Nat → Nat → Prop
  | .self, s, t => src.Mem s ∧ t = s
  | .notself, s, t => src.Mem s ∧ t < n ∧ t ≠ s
  | .other, s, t => src.Mem s ∧ src.Mem t ∧ t ≠ s
  | .datum d, s, t => src.Mem s ∧ d.Mem t

/-- The rules of one kind in one branch (or in none) grant permission `p` of class `c` to source `s`
on target `t`. -/
def Granted (n : Nat) (rules : List Rule) (k : Kind) (cond : Option (Nat × Bool)) (s t c p : Nat) : Prop :=
  ∃ r ∈ rules, r.kind = k ∧ r.cond = cond ∧ Covers n r.src r.tgt s t ∧ Perms r.perms c p

/-- A deny rule denies it. -/
def Denied (n : Nat) (denies : List Deny) (s t c p : Nat) : Prop :=
  ∃ d ∈ denies, Covers n d.src d.tgt s t ∧ Perms d.perms c p

/-! ### What is assumed of a policy -/

/-- A symbol is a type of the policy, or an attribute with types of the policy. -/
def Datum.Ok (n : Nat) : Datum → Prop
  | .type v => v < n
  | .attr _ _ a => Ebitmap.WF a ∧ ∀ t, Ebitmap.getBit a t = true → t < n

/-- The target of a rule is a keyword or such a symbol. -/
def Target.Ok (n : Nat) : Target → Prop
  | .datum d => d.Ok n
  | _ => True

/-- The policy has fewer than 2^31 types, its attributes have types of the policy, and no name
`deny_rule_attr_N` that is going to be chosen is in use. -/
structure DbOk (db : Db) : Prop where
  small : db.numTypes < 2 ^ 31
  attrs : ∀ d ∈ db.attrs, d.Ok db.numTypes
  free : ∀ t k, db.num ≤ k → (t, k) ∉ db.taken

/-- The symbols of the rules are of the policy. -/
def RulesOk (n : Nat) (rules : List Rule) : Prop := ∀ r ∈ rules, r.src.Ok n ∧ r.tgt.Ok n

/-- The symbols of the deny rules are of the policy. -/
def DeniesOk (n : Nat) (denies : List Deny) : Prop := ∀ d ∈ denies, d.src.Ok n ∧ d.tgt.Ok n

end Verif.CilDeny
