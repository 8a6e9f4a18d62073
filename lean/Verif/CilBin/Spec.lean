import Verif.CilBin.Model
import Verif.CilDeny.Spec
import Verif.Services.AvSpec

/-!
# Specification of the compilation of CIL rules

What the rules say, by themselves.
-/

namespace Verif.CilBin
open Ebitmap (Ebitmap)
open Avtab (Avtab Key Datum Node)

/-- The types a symbol stands for. -/
def Sym.Mem (db : Db) : Sym → Nat → Prop
  | .type v, t => t = v
  | .attr a, t => Ebitmap.getBit (db.attrs a).types t = true

/-- The pairs of types a rule is about: `self` is the source, `notself` is any other type, `other` is any
other type of the source attribute. -/
def Covers (db : Db) (src : Sym) : Target → Nat → Nat → Prop
  | .self, s, t => src.Mem db s ∧ t = s
  | .notself, s, t => src.Mem db s ∧ t < db.numTypes ∧ t ≠ s
  | .other, s, t => src.Mem db s ∧ src.Mem db t ∧ t ≠ s
  | .sym y, s, t => src.Mem db s ∧ y.Mem db t

/-- Some access vector rule of the kind that is active says so: one outside of conditionals or in a branch that is
chosen. -/
def Active (db : Db) (rules : List Rule) (chosen : Branch → Bool) (kind : Kind) (s t c p : Nat) : Prop :=
  ∃ r, Rule.av r ∈ rules ∧ r.kind = kind ∧ (∀ b, r.cond = some b → chosen b = true) ∧
    Covers db r.src r.tgt s t ∧ CilDeny.Perms r.perms c p

/-- Symbols of a policy with attributes of its types. -/
def Sym.Ok (db : Db) : Sym → Prop
  | .type v => v < db.numTypes
  | .attr a => Ebitmap.WF (db.attrs a).types ∧ ∀ t, Ebitmap.getBit (db.attrs a).types t = true → t < db.numTypes

/-- A rule names symbols that are declared; the result of a type rule is a type. -/
def Rule.Ok (decls : List Sym) : Rule → Prop
  | .av r => r.src ∈ decls ∧ ∀ y, r.tgt = .sym y → y ∈ decls
  | .type r => r.src ∈ decls ∧ (∀ y, r.tgt = some y → y ∈ decls) ∧ ∃ v, r.result = .type v ∧ r.result ∈ decls

/-- All types are declared, attributes have types of the policy, and rules name symbols of the
policy. -/
structure Complete (db : Db) (decls : List Sym) (rules : List Rule) : Prop where
  types : ∀ v < db.numTypes, Sym.type v ∈ decls
  syms : ∀ x ∈ decls, x.Ok db
  rules : ∀ r ∈ rules, r.Ok decls

/-- The item lists permissions `ps` of class `c`. -/
inductive Lists (c : Nat) (ps : List Nat) : CilDeny.CP → Prop
  | cls : Lists c ps (.cls c ps)
  | map {m n : Nat} {ms : List CilDeny.MP} {l : List CilDeny.CP} {x : CilDeny.CP} (h1 : .mk n l ∈ ms) (h2 : x ∈ l) (h3 : Lists c ps x) :
      Lists c ps (.map m ms)
  | set {n : Nat} {l : List CilDeny.CP} {x : CilDeny.CP} (h1 : x ∈ l) (h2 : Lists c ps x) : Lists c ps (.set n l)

/-- Classes and permissions have values. -/
def Known (db : Db) (l : List CilDeny.CP) : Prop :=
  ∀ x ∈ l, ∀ c ps, Lists c ps x → (∃ v, db.classVal c = some v) ∧ ∀ p ∈ ps, ∃ v, db.permVal c p = some v

/-- Values of classes and of the permissions of a class are distinct and in range. -/
structure DbOk (db : Db) : Prop where
  small : db.numTypes < 2 ^ 31
  cls : ∀ c v, db.classVal c = some v → v < 2 ^ 16
  clsInj : ∀ c c' v, db.classVal c = some v → db.classVal c' = some v → c = c'
  perm : ∀ c p v, db.permVal c p = some v → 1 ≤ v ∧ v ≤ 32
  permInj : ∀ c p p' v, db.permVal c p = some v → db.permVal c p' = some v → p = p'

/-- A node with or without the flag for active conditional rules. -/
def flag (on : Bool) (n : Node) : Node :=
  if on then ⟨{ n.key with specified := n.key.specified ||| Avtab.ENABLED }, n.datum⟩ else n

/-- The table has the rules of the lists of all branches, those of the branches that are chosen with the
flag. -/
def Flagged (h : Avtab) (lists : Branch → List Node) (chosen : Branch → Bool) : Prop :=
  ∃ l, Services.Contains h l ∧ ∀ n, n ∈ l ↔ ∃ b, ∃ m ∈ lists b, n = flag (chosen b) m

/-- The security server has the compiled policy loaded, and branches are chosen by the values of
booleans. -/
structure Loaded (P : Policy) (chosen : Branch → Bool) (p : Services.SPolicy) : Prop where
  te : p.te = P.rules.te
  cond : Flagged p.cond P.rules.lists chosen
  attr : p.typeAttr = P.map

end Verif.CilBin
