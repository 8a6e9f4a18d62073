import Verif.Expand.Model
import Verif.Ebitmap.Spec

/-!
# What the expansion of rules should do

A rule of a module is about all types that its sets of types name, directly or by an attribute.  A
node of the table is about all types that its source and target stand for.
-/

namespace Verif.Expand
open Avtab (Key XPerms Datum)
open Services (TypeSet)
open Ebitmap (Ebitmap getBit WF)

/-! ## Types -/

/-- `x` is a type (and not an attribute). -/
def IsType (p : Types) (x : Nat) : Prop := ∃ t, p.types x = some t ∧ t.isAttr = false

/-- The type or attribute `v` stands for the type `x`. -/
def Stands (p : Types) (v x : Nat) : Prop :=
  v = x ∨ ∃ t, p.types v = some t ∧ t.isAttr = true ∧ getBit t.types x = true

/-- The bitmap of the module names the type or attribute `v` of the policy. -/
def Named (map : List Nat) (e : Ebitmap) (v : Nat) : Prop := ∃ i, getBit e i = true ∧ map[i]? = some (v + 1)

/-- A type of the set `{ a b -c -d }`, of `* -c` and of `~{ a b -c }`. -/
def InSet (p : Types) (map : List Nat) (s : TypeSet) (x : Nat) : Prop :=
  if s.flags.testBit 0 then ¬ ∃ v, Named map s.negset v ∧ Stands p v x
  else if s.flags.testBit 1 then
    ¬ ((∃ v, Named map s.types v ∧ Stands p v x) ∧ ¬ ∃ v, Named map s.negset v ∧ Stands p v x)
  else (∃ v, Named map s.types v ∧ Stands p v x) ∧ ¬ ∃ v, Named map s.negset v ∧ Stands p v x

/-- The types of the policy after the symbols have been copied: at most 65535 (expand.c:148), all numbers
are used, attributes consist of types. -/
structure TypesOk (p : Types) : Prop where
  few : p.nprim ≤ 65535
  used : ∀ i, i < p.nprim ↔ ∃ t, p.types i = some t
  flat : ∀ i t, p.types i = some t → t.isAttr = true → WF t.types ∧ ∀ x, getBit t.types x = true → IsType p x

/-- The numbers of the copies of the types of the module; 0 for a type that is not copied. -/
def MapOk (p : Types) (map : List Nat) : Prop := ∀ v ∈ map, v ≤ p.nprim

/-- A set of types of the module. -/
def SetOk (map : List Nat) (s : TypeSet) : Prop :=
  (WF s.types ∧ ∀ i, getBit s.types i = true → i < map.length) ∧
  (WF s.negset ∧ ∀ i, getBit s.negset i = true → i < map.length)

/-! ## Rules -/

/-- The rule is about source `x` and target `y`. -/
def About (p : Types) (map : List Nat) (r : Rule) (x y : Nat) : Prop :=
  InSet p map r.stypes x ∧ (InSet p map r.ttypes y ∨ r.flags.getLsbD 0 = true ∧ x = y)

/-- The rules for access vectors, for extended permissions and for types. -/
def avKinds : List (BitVec 32) := [0x1#32, 0x2#32, 0x4#32, 0x8#32]
def xKinds : List (BitVec 32) := [0x100#32, 0x200#32, 0x400#32]
def typeKinds : List (BitVec 32) := [0x10#32, 0x20#32, 0x40#32]
def neverKinds : List (BitVec 32) := [0x80#32, 0x800#32]

/-- A rule as the reader of modules accepts it (policydb_validate.c:1018-1104). -/
structure RuleOk (map : List Nat) (r : Rule) : Prop where
  kind : r.specified ∈ avKinds ++ xKinds ++ typeKinds ++ neverKinds
  source : SetOk map r.stypes
  target : SetOk map r.ttypes
  classes : ∀ cp ∈ r.perms, 0 < cp.tclass ∧ cp.tclass < 2 ^ 16
  xperms : r.specified ∈ xKinds → ∃ x, r.xperms = some x ∧ x.specified ∈ [1#8, 2#8, 3#8] ∧ x.perms.length = 8
  types : r.specified ∈ typeKinds → ∀ cp ∈ r.perms, 0 < cp.data.toNat ∧ cp.data.toNat ≤ map.length

/-- The rules of a place: without a condition, or in a branch of a conditional. -/
def RuleAt (steps : List Step) (place : Option Nat) (r : Rule) : Prop :=
  match place with
  | none => Step.rule r ∈ steps
  | some c => ∃ k cur onTrue onFalse, Step.cond k cur onTrue onFalse ∈ steps ∧
      (c = 2 * k ∧ r ∈ onTrue ∨ c = 2 * k + 1 ∧ r ∈ onFalse)

/-- The input of the expansion. -/
structure Input (p : Types) (map : List Nat) (steps : List Step) : Prop where
  types : TypesOk p
  copies : MapOk p map
  rules : ∀ place r, RuleAt steps place r → RuleOk map r

/-! ## Tables -/

/-- The nodes of a place: all of the table of rules without a condition, or those in the list of a
branch. -/
def nodesAt (st : State) : Option Nat → List ENode
  | none => st.te.nodes
  | some c => st.cond.nodes.filter fun n => decide (n.id ∈ st.cond.lists c)

/-- The node has the kind `kind` (whether or not it is enabled), is for class `c` and applies to the types
`x` and `y`. -/
def Applies (p : Types) (n : ENode) (kind : BitVec 16) (x y c : Nat) : Prop :=
  n.key.specified &&& 0x7FFF#16 = kind ∧ n.key.cls = c ∧
  (∃ v, n.key.source = v + 1 ∧ Stands p v x) ∧ (∃ v, n.key.target = v + 1 ∧ Stands p v y)

/-- A node with permission `b`. -/
def Grants (p : Types) (nodes : List ENode) (kind : BitVec 16) (x y c b : Nat) : Prop :=
  ∃ n ∈ nodes, Applies p n kind x y c ∧ n.datum.data.getLsbD b = true

/-- A node that takes permission `b` away. -/
def Removes (p : Types) (nodes : List ENode) (kind : BitVec 16) (x y c b : Nat) : Prop :=
  ∃ n ∈ nodes, Applies p n kind x y c ∧ n.datum.data.getLsbD b = false

/-- A bit of the eight words of extended permissions. -/
def XBit (w : List (BitVec 32)) (b : Nat) : Prop := ∃ v, w[b / 32]? = some v ∧ v.getLsbD (b % 32) = true

/-- A node with the extended permission `b` of a kind and driver. -/
def XGrants (p : Types) (nodes : List ENode) (kind : BitVec 16) (x y c : Nat) (xkind driver : BitVec 8) (b : Nat) : Prop :=
  ∃ n ∈ nodes, Applies p n kind x y c ∧
    ∃ w, n.datum.xperms = some ⟨xkind, driver, w⟩ ∧ XBit w b

/-- A node with the type `v`. -/
def Gives (p : Types) (nodes : List ENode) (kind : BitVec 16) (x y c v : Nat) : Prop :=
  ∃ n ∈ nodes, Applies p n kind x y c ∧ n.datum.data.toNat = v

/-! ## Conditionals -/

/-- No conditional comes twice: no two conditionals of the modules have equal expressions. -/
def Once (steps : List Step) : Prop :=
  steps.Pairwise fun a b => ∀ k k' cur cur' t t' f f', a = .cond k cur t f → b = .cond k' cur' t' f' → k ≠ k'

/-- The places that are in force when conditional `k` has the value `val k`. -/
def Active (val : Nat → Bool) : Option Nat → Prop
  | none => True
  | some c => c = 2 * (c / 2) ∧ val (c / 2) = true ∨ c = 2 * (c / 2) + 1 ∧ val (c / 2) = false

/-- The type that a type rule names for a class, in the policy. -/
def TypeOf (map : List Nat) (cp : ClassPerm) (v : Nat) : Prop :=
  ∃ i, cp.data.toNat = i + 1 ∧ map[i]? = some v

end Verif.Expand
