import Verif.LocalPol.Model
import Verif.Services.ObjectsSpec
import Verif.ObjStmt.Spec

/-!
# Specification of local customisations

Stated by the operands of the records only.  How the server replies, and which contexts its SIDs stand for, is that of
`Verif.Services.ObjectsSpec`; `bit6` counts the bits of an IPv6 address from the first one.
-/

namespace Verif.LocalPol
open Verif.Policy Verif.Mls Verif.Services

/-- The numbers of protocols in packets. -/
def IsProto (p : Int) (ip : Nat) : Prop := (p = 0 ∧ ip = 17) ∨ (p = 1 ∧ ip = 6) ∨ (p = 2 ∧ ip = 33) ∨ (p = 3 ∧ ip = 132)

/-- The record is for the port. -/
def PortRec.Covers (ip : Nat) (n : Nat) (r : PortRec) : Prop := IsProto r.proto ip ∧ r.low ≤ n ∧ n ≤ r.high

def PkeyRec.Covers (subnet : Nat) (n : Nat) (r : PkeyRec) : Prop := r.subnet = subnet ∧ r.low ≤ n ∧ n ≤ r.high

def EndportRec.Covers (dev : Str) (n : Nat) (r : EndportRec) : Prop := r.dev = dev ∧ r.port = n

/-- The numbers are those of ports: 16 bits. -/
def PortRec.Fits (r : PortRec) : Prop := 0 ≤ r.low ∧ r.low < 2 ^ 16 ∧ 0 ≤ r.high ∧ r.high < 2 ^ 16
def PkeyRec.Fits (r : PkeyRec) : Prop := 0 ≤ r.low ∧ r.low < 2 ^ 16 ∧ 0 ≤ r.high ∧ r.high < 2 ^ 16
def EndportRec.Fits (r : EndportRec) : Prop := 0 ≤ r.port ∧ r.port < 2 ^ 8 ∧ r.dev.length < 64

/-- The bits of an address that a node record looks at, and the bits they must have. -/
def NodeRec.Covers4 (a : BitVec 32) : NodeRec → Prop
  | .v4 n m _ => ∀ i < 32, n.getMsbD i = (a.getMsbD i && m.getMsbD i)
  | .v6 .. => False

def NodeRec.Covers6 (a : Words) : NodeRec → Prop
  | .v6 n m _ => ∀ i < 128, ObjStmt.bit6 n i = (ObjStmt.bit6 a i && ObjStmt.bit6 m i)
  | .v4 .. => False

def NodeRec.Looks : NodeRec → Nat → Prop
  | .v4 _ m _, i => i < 32 ∧ m.getMsbD i = true
  | .v6 _ m _, i => i < 128 ∧ ObjStmt.bit6 m i = true

/-- `t` looks at all bits that `s` looks at, and at more. -/
def NodeRec.More (t s : NodeRec) : Prop := (∀ i, s.Looks i → t.Looks i) ∧ ∃ i, t.Looks i ∧ ¬ s.Looks i

def NodeRec.con : NodeRec → Option Context
  | .v4 _ _ c | .v6 _ _ c => c

/-- The last record of the list with the property. -/
def LastRec {ρ : Type} (l : List ρ) (P : ρ → Prop) (r : ρ) : Prop := ∃ pre post, l = pre ++ r :: post ∧ P r ∧ ∀ x ∈ post, ¬ P x

/-- The reply is the label of a local record that is chosen; if no local record is for the object it is the one that the policy without
local records gives (`policy`); an error otherwise only if no SID is left. -/
def Overrides {ρ : Type} (recs : List ρ) (P chosen : ρ → Prop) (label : ρ → Option Context) (policy : Prop) (after : OState)
    (r : Reply) : Prop :=
  (∃ s c x, s ∈ recs ∧ P s ∧ chosen s ∧ label s = some c ∧ r = .sids [x] ∧ StandsFor after x c) ∨
  ((∀ s ∈ recs, ¬ P s) ∧ policy) ∨
  ((∃ s ∈ recs, P s) ∧ r = .noSid ∧ Full after)

/-- All contexts in the local records are properly built, as those of `context_from_record` are. -/
structure Local.WF (loc : Local) : Prop where
  port : ∀ r ∈ loc.ports, ∀ c, r.con = some c → WFRange c.range
  netif : ∀ r ∈ loc.ifaces, ∀ c, r.ifcon = some c ∨ r.msgcon = some c → WFRange c.range
  node : ∀ r ∈ loc.nodes, ∀ c, r.con = some c → WFRange c.range
  pkey : ∀ r ∈ loc.pkeys, ∀ c, r.con = some c → WFRange c.range
  endport : ∀ r ∈ loc.endports, ∀ c, r.con = some c → WFRange c.range

/-- What `qsort` promises. -/
def Sorts {α : Type} (cmp : α → α → Int) (sort : List α → List α) : Prop :=
  ∀ l, (sort l).Perm l ∧ (sort l).Pairwise (fun a b => cmp a b ≤ 0)

/-- Two port records that have a port in common. -/
def PortRec.Overlaps (a b : PortRec) : Prop := a.proto = b.proto ∧ ∃ n : Int, (a.low ≤ n ∧ n ≤ a.high) ∧ (b.low ≤ n ∧ n ≤ b.high)
def PkeyRec.Overlaps (a b : PkeyRec) : Prop := a.subnet = b.subnet ∧ ∃ n : Int, (a.low ≤ n ∧ n ≤ a.high) ∧ (b.low ≤ n ∧ n ≤ b.high)

/-- What a record must be like to be merged. -/
structure Mergeable (loc : Local) : Prop where
  port : ∀ r ∈ loc.ports, (∃ ip, IsProto r.proto ip) ∧ r.low % 2 ^ 16 ≤ r.high % 2 ^ 16 ∧ ∃ c, r.con = some c
  netif : ∀ r ∈ loc.ifaces, (∃ c, r.ifcon = some c) ∧ ∃ c, r.msgcon = some c
  node : ∀ r ∈ loc.nodes, ∃ c, r.con = some c
  pkey : ∀ r ∈ loc.pkeys, r.low % 2 ^ 16 ≤ r.high % 2 ^ 16 ∧ ∃ c, r.con = some c
  endport : ∀ r ∈ loc.endports, ∃ c, r.con = some c

/-! ## Users -/

/-- A user that is in the policy under that name. -/
def HasUser (p : UPolicy) (name : Str) (d : UDatum) : Prop := (name, d) ∈ p.users

/-- The tables are as those of a policy: names are unique. -/
def UniqueUsers (p : UPolicy) : Prop := p.users.Pairwise (fun a b => a.1 ≠ b.1)

/-- The record can be put into the policy: its roles exist, and it has a level and a range exactly if the policy is an MLS one. -/
def UserFits (p : UPolicy) (r : UserRec) : Prop :=
  (∀ x ∈ r.roles, ∃ d, p.roleTable x = some d) ∧
  (p.mls = true → (∃ l g, r.level = some l ∧ p.mlsOf l = some g) ∧ ∃ l g, r.range = some l ∧ p.mlsOf l = some g) ∧
  (p.mls = false → r.level = none ∧ r.range = none)

/-- The datum says what the record says. -/
def Says (p : UPolicy) (r : UserRec) (d : UDatum) : Prop :=
  (∀ b, b ∈ d.roles ↔ ∃ x ∈ r.roles, ∃ dom, p.roleTable x = some dom ∧ b ∈ dom) ∧
  (p.mls = true → ∃ l g l' g', r.level = some l ∧ p.mlsOf l = some g ∧ d.level = g.low ∧
    r.range = some l' ∧ p.mlsOf l' = some g' ∧ d.range = g')

end Verif.LocalPol
