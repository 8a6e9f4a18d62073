import Verif.Services.Objects
import Verif.Sidtab.Spec

/-!
# Specification of object labels

Everything refers to the lists as configured by the policy, not to the state of the server.
-/

namespace Verif.Services
open Verif.Policy Verif.Mls

/-- `o` is the first entry of the list whose key satisfies `m`. -/
def FirstMatch {κ : Type} (l : List (Ocon κ)) (m : κ → Prop) (o : Ocon κ) : Prop :=
  ∃ pre post, l = pre ++ o :: post ∧ m o.key ∧ ∀ x ∈ pre, ¬ m x.key

def NoMatch {κ : Type} (l : List (Ocon κ)) (m : κ → Prop) : Prop := ∀ x ∈ l, ¬ m x.key

/-- Freshly loaded lists: no SID is cached, the contexts are properly built. -/
def Fresh {κ : Type} (l : List (Ocon κ)) : Prop :=
  ∀ o ∈ l, o.sid0 = 0 ∧ o.sid1 = 0 ∧ WFRange o.ctx0.range ∧ WFRange o.ctx1.range

structure FreshObjects (ob : Objects) : Prop where
  fs : Fresh ob.fs
  netif : Fresh ob.netif
  fsuse : Fresh ob.fsuse
  port : Fresh ob.port
  ibpkey : Fresh ob.ibpkey
  ibendport : Fresh ob.ibendport
  node : Fresh ob.node
  node6 : Fresh ob.node6
  genfs : ∀ g ∈ ob.genfs, Fresh g.2

/-- Legal calls. -/
def Query.Ok : Query → Prop
  | .convert c => WFRange c.range
  | _ => True

/-- The state after a history of calls. -/
def history (s : OState) (qs : List Query) : OState := qs.foldl (fun s q => (ask s q).1) s

/-- SID `x` stands for context `c`. -/
def StandsFor (s : OState) (x : Nat) (c : Context) : Prop := Sidtab.lookup s.st x = some c

/-- No more SIDs can be allocated. -/
def Full (s : OState) : Prop := s.st.nextSid = 2 ^ 32 - 1 ∨ s.st.shutdown = true

/-- The label given by the first matching entry, otherwise the initial SID `dflt`; an error only if no SID is left
(`after` is the state after the call). -/
def Labels1 {κ : Type} (l : List (Ocon κ)) (m : κ → Prop) (dflt : Nat) (after : OState) (r : Reply) : Prop :=
  (∃ o x, FirstMatch l m o ∧ r = .sids [x] ∧ StandsFor after x o.ctx0) ∨
  (NoMatch l m ∧ r = .sids [dflt]) ∨
  ((∃ o, FirstMatch l m o) ∧ r = .noSid ∧ Full after)

/-- The same for entries with two labels; the table may fill up between the two conversions. -/
def Labels2 {κ : Type} (l : List (Ocon κ)) (m : κ → Prop) (d0 d1 : Nat) (after : OState) (r : Reply) : Prop :=
  (∃ o x y, FirstMatch l m o ∧ r = .sids [x, y] ∧ StandsFor after x o.ctx0 ∧ StandsFor after y o.ctx1) ∨
  (NoMatch l m ∧ r = .sids [d0, d1]) ∨
  ((∃ o, FirstMatch l m o) ∧ r = .noSid ∧ Full after)

/-- The entry of the policy file for file system `fs` that labels `path`: its name is a prefix of the path, its class
is unset or the one asked for, and no such entry has a longer name. -/
def BestEntry (file : List (Str × List GenEntry)) (fs path : Str) (cls : Nat) (e : GenEntry) : Prop :=
  (∃ es, (fs, es) ∈ file ∧ e ∈ es) ∧ e.name <+: path ∧ (e.sclass = 0 ∨ e.sclass = cls) ∧
  ∀ es e', (fs, es) ∈ file → e' ∈ es → e'.name <+: path → (e'.sclass = 0 ∨ e'.sclass = cls) → e'.name.length ≤ e.name.length

/-- No entry of the file labels the path. -/
def NoEntry (file : List (Str × List GenEntry)) (fs path : Str) (cls : Nat) : Prop :=
  ∀ es e, (fs, es) ∈ file → e ∈ es → e.name <+: path → ¬ (e.sclass = 0 ∨ e.sclass = cls)

end Verif.Services
