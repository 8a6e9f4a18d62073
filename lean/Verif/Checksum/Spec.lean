import Verif.Checksum.Model

/-!
# What the module checksum is for

A commit that was asked to look for changes made from outside may use the policy that was linked
before, instead of linking the modules again, only if the modules and the options are the same.
-/

namespace Verif.Checksum

/-- The CIL source of a module, where the module has one at hand. -/
def source (m : Module) : Option Bytes :=
  match m.cil with
  | some c => some c
  | none => m.compiled

/-- The names of the modules are distinct. -/
def Distinct (l : List Module) : Prop := (l.map (·.name)).Nodup

/-- `l` lists the modules by name, in the order of `strcmp`. -/
def InOrder (l : List Module) : Prop :=
  l.Pairwise fun a b => nameLe a.name b.name = true

/-- Sizes and numbers are those of a 64-bit host. -/
def Fits (x : Extra) (l : List Module) : Prop :=
  x.targetPlatform < 2 ^ 64 ∧ x.policyvers < 2 ^ 64 ∧ l.length < 2 ^ 64 ∧
    ∀ m ∈ l, ∀ c, m.cil = some c ∨ m.compiled = some c → c.length < 2 ^ 64

end Verif.Checksum
