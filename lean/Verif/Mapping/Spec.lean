import Verif.Mapping.Model

/-!
# What the numbers mean

The specification is in terms of names: the classes of the loaded policy and the class list the
application gave.
-/

namespace Verif.Mapping

/-- What the kernel guarantees about the classes it shows: class names and numbers are unique, 0
is not a class number, permissions of a class have unique, non-empty names and there are at most 32. -/
structure KernelOk (kernel : List KClass) : Prop where
  names : (kernel.map (·.name)).Nodup
  values : (kernel.map (·.value)).Nodup
  nonzero : ∀ c ∈ kernel, c.value ≠ 0
  perms : ∀ c ∈ kernel, c.perms.Nodup ∧ "" ∉ c.perms ∧ c.perms.length ≤ 32

/-- The cache holds classes of the loaded policy.  It does from a flush until the next policy
load. -/
def Coherent (kernel : List KClass) (l : Lib) : Prop := ∀ n ∈ l.cache, n ∈ kernel

/-- `v` is the vector with exactly bit `i` set. -/
def OneBit (v : BitVec 32) (i : Nat) : Prop := i < 32 ∧ ∀ j, j < 32 → (v.getLsbD j = true ↔ j = i)

end Verif.Mapping
