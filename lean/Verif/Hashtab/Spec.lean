import Verif.Hashtab.Model

/-!
# Specification: a table is a finite map
-/

namespace Verif.Hashtab

/-- What a table needs from its functions: slots inside the array, and a total order of keys. -/
structure OpsOk {κ : Type} (o : Ops κ) : Prop where
  slot : ∀ size k, 0 < size → size < 2 ^ 32 → o.hash size k < size
  zero : ∀ a b, o.cmp a b = 0 ↔ a = b
  swap : ∀ a b, o.cmp a b > 0 ↔ o.cmp b a < 0
  trans : ∀ a b c, o.cmp a b < 0 → o.cmp b c < 0 → o.cmp a c < 0

/-- The calls that change a table, with the outcome of the allocations. -/
inductive Op (κ δ : Type)
  | insert (ok1 ok2 : Bool) (k : κ) (d : δ)
  | remove (k : κ)

def step {κ δ : Type} (o : Ops κ) (h : Tab κ δ) : Op κ δ → Tab κ δ
  | .insert ok1 ok2 k d => (insert o ok1 ok2 k d h).1
  | .remove k => (remove o k h).1

/-- The table after a history of calls. -/
def run {κ δ : Type} (o : Ops κ) (size : Nat) (ops : List (Op κ δ)) : Tab κ δ := ops.foldl (step o) (create size)

/-- A finite map as a function. -/
abbrev Map (κ δ : Type) := κ → Option δ

open Classical in
noncomputable def Map.set {κ δ : Type} (m : Map κ δ) (k : κ) (v : Option δ) : Map κ δ := fun k' => if k' = k then v else m k'

/-- The table represents the map: its nodes are exactly the bindings, each once, and `nel` counts them. -/
structure Represents {κ δ : Type} (h : Tab κ δ) (m : Map κ δ) : Prop where
  bindings : ∀ k d, (k, d) ∈ nodes h ↔ m k = some d
  once : ((nodes h).map (·.1)).Nodup
  count : h.nel = (nodes h).length

end Verif.Hashtab
