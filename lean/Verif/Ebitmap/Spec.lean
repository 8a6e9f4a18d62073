import Verif.Ebitmap.Model

/-!
# Specification vocabulary for extensible bitmaps

The observable content of a bitmap is `getBit`, the model of the API function
`ebitmap_get_bit`.  `WF` is the representation invariant, `Built` the set of
bitmaps a client can obtain through the API; `Props.lean` proves `Built → WF`.
-/

namespace Verif.Ebitmap

/-- Representation invariant: nodes sorted, aligned to 64, non-empty, and the
high bit is the end of the last node (0 for the empty bitmap). -/
structure WF (e : Ebitmap) : Prop where
  sorted : e.node.Pairwise (fun a b => a.startbit < b.startbit)
  aligned : ∀ n ∈ e.node, n.startbit % 64 = 0
  nonzero : ∀ n ∈ e.node, n.map ≠ 0#64
  high : e.highbit = (match e.node.getLast? with
                      | none => 0
                      | some n => n.startbit + 64)
  small : e.highbit < 2^32

/-- Bitmaps obtainable through the API of ebitmap.h (from scratch, from other
bitmaps, or from an arbitrary byte string). -/
inductive Built : Ebitmap → Prop
  | init : Built init
  | setBit {e e'} (bit : Nat) (v : Bool) : Built e → bit < 2^32 → setBit e bit v = some e' → Built e'
  | range {e} (lo hi : Nat) : lo < 2^32 → hi < 2^32 → initRange lo hi = some e → Built e
  | or {e1 e2} : Built e1 → Built e2 → Built (or e1 e2)
  | union {e1 e2} : Built e1 → Built e2 → Built (union e1 e2)
  | and {e1 e2} : Built e1 → Built e2 → Built (and e1 e2)
  | xor {e1 e2} : Built e1 → Built e2 → Built (xor e1 e2)
  | not {e e'} (fuel maxbit : Nat) : Built e → maxbit < 2^32 → notFuel fuel e maxbit = some e' → Built e'
  | andnot {e1 e2 e'} (fuel maxbit : Nat) : Built e1 → Built e2 → maxbit < 2^32 →
      andnotFuel fuel e1 e2 maxbit = some e' → Built e'
  | cpy {e} : Built e → Built (cpy e)
  | read {e} (bs rest : Bytes) : read bs = some (e, rest) → Built e

/-- One point update. -/
structure Write where
  bit : Nat
  value : Bool

/-- Is this a write the API refuses?  Only writes in the last word. -/
def Write.refused (w : Write) : Bool := decide (w.bit ≥ 2^32 - 64)

/-- Run a history of `ebitmap_set_bit` calls on a bitmap, ignoring refused
calls (the caller keeps the old bitmap). -/
def runWrites (e : Ebitmap) : List Write → Ebitmap
  | [] => e
  | w :: ws => runWrites ((setBit e w.bit w.value).getD e) ws

/-- The abstract set after the history: the last accepted write to `b` wins,
otherwise the initial value. -/
def specWrites (s : Nat → Bool) : List Write → Nat → Bool
  | [], b => s b
  | w :: ws, b => specWrites (fun c => if c = w.bit ∧ w.refused = false then w.value else s c) ws b

end Verif.Ebitmap
