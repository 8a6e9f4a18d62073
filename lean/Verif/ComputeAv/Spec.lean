import Verif.Bytes
/-!
# What the kernel answers about an access
-/
namespace Verif.ComputeAv.Spec

/-- A number as it is printed to some base. -/
def num (base n : Nat) : Bytes := (Nat.toDigits base n).map (fun c => UInt8.ofNat c.toNat)

/-- Numbers to these bases, with spaces between them. -/
def text : List Nat → List Nat → Bytes
  | b :: bs, n :: ns => if ns = [] then num b n else num b n ++ [32] ++ text bs ns
  | _, _ => []

/-- `"%x %x %x %x %u %x"` in the kernel; old ones do not print the last number. -/
def reply (ns : List Nat) : Bytes := text [16, 16, 16, 16, 10, 16] ns

end Verif.ComputeAv.Spec
