import Verif.Bytes
/-!
# How the kernel reads the name in a request
-/
namespace Verif.CreateName.Spec

/-- The value of a hexadecimal digit. -/
def hexValue (b : UInt8) : Nat := if b.toNat ≤ 57 then b.toNat - 48 else b.toNat - 55

/-- `+` is a space, `%` and two digits are a byte, everything else is itself. -/
def decode : Bytes → Bytes
  | [] => []
  | 43 :: s => 32 :: decode s
  | 37 :: a :: b :: s => UInt8.ofNat (16 * hexValue a + hexValue b) :: decode s
  | c :: s => c :: decode s

/-- Letters, digits and `-._~`. -/
def plain (b : UInt8) : Prop :=
  (48 ≤ b ∧ b ≤ 57) ∨ (65 ≤ b ∧ b ≤ 90) ∨ (97 ≤ b ∧ b ≤ 122) ∨ b ∈ [(45 : UInt8), 46, 95, 126]

instance (b : UInt8) : Decidable (plain b) := by unfold plain; infer_instance

/-- How many bytes a name takes in a request: three for each byte that is not plain or a
space. -/
def cost : Bytes → Nat
  | [] => 0
  | c :: s => (if plain c ∨ c = 32 then 1 else 3) + cost s

/-- The decimal digits of a number. -/
def digits (n : Nat) : Bytes := (toString n).toList.map (fun c => UInt8.ofNat c.toNat)

end Verif.CreateName.Spec
