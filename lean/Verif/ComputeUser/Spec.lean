import Verif.CreateName.Spec
/-!
# What the kernel answers for a user
-/
namespace Verif.ComputeUser.Spec
open Verif.CreateName.Spec (digits)

/-- How many contexts there are, and each of them, all ended by zero bytes. -/
def reply (cs : List Bytes) : Bytes := digits cs.length ++ [0] ++ cs.flatMap (fun c => c ++ [0])

end Verif.ComputeUser.Spec
