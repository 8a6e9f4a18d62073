import Verif.CilX.Model
import Verif.CilBin.Spec
import Verif.Optimize.Spec

/-!
# Specification: extended permissions of CIL
-/

namespace Verif.CilX
open Ebitmap (Ebitmap)
open Avtab (XPerms Node)
open CilBin (Db Sym Target Kind Branch State)

/-- A block lists number `n` of 0 to 65535: the high byte is the driver, the low byte the function. -/
def Lists (kind : XKind) (x : XPerms) (n : Nat) : Prop :=
  match kind with
  | .ioctl => (x.specified = Optimize.FUNCTION ∧ x.driver.toNat = n / 256 ∧ Optimize.xbit x.perms (n % 256)) ∨
      (x.specified = Optimize.DRIVER ∧ Optimize.xbit x.perms (n / 256))
  | .nlmsg => x.specified = Optimize.NLMSG ∧ x.driver.toNat = n / 256 ∧ Optimize.xbit x.perms (n % 256)

/-- The CIL policy has an active rule of the kind that covers the types and lists the number for the class. -/
def Active (db : Db) (gs : List Group) (chosen : Branch → Bool) (kind : Kind) (xk : XKind) (s t c n : Nat) : Prop :=
  ∃ g ∈ gs, (∀ b, g.cond = some b → chosen b = true) ∧ ∃ r ∈ g.rules, r.kind = kind ∧ CilBin.Covers db r.src r.tgt s t ∧
    c ∈ r.permx.classes ∧ r.permx.kind = xk ∧ Ebitmap.getBit r.permx.perms n = true

/-- The compiled policy says `f` for types with values `s` and `t` and a class: some rule outside of conditionals or in a chosen branch
covers them. -/
def Decides (map : CilBin.AttrMap) (st : State) (chosen : Branch → Bool) (s t cls : Nat) (f : Optimize.Fact) : Prop :=
  ∃ n, (n ∈ Avtab.nodes st.te ∨ ∃ b, chosen b = true ∧ n ∈ st.lists b) ∧
    (1 ≤ n.key.source ∧ ∃ m, map (s - 1) = some m ∧ Ebitmap.getBit m (n.key.source - 1) = true) ∧
    (1 ≤ n.key.target ∧ ∃ m, map (t - 1) = some m ∧ Ebitmap.getBit m (n.key.target - 1) = true) ∧
    n.key.cls = cls ∧ Optimize.Grants n.key.specified n.datum f

/-- Numbers of a rule are below 2^16, its symbols are declared. -/
structure RuleOk (decls : List Sym) (r : XRule) : Prop where
  src : r.src ∈ decls
  tgt : ∀ y, r.tgt = .sym y → y ∈ decls
  wf : Ebitmap.WF r.permx.perms
  small : ∀ n, Ebitmap.getBit r.permx.perms n = true → n < 2 ^ 16

end Verif.CilX
