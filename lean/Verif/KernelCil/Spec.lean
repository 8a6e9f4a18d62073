import Verif.KernelCil.Model
import Verif.CilParse.Spec
import Verif.CilCond.Spec
import Verif.CilConstr.Spec
import Verif.Cond.Spec

/-!
# Specification of the conversion to CIL

Names are symbols of CIL.  What a text means is said by the grammar of CIL (`CilParse.Spec`) and the meaning of
expressions (`CilCond.Spec`, `CilConstr.Spec`).
-/

namespace Verif.KernelCil
open Services (CExpr Field Who)

/-- The name can be written as a symbol. -/
def GoodName (s : Str) : Prop := s ≠ [] ∧ ∀ c ∈ s, CilParse.symbolChar c = true

/-- The names of users, roles or types. -/
def Names.of (pn : Names) : Field → Nat → Option Str
  | .user => pn.user
  | .role => pn.role
  | .type => pn.type

/-- Number `i` stands for the value `v`: a user or role is itself; types and attributes are the types in `members`
(`attr_type_map`). -/
def standsFor (members : Nat → Ebitmap.Ebitmap) (f : Field) (i v : Nat) : Prop :=
  match f with
  | .type => Ebitmap.getBit (members i) (v - 1) = true
  | _ => v = i + 1

/-- What a name means. -/
def meaning (pn : Names) (members : Nat → Ebitmap.Ebitmap) (f : Field) (s : String) (v : Nat) : Prop :=
  ∃ i, pn.of f i = some s.toList ∧ standsFor members f i v

/-- The names of the policy are symbols, and different things have different names. -/
structure NamesOk (pn : Names) : Prop where
  good : ∀ f i s, pn.of f i = some s → GoodName s
  inj : ∀ f i j s, pn.of f i = some s → pn.of f j = some s → i = j

/-- The set of names that is kept for a comparison. -/
def kept (e : CExpr) (f : Field) : Ebitmap.Ebitmap :=
  match f with
  | .type => e.typeNames.types
  | _ => e.names

/-- The names that are kept for a comparison with names are not empty and are those of the policy, none of them a
reserved word; those of types stand for the set of types that is compared. -/
def LeafOk (pn : Names) (members : Nat → Ebitmap.Ebitmap) (e : CExpr) : Prop :=
  ∀ w f neg set, Services.Denotes e (.names w f neg set) →
    Ebitmap.WF (kept e f) ∧ (∃ i, Ebitmap.getBit (kept e f) i = true) ∧
    (∀ i, Ebitmap.getBit (kept e f) i = true → ∃ s, pn.of f i = some s ∧ String.ofList s ∉ CilConstr.reserved) ∧
    (f = .type → ∀ v, Ebitmap.getBit e.names v = true ↔ ∃ i, Ebitmap.getBit e.typeNames.types i = true ∧ Ebitmap.getBit (members i) v = true)

/-- The expression compares levels. -/
def mls : Services.Tree → Bool
  | .atom (.levels _ _) => true
  | .atom _ => false
  | .not t => mls t
  | .and a b => mls a || mls b
  | .or a b => mls a || mls b

end Verif.KernelCil
