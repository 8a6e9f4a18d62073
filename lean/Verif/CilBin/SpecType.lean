import Verif.CilBin.Spec

/-!
# Specification of the compilation of type rules
-/

namespace Verif.CilBin

/-- The pairs of types a type rule is about. -/
def TypeRule.Covers (db : Db) (r : TypeRule) (s t : Nat) : Prop :=
  r.src.Mem db s ∧ match r.tgt with
    | none => t = s
    | some y => y.Mem db t

/-- A type rule of the kind in the branch, or outside of conditionals, says that the result for the two types and the class is type
`res`. -/
def Says (db : Db) (rules : List Rule) (cond : Option Branch) (kind : TKind) (s t c res : Nat) : Prop :=
  ∃ r, Rule.type r ∈ rules ∧ r.cond = cond ∧ r.kind = kind ∧ r.Covers db s t ∧ c ∈ r.classes ∧ r.result = .type res

/-- No conditional has rules for it in both branches. -/
def OneSided (db : Db) (rules : List Rule) (kind : TKind) (s t c : Nat) : Prop :=
  ∀ n res res', ¬ (Says db rules (some (n, true)) kind s t c res ∧ Says db rules (some (n, false)) kind s t c res')

/-- Only one conditional has rules for it. -/
def OneCond (db : Db) (rules : List Rule) (kind : TKind) (s t c : Nat) : Prop :=
  ∀ b b' res res', Says db rules (some b) kind s t c res → Says db rules (some b') kind s t c res' → b.1 = b'.1

end Verif.CilBin
