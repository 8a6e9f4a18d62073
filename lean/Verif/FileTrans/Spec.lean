import Verif.FileTrans.Model

/-! # What tables of name-based transitions say -/

namespace Verif.FileTrans
open Verif.PolicyIO Verif.Policy Verif.Services

/-- The table says that the rule holds. -/
def Says (t : List FileTransP) (r : Rule) : Prop :=
  ∃ f ∈ t, f.name = r.name ∧ f.ttype = r.target ∧ f.tclass = r.cls ∧
    ∃ d ∈ f.data, d.2 = r.new ∧ Ebitmap.getBit d.1 (r.source - 1) = true

/-- Rules about the same directories, classes and names. -/
def SameKey (r s : Rule) : Prop := r.name = s.name ∧ r.target = s.target ∧ r.cls = s.cls

/-- The rules are about the same and give different types. -/
def Contradict (r s : Rule) : Prop := SameKey r s ∧ r.source = s.source ∧ r.new ≠ s.new

/-- The number of the source is that of a type. -/
def Fits (r : Rule) : Prop := 1 ≤ r.source ∧ r.source ≤ 2 ^ 32 - 64

end Verif.FileTrans
