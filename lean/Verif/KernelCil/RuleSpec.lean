import Verif.KernelCil.Rule
import Verif.KernelCil.LevelSpec
import Verif.Optimize.Spec

/-!
# Specification of rules

The rules of CIL, how they are written, and what they say.  Types, classes and permissions are numbers, which stand for
their names; the names are not reserved words.
-/

namespace Verif.KernelCil
open CilCond (Tree)
open Avtab (Node)

/-- The target of a rule. -/
inductive Tgt where
  | self
  | sym (t : Nat)

inductive AvKind where
  | allow | auditallow | dontaudit

inductive XRuleKind where
  | allowx | auditallowx | dontauditx

inductive XWhat where
  | ioctl | nlmsg

inductive TypeKind where
  | typetransition | typemember | typechange

/-- A rule of CIL. -/
inductive Rule where
  | av (kind : AvKind) (src : Nat) (tgt : Tgt) (cls : Nat) (perms : List Nat)
  | x (kind : XRuleKind) (what : XWhat) (src : Nat) (tgt : Tgt) (cls : Nat) (numbers : List CatItem)
  | type (kind : TypeKind) (src : Nat) (tgt : Tgt) (cls : Nat) (result : Nat)

/-! ### How rules are written -/

def AvKind.word : AvKind → String
  | .allow => "allow"
  | .auditallow => "auditallow"
  | .dontaudit => "dontaudit"

def XRuleKind.word : XRuleKind → String
  | .allowx => "allowx"
  | .auditallowx => "auditallowx"
  | .dontauditx => "dontauditx"

def XWhat.word : XWhat → String
  | .ioctl => "ioctl"
  | .nlmsg => "nlmsg"

def TypeKind.word : TypeKind → String
  | .typetransition => "typetransition"
  | .typemember => "typemember"
  | .typechange => "typechange"

def Tgt.tree (nm : RNames) : Tgt → Tree
  | .self => .atom "self"
  | .sym t => .atom (String.ofList (nm.type (t - 1)))

/-- The value of a hexadecimal digit. -/
def digitValue (c : Char) : Nat := if c.isDigit then c.toNat - '0'.toNat else c.toNat - 'a'.toNat + 10

/-- The number that a text with `0x` stands for. -/
def readHex (s : Str) : Option Nat :=
  match s with
  | '0' :: 'x' :: c :: ds =>
    if (c :: ds).all (fun c => c.isDigit || decide ('a'.toNat ≤ c.toNat ∧ c.toNat ≤ 'f'.toNat)) then some ((c :: ds).foldl (fun n c => 16 * n + digitValue c) 0)
    else none
  | _ => none

/-- `num` writes numbers. -/
def Rule.tree (nm : RNames) (num : Nat → Str) : Rule → Tree
  | .av k s t c ps => .list [.atom k.word, .atom (String.ofList (nm.type (s - 1))), t.tree nm,
      .list [.atom (String.ofList (nm.cls (c - 1))), .list (ps.map fun p => .atom (String.ofList ((nm.perm (c - 1) p).getD [])))]]
  | .x k w s t c ns => .list [.atom k.word, .atom (String.ofList (nm.type (s - 1))), t.tree nm,
      .list [.atom w.word, .atom (String.ofList (nm.cls (c - 1))), .list [.list (ns.map (CatItem.tree num))]]]
  | .type k s t c r => .list [.atom k.word, .atom (String.ofList (nm.type (s - 1))), t.tree nm, .atom (String.ofList (nm.cls (c - 1))),
      .atom (String.ofList (nm.type (r - 1)))]

/-! ### What rules say -/

/-- Something that a rule of the binary policy says: what is known from the specification of the optimiser, or the result of
a type rule. -/
inductive RFact where
  | fact (f : Optimize.Fact)
  | result (kind : BitVec 16) (type : Nat)

def XRuleKind.bits : XRuleKind → BitVec 16
  | .allowx => Avtab.XPERMS_ALLOWED
  | .auditallowx => Avtab.XPERMS_AUDITALLOW
  | .dontauditx => Avtab.XPERMS_DONTAUDIT

def TypeKind.bits : TypeKind → BitVec 16
  | .typetransition => Avtab.TRANSITION
  | .typemember => Avtab.MEMBER
  | .typechange => Avtab.CHANGE

/-- What a rule of CIL says about the types that it covers. -/
def Rule.Grants : Rule → RFact → Prop
  | .av .allow _ _ _ ps, .fact (.allow b) => b ∈ ps
  | .av .auditallow _ _ _ ps, .fact (.auditallow b) => b ∈ ps
  | .av .dontaudit _ _ _ ps, .fact (.dontaudit b) => b ∈ ps
  | .x k .ioctl _ _ _ ns, .fact (.ioctl k' dr fn) => k.bits = k' ∧ dr < 256 ∧ fn < 256 ∧ ∃ it ∈ ns, it.has (256 * dr + fn)
  | .x k .nlmsg _ _ _ ns, .fact (.nlmsg k' dr fn) => k.bits = k' ∧ dr < 256 ∧ fn < 256 ∧ ∃ it ∈ ns, it.has (256 * dr + fn)
  | .x k .ioctl _ _ _ _, .fact (.ioctlFiltered k') => k.bits = k'
  | .x k .nlmsg _ _ _ _, .fact (.nlmsgFiltered k') => k.bits = k'
  | .type k _ _ _ r, .result k' ty => k.bits = k' ∧ ty = r
  | _, _ => False

def Rule.src : Rule → Nat
  | .av _ s _ _ _ | .x _ _ s _ _ _ | .type _ s _ _ _ => s

def Rule.tgt : Rule → Tgt
  | .av _ _ t _ _ | .x _ _ _ t _ _ | .type _ _ t _ _ => t

def Rule.cls : Rule → Nat
  | .av _ _ _ c _ | .x _ _ _ _ c _ | .type _ _ _ c _ => c

/-- A rule of CIL says `f` about the types `s` and `t` and the class `c`; `members` gives the types of a type or attribute. -/
def Rule.Says (members : Nat → Nat → Prop) (r : Rule) (s t c : Nat) (f : RFact) : Prop :=
  members r.src s ∧ (match r.tgt with | .self => t = s | .sym y => members y t) ∧ r.cls = c ∧ r.Grants f

/-- What a rule of the binary policy of the given kind says. -/
def NodeGrants (kind : BitVec 16) (d : Avtab.Datum) : RFact → Prop
  | .fact f => Optimize.Grants kind d f
  | .result k ty => kind = k ∧ k ∈ Optimize.typeKinds ∧ d.data.toNat = ty

/-- A rule of the binary policy says `f`. -/
def NodeSays (members : Nat → Nat → Prop) (n : Node) (s t c : Nat) (f : RFact) : Prop :=
  members n.key.source s ∧ members n.key.target t ∧ n.key.cls = c ∧ NodeGrants (0xFFF#16 &&& n.key.specified) n.datum f

/-- The permission, if it is about one, has a name. -/
def Nameable (nm : RNames) (c : Nat) : RFact → Prop
  | .fact (.allow b) | .fact (.auditallow b) | .fact (.dontaudit b) => b < nm.nprim (c - 1) ∧ nm.perm (c - 1) b ≠ none
  | _ => True

/-- A type stands for itself. -/
def MembersOk (nm : RNames) (members : Nat → Nat → Prop) : Prop := ∀ t, nm.isAttr (t - 1) = false → ∀ s, members t s ↔ s = t

/-- The rules say the same as the nodes: there is one for each, in some order, that says the same, whatever types the
attributes have. -/
def SameRules (nm : RNames) (nodes : List Node) (rules : List Rule) : Prop :=
  ∃ ps : List (Node × Rule), (ps.map Prod.fst).Perm nodes ∧ ps.map Prod.snd = rules ∧
    ∀ p ∈ ps, ∀ members, MembersOk nm members → ∀ s t c f, Nameable nm c f → (NodeSays members p.1 s t c f ↔ p.2.Says members s t c f)

/-! ### What is assumed of the policy -/

/-- A rule of a policy: it is of one kind, the names are symbols of CIL, and it says something. -/
structure NodeOk (nm : RNames) (n : Node) : Prop where
  kind : 0xFFF#16 &&& n.key.specified ∈ Optimize.avKinds ++ Optimize.xKinds ++ Optimize.typeKinds
  src : GoodName (nm.type (n.key.source - 1))
  tgt : GoodName (nm.type (n.key.target - 1))
  cls : GoodName (nm.cls (n.key.cls - 1))
  perms : 0xFFF#16 &&& n.key.specified ∈ Optimize.avKinds →
    nm.nprim (n.key.cls - 1) ≤ 32 ∧ (∀ i s, nm.perm (n.key.cls - 1) i = some s → GoodName s) ∧
    ∃ i < nm.nprim (n.key.cls - 1), nm.perm (n.key.cls - 1) i ≠ none ∧
      n.datum.data.getLsbD i = decide (0xFFF#16 &&& n.key.specified ≠ Avtab.AUDITDENY)
  xperms : 0xFFF#16 &&& n.key.specified ∈ Optimize.xKinds → ∃ x, n.datum.xperms = some x ∧
    (x.specified = Optimize.FUNCTION ∨ x.specified = Optimize.DRIVER ∨ x.specified = Optimize.NLMSG) ∧ ∃ i < 256, Optimize.xbit x.perms i
  result : 0xFFF#16 &&& n.key.specified ∈ Optimize.typeKinds → GoodName (nm.type (n.datum.data.toNat - 1))

/-! ### Conditionals -/

/-- A conditional of CIL. -/
structure CilIf where
  expr : CilCond.Expr
  thenRules : List Rule
  elseRules : List Rule

def blockTree (nm : RNames) (num : Nat → Str) (word : String) (l : List Rule) : List Tree :=
  if l.isEmpty then [] else [.list (.atom word :: l.map (Rule.tree nm num))]

def CilIf.tree (nm : RNames) (num : Nat → Str) (c : CilIf) : Tree :=
  .list (.atom "booleanif" :: c.expr.tree :: (blockTree nm num "true" c.thenRules ++ blockTree nm num "false" c.elseRules))

/-- The expression is one, of booleans whose names can be written and are not reserved words, and the rules are as they
should be. -/
structure CondOk (nm : RNames) (bool : Nat → Str) (c : CondNode) : Prop where
  expr : ∃ t : Cond.BExpr, c.expr = t.postfix ∧ ∀ n ∈ t.vars, GoodName (bool n) ∧ String.ofList (bool n) ∉ CilCond.reserved
  thenOk : ∀ n ∈ c.trueList, NodeOk nm n
  elseOk : ∀ n ∈ c.falseList, NodeOk nm n

/-- The conditional of CIL says the same as that of the binary policy: the expression has the same value for all values of
the booleans, needs no more values at a time, and the rules say the same. -/
structure SameCond (nm : RNames) (bool : Nat → Str) (c : CondNode) (i : CilIf) : Prop where
  ok : i.expr.Ok
  value : ∃ t : Cond.BExpr, c.expr = t.postfix ∧ (∀ ρ, i.expr.val ρ = t.val fun n => ρ (String.ofList (bool n))) ∧ i.expr.need = t.need
  thenRules : SameRules nm c.trueList i.thenRules
  elseRules : SameRules nm c.falseList i.elseRules

end Verif.KernelCil
