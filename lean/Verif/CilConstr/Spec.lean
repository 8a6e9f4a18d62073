import Verif.CilConstr.Model
import Verif.CilDeny.Spec
import Verif.CilBin.Spec
import Verif.Services.ConstraintSpec

/-!
# Specification of the constraints of CIL

Independent of the functions of the model: the expressions as the language defines them
(secilc/docs/cil_constraint_statements.md), how they are written, and what they mean for the contexts that
are compared.
-/

namespace Verif.CilConstr
open CilCond (Tree)
open Policy Mls
open Services (Field Who Levels Rel RoleDom CtxOk)

/-- Names: one alone, or a list of one or more. -/
inductive Names where
  | one (s : String)
  | many (s : String) (l : List String)

/-- All of the names. -/
def Names.all : Names → List String
  | .one s => [s]
  | .many s l => s :: l

/-- Expressions.  The two `loose` forms are not in the documentation but are accepted: a comparison with `l1`
on the right, and `dom`, `domby` or `incomp` with a name. -/
inductive Expr where
  | same (f : Field) (negated : Bool)
  | roles (r : Rel)
  | levels (ls : Levels) (r : Rel)
  | is (w : Who) (f : Field) (negated : Bool) (ns : Names)
  | not (e : Expr)
  | and (a b : Expr)
  | or (a b : Expr)
  | looseL1 (r : Rel) (left : Operand)
  | looseName (r : Rel) (w : Who) (f : Field) (s : String)

/-! ### How expressions are written -/

def Rel.word : Rel → String
  | .eq => "eq"
  | .neq => "neq"
  | .dom => "dom"
  | .domby => "domby"
  | .incomp => "incomp"

def eqWord (negated : Bool) : String := if negated then "neq" else "eq"

/-- `u1`, `r2`, `t3` and so on. -/
def part : Who → Field → String
  | .src, .user => "u1"
  | .tgt, .user => "u2"
  | .third, .user => "u3"
  | .src, .role => "r1"
  | .tgt, .role => "r2"
  | .third, .role => "r3"
  | .src, .type => "t1"
  | .tgt, .type => "t2"
  | .third, .type => "t3"

/-- The two levels that are compared. -/
def Levels.words : Levels → String × String
  | .l1l2 => ("l1", "l2")
  | .l1h2 => ("l1", "h2")
  | .h1l2 => ("h1", "l2")
  | .h1h2 => ("h1", "h2")
  | .l1h1 => ("l1", "h1")
  | .l2h2 => ("l2", "h2")

def Operand.word : Operand → String
  | .t1 => "t1"
  | .t2 => "t2"
  | .t3 => "t3"
  | .r1 => "r1"
  | .r2 => "r2"
  | .r3 => "r3"
  | .u1 => "u1"
  | .u2 => "u2"
  | .u3 => "u3"
  | .l1 => "l1"
  | .l2 => "l2"
  | .h1 => "h1"
  | .h2 => "h2"

def Names.tree : Names → Tree
  | .one s => .atom s
  | .many s l => .list (.atom s :: l.map .atom)

/-- How an expression is written. -/
def Expr.tree : Expr → Tree
  | .same f n => .list [.atom (eqWord n), .atom (part .src f), .atom (part .tgt f)]
  | .roles r => .list [.atom (Rel.word r), .atom "r1", .atom "r2"]
  | .levels ls r => .list [.atom (Rel.word r), .atom (Levels.words ls).1, .atom (Levels.words ls).2]
  | .is w f n ns => .list [.atom (eqWord n), .atom (part w f), ns.tree]
  | .not e => .list [.atom "not", e.tree]
  | .and a b => .list [.atom "and", a.tree, b.tree]
  | .or a b => .list [.atom "or", a.tree, b.tree]
  | .looseL1 r l => .list [.atom (Rel.word r), .atom l.word, .atom "l1"]
  | .looseName r w f s => .list [.atom (Rel.word r), .atom (part w f), .atom s]

/-- The words that are not names when they stand alone. -/
def reserved : List String := ["t1", "t2", "t3", "r1", "r2", "r3", "u1", "u2", "u3", "l1", "l2", "h1", "h2"]

def Names.Ok : Names → Prop
  | .one s => s ∉ reserved
  | .many _ _ => True

/-- Names are not reserved words, and the third context is only compared in statements about transitions
(`vt`). -/
def Expr.Ok (vt : Bool) : Expr → Prop
  | .same _ _ => True
  | .roles _ => True
  | .levels _ _ => True
  | .is w _ _ ns => ns.Ok ∧ (w = .third → vt = true)
  | .not e => e.Ok vt
  | .and a b => a.Ok vt ∧ b.Ok vt
  | .or a b => a.Ok vt ∧ b.Ok vt
  | .looseL1 _ _ => True
  | .looseName r w _ s => r ≠ .eq ∧ r ≠ .neq ∧ s ∉ reserved ∧ (w = .third → vt = true)

/-- The expression is one of the documentation. -/
def Expr.Doc : Expr → Prop
  | .same _ _ => True
  | .roles _ => True
  | .levels _ _ => True
  | .is _ _ _ _ => True
  | .not e => e.Doc
  | .and a b => a.Doc ∧ b.Doc
  | .or a b => a.Doc ∧ b.Doc
  | .looseL1 _ _ => False
  | .looseName _ _ _ _ => False

/-! ### What expressions mean -/

def fieldFlavor : Field → Flavor
  | .user => .user
  | .role => .role
  | .type => .type

/-- The symbol stands for number `i`. -/
def Datum.Mem : Datum → Nat → Prop
  | .one j, i => i = j
  | .attr m _ _, i => Ebitmap.getBit m i = true

/-- The name stands for the user, role or type with the value in the policy. -/
def Named (db : Db) (look : Flavor → String → Option Datum) (f : Field) (s : String) (v : Nat) : Prop :=
  ∃ d i, look (fieldFlavor f) s = some d ∧ d.Mem i ∧ db.value (fieldFlavor f) i = some v

/-- The truth of a relation of levels. -/
def relLevels (a b : Level) : Rel → Prop
  | .eq => Same a b
  | .neq => ¬ Same a b
  | .dom => Dominates a b
  | .domby => Dominates b a
  | .incomp => ¬ Dominates a b ∧ ¬ Dominates b a

/-- The truth of a relation of roles. -/
def relRoles (p : Policy) (a b : Nat) : Rel → Prop
  | .eq => a = b
  | .neq => a ≠ b
  | .dom => RoleDom p a b
  | .domby => RoleDom p b a
  | .incomp => ¬ RoleDom p a b ∧ ¬ RoleDom p b a

/-- The level with this word. -/
def levelOf (s t : Context) (w : String) : Level :=
  if w = "l1" then s.range.low else if w = "h1" then s.range.high else if w = "l2" then t.range.low else t.range.high

/-- `eq` or `neq` of two things that are equal or not. -/
def Eqs (P : Prop) (negated : Bool) : Prop := if negated then ¬ P else P

/-- The truth of an expression for the contexts `s` and `t`, and a third one in statements about
transitions.  The loose forms have no meaning. -/
def Expr.Holds (named : Field → String → Nat → Prop) (p : Policy) (s t : Context) (x : Option Context) : Expr → Prop
  | .same f n => Eqs (f.get s = f.get t) n
  | .roles r => relRoles p s.role t.role r
  | .levels ls r => relLevels (levelOf s t (Levels.words ls).1) (levelOf s t (Levels.words ls).2) r
  | .is w f n ns => ∃ c, w.pick s t x = some c ∧ Eqs (∃ a ∈ ns.all, named f a (f.get c)) n
  | .not e => ¬ e.Holds named p s t x
  | .and a b => a.Holds named p s t x ∧ b.Holds named p s t x
  | .or a b => a.Holds named p s t x ∨ b.Holds named p s t x
  | .looseL1 _ _ => False
  | .looseName _ _ _ _ => False

/-- How many values are kept at once when an expression is evaluated from left to right. -/
def Expr.need : Expr → Nat
  | .not e => e.need
  | .and a b => max a.need (b.need + 1)
  | .or a b => max a.need (b.need + 1)
  | _ => 1

/-! ### What statements cover -/

/-- The class permission item lists class `c`. -/
inductive ListsClass (c : Nat) : CilDeny.CP → Prop
  | cls {ps : List Nat} : ListsClass c (.cls c ps)
  | map {m n : Nat} {ms : List CilDeny.MP} {l : List CilDeny.CP} {x : CilDeny.CP} (h1 : .mk n l ∈ ms) (h2 : x ∈ l)
      (h3 : ListsClass c x) : ListsClass c (.map m ms)
  | set {n : Nat} {l : List CilDeny.CP} {x : CilDeny.CP} (h1 : x ∈ l) (h2 : ListsClass c x) : ListsClass c (.set n l)

/-- The class of a `validatetrans` is `c`, or it is a class map with a permission that class `c` is listed in. -/
def ClassRef.Mem : ClassRef → Nat → Prop
  | .cls d, c => c = d
  | .map ms, c => ∃ n l, .mk n l ∈ ms ∧ ∃ x ∈ l, ListsClass c x

/-! ### What is assumed of a policy -/

/-- The members of attributes are numbers below 2^31. -/
def Datum.Ok : Datum → Prop
  | .one i => i < 2 ^ 31
  | .attr m _ v => Ebitmap.WF m ∧ (∀ i, Ebitmap.getBit m i = true → i < 2 ^ 31) ∧ ∀ n, v = some n → 1 ≤ n ∧ n < 2 ^ 31

/-- Values of classes and permissions are as in `CilBin.DbOk`; values of users, roles and types start from 1
and are below 2^31. -/
structure DbOk (db : Db) (look : Flavor → String → Option Datum) : Prop where
  bin : CilBin.DbOk db.bin
  value : ∀ f i v, db.value f i = some v → 1 ≤ v ∧ v < 2 ^ 31
  datum : ∀ f s d, look f s = some d → d.Ok

/-- The names in an expression, with what they are names of. -/
def Expr.names : Expr → List (Field × String)
  | .is _ f _ ns => ns.all.map fun s => (f, s)
  | .not e => e.names
  | .and a b => a.names ++ b.names
  | .or a b => a.names ++ b.names
  | .looseName _ _ f s => [(f, s)]
  | _ => []

/-- A name is found, and what it stands for is in the policy; a type attribute that is to be an attribute of
the policy is there, if the names of types are kept. -/
def Known (db : Db) (look : Flavor → String → Option Datum) (f : Field) (s : String) : Prop :=
  ∃ d, look (fieldFlavor f) s = some d ∧ (∀ i, d.Mem i → ∃ v, db.value (fieldFlavor f) i = some v) ∧
    ∀ m, d = .attr m true none → f = .type → db.withNames = false

end Verif.CilConstr
