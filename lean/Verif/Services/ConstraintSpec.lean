import Verif.Services.Constraint
import Verif.Mls.Spec

/-!
# Specification of constraints

The meaning of a constraint expression as a proposition over two (or three) contexts, and the
postfix encoding of expression trees.
-/

namespace Verif.Services
open Verif.Policy Verif.Mls

inductive Who | src | tgt | third
deriving DecidableEq

inductive Field | user | role | type
deriving DecidableEq

/-- Which two levels are compared. -/
inductive Levels | l1l2 | l1h2 | h1l2 | h1h2 | l1h1 | l2h2
deriving DecidableEq

inductive Rel | eq | neq | dom | domby | incomp
deriving DecidableEq

/-- Elementary conditions: `u1 == u2`, `r1 dom r2`, `l1 domby h2`, `t3 != { a b }`. -/
inductive Atom
  | same (f : Field) (negated : Bool)
  | roles (r : Rel)
  | levels (ls : Levels) (r : Rel)
  | names (w : Who) (f : Field) (negated : Bool) (set : Ebitmap.Ebitmap)
deriving DecidableEq

inductive Tree
  | atom (a : Atom)
  | not (t : Tree)
  | and (a b : Tree)
  | or (a b : Tree)
deriving DecidableEq

def Field.get (c : Context) : Field → Nat
  | .user => c.user
  | .role => c.role
  | .type => c.type

def Levels.fst (s t : Context) : Levels → Level
  | .l1l2 | .l1h2 | .l1h1 => s.range.low
  | .h1l2 | .h1h2 => s.range.high
  | .l2h2 => t.range.low

def Levels.snd (s t : Context) : Levels → Level
  | .l1l2 | .h1l2 => t.range.low
  | .l1h2 | .h1h2 | .l2h2 => t.range.high
  | .l1h1 => s.range.high

/-- Role `a` dominates role `b` in the policy. -/
def RoleDom (p : Policy) (a b : Nat) : Prop :=
  ∃ d, p.roleStruct (a - 1) = some d ∧ Ebitmap.getBit d.dominates (b - 1) = true

/-- The context meant; the third one may be absent. -/
def Who.pick (s t : Context) (x : Option Context) : Who → Option Context
  | .src => some s
  | .tgt => some t
  | .third => x

/-- The truth of an elementary condition. -/
def Atom.Holds (p : Policy) (s t : Context) (x : Option Context) : Atom → Prop
  | .same f neg => (f.get s = f.get t) ↔ neg = false
  | .roles .eq => s.role = t.role
  | .roles .neq => s.role ≠ t.role
  | .roles .dom => RoleDom p s.role t.role
  | .roles .domby => RoleDom p t.role s.role
  | .roles .incomp => ¬ RoleDom p s.role t.role ∧ ¬ RoleDom p t.role s.role
  | .levels ls .eq => Same (ls.fst s t) (ls.snd s t)
  | .levels ls .neq => ¬ Same (ls.fst s t) (ls.snd s t)
  | .levels ls .dom => Dominates (ls.fst s t) (ls.snd s t)
  | .levels ls .domby => Dominates (ls.snd s t) (ls.fst s t)
  | .levels ls .incomp => ¬ Dominates (ls.fst s t) (ls.snd s t) ∧ ¬ Dominates (ls.snd s t) (ls.fst s t)
  | .names w f neg set =>
    ∃ c, w.pick s t x = some c ∧
      ((Ebitmap.getBit set (f.get c - 1) = true) ↔ neg = false)

/-- The truth of an expression. -/
def Tree.Holds (p : Policy) (s t : Context) (x : Option Context) : Tree → Prop
  | .atom a => a.Holds p s t x
  | .not e => ¬ e.Holds p s t x
  | .and a b => a.Holds p s t x ∧ b.Holds p s t x
  | .or a b => a.Holds p s t x ∨ b.Holds p s t x

/-! ## Encoding -/

def Field.code : Field → Nat
  | .user => 1
  | .role => 2
  | .type => 4

def Who.code : Who → Nat
  | .src => 0
  | .tgt => 8
  | .third => 16

def Levels.code : Levels → Nat
  | .l1l2 => 32
  | .l1h2 => 64
  | .h1l2 => 128
  | .h1h2 => 256
  | .l1h1 => 512
  | .l2h2 => 1024

def Rel.code : Rel → Nat
  | .eq => 1
  | .neq => 2
  | .dom => 3
  | .domby => 4
  | .incomp => 5

/-- The policy-file node `e` expresses the condition `a`. -/
def Denotes (e : CExpr) : Atom → Prop
  | .same f neg => e.exprType = 4 ∧ e.attr = f.code ∧ e.op = if neg then 2 else 1
  | .roles r => e.exprType = 4 ∧ e.attr = 2 ∧ e.op = r.code
  | .levels ls r => e.exprType = 4 ∧ e.attr = ls.code ∧ e.op = r.code
  | .names w f neg set => e.exprType = 5 ∧ e.attr = f.code + w.code ∧ (e.op = if neg then 2 else 1) ∧ e.names = set

/-- `l` is the postfix notation of the expression. -/
inductive Postfix : List CExpr → Tree → Prop
  | atom {e a} : Denotes e a → Postfix [e] (.atom a)
  | not {l t e} : Postfix l t → e.exprType = 1 → Postfix (l ++ [e]) (.not t)
  | and {l1 t1 l2 t2 e} : Postfix l1 t1 → Postfix l2 t2 → e.exprType = 2 → Postfix (l1 ++ (l2 ++ [e])) (.and t1 t2)
  | or {l1 t1 l2 t2 e} : Postfix l1 t1 → Postfix l2 t2 → e.exprType = 3 → Postfix (l1 ++ (l2 ++ [e])) (.or t1 t2)

/-- Number of stack cells needed to evaluate the postfix notation. -/
def Tree.cells : Tree → Nat
  | .atom _ => 1
  | .not t => t.cells
  | .and a b => max a.cells (b.cells + 1)
  | .or a b => max a.cells (b.cells + 1)

/-- The expression mentions the third context of a validatetrans rule. -/
def Tree.usesThird : Tree → Bool
  | .atom (.names .third _ _ _) => true
  | .atom _ => false
  | .not t => t.usesThird
  | .and a b => a.usesThird || b.usesThird
  | .or a b => a.usesThird || b.usesThird

/-- A context of the policy, as far as constraints look at it: identifiers are defined (32-bit,
not 0), the role has a definition, category sets are properly built. -/
structure CtxOk (p : Policy) (c : Context) : Prop where
  user : 1 ≤ c.user ∧ c.user < 2 ^ 32
  type : 1 ≤ c.type ∧ c.type < 2 ^ 32
  role : 1 ≤ c.role ∧ c.role ≤ p.nRoles ∧ c.role < 2 ^ 32
  roleDef : ∃ d, p.roleStruct (c.role - 1) = some d
  range : WFRange c.range

end Verif.Services
