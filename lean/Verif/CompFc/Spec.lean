import Verif.CompFc.Model
/-!
# Specification: what a compiled file keeps
-/
namespace Verif.CompFc.Spec
open Verif.FileLabel (Node Lit Re Data strcmp)

/-- A literal in a compiled file has no line number. -/
def keepLit (l : Lit) : Lit := { l with lineno := 0 }

/-- An expression belongs to the input file that is being read. -/
def keepRe (input : Nat) (r : Re) : Re := { r with inputno := input }

mutual
/-- What is kept of a tree. -/
def keep (input : Nat) : Node → Node
  | .mk s ls rs cs => .mk s (ls.map keepLit) (rs.map (keepRe input)) (keeps input cs)
/-- What is kept of trees. -/
def keeps (input : Nat) : List Node → List Node
  | [] => []
  | c :: cs => keep input c :: keeps input cs
end

/-- A node of a tree. -/
inductive Within : Node → Node → Prop
  | here (n : Node) : Within n n
  | child {n m c : Node} (hc : c ∈ n.children) (h : Within c m) : Within n m

/-- The bytes of a literal in a compiled file. -/
def litBytes (l : Lit) : Nat := 11 + l.regexStr.length + l.literalMatch.length

/-- The literals of a node are long enough on average: they take 16 bytes each, up to
8 bytes less in sum. -/
def Roomy (n : Node) : Prop := 16 * n.lits.length ≤ (n.lits.map litBytes).sum + 8

/-- The contexts of a tree. -/
def HasCtx (n : Node) (c : Bytes) : Prop :=
  ∃ m, Within n m ∧ ((∃ l ∈ m.lits, l.ctx = c) ∨ ∃ r ∈ m.res, r.ctx = c)

/-- The numbers of entries fit into 32 bits. -/
def Small (n : Node) : Prop :=
  n.lits.length < 4294967295 ∧ n.res.length < 4294967295 ∧ n.children.length < 4294967295

/-- PCRE can read back what it serialized, whatever comes after it. -/
def Pcre (ser : Bytes → Option Bytes) (decode : Bytes → Dec) : Prop :=
  ∀ r x rest, ser r = some x → decode (x ++ rest) = .one

/-- A string that is not empty and has no NUL. -/
def Text (s : Bytes) : Prop := s ≠ [] ∧ 0 ∉ s

/-- A literal that the reader accepts. -/
structure LitIn (t : List Bytes) (l : Lit) : Prop where
  ctx : l.ctx ∈ t
  regex : Text l.regexStr
  lit : Text l.literalMatch
  plen : l.prefixLen ≤ l.regexStr.length
  kind : l.kind < 256

/-- An expression that the reader accepts. -/
structure ReIn (t : List Bytes) (input : Nat) (r : Re) : Prop where
  ctx : r.ctx ∈ t
  regex : Text r.regexStr
  plen : r.prefixLen ≤ r.regexStr.length
  kind : r.kind < 256
  line : 0 < r.lineno
  line' : r.lineno < 4294967295
  input : r.inputno = input

/-- A tree that the reader accepts, of at most `k` levels. -/
inductive Shape (t : List Bytes) (input : Nat) : Nat → Bool → Node → Prop
  | mk {k : Nat} {top : Bool} {s : Bytes} {ls : List Lit} {rs : List Re} {cs : List Node}
      (stem : if top then s = [] else Text s) (lits : ∀ l ∈ ls, LitIn t l) (res : ∀ r ∈ rs, ReIn t input r)
      (kids : ∀ c ∈ cs, Shape t input k false c) (order : cs.Pairwise (fun a b => strcmp a.stem b.stem < 0))
      (some_ : top = true ∨ ls ≠ [] ∨ rs ≠ [] ∨ cs ≠ []) : Shape t input (k + 1) top (.mk s ls rs cs)

end Verif.CompFc.Spec
