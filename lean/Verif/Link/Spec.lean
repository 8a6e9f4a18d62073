import Verif.Link.Model
import Verif.Ebitmap.Spec

/-!
# Specification vocabulary for linking

Nothing here refers to the functions of the model except `search`, the look-up in a
symbol table, and `getBit`, the content of a bitmap.
-/

namespace Verif.Link

/-- The scope tables say that the declaration numbered `id` declares the symbol. -/
def Declares (p : Pol) (k : Kind) (name : String) (id : Nat) : Prop :=
  ∃ s, search (p.scope k) name = some s ∧ s.decl = true ∧ id ∈ s.declIds

/-- The declaration requires the symbol (or uses it, having required it). -/
def Needs (p : Pol) (d : Decl) (k : Kind) (name : String) : Prop :=
  ∃ j ∈ d.required k, (p.names k)[j]? = some name

/-- `d` is the body of a block: of a global block or of an `optional` statement, not of
an `else`. -/
def Body (bs : List Block) (d : Decl) : Prop := ∃ b ∈ bs, b.branches.head? = some d

/-- `d` is the body of a block that is not optional. -/
def Mandatory (bs : List Block) (d : Decl) : Prop :=
  ∃ b ∈ bs, b.optional = false ∧ b.branches.head? = some d

/-- A set of bodies (given by their numbers) that can be switched on together: whatever
one of them requires is declared by one of them. -/
def Supported (p : Pol) (bs : List Block) (S : Nat → Prop) : Prop :=
  ∀ id, S id → ∃ d, Body bs d ∧ d.id = id ∧
    ∀ k name, Needs p d k name → ∃ d', Body bs d' ∧ S d'.id ∧ Declares p k name d'.id

/-- The largest such set. -/
def Greatest (p : Pol) (bs : List Block) (S : Nat → Prop) : Prop :=
  Supported p bs S ∧ ∀ T, Supported p bs T → ∀ id, T id → S id

/-- What the earlier steps of linking guarantee (the indices are in range, the numbers of
the declarations are distinct, only roles and users are declared more than once) and what
the compiler guarantees (the classes are numbered in the order of their declarations in
the base policy, see the comment at link.c:288-296). -/
structure LinkOk (p : Pol) (bs : List Block) : Prop where
  /-- every block has a body -/
  body : ∀ b ∈ bs, b.branches ≠ []
  /-- the numbers of the declarations are distinct -/
  ids : (bs.flatMap fun b => b.branches.map (·.id)).Nodup
  /-- the scope tables refer to existing numbers -/
  scope : ∀ k name id, Declares p k name id → 1 ≤ id ∧ id ≤ p.declLen
  /-- only roles and users have several declarations -/
  one : ∀ k name s, k ≠ .roles → k ≠ .users → search (p.scope k) name = some s →
    s.decl = true → s.declIds.length ≤ 1
  /-- required symbols have names -/
  names : ∀ b ∈ bs, ∀ d ∈ b.branches, ∀ k, ∀ j ∈ d.required k, j < (p.names k).length
  /-- the classes are indexed -/
  classes : p.classes.length = (p.names .classes).length
  /-- the permission map reaches up to the largest class that is required -/
  lastClass : ∀ b ∈ bs, ∀ d ∈ b.branches,
    (∀ j ∈ d.required .classes, j < d.classPerms.length) ∧
    (d.classPerms ≠ [] → d.classPerms.length - 1 ∈ d.required .classes)
  /-- whoever declares a class declares the classes numbered before it too -/
  order : ∀ (i j : Nat) a b id, i ≤ j → (p.names .classes)[i]? = some a → (p.names .classes)[j]? = some b →
    Declares p .classes b id → Declares p .classes a id
  /-- required permissions have names -/
  perms : ∀ b ∈ bs, ∀ d ∈ b.branches, ∀ (i : Nat) (js : List Nat) (c : Class), d.classPerms[i]? = some js → p.classes[i]? = some c →
    ∀ j ∈ js, ∃ n, (n, j + 1) ∈ c.perms ++ c.common.getD []

/-- The classes that a mandatory body requires are declared by mandatory bodies. -/
def ClassesDeclared (p : Pol) (bs : List Block) : Prop :=
  ∀ d, Mandatory bs d → ∀ name, Needs p d .classes name →
    ∃ d', Mandatory bs d' ∧ Declares p .classes name d'.id

/-- `e` is the `else` of the optional statement with the body `d`. -/
def Else (bs : List Block) (d e : Decl) : Prop := ∃ b ∈ bs.tail, ∃ ds, b.branches = d :: e :: ds

/-- A block without its switches. -/
def bare (b : Block) : Block :=
  { b with branches := b.branches.map fun d => { d with enabled := false }, enabled := none }

/-- The declaration with this number is switched on in the blocks. -/
def On (bs : List Block) (id : Nat) : Prop :=
  ∃ b ∈ bs, ∃ d ∈ b.branches, d.id = id ∧ d.enabled = true

/-! ### Role attributes -/

/-- The attribute with number `a` was given the role or attribute with number `i`, by the base
policy or by one of the declarations `ds`. -/
def Member (rs : List Role) (ds : List DeclRole) (a i : Nat) : Prop :=
  ∃ r, rs[a]? = some r ∧ r.attr = true ∧
    (Ebitmap.getBit r.roles i = true ∨ ∃ d ∈ ds, d.attr = true ∧ d.name = r.name ∧ Ebitmap.getBit d.roles i = true)

/-- Membership through any number of attributes. -/
inductive Within (M : Nat → Nat → Prop) : Nat → Nat → Prop
  | direct {a i : Nat} : M a i → Within M a i
  | through {a b i : Nat} : M a b → Within M b i → Within M a i

/-- The role with number `i` exists and is not an attribute. -/
def Plain (rs : List Role) (i : Nat) : Prop := ∃ r, rs[i]? = some r ∧ r.attr = false

/-- What the earlier steps of linking guarantee: the names are distinct, the bitmaps are well
formed and refer to existing roles, the attributes of the declarations exist in the base, and
`object_r` is not an attribute. -/
structure RolesOk (rs : List Role) (ds : List DeclRole) : Prop where
  names : (rs.map (·.name)).Nodup
  wf : ∀ r ∈ rs, Ebitmap.WF r.roles
  bits : ∀ r ∈ rs, ∀ i, Ebitmap.getBit r.roles i = true → i < rs.length
  size : rs.length < 2 ^ 32 - 64
  object : ∀ r ∈ rs, r.name = "object_r" → r.attr = false
  declWf : ∀ d ∈ ds, Ebitmap.WF d.roles
  declBits : ∀ d ∈ ds, ∀ i, Ebitmap.getBit d.roles i = true → i < rs.length
  declName : ∀ d ∈ ds, d.attr = true → ∃ r ∈ rs, r.name = d.name ∧ r.attr = true

/-- No attribute is, through other attributes, a member of itself. -/
def Acyclic (rs : List Role) (ds : List DeclRole) : Prop :=
  ∃ rank : Nat → Nat, ∀ a b, Member rs ds a b → (∃ r, rs[b]? = some r ∧ r.attr = true) → rank b < rank a

end Verif.Link
