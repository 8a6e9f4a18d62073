import Verif.CilSet.Model
import Verif.Ebitmap.Spec

/-!
# What the set expressions of CIL mean

An expression stands for a set of numbers (of types, roles, users, permissions or categories).
`exprSet` gives this set by recursion on the expression, reading `and`, `or`, `xor`, `not`, `all`
and `range` as the usual operations on subsets of `{0, ..., max - 1}`, and a list without operator
as the union of its members.  `Meaning` says that a family of sets gives every symbol the set its
declaration asks for: a type its own number, an attribute the union of its expressions.
-/

namespace Verif.CilSet

mutual

/-- The set of an item of an expression over `{0, ..., max - 1}`, if `ρ` gives the sets of the
symbols. -/
def itemSet (ρ : Nat → Nat → Prop) (max : Nat) : Item → Nat → Prop
  | .datum d => ρ d
  | .list _ l => exprSet ρ max l
  | .str (some v) => fun n => n = v
  | .str none => fun _ => False
  | .op _ => fun _ => False

/-- The set of an expression. -/
def exprSet (ρ : Nat → Nat → Prop) (max : Nat) : List Item → Nat → Prop
  | .op .all :: _ => fun n => n < max
  | .op .range :: a :: b :: _ => fun n =>
    ∃ lo hi, itemSet ρ max a lo ∧ itemSet ρ max b hi ∧ lo ≤ n ∧ n ≤ hi
  | .op .not :: a :: _ => fun n => n < max ∧ ¬ itemSet ρ max a n
  | .op .or :: a :: b :: _ => fun n => itemSet ρ max a n ∨ itemSet ρ max b n
  | .op .and :: a :: b :: _ => fun n => itemSet ρ max a n ∧ itemSet ρ max b n
  | .op .xor :: a :: b :: _ => fun n => ¬ (itemSet ρ max a n ↔ itemSet ρ max b n)
  | l => unionSet ρ max l

/-- The union of the members of a list. -/
def unionSet (ρ : Nat → Nat → Prop) (max : Nat) : List Item → Nat → Prop
  | [] => fun _ => False
  | i :: is => fun n => itemSet ρ max i n ∨ unionSet ρ max is n

end

/-- `ρ` gives every symbol the set that its declaration and the statements about it ask for. -/
def Meaning (db : Db) (ρ : Nat → Nat → Prop) : Prop :=
  ∀ d n : Nat, match db.datums[d]? with
    | none => ¬ ρ d n
    | some (.type v) | some (.typealias v) | some (.role v) | some (.user v) | some (.perm v)
    | some (.cat v) | some (.catalias v) => ρ d n ↔ n = v
    | some (.typeattribute exprs) => ρ d n ↔ ∃ x ∈ exprs, exprSet ρ db.numTypes x.items n
    | some (.roleattribute exprs) => ρ d n ↔ ∃ x ∈ exprs, exprSet ρ db.numRoles x.items n
    | some (.userattribute exprs) => ρ d n ↔ ∃ x ∈ exprs, exprSet ρ db.numUsers x.items n
    | some (.catset x) => ρ d n ↔ exprSet ρ db.numCats x.items n

/-! ### Which expressions are considered -/

/-- The flavor of expression a datum may appear in. -/
def Datum.flavor : Datum → Flavor
  | .type _ | .typealias _ | .typeattribute _ => .type
  | .role _ | .roleattribute _ => .role
  | .user _ | .userattribute _ => .user
  | .perm _ => .perm
  | .cat _ | .catalias _ | .catset _ => .cat

/-- The numbers of a symbol are below this bound. -/
def Db.num (db : Db) : Flavor → Nat
  | .type => db.numTypes
  | .role => db.numRoles
  | .user => db.numUsers
  | .cat => db.numCats
  | .perm => 2 ^ 31 - 1
  | .permissionx => 0x10000

/-- The number at the end of a range: a category or its alias, or a number in an expression of
extended permissions. -/
def endOf (db : Db) (f : Flavor) : Item → Option Nat
  | .datum d =>
    match f, db.datums[d]? with
    | .cat, some (.cat v) => some v
    | .cat, some (.catalias v) => some v
    | _, _ => none
  | .str (some v) => if f = .permissionx ∧ v ≤ 0xFFFF then some v else none
  | _ => none

mutual

/-- An item as it comes out of the checks of the syntax (`cil_verify_expr_syntax`) and the
resolution of names (`cil_resolve_expr`): symbols are of the kind of the expression, and numbers
appear in expressions of extended permissions only. -/
def itemOk (db : Db) (f : Flavor) : Item → Prop
  | .datum d => f ≠ .permissionx ∧ ∃ x, db.datums[d]? = some x ∧ x.flavor = f
  | .list f' l => f' = f ∧ exprOk db f l
  | .str (some v) => f = .permissionx ∧ v ≤ 0xFFFF
  | .str none => False
  | .op _ => False

/-- A well-formed expression: operators come first, with as many operands as they take; the ends
of a range are single numbers. -/
def exprOk (db : Db) (f : Flavor) : List Item → Prop
  | [.op .all] => True
  | [.op .range, a, b] => (∃ v, endOf db f a = some v) ∧ (∃ v, endOf db f b = some v)
  | [.op .not, a] => itemOk db f a
  | [.op .or, a, b] => itemOk db f a ∧ itemOk db f b
  | [.op .and, a, b] => itemOk db f a ∧ itemOk db f b
  | [.op .xor, a, b] => itemOk db f a ∧ itemOk db f b
  | l => itemsOk db f l

/-- The members of a list without operator. -/
def itemsOk (db : Db) (f : Flavor) : List Item → Prop
  | [] => True
  | i :: is => itemOk db f i ∧ itemsOk db f is

end

/-- A well-formed database: the expressions are well-formed, no attribute or category set refers
to itself through others (`cil_verify_no_self_reference`), numbers are below the number of symbols
of their kind and fit an `int`, the category order has every category, and names in category sets
have been resolved through their aliases (`cil_resolve_name`). -/
structure DbOk (db : Db) : Prop where
  typeExpr : ∀ (d : Nat) (exprs : List Expr), db.datums[d]? = some (.typeattribute exprs) →
    ∀ x ∈ exprs, x.flavor = .type ∧ exprOk db .type x.items
  roleExpr : ∀ (d : Nat) (exprs : List Expr), db.datums[d]? = some (.roleattribute exprs) →
    ∀ x ∈ exprs, x.flavor = .role ∧ exprOk db .role x.items
  userExpr : ∀ (d : Nat) (exprs : List Expr), db.datums[d]? = some (.userattribute exprs) →
    ∀ x ∈ exprs, x.flavor = .user ∧ exprOk db .user x.items
  catExpr : ∀ (d : Nat) (x : Expr), db.datums[d]? = some (.catset x) → x.flavor = .cat ∧ exprOk db .cat x.items
  noAlias : ∀ (d : Nat) (x : Expr) (c v : Nat), db.datums[d]? = some (.catset x) → Item.datum c ∈ x.items →
    db.datums[c]? ≠ some (.catalias v)
  value : ∀ d v : Nat, (db.datums[d]? = some (.type v) ∨ db.datums[d]? = some (.typealias v) →
      v < db.numTypes) ∧ (db.datums[d]? = some (.role v) → v < db.numRoles) ∧
    (db.datums[d]? = some (.user v) → v < db.numUsers) ∧
    (db.datums[d]? = some (.perm v) → v < 2 ^ 31 - 1) ∧
    (db.datums[d]? = some (.cat v) ∨ db.datums[d]? = some (.catalias v) → v < db.numCats)
  int : db.numTypes < 2 ^ 31 ∧ db.numRoles < 2 ^ 31 ∧ db.numUsers < 2 ^ 31 ∧ db.numCats < 2 ^ 31
  catorder : ∀ c ∈ db.catorder, ∃ v, db.datums[c]? = some (.cat v)
  complete : ∀ v < db.numCats, ∃ c ∈ db.catorder, db.datums[c]? = some (.cat v)

mutual

/-- The symbols an item refers to. -/
def itemRefs : Item → List Nat
  | .datum d => [d]
  | .list _ l => itemsRefs l
  | _ => []

/-- The symbols a list refers to. -/
def itemsRefs : List Item → List Nat
  | [] => []
  | i :: is => itemRefs i ++ itemsRefs is

end

/-- The symbols a symbol refers to. -/
def Db.refs (db : Db) (d : Nat) : List Nat :=
  match db.datums[d]? with
  | some (.typeattribute exprs) | some (.roleattribute exprs) | some (.userattribute exprs) =>
    exprs.flatMap fun x => itemsRefs x.items
  | some (.catset x) => itemsRefs x.items
  | _ => []

/-- No symbol refers to itself, directly or through others. -/
def Acyclic (db : Db) : Prop := ∃ rank : Nat → Nat, ∀ d, ∀ c ∈ db.refs d, rank c < rank d

mutual

/-- No range of the item is the wrong way round and `all` is not used if there is nothing. -/
def itemTame (db : Db) (f : Flavor) (max : Nat) : Item → Prop
  | .list _ l => exprTame db f max l
  | _ => True

/-- No range of the expression is the wrong way round and `all` is not used if there is
nothing. -/
def exprTame (db : Db) (f : Flavor) (max : Nat) : List Item → Prop
  | .op .all :: _ => 0 < max
  | .op .range :: a :: b :: _ => ∀ lo hi, endOf db f a = some lo → endOf db f b = some hi → lo ≤ hi
  | l => itemsTame db f max l

/-- The same for the members of a list. -/
def itemsTame (db : Db) (f : Flavor) (max : Nat) : List Item → Prop
  | [] => True
  | i :: is => itemTame db f max i ∧ itemsTame db f max is

end

/-- All expressions of the database are like this. -/
def Tame (db : Db) : Prop :=
  ∀ d : Nat, match db.datums[d]? with
    | some (.typeattribute exprs) => ∀ x ∈ exprs, exprTame db .type db.numTypes x.items
    | some (.roleattribute exprs) => ∀ x ∈ exprs, exprTame db .role db.numRoles x.items
    | some (.userattribute exprs) => ∀ x ∈ exprs, exprTame db .user db.numUsers x.items
    | some (.catset x) => exprTame db .cat db.numCats x.items
    | _ => True

/-! ### What is stored -/

/-- The bitmap is well-formed and has exactly the bits of the set. -/
def BitsOk (e : Ebitmap.Ebitmap) (S : Nat → Prop) : Prop :=
  Ebitmap.WF e ∧ ∀ n, Ebitmap.getBit e n = true ↔ S n

/-- What is stored agrees with the meaning. -/
structure Good (db : Db) (ρ : Nat → Nat → Prop) (m : Memo) : Prop where
  bits : ∀ (d : Nat) (e : Ebitmap.Ebitmap), m.bits d = some e → BitsOk e (ρ d)
  cats : ∀ (d : Nat) (l : List Nat), m.cats d = some l →
    (∀ c ∈ l, ∃ v, db.datums[c]? = some (.cat v)) ∧
    ∀ n, ρ d n ↔ ∃ c ∈ l, db.datums[c]? = some (.cat n)

/-- Nothing has been evaluated yet. -/
def Memo.empty : Memo := ⟨fun _ => none, fun _ => none⟩

end Verif.CilSet
