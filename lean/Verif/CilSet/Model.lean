import Verif.Ebitmap.Model

/-!
# Model of the evaluation of set expressions in CIL

The part of libsepol/cil/src/cil_post.c that turns the expressions of attributes, category sets
and permission lists into bitmaps (`__cil_expr_to_bitmap` and the functions around it), with the
results kept in the attributes and category sets, and the assignment of types to roles and roles
to users.

Simplifications: symbols are numbered, a pointer to a datum is its number; allocation succeeds;
messages are left out; a string of a `permissionx` expression is represented by the number
`strtol` reads from it, if `__cil_permx_str_to_int` accepts it.  What the C code leaves behind in
the datums when it fails is not modelled, since the compilation then ends.  Calls nest as deep as
the expressions do; the models take the depth as fuel and have no result if it is too small.
-/

namespace Verif.CilSet
open Ebitmap (Ebitmap)

/-- The flavors of expression lists, cil_flavor.h. -/
inductive Flavor
  | type | role | user | perm | cat | permissionx
deriving DecidableEq, Repr

/-- The operators, cil_flavor.h. -/
inductive Op
  | all | range | not | or | and | xor | other
deriving DecidableEq, Repr

/-- `struct cil_list_item`, cil_list.h: an operator, a datum, a list of its own flavor, or a
string. -/
inductive Item
  | op (o : Op)
  | datum (d : Nat)
  | list (f : Flavor) (l : List Item)
  | str (v : Option Nat)

/-- `struct cil_list` of an expression. -/
structure Expr where
  flavor : Flavor
  items : List Item

/-- The datums an expression can refer to, with the flavor of their first node.  Values are those
given by `__cil_post_db_count_helper`, cil_post.c:572-678, and `cil_set_cat_values`; an alias
carries the value of the symbol it stands for. -/
inductive Datum
  | type (value : Nat)
  | typealias (value : Nat)
  | typeattribute (exprs : List Expr)
  | role (value : Nat)
  | roleattribute (exprs : List Expr)
  | user (value : Nat)
  | userattribute (exprs : List Expr)
  | perm (value : Nat)
  | cat (value : Nat)
  | catalias (value : Nat)
  | catset (expr : Expr)

/-- The parts of `struct cil_db` that are read: the datums, the numbers of types, roles, users
and categories, and the ordered categories. -/
structure Db where
  datums : List Datum
  numTypes : Nat
  numRoles : Nat
  numUsers : Nat
  numCats : Nat
  catorder : List Nat

/-- What is stored in the datums: the bitmaps of the evaluated attributes (`attr->types`,
`attr->roles`, `attr->users`), and the lists of categories of the category sets with
`cats->evaluated`. -/
structure Memo where
  bits : Nat → Option Ebitmap
  cats : Nat → Option (List Nat)

/-- What the program does instead of going on: an error, or undefined behaviour. -/
inductive Stop
  | err | ub
deriving DecidableEq, Repr

/-- A result, if the depth suffices. -/
abbrev Res (α : Type) := Option (Except Stop α)

/-- `ebitmap_set_bit(&b, value, 1)`. -/
def setBit (e : Ebitmap) (v : Nat) : Except Stop Ebitmap :=
  match Ebitmap.setBit e v true with
  | none => .error .err
  | some e => .ok e

/-- `((struct cil_cat *)curr->data)->value`; anything but a category is read as one. -/
def catValue (db : Db) : Item → Except Stop Nat
  | .datum d =>
    match db.datums[d]? with
    | some (.cat v) => .ok v
    | _ => .error .ub
  | _ => .error .ub

/-- The loop over the categories of a set that has been evaluated, or is a list of categories,
cil_post.c:1162-1169. -/
def catList (db : Db) : Ebitmap → List Item → Except Stop Ebitmap
  | e, [] => .ok e
  | e, i :: is =>
    match catValue db i with
    | .error s => .error s
    | .ok v =>
      match setBit e v with
      | .error s => .error s
      | .ok e => catList db e is

/-- `cil_verify_is_list`, cil_post.c:143-167.  It reads an item that is not a list or an operator
as a datum if the flavor is that of categories. -/
def isList (db : Db) (f : Flavor) : List Item → Except Stop Bool
  | [] => .ok true
  | .list _ _ :: _ => .ok false
  | .op _ :: _ => .ok false
  | .datum d :: is =>
    if f = .cat then
      match db.datums[d]? with
      | some (.catset _) => .ok false
      | some _ => isList db f is
      | none => .error .ub
    else isList db f is
  | .str _ :: is => if f = .cat then .error .ub else isList db f is

/-- `__cil_cat_expr_range_to_bitmap_helper`, cil_post.c:1192-1232. -/
def catEnd (db : Db) : Item → Except Stop Nat
  | .datum d =>
    match db.datums[d]? with
    | some (.cat v) => .ok v
    | some (.catalias v) => .ok v
    | some (.catset _) => .error .err
    | _ => .error .ub
  | _ => .error .ub

/-- `__cil_cat_expr_range_to_bitmap_helper`, cil_post.c:1192-1232. -/
def catRange (db : Db) (i1 i2 : Item) : Except Stop Ebitmap :=
  match catEnd db i1 with
  | .error s => .error s
  | .ok v1 =>
    match catEnd db i2 with
    | .error s => .error s
    | .ok v2 =>
      if v1 > v2 then .error .err
      else match Ebitmap.initRange v1 v2 with
        | none => .error .err
        | some e => .ok e

/-- `__cil_permx_str_to_int`, cil_post.c:1043-1063, on the number that `strtol` has read. -/
def permxValue : Item → Except Stop Nat
  | .str (some v) => if v > 0xFFFF then .error .err else .ok v
  | .str none => .error .err
  | _ => .error .ub

/-- `__cil_permissionx_expr_range_to_bitmap_helper`, cil_post.c:1234-1262. -/
def permxRange (i1 i2 : Item) : Except Stop Ebitmap :=
  match permxValue i1 with
  | .error s => .error s
  | .ok v1 =>
    match permxValue i2 with
    | .error s => .error s
    | .ok v2 =>
      match Ebitmap.initRange v1 v2 with
      | none => .error .err
      | some e => .ok e

/-- `ebitmap_not` with the number of rounds its loop needs. -/
def complement (e : Ebitmap) (max : Nat) : Option Ebitmap := Ebitmap.notFuel ((max + 63) / 64 + 1) e max

/-- `ebitmap_init_range(&tmp, 0, max - 1)`; `max - 1` is an `int`, passed as `unsigned int`. -/
def everything (max : Nat) : Option Ebitmap :=
  Ebitmap.initRange 0 (if max = 0 then 4294967295 else max - 1)

/-- Storing the bitmap of the attribute `d`. -/
def Memo.setBits (m : Memo) (d : Nat) (e : Ebitmap) : Memo :=
  { m with bits := fun x => if x = d then some e else m.bits x }

/-- Storing the list of the category set `d`. -/
def Memo.setCats (m : Memo) (d : Nat) (l : List Nat) : Memo :=
  { m with cats := fun x => if x = d then some l else m.cats x }

/-- The loop that makes the new list of a category set, cil_post.c:1126-1133: the categories of
`db->catorder` with their bits set. -/
def catFilter (db : Db) (e : Ebitmap) : Except Stop (List Nat) :=
  db.catorder.foldr (fun c r =>
    match r with
    | .error s => .error s
    | .ok l =>
      match catValue db (.datum c) with
      | .error s => .error s
      | .ok v => .ok (if Ebitmap.getBit e v then c :: l else l)) (.ok [])

mutual

/-- `__cil_expr_to_bitmap`, cil_post.c:1304-1418, with an empty `out`. -/
def exprBits (db : Db) : Nat → Memo → Nat → Expr → Res (Memo × Ebitmap)
  | 0, _, _, _ => none
  | fuel + 1, m, max, ⟨f, items⟩ =>
    match items with
    | [] => some (.ok (m, Ebitmap.init))
    | .op o :: args =>
      match o with
      | .all =>
        match everything max with
        | none => some (.error .err)
        | some e => some (.ok (m, Ebitmap.union Ebitmap.init e))
      | .range =>
        match args with
        | i1 :: i2 :: _ =>
          if f = .cat then
            match catRange db i1 i2 with
            | .error s => some (.error s)
            | .ok e => some (.ok (m, Ebitmap.union Ebitmap.init e))
          else if f = .permissionx then
            match permxRange i1 i2 with
            | .error s => some (.error s)
            | .ok e => some (.ok (m, Ebitmap.union Ebitmap.init e))
          else some (.error .err)
        | _ => some (.error .ub)
      | .not =>
        match args with
        | i1 :: _ =>
          match itemBits db fuel m f max i1 with
          | none => none
          | some (.error s) => some (.error s)
          | some (.ok (m, b1)) =>
            match complement b1 max with
            | none => none
            | some e => some (.ok (m, Ebitmap.union Ebitmap.init e))
        | _ => some (.error .ub)
      | o =>
        match args with
        | i1 :: i2 :: _ =>
          match itemBits db fuel m f max i1 with
          | none => none
          | some (.error s) => some (.error s)
          | some (.ok (m, b1)) =>
            match itemBits db fuel m f max i2 with
            | none => none
            | some (.error s) => some (.error s)
            | some (.ok (m, b2)) =>
              match o with
              | .or => some (.ok (m, Ebitmap.union Ebitmap.init (Ebitmap.or b1 b2)))
              | .and => some (.ok (m, Ebitmap.union Ebitmap.init (Ebitmap.and b1 b2)))
              | .xor => some (.ok (m, Ebitmap.union Ebitmap.init (Ebitmap.xor b1 b2)))
              | _ => some (.error .err)
        | _ => some (.error .ub)
    | items =>
      match listBits db fuel m f max Ebitmap.init items with
      | none => none
      | some (.error s) => some (.error s)
      | some (.ok (m, e)) => some (.ok (m, Ebitmap.union Ebitmap.init e))

/-- The loop over the operands of a list without operator, cil_post.c:1385-1404. -/
def listBits (db : Db) :
    Nat → Memo → Flavor → Nat → Ebitmap → List Item → Res (Memo × Ebitmap)
  | 0, _, _, _, _, _ => none
  | _ + 1, m, _, _, tmp, [] => some (.ok (m, tmp))
  | fuel + 1, m, f, max, tmp, i :: is =>
    match itemBits db fuel m f max i with
    | none => none
    | some (.error s) => some (.error s)
    | some (.ok (m, b2)) => listBits db fuel m f max (Ebitmap.or tmp b2) is

/-- `__cil_expr_to_bitmap_helper`, cil_post.c:1264-1302. -/
def itemBits (db : Db) : Nat → Memo → Flavor → Nat → Item → Res (Memo × Ebitmap)
  | 0, _, _, _, _ => none
  | fuel + 1, m, f, max, i =>
    match i with
    | .datum d =>
      if f = .permissionx then some (.error .err) else datumBits db fuel m f d
    | .list f' l => exprBits db fuel m max ⟨f', l⟩
    | i =>
      if f = .permissionx then
        match permxValue i with
        | .error s => some (.error s)
        | .ok v =>
          match setBit Ebitmap.init v with
          | .error s => some (.error s)
          | .ok e => some (.ok (m, e))
      else some (.error .err)

/-- `__cil_type_to_bitmap`, `__cil_user_to_bitmap`, `__cil_role_to_bitmap`,
`__cil_perm_to_bitmap`, `__cil_cat_to_bitmap`, cil_post.c:896-931, 948-979, 996-1023, 1088-1101,
1147-1190.  A datum of another kind is read as one of the kind of the function. -/
def datumBits (db : Db) : Nat → Memo → Flavor → Nat → Res (Memo × Ebitmap)
  | 0, _, _, _ => none
  | fuel + 1, m, f, d =>
    let one (v : Nat) : Res (Memo × Ebitmap) :=
      match setBit Ebitmap.init v with
      | .error s => some (.error s)
      | .ok e => some (.ok (m, e))
    let attr (max : Nat) (exprs : List Expr) : Res (Memo × Ebitmap) :=
      match m.bits d with
      | some e => some (.ok (m, Ebitmap.union Ebitmap.init e))
      | none =>
        match attrBits db fuel m d max exprs with
        | none => none
        | some (.error s) => some (.error s)
        | some (.ok (m, e)) => some (.ok (m, Ebitmap.union Ebitmap.init e))
    match f, db.datums[d]? with
    | .type, some (.typeattribute exprs) => attr db.numTypes exprs
    | .type, some (.typealias v) => one v
    | .type, some (.type v) => one v
    | .role, some (.roleattribute exprs) => attr db.numRoles exprs
    | .role, some (.role v) => one v
    | .user, some (.userattribute exprs) => attr db.numUsers exprs
    | .user, some (.user v) => one v
    | .perm, some (.perm v) => one v
    | .cat, some (.catset e) =>
      match catsBits db fuel m d e with
      | none => none
      | some (.error s) => some (.error s)
      | some (.ok (m, l)) =>
        match catList db Ebitmap.init l with
        | .error s => some (.error s)
        | .ok e => some (.ok (m, e))
    | .cat, some (.catalias v) => one v
    | .cat, some (.cat v) => one v
    | _, _ => some (.error .ub)

/-- `__evaluate_type_expression`, `__evaluate_user_expression`, `__evaluate_role_expression`,
cil_post.c:881-894, 933-946, 981-994. -/
def attrBits (db : Db) : Nat → Memo → Nat → Nat → List Expr → Res (Memo × Ebitmap)
  | 0, _, _, _, _ => none
  | fuel + 1, m, d, max, exprs =>
    match exprsBits db fuel m max Ebitmap.init exprs with
    | none => none
    | some (.error s) => some (.error s)
    | some (.ok (m, e)) => some (.ok (m.setBits d e, e))

/-- `__cil_expr_list_to_bitmap`, cil_post.c:1420-1449. -/
def exprsBits (db : Db) : Nat → Memo → Nat → Ebitmap → List Expr → Res (Memo × Ebitmap)
  | 0, _, _, _, _ => none
  | _ + 1, m, _, out, [] => some (.ok (m, out))
  | fuel + 1, m, max, out, x :: xs =>
    match exprBits db fuel m max x with
    | none => none
    | some (.error .ub) => some (.error .ub)
    | some (.error .err) => some (.error .err)
    | some (.ok (m, e)) => exprsBits db fuel m max (Ebitmap.union out e) xs

/-- `__evaluate_cat_expression`, cil_post.c:1103-1145: the items of `datum_expr` afterwards. -/
def catsBits (db : Db) : Nat → Memo → Nat → Expr → Res (Memo × List Item)
  | 0, _, _, _ => none
  | fuel + 1, m, d, x =>
    match m.cats d with
    | some l => some (.ok (m, l.map Item.datum))
    | none =>
      match isList db .cat x.items with
      | .error s => some (.error s)
      | .ok true => some (.ok (m, x.items))
      | .ok false =>
        match exprBits db fuel m db.numCats x with
        | none => none
        | some (.error s) => some (.error s)
        | some (.ok (m, e)) =>
          match catFilter db e with
          | .error s => some (.error s)
          | .ok l => some (.ok (m.setCats d l, l.map Item.datum))

end

/-! ### The walks over the tree -/

/-- The expressions of an attribute and the number of symbols of its kind. -/
def Db.attribute (db : Db) (d : Nat) : Option (Nat × List Expr) :=
  match db.datums[d]? with
  | some (.typeattribute exprs) => some (db.numTypes, exprs)
  | some (.roleattribute exprs) => some (db.numRoles, exprs)
  | some (.userattribute exprs) => some (db.numUsers, exprs)
  | _ => none

/-- The visits of `__cil_post_db_attr_helper`, cil_post.c:1543-1609, to attributes, in the order
`ds` of their nodes. -/
def evalAttrs (db : Db) (fuel : Nat) : Memo → List Nat → Res Memo
  | m, [] => some (.ok m)
  | m, d :: ds =>
    match db.attribute d with
    | none => evalAttrs db fuel m ds
    | some (max, exprs) =>
      match m.bits d with
      | some _ => evalAttrs db fuel m ds
      | none =>
        match attrBits db fuel m d max exprs with
        | none => none
        | some (.error s) => some (.error s)
        | some (.ok (m, _)) => evalAttrs db fuel m ds

/-- The visits of `__cil_post_db_cat_helper`, cil_post.c:1824-2034, to category sets. -/
def evalCats (db : Db) (fuel : Nat) : Memo → List Nat → Res Memo
  | m, [] => some (.ok m)
  | m, d :: ds =>
    match db.datums[d]? with
    | some (.catset x) =>
      match catsBits db fuel m d x with
      | none => none
      | some (.error s) => some (.error s)
      | some (.ok (m, _)) => evalCats db fuel m ds
    | _ => evalCats db fuel m ds

/-- `__evaluate_permissionx_expression`, cil_post.c:1025-1041. -/
def permxBits (db : Db) (fuel : Nat) (m : Memo) (x : Expr) : Res (Memo × Ebitmap) :=
  exprBits db fuel m 0x10000 x

/-! ### The types of roles and the roles of users -/

/-- `__cil_role_assign_types`, cil_post.c:1611-1642: the bitmap of a role, which may be absent,
after a type, an alias or an attribute has been put into it.  Other datums change nothing. -/
def assignTypes (db : Db) (m : Memo) (old : Option Ebitmap) (t : Nat) :
    Except Stop (Option Ebitmap) :=
  let e := old.getD Ebitmap.init
  match db.datums[t]? with
  | some (.type v) | some (.typealias v) =>
    match setBit e v with
    | .error s => .error s
    | .ok e => .ok (some e)
  | some (.typeattribute _) =>
    match m.bits t with
    | none => .error .ub
    | some b => .ok (some (Ebitmap.union e b))
  | some _ => .ok (some e)
  | none => .error .ub

/-- `__cil_user_assign_roles`, cil_post.c:1700-1727. -/
def assignRoles (db : Db) (m : Memo) (old : Option Ebitmap) (r : Nat) :
    Except Stop (Option Ebitmap) :=
  let e := old.getD Ebitmap.init
  match db.datums[r]? with
  | some (.role v) =>
    match setBit e v with
    | .error s => .error s
    | .ok e => .ok (some e)
  | some (.roleattribute _) =>
    match m.bits r with
    | none => .error .ub
    | some b => .ok (some (Ebitmap.union e b))
  | some _ => .ok (some e)
  | none => .error .ub

/-- `ebitmap_for_each_positive_bit`, with the number of rounds its loop needs. -/
def positiveBits (e : Ebitmap) : Option (List Nat) := Ebitmap.forEachPositiveBit (e.highbit + 1) e

/-- The bitmaps of the roles (`role->types`) or users (`user->roles`), by value. -/
abbrev Assigned := Nat → Option Ebitmap

/-- The loop over the positive bits of an attribute in `__cil_post_db_roletype_helper` and
`__cil_post_db_userrole_helper`, cil_post.c:1668-1677, 1764-1771; `val_to_role[i]` and
`val_to_user[i]` have the value `i`, and are missing (`NULL`) for other values. -/
def assignAll (num : Nat) (assign : Option Ebitmap → Except Stop (Option Ebitmap)) :
    Assigned → List Nat → Except Stop Assigned
  | a, [] => .ok a
  | a, v :: vs =>
    if v < num then
      match assign (a v) with
      | .error s => .error s
      | .ok e => assignAll num assign (fun x => if x = v then e else a x) vs
    else .error .ub

/-- `__cil_post_db_roletype_helper`, cil_post.c:1644-1698, on the statements in the order of the
tree: pairs of a role or role attribute and a type, alias or attribute. -/
def roleTypes (db : Db) (m : Memo) : Assigned → List (Nat × Nat) → Except Stop Assigned
  | a, [] => .ok a
  | a, (r, t) :: rest =>
    match db.datums[r]? with
    | some (.roleattribute _) =>
      match m.bits r with
      | none => .error .ub
      | some b =>
        match positiveBits b with
        | none => .error .ub
        | some vs =>
          match assignAll db.numRoles (fun old => assignTypes db m old t) a vs with
          | .error s => .error s
          | .ok a => roleTypes db m a rest
    | some (.role v) =>
      match assignTypes db m (a v) t with
      | .error s => .error s
      | .ok e => roleTypes db m (fun x => if x = v then e else a x) rest
    | _ => .error .ub

/-- `__cil_post_db_userrole_helper`, cil_post.c:1729-1791. -/
def userRoles (db : Db) (m : Memo) : Assigned → List (Nat × Nat) → Except Stop Assigned
  | a, [] => .ok a
  | a, (u, r) :: rest =>
    match db.datums[u]? with
    | some (.userattribute _) =>
      match m.bits u with
      | none => .error .ub
      | some b =>
        match positiveBits b with
        | none => .error .ub
        | some vs =>
          match assignAll db.numUsers (fun old => assignRoles db m old r) a vs with
          | .error s => .error s
          | .ok a => userRoles db m a rest
    | some (.user v) =>
      match assignRoles db m (a v) r with
      | .error s => .error s
      | .ok e => userRoles db m (fun x => if x = v then e else a x) rest
    | _ => .error .ub

/-! ### The check for self-reference -/

mutual

/-- `cil_verify_no_self_reference`, cil_verify.c:447-495: `stack` has the symbols being visited. -/
def noSelf (db : Db) : Nat → List Nat → Nat → Option Bool
  | 0, _, _ => none
  | fuel + 1, stack, d =>
    if d ∈ stack then some false
    else match db.datums[d]? with
      | some (.userattribute exprs) => noSelfExprs db fuel (d :: stack) exprs
      | some (.roleattribute exprs) => noSelfExprs db fuel (d :: stack) exprs
      | some (.typeattribute exprs) => noSelfExprs db fuel (d :: stack) exprs
      | some (.catset x) => noSelfItems db fuel (d :: stack) x.items
      | _ => some true

/-- `__verify_no_self_reference_in_expr`, cil_verify.c:423-445, on a list of expressions. -/
def noSelfExprs (db : Db) : Nat → List Nat → List Expr → Option Bool
  | 0, _, _ => none
  | _ + 1, _, [] => some true
  | fuel + 1, stack, x :: xs =>
    match noSelfItems db fuel stack x.items with
    | none => none
    | some false => some false
    | some true => noSelfExprs db fuel stack xs

/-- `__verify_no_self_reference_in_expr`, cil_verify.c:423-445, on an expression. -/
def noSelfItems (db : Db) : Nat → List Nat → List Item → Option Bool
  | 0, _, _ => none
  | _ + 1, _, [] => some true
  | fuel + 1, stack, i :: is =>
    match i with
    | .datum d =>
      match noSelf db fuel stack d with
      | none => none
      | some false => some false
      | some true => noSelfItems db fuel stack is
    | .list _ l =>
      match noSelfItems db fuel stack l with
      | none => none
      | some false => some false
      | some true => noSelfItems db fuel stack is
    | _ => noSelfItems db fuel stack is

end

end Verif.CilSet
