import Verif.Cond.Model

/-!
# Model of the conditionals of CIL

The statements `booleanif` and `tunableif`: reading the expression,
libsepol/cil/src/cil_build_ast.c:2645-2738 and 2924-2978 with cil_verify.c:146-251 and 366-399;
choosing a block of a `tunableif`, cil_resolve_ast.c:3152-3242 and 3259-3365; and compiling a
`booleanif`, cil_binary.c:2252-2620.

The rules of a block are numbers, as in `Cond.Model`; how a rule is written into the lists of a
conditional is the subject of `CilBin.Model`.  Looking up a name from the place of the statement is
a parameter.  Allocation succeeds, messages are left out, and `none` is a return code other than
`SEPOL_OK`.
-/

namespace Verif.CilCond
open Cond (Tok Node State)

/-! ### Reading an expression -/

/-- A node of the parse tree, `struct cil_tree_node`, with its children: `data` is a string and
there are no children, or `data` is NULL. -/
inductive Tree where
  | atom (s : String)
  | list (l : List Tree)

/-- The operators of expressions, cil_flavor.h. -/
inductive Op where
  | and
  | or
  | not
  | eq
  | neq
  | xor
  | all
  | range
deriving DecidableEq

/-- `__cil_get_expr_operator_flavor`, cil_build_ast.c:2645-2657, of a string; `none` is
`CIL_NONE`. -/
def opOf (s : String) : Option Op :=
  if s = "and" then some .and
  else if s = "or" then some .or
  else if s = "not" then some .not
  else if s = "eq" then some .eq
  else if s = "neq" then some .neq
  else if s = "xor" then some .xor
  else if s = "all" then some .all
  else if s = "range" then some .range
  else none

/-- The flags `enum cil_syntax`, cil_verify.h:40-47. -/
structure Syn where
  string : Bool := false
  nStrings : Bool := false
  list : Bool := false
  nLists : Bool := false
  emptyList : Bool := false
  stop : Bool := false

/-- The inner loop of `__cil_verify_syntax`, cil_verify.c:161-169. -/
def verifyRest (s : Syn) : List Tree → Bool
  | [] => true
  | .list (_ :: _) :: l => if s.nLists then verifyRest s l else false
  | .atom _ :: l => if s.nStrings then verifyRest s l else false
  | .list [] :: _ => false

/-- `__cil_verify_syntax`, cil_verify.c:146-187. -/
def verifySyntax : List Tree → List Syn → Bool
  | _, [] => false
  | [], s :: _ => s.stop
  | .atom a :: l, s :: ss =>
    if s.string then verifySyntax l ss
    else if s.nLists || s.nStrings then
      verifyRest s (.atom a :: l) && (match ss with | [] => false | e :: _ => e.stop)
    else false
  | .list [] :: l, s :: ss =>
    if s.emptyList then verifySyntax l ss else false
  | .list (t :: ts) :: l, s :: ss =>
    if s.list then verifySyntax l ss
    else if s.nLists || s.nStrings then
      verifyRest s (.list (t :: ts) :: l) && (match ss with | [] => false | e :: _ => e.stop)
    else false

/-- `cil_verify_expr_syntax`, cil_verify.c:189-251, with the flavor `CIL_BOOL` or `CIL_TUNABLE`. -/
def verifyExprSyntax (l : List Tree) (op : Option Op) : Bool :=
  match op with
  | some .not => verifySyntax l [{ string := true }, { string := true, list := true }, { stop := true }]
  | some .all => false
  | some .range => false
  | some _ => verifySyntax l
      [{ string := true }, { string := true, list := true }, { string := true, list := true }, { stop := true }]
  | none => verifySyntax l [{ nStrings := true, nLists := true }, { stop := true }]

/-- An item of a `struct cil_list` of an expression: `CIL_OP`, `CIL_STRING` or `CIL_DATUM`, and
`CIL_LIST`. -/
inductive Item (α : Type) where
  | op (o : Op)
  | leaf (a : α)
  | list (l : List (Item α))

/-- The operator at the head of a list, cil_build_ast.c:2666. -/
def headOp : List Tree → Option Op
  | .atom s :: _ => opOf s
  | _ => none

mutual
/-- `__cil_fill_expr`, cil_build_ast.c:2691-2717: the item appended.  The empty list, which has
neither string nor children, does not get past the test of the syntax. -/
def fill : Tree → Option (Item String)
  | .atom s =>
    match opOf s with
    | some _ => none
    | none => some (.leaf s)
  | .list [] => none
  | .list (t :: ts) =>
    if verifyExprSyntax (t :: ts) (headOp (t :: ts)) then
      match headOp (t :: ts) with
      | some o =>
        match fillList ts with
        | none => none
        | some l => some (.list (.op o :: l))
      | none =>
        match fill t with
        | none => none
        | some x =>
          match fillList ts with
          | none => none
          | some l => some (.list (x :: l))
    else none
/-- The loop of `__cil_fill_expr_helper`, cil_build_ast.c:2678-2683. -/
def fillList : List Tree → Option (List (Item String))
  | [] => some []
  | t :: ts =>
    match fill t with
    | none => none
    | some x =>
      match fillList ts with
      | none => none
      | some l => some (x :: l)
end

/-- `cil_gen_expr`, cil_build_ast.c:2720-2738: the list of a string has one item, that of a list is
filled by `__cil_fill_expr_helper`, 2661-2689 (also called in `fill`). -/
def genExpr (t : Tree) : Option (List (Item String)) :=
  match fill t with
  | none => none
  | some (.list l) => some l
  | some x => some [x]

/-- A statement `booleanif` or `tunableif`: the expression and the blocks, each with the word at its
head and its rules. -/
structure Stmt where
  expr : Tree
  blocks : List (String × List Nat)

/-- `cil_verify_conditional_blocks`, cil_verify.c:366-399. -/
def verifyBlocks : List (String × List Nat) → Bool
  | [] => false
  | (a, _) :: l =>
    if a = "true" ∨ a = "false" then
      match l with
      | [] => true
      | (b, _) :: _ =>
        if b = "true" then (if a = "true" then false else true)
        else if b = "false" then (if a = "false" then false else true)
        else false
    else false

/-- `cil_gen_boolif`, cil_build_ast.c:2924-2978 (`cil_gen_tunif`, 2992-3041, is the same): at most two
blocks by the syntax. -/
def genIf (s : Stmt) : Option (List (Item String)) :=
  if s.blocks.length = 1 ∨ s.blocks.length = 2 then
    match genExpr s.expr with
    | none => none
    | some l => if verifyBlocks s.blocks then some l else none
  else none

/-! ### Names -/

mutual
/-- `cil_resolve_expr`, cil_resolve_ast.c:3186-3234, for booleans and tunables: an item. -/
def resolveItem {α : Type} (look : String → Option α) : Item String → Option (Item α)
  | .leaf s =>
    match look s with
    | none => none
    | some a => some (.leaf a)
  | .list l =>
    match resolveList look l with
    | none => none
    | some l => some (.list l)
  | .op o => some (.op o)
/-- `cil_resolve_expr`, cil_resolve_ast.c:3186-3234: the loop. -/
def resolveList {α : Type} (look : String → Option α) : List (Item String) → Option (List (Item α))
  | [] => some []
  | x :: l =>
    match resolveItem look x with
    | none => none
    | some y =>
      match resolveList look l with
      | none => none
      | some l => some (y :: l)
end

/-! ### Tunables -/

/-- The two-operand cases of `__cil_evaluate_tunable_expr`, cil_resolve_ast.c:3292-3297. -/
def tunOp (o : Op) (a b : Bool) : Bool :=
  match o with
  | .and => a && b
  | .or => a || b
  | .xor => a ^^ b
  | .eq => a == b
  | .neq => a != b
  | _ => false

mutual
/-- `__cil_evaluate_tunable_expr_helper`, cil_resolve_ast.c:3261-3274, of an item; `none` is a
dereference of NULL. -/
def tunItem : Item Bool → Option Bool
  | .leaf v => some v
  | .list l => tunList l
  | .op _ => some false
/-- `__cil_evaluate_tunable_expr`, cil_resolve_ast.c:3276-3306. -/
def tunList : List (Item Bool) → Option Bool
  | [] => some false
  | [.op .not] => some true
  | [.op _] => none
  | [.op .not, x] => (tunItem x).map (!·)
  | [.op o, x] =>
    match tunItem x with
    | none => none
    | some a => some (tunOp o a false)
  | .op .not :: x :: _ :: _ => (tunItem x).map (!·)
  | .op o :: x :: y :: _ =>
    match tunItem x with
    | none => none
    | some a =>
      match tunItem y with
      | none => none
      | some b => some (tunOp o a b)
  | .leaf v :: l => if v then some true else tunRest l
  | .list m :: l =>
    match tunList m with
    | none => none
    | some v => if v then some true else tunRest l
/-- The loop, cil_resolve_ast.c:3300-3304. -/
def tunRest : List (Item Bool) → Option Bool
  | [] => some false
  | x :: l =>
    match tunItem x with
    | none => none
    | some v => if v then some true else tunRest l
end

/-- The last block with the word `w`. -/
def lastBlock (w : String) : List (String × List Nat) → Option (List Nat)
  | [] => none
  | (a, r) :: l =>
    match lastBlock w l with
    | some r => some r
    | none => if a = w then some r else none

/-- `cil_resolve_tunif`, cil_resolve_ast.c:3308-3365, after reading: the rules of the block that is
copied to the place of the statement. -/
def tunableif (look : String → Option Bool) (s : Stmt) : Option (List Nat) :=
  match genIf s with
  | none => none
  | some l =>
    match resolveList look l with
    | none => none
    | some l =>
      match tunList l with
      | none => none
      | some v =>
        if v then some ((lastBlock "true" (s.blocks.take 2)).getD [])
        else some ((lastBlock "false" (s.blocks.take 2)).getD [])

/-! ### Booleans -/

/-- The operators, cil_binary.c:2312-2334. -/
def Op.tok : Op → Option Tok
  | .not => some .not
  | .or => some .or
  | .and => some .and
  | .xor => some .xor
  | .eq => some .eq
  | .neq => some .neq
  | _ => none

mutual
/-- `__cil_cond_item_to_sepol_expr`, cil_binary.c:2254-2284. -/
def convItem : Item Nat → Option (List Tok)
  | .leaf b => some [.bool b]
  | .list l => convList l
  | .op _ => none
/-- `__cil_cond_expr_to_sepol_expr_helper`, cil_binary.c:2286-2383. -/
def convList : List (Item Nat) → Option (List Tok)
  | [] => none
  | [.op _] => none
  | [.op o, x] =>
    match o.tok with
    | none => none
    | some t =>
      match convItem x with
      | none => none
      | some h1 => if o = .not then some (h1 ++ [t]) else none
  | .op o :: x :: y :: _ =>
    match o.tok with
    | none => none
    | some t =>
      match convItem x with
      | none => none
      | some h1 =>
        if o = .not then some (h1 ++ [t])
        else
          match convItem y with
          | none => none
          | some h2 => some (h1 ++ h2 ++ [t])
  | .leaf b :: l => convRest l [.bool b]
  | .list m :: l =>
    match convList m with
    | none => none
    | some h1 => convRest l h1
/-- The loop, cil_binary.c:2361-2375. -/
def convRest : List (Item Nat) → List Tok → Option (List Tok)
  | [], h => some h
  | x :: l, h =>
    match convItem x with
    | none => none
    | some h2 => convRest l (h ++ h2 ++ [.or])
end

/-- The loop of `__cil_validate_cond_expr`, cil_binary.c:2404-2439, with the test at the end. -/
def validateLoop : List Tok → Int → Bool
  | [], depth => depth == 0
  | .bool _ :: l, depth => if depth = (Cond.maxDepth : Int) - 1 then false else validateLoop l (depth + 1)
  | .not :: l, depth => if depth < 0 then false else validateLoop l depth
  | .bad :: _, _ => false
  | _ :: l, depth => if depth < 1 then false else validateLoop l (depth - 1)

/-- `__cil_validate_cond_expr`, cil_binary.c:2399-2447. -/
def validate (e : List Tok) : Bool := validateLoop e (-1)

/-- `cond_node_create` without a node, conditional.c:142-168, with the expression and the dummy true
list, cil_binary.c:2467-2484. -/
def tmpCond (e : List Tok) : Node :=
  { curState := 0, expr := e, trueList := [0], falseList := [], avTrue := [], avFalse := [], nbools := 0,
    boolIds := [], preComp := 0, flags := 0 }

/-- `cil_booleanif_to_policydb`, cil_binary.c:2449-2620, after reading and resolving; `σ` are the
current values of the booleans, which `cond_normalize_expr` leaves alone (property C14). -/
def booleanif (σ : State) (look : String → Option Nat) (s : Stmt) (out : List Node) : Option (List Node) :=
  match genIf s with
  | none => none
  | some l =>
    match resolveList look l with
    | none => none
    | some l =>
      match convList l with
      | none => none
      | some e =>
        if validate e then
          match Cond.normalize σ (tmpCond e) with
          | none => none
          | some r =>
            if r.ok then
              let t := (lastBlock "true" s.blocks).getD []
              let f := (lastBlock "false" s.blocks).getD []
              let b := if r.node.falseList ≠ [] then (f, t) else (t, f)
              match Cond.nodeFind r.node out with
              | some i => some (out.modify i (Cond.addRules b.1 b.2))
              | none => some (Cond.addRules b.1 b.2 (Cond.nodeCreate σ r.node) :: out)
            else none
        else none

/-- The statements `booleanif` of a policy one after the other, cil_binary.c:4184-4187 and 4233-4240. -/
def compile (σ : State) (look : String → Option Nat) : List Stmt → List Node → Option (List Node)
  | [], out => some out
  | s :: l, out =>
    match booleanif σ look s out with
    | none => none
    | some out => compile σ look l out

end Verif.CilCond
