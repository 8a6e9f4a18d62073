import Verif.CilParse.Model
import Verif.Cond.Model
import Verif.Services.Constraint

/-!
# Model of the conversion of a binary policy to CIL

libsepol/src/kernel_to_cil.c and kernel_to_common.c.  A string is a list of characters; allocation succeeds.
-/

namespace Verif.KernelCil
open Services (CExpr)

abbrev Str := List Char

/-- `create_str("(%s %s)", a, b)`, kernel_to_common.c:41-55. -/
def paren2 (a b : Str) : Str := '(' :: (a ++ ' ' :: (b ++ [')']))

/-- `create_str("(%s %s %s)", a, b, c)`. -/
def paren3 (a b c : Str) : Str := '(' :: (a ++ ' ' :: (b ++ ' ' :: (c ++ [')'])))

/-! ### Conditional expressions -/

/-- The operator of a token and whether it has two operands, kernel_to_cil.c:55-66. -/
def condOp : Cond.Tok → Option (Str × Bool)
  | .not => some ("not".toList, false)
  | .or => some ("or".toList, true)
  | .and => some ("and".toList, true)
  | .xor => some ("xor".toList, true)
  | .eq => some ("eq".toList, true)
  | .neq => some ("neq".toList, true)
  | _ => none

/-- One round of the loop of `cond_expr_to_str`, kernel_to_cil.c:45-99; the stack has its top first.  `name` is
`p_bool_val_to_name`, by the value of the boolean, which is in the table for expressions that have been checked. -/
def condStep (name : Nat → Str) (t : Cond.Tok) (st : List Str) : Option (List Str) :=
  match t with
  | .bool n => some (name n :: st)
  | t =>
    match condOp t with
    | none => none
    | some (op, true) =>
      match st with
      | v2 :: v1 :: st => some (paren3 op v1 v2 :: st)
      | _ => none
    | some (op, false) =>
      match st with
      | v1 :: st => some (paren2 op v1 :: st)
      | _ => none

def condLoop (name : Nat → Str) : List Cond.Tok → List Str → Option (List Str)
  | [], st => some st
  | t :: l, st => (condStep name t st).bind (condLoop name l)

/-- `cond_expr_to_str`, kernel_to_cil.c:32-120. -/
def condExprToStr (name : Nat → Str) (l : List Cond.Tok) : Option Str :=
  match condLoop name l [] with
  | some [v] => some v
  | _ => none

/-! ### Lists of names -/

/-- `strcmp(a, b) <= 0`. -/
def strcmpLe : Str → Str → Bool
  | [], _ => true
  | _ :: _, [] => false
  | a :: s, b :: t => if a = b then strcmpLe s t else decide (a.toNat < b.toNat)

def insertStr (s : Str) : List Str → List Str
  | [] => [s]
  | t :: l => if strcmpLe s t then s :: t :: l else t :: insertStr s l

/-- `strs_sort`, kernel_to_common.c:193-206.  As strcmp orders all strings, there is only one result that qsort
can have. -/
def strsSort : List Str → List Str
  | [] => []
  | s :: l => insertStr s (strsSort l)

/-- The strings with a space in between, kernel_to_common.c:247-262. -/
def join : List Str → Str
  | [] => []
  | [s] => s
  | s :: l => s ++ ' ' :: join l

/-- `strs_to_str`, kernel_to_common.c:226-267. -/
def strsToStr (l : List Str) : Option Str := if l.isEmpty then none else some (join l)

/-- `ebitmap_to_strs`, kernel_to_common.c:304-321; `name` is the table of names, which has NULL entries. -/
def ebitmapToStrs (e : Ebitmap.Ebitmap) (name : Nat → Option Str) : Option (List Str) :=
  (Ebitmap.forEachPositiveBit (e.highbit + 1) e).map fun l => l.filterMap name

/-- `ebitmap_to_str` with `sort`, kernel_to_common.c:323-349. -/
def ebitmapToStr (e : Ebitmap.Ebitmap) (name : Nat → Option Str) : Option Str :=
  (ebitmapToStrs e name).bind fun l => strsToStr (strsSort l)

/-! ### Constraints -/

/-- The tables `p_user_val_to_name` and so on, which are indexed from 0. -/
structure Names where
  user : Nat → Option Str
  role : Nat → Option Str
  type : Nat → Option Str

/-- kernel_to_cil.c:143-152. -/
def consOp (op : Nat) : Option Str :=
  if op = Services.EQ then some "eq".toList
  else if op = Services.NEQ then some "neq".toList
  else if op = Services.DOM then some "dom".toList
  else if op = Services.DOMBY then some "domby".toList
  else if op = Services.INCOMP then some "incomp".toList
  else none

/-- kernel_to_cil.c:154-174. -/
def consAttr (attr : Nat) : Option (Str × Str) :=
  if attr = Services.USER then some ("u1".toList, "u2".toList)
  else if attr = Services.USER + Services.TARGET then some ("u2".toList, [])
  else if attr = Services.USER + Services.XTARGET then some ("u3".toList, [])
  else if attr = Services.ROLE then some ("r1".toList, "r2".toList)
  else if attr = Services.ROLE + Services.TARGET then some ("r2".toList, [])
  else if attr = Services.ROLE + Services.XTARGET then some ("r3".toList, [])
  else if attr = Services.TYPE then some ("t1".toList, "t2".toList)
  else if attr = Services.TYPE + Services.TARGET then some ("t2".toList, [])
  else if attr = Services.TYPE + Services.XTARGET then some ("t3".toList, [])
  else if attr = Services.L1L2 then some ("l1".toList, "l2".toList)
  else if attr = Services.L1H2 then some ("l1".toList, "h2".toList)
  else if attr = Services.H1L2 then some ("h1".toList, "l2".toList)
  else if attr = Services.H1H2 then some ("h1".toList, "h2".toList)
  else if attr = Services.L1H1 then some ("l1".toList, "h1".toList)
  else if attr = Services.L2H2 then some ("l2".toList, "h2".toList)
  else none

/-- The names of a `CEXPR_NAMES` node, kernel_to_cil.c:183-199. -/
def consNames (pn : Names) (e : CExpr) : Str :=
  let names :=
    if Services.band e.attr Services.TYPE then ebitmapToStr e.typeNames.types pn.type
    else if Services.band e.attr Services.USER then ebitmapToStr e.names pn.user
    else if Services.band e.attr Services.ROLE then ebitmapToStr e.names pn.role
    else none
  names.getD "NO_IDENTIFIER".toList

/-- A leaf of an expression, kernel_to_cil.c:139-209. -/
def consLeaf (pn : Names) (e : CExpr) : Option Str :=
  (consOp e.op).bind fun op =>
  (consAttr e.attr).map fun a =>
    if e.exprType = Services.ATTR then paren3 op a.1 a.2
    else
      let names := consNames pn e
      if names.contains ' ' then paren3 op a.1 ('(' :: (names ++ [')'])) else paren3 op a.1 names

/-- One round of the loop of `constraint_expr_to_str`, kernel_to_cil.c:138-250; the stack has its top first. -/
def consStep (pn : Names) (e : CExpr) (st : List Str) : Option (List Str) :=
  if e.exprType = Services.ATTR ∨ e.exprType = Services.NAMES then (consLeaf pn e).map (· :: st)
  else if e.exprType = Services.NOT then
    match st with
    | v1 :: st => some (paren2 "not".toList v1 :: st)
    | _ => none
  else if e.exprType = Services.AND then
    match st with
    | v2 :: v1 :: st => some (paren3 "and".toList v1 v2 :: st)
    | _ => none
  else if e.exprType = Services.OR then
    match st with
    | v2 :: v1 :: st => some (paren3 "or".toList v1 v2 :: st)
    | _ => none
  else none

def consLoop (pn : Names) : List CExpr → List Str → Option (List Str)
  | [], st => some st
  | e :: l, st => (consStep pn e st).bind (consLoop pn l)

/-- `constraint_expr_to_str`, kernel_to_cil.c:122-273, but for `use_mls`. -/
def constraintExprToStr (pn : Names) (l : List CExpr) : Option Str :=
  match consLoop pn l [] with
  | some [v] => some v
  | _ => none

/-- `use_mls`, kernel_to_cil.c:176-178: a leaf compares levels. -/
def useMls (l : List CExpr) : Bool :=
  l.any fun e => (e.exprType = Services.ATTR || e.exprType = Services.NAMES) && decide (Services.L1L2 ≤ e.attr)

end Verif.KernelCil
