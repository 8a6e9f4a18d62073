/-!
# Model of the merging of order statements in CIL

`(sidorder ...)`, `(classorder ...)`, `(categoryorder ...)` and `(sensitivityorder ...)`
statements of all modules are merged into one order each: `__cil_ordered_lists_merge_all` and the
functions below it, libsepol/cil/src/cil_resolve_ast.c:1188-1408, and
`cil_verify_completed_ordered_list`, cil_verify.c:524-594.

Symbols are numbers.  `ordered` is the list of the symbols whose `ordered` flag is set.  Messages
are left out; allocation succeeds.
-/

namespace Verif.CilOrder

/-- The list being composed and the symbols with the `ordered` flag. -/
structure State where
  list : List Nat
  ordered : List Nat
deriving DecidableEq, Repr

/-- `__cil_ordered_list_insert`, cil_resolve_ast.c:1224-1235, with `__cil_ordered_item_insert`,
1188-1222: put items after `pre`, which ends with the item `ocurr` (or is empty if that is `NULL`).  A symbol that has been put in already is an error; those before it stay.
The result has the list up to and including the last new item. -/
def insertItems (pre ordered : List Nat) : List Nat → Bool × List Nat × List Nat
  | [] => (true, pre, ordered)
  | i :: is =>
    if i ∈ ordered then (false, pre, ordered)
    else insertItems (pre ++ [i]) (i :: ordered) is

/-- The inner loop of `__cil_ordered_find_next_match`, cil_resolve_ast.c:1244-1252: the items
before and after the first one that is `n`. -/
def splitAt (n : Nat) : List Nat → Option (List Nat × List Nat)
  | [] => none
  | o :: os =>
    if n = o then some ([], os)
    else match splitAt n os with
      | none => none
      | some (a, b) => some (o :: a, b)

/-- `__cil_ordered_lists_merge`, cil_resolve_ast.c:1257-1310, with the outer loop of
`__cil_ordered_find_next_match`, 1242-1255: `pre` is the list up to and including `oprev`, `post`
the list from `ocurr`, `skip` the items from `nfirst` to `ncurr`, and the argument the items from
`ncurr`. -/
def mergeLoop (pre post ordered skip : List Nat) : List Nat → Bool × State
  | [] => (skip.isEmpty, ⟨pre ++ post, ordered⟩)
  | n :: ns =>
    if post = [] then
      let (ok, pre, ordered) := insertItems pre ordered (n :: ns)
      (ok, ⟨pre, ordered⟩)
    else match splitAt n post with
      | none => mergeLoop pre post ordered (skip ++ [n]) ns
      | some (before, after) =>
        let (ok, pre, ordered) := insertItems (pre ++ before) ordered skip
        if ok then mergeLoop (pre ++ [n]) after ordered [] ns
        else (false, ⟨pre ++ n :: after, ordered⟩)

/-- `__cil_ordered_lists_merge`, cil_resolve_ast.c:1257-1310. -/
def merge (s : State) (new : List Nat) : Bool × State := mergeLoop [] s.list s.ordered [] new

/-- One pass over the statements, cil_resolve_ast.c:1362-1376; the flag of a statement says that
it has been merged.  The result has the new flags and whether any has been merged. -/
def round (s : State) : List (Bool × List Nat) → State × List (Bool × List Nat) × Bool
  | [] => (s, [], false)
  | (true, l) :: ls =>
    let (s, ls, changed) := round s ls
    (s, (true, l) :: ls, changed)
  | (false, l) :: ls =>
    match merge s l with
    | (ok, s) =>
      let (s, ls, changed) := round s ls
      (s, (ok, l) :: ls, ok || changed)

/-- The loop `while (waiting && changed == CIL_TRUE)`, cil_resolve_ast.c:1358-1388.  Every pass
but the last merges a statement, so it is given as many passes as there are statements and one
more. -/
def rounds : Nat → State → List (Bool × List Nat) → Option State
  | 0, _, _ => none
  | fuel + 1, s, ls =>
    let (s, ls, changed) := round s ls
    if ls.all (·.1) then some s
    else if changed then rounds fuel s ls
    else none

/-! ### The check of the result -/

/-- The items of a statement with their neighbours, as the loop over `ordered->datums` sees them,
cil_verify.c:542-546. -/
def triples (prev : Option Nat) : List Nat → List (Option Nat × Nat × Option Nat)
  | [] => []
  | o :: os => (prev, o, os.head?) :: triples (some o) os

/-- The position in the list being checked (`cprev`, `ccurr` and the items after it) and the
variables `found_prev`, `found_next` and `change`. -/
structure Check where
  prev : Option Nat
  cur : Nat
  next : List Nat
  foundPrev : Bool
  foundNext : Bool
  change : Bool
deriving DecidableEq, Repr

/-- The body of the loop over the items of the statements, cil_verify.c:547-571; `none` if the
whole list has been gone through. -/
def checkItem (c : Check) (t : Option Nat × Nat × Option Nat) : Option Check :=
  if c.cur = t.2.1 then
    let p := !c.foundPrev && c.prev == t.1
    let n := !c.foundNext && c.next.head? == t.2.2
    let c := { c with foundPrev := c.foundPrev || p, foundNext := c.foundNext || n,
                      change := c.change || p || n }
    if c.foundPrev && c.foundNext then
      match c.next with
      | [] => none
      | x :: xs => some ⟨some c.cur, x, xs, false, false, c.change⟩
    else some c
  else some c

/-- The loops over the statements and their items, cil_verify.c:540-572. -/
def checkPass : Check → List (Option Nat × Nat × Option Nat) → Option Check
  | c, [] => some c
  | c, t :: ts =>
    match checkItem c t with
    | none => none
    | some c => checkPass c ts

/-- The loop `while (ccurr)`, cil_verify.c:534-592; `rc` is whether no error has been found so
far.  Every pass sets `found_prev` or `found_next` or goes on to another item, so three passes for
every item of the list suffice. -/
def checkLoop (ts : List (Option Nat × Nat × Option Nat)) : Nat → Bool → Check → Option Bool
  | 0, _, _ => none
  | fuel + 1, rc, c =>
    match checkPass { c with change := false } ts with
    | none => some rc
    | some c =>
      if c.change then checkLoop ts fuel rc c
      else match c.next with
        | [] => some false
        | x :: xs => checkLoop ts fuel false ⟨some c.cur, x, xs, false, false, false⟩

/-- `cil_verify_completed_ordered_list`, cil_verify.c:524-594. -/
def verify (complete : List Nat) (lists : List (List Nat)) : Option Bool :=
  match complete with
  | [] => some true
  | x :: xs =>
    checkLoop (lists.flatMap (triples none)) (3 * (xs.length + 1)) true ⟨none, x, xs, false, false, false⟩

/-! ### Unordered classes and the whole -/

/-- `insert_unordered`, cil_resolve_ast.c:1312-1345, on all items of the unordered statements. -/
def insertUnordered : State → List Nat → Option State
  | s, [] => some s
  | s, i :: is =>
    if i ∈ s.list then insertUnordered s is
    else if i ∈ s.ordered then none
    else insertUnordered ⟨s.list ++ [i], i :: s.ordered⟩ is

/-- `__cil_ordered_lists_merge_all`, cil_resolve_ast.c:1347-1408, with the flags unset at first;
`none` is an error. -/
def mergeAll (lists unordered : List (List Nat)) : Option State :=
  match rounds (lists.length + 1) ⟨[], []⟩ (lists.map (false, ·)) with
  | none => none
  | some s =>
    match verify s.list lists with
    | some true => insertUnordered s unordered.flatten
    | _ => none

/-- `__cil_verify_ordered`, cil_verify.c:600-646, on the declared symbols. -/
def verifyOrdered (s : State) (declared : List Nat) : Bool := declared.all (· ∈ s.ordered)

/-- What becomes of the statements: the order, if there is no error; the part of
`cil_resolve_ast`, cil_resolve_ast.c:4058-4100, that concerns one kind of symbols. -/
def order (lists unordered : List (List Nat)) (declared : List Nat) : Option (List Nat) :=
  match mergeAll lists unordered with
  | none => none
  | some s => if verifyOrdered s declared then some s.list else none

end Verif.CilOrder
