import Verif.Bytes
/-!
# Labels of files

Models the file backend of `selabel_lookup` (libselinux/src/label_file.h,
libselinux/src/label_file.c, libselinux/src/label_support.c:24-117): the reading
of `file_contexts` files in text form, the tree of specifications, and the
lookup in it.

Simplifications:
* Memory allocation always succeeds; arrays never reach `UINT32_MAX` entries.
* The handle does not validate contexts (`rec->validating` is 0), so that
  regular expressions are compiled when they are first used.
* Regular expressions are matched by an abstract engine (`Engine`), given the
  text of the expression as written (the anchors `^` and `$` are part of the
  engine); a failing compilation is one of its outcomes.
* Compiled `file_contexts.bin` files are in the area `CompFc`.
* Strings are lists of bytes without NUL.
-/
namespace Verif.FileLabel

/-- `/` -/
abbrev slash : Byte := 47
/-- `\` -/
abbrev bslash : Byte := 92
/-- `#` -/
abbrev hash : Byte := 35
/-- `-` -/
abbrev dash : Byte := 45

/-- The special characters of regular expressions (label_file.h:246-258). -/
@[irreducible] def isMeta (b : Byte) : Bool :=
  b == 46 || b == 94 || b == 36 || b == 63 || b == 42 || b == 43 || b == 124 ||
  b == 91 || b == 40 || b == 123 || b == 93 || b == 41 || b == 125

/-- The characters that may follow a backslash in a literal: the special ones,
`-`, `_` and `,` (label_file.h:266-281). -/
@[irreducible] def isEscapable (b : Byte) : Bool := isMeta b || b == 45 || b == 95 || b == 44

/-- `regex_has_meta_chars` (label_file.h:238-293): whether there is a special
character or an unsupported escape, and the number of characters before it. -/
def hasMeta : Bytes → Nat → Bool × Nat
  | [], plen => (false, plen)
  | b :: bs, plen =>
    if isMeta b then (true, plen)
    else if b = bslash then
      match bs with
      | [] => (true, plen)
      | c :: cs => if isEscapable c then hasMeta cs (plen + 1) else (true, plen)
    else hasMeta bs (plen + 1)

/-- `regex_simplify` (label_file.h:295-364): the text without backslashes, or
`none` (return value 0). -/
def simplify : Bytes → Option Bytes
  | [] => some []
  | b :: bs =>
    if isMeta b then none
    else if b = bslash then
      match bs with
      | [] => none
      | c :: cs => if isEscapable c then (simplify cs).map (c :: ·) else none
    else (simplify bs).map (b :: ·)

/-- `struct literal_spec` (label_file.h:98-106). -/
structure Lit where
  ctx : Bytes
  regexStr : Bytes
  literalMatch : Bytes
  prefixLen : Nat
  kind : Nat
  lineno : Nat
  deriving DecidableEq, Repr

/-- `struct regex_spec` (label_file.h:83-95). -/
structure Re where
  ctx : Bytes
  regexStr : Bytes
  prefixLen : Nat
  kind : Nat
  inputno : Nat
  lineno : Nat
  deriving DecidableEq, Repr

/-- `struct spec_node` (label_file.h:118-150); the parent pointers are
represented by the list of nodes that `deepest` returns. -/
inductive Node where
  | mk (stem : Bytes) (lits : List Lit) (res : List Re) (children : List Node)

/-- The stem. -/
def Node.stem : Node → Bytes | .mk s _ _ _ => s
/-- The literal specifications. -/
def Node.lits : Node → List Lit | .mk _ l _ _ => l
/-- The regular expressions. -/
def Node.res : Node → List Re | .mk _ _ r _ => r
/-- The child nodes. -/
def Node.children : Node → List Node | .mk _ _ _ c => c

/-- `strchr(s, '/')`: the part before the slash and the part from it on. -/
def cut : Bytes → Option (Bytes × Bytes)
  | [] => none
  | b :: bs => if b = slash then some ([], b :: bs) else (cut bs).map (fun x => (b :: x.1, x.2))

theorem cut_length {s a r : Bytes} (h : cut s = some (a, r)) : r.length ≤ s.length := by
  induction s generalizing a r with
  | nil => simp [cut] at h
  | cons b bs ih =>
    unfold cut at h
    split at h
    · simp only [Option.some.injEq, Prod.mk.injEq] at h; rw [← h.2]; exact Nat.le_refl _
    · cases hc : cut bs with
      | none => simp [hc] at h
      | some x =>
        simp only [hc, Option.map_some, Option.some.injEq, Prod.mk.injEq] at h
        have := ih (a := x.1) (r := x.2) (by rw [hc])
        rw [← h.2]
        simp only [List.length_cons]; omega

/-- A new node (label_file.h:543-546). -/
def Node.new (stem : Bytes) : Node := .mk stem [] [] []

/-- Change the child with a given stem, or add it (label_file.h:521-552). -/
def updChild (s : Bytes) (f : Node → Node) : List Node → List Node
  | [] => [f (.new s)]
  | c :: cs => if c.stem = s then f c :: cs else c :: updChild s f cs

/-- Whether the first stem is outside of the subset asked for
(label_file.h:513, `strcmp(prefix + 1, stem) != 0`). -/
def offRe (depth : Nat) (pfx : Option Bytes) (stem : Bytes) : Bool :=
  depth == 0 && (match pfx with | some x => x.drop 1 ≠ stem | none => false)

/-- The same for literals (label_file.h:628, `strncmp(prefix + 1, p + 1, length)`). -/
def offLit (depth : Nat) (pfx : Option Bytes) (stem : Bytes) : Bool :=
  depth == 0 && (match pfx with | some x => (x.drop 1).take stem.length ≠ stem | none => false)

/-- Outcome of the search for a place: whether the specification is outside of
the subset, and the node it goes to (as a list of stems). -/
def reStems (pfx : Option Bytes) (depth : Nat) (p : Bytes) : Option (List Bytes) :=
  if depth ≥ 3 then some []
  else
    match h : cut (p.drop 1) with
    | none => some []
    | some (seg, q) =>
      if seg = [] then reStems pfx depth q
      else
        match simplify seg with
        | none => some []
        | some stem =>
          if stem.length ≥ 65535 then some []
          else if offRe depth pfx stem then none
          else (reStems pfx (depth + 1) q).map (stem :: ·)
termination_by p.length
decreasing_by
  all_goals
    have := cut_length h
    cases p with
    | nil => simp [cut] at h
    | cons b bs => simp only [List.drop_succ_cons, List.drop_zero] at this; simp only [List.length_cons]; omega

/-- The same for literals (label_file.h:600-662). -/
def litStems (pfx : Option Bytes) (depth : Nat) (p : Bytes) : Option (List Bytes) :=
  if depth ≥ 3 then some []
  else
    match p with
    | [] => some []
    | b :: bs =>
      if b ≠ slash then some []
      else
        match h : cut bs with
        | none => some []
        | some (seg, q) =>
          if seg = [] then litStems pfx depth q
          else if offLit depth pfx seg then none
          else (litStems pfx (depth + 1) q).map (seg :: ·)
termination_by p.length
decreasing_by
  all_goals
    have := cut_length h
    simp only [List.length_cons]; omega

/-- Walk down along stems, making the nodes that are missing, and change the
last node. -/
def Node.upd (f : Node → Node) : List Bytes → Node → Node
  | [], n => f n
  | s :: ss, .mk st l r c => .mk st l r (updChild s (Node.upd f ss) c)

/-- Append a regular expression (label_file.h:558-581). -/
def addRe (x : Re) : Node → Node | .mk s l r c => .mk s l (r ++ [x]) c

/-- Append a literal (label_file.h:664-690). -/
def addLit (x : Lit) : Node → Node | .mk s l r c => .mk s (l ++ [x]) r c

/-- `struct saved_data` (label_file.h:162-185): the root and the number of
specifications. -/
structure Data where
  root : Node
  num : Nat

/-- `insert_spec` (label_file.h:466-702). The loops that look for the node and
make it on the way are split into the search for the stems and `Node.upd`. In
the code a specification outside of the subset is found to be so at depth 0,
before any node is made. -/
def insertSpec (pfx : Option Bytes) (d : Data) (regex : Bytes) (kind : Nat) (ctx : Bytes)
    (inputno lineno : Nat) : Option Data :=
  let (m, plen) := hasMeta regex 0
  if m then
    match reStems pfx 0 regex with
    | none => some d
    | some path =>
      some { root := d.root.upd (addRe ⟨ctx, regex, plen, kind, inputno, lineno⟩) path, num := d.num + 1 }
  else
    match simplify regex with
    | none => none
    | some lit =>
      match litStems pfx 0 lit with
      | none => some d
      | some path =>
        some { root := d.root.upd (addLit ⟨ctx, regex, lit, plen, kind, lineno⟩) path, num := d.num + 1 }

/-! ## Reading lines -/

/-- `isspace` in the C locale. -/
def isspace (b : Byte) : Bool := b == 32 || (9 ≤ b.toNat && b.toNat ≤ 13)

/-- `string_to_file_kind` (label_file.h:191-214); `none` is
`LABEL_FILE_KIND_INVALID`. -/
def kindOf : Bytes → Option Nat
  | [a, b] =>
    if a ≠ dash then none
    else if b = 98 then some 3
    else if b = 99 then some 2
    else if b = 100 then some 1
    else if b = 112 then some 5
    else if b = 108 then some 6
    else if b = 115 then some 4
    else if b = 45 then some 7
    else none
  | _ => none

/-- `read_spec_entry` (label_support.c:24-59): the entry (empty if there is none)
and the rest; `none` for a character that is not ASCII or an entry that is too
long. -/
def readEntry (s : Bytes) : Option (Bytes × Bytes) :=
  let s := s.dropWhile isspace
  let e := s.takeWhile (fun b => !isspace b)
  if e.any (fun b => 128 ≤ b.toNat) then none
  else if e.length ≥ 65535 then none
  else some (e, s.dropWhile (fun b => !isspace b))

/-- Outcome of `read_spec_entries`. -/
inductive Items
  | ub                         -- `va_arg` without a further argument
  | err
  | ok (items : Nat) (args : List Bytes)   -- the entries by argument, empty for NULL
  deriving DecidableEq, Repr

/-- The loop of `read_spec_entries` (label_support.c:97-114): `items` so far, the
entries stored so far by argument; there are three arguments. -/
def entriesLoop (items : Nat) (args : List Bytes) (s : Bytes) : Items :=
  if items ≥ 3 then .ok items args
  else if args.length ≥ 3 then .ub
  else if s = [] then .ok items args
  else
    match readEntry s with
    | none => .err
    | some (e, s) =>
      entriesLoop (if e = [] then items else items + 1) (args ++ [e]) s
termination_by 3 - args.length
decreasing_by simp only [List.length_append, List.length_singleton]; omega

/-- `read_spec_entries` with three arguments (label_support.c:73-117), given the
line without its newline. Bytes after a NUL are not seen. -/
def readEntries (line : Bytes) : Items :=
  let s := (line.takeWhile (· ≠ 0)).dropWhile isspace
  match s with
  | [] => .ok 0 []
  | b :: _ => if b = hash then .ok 0 [] else entriesLoop 0 [] s

/-- What a line means. -/
inductive Line
  | ub | err | skip
  | spec (regex : Bytes) (kind : Nat) (ctx : Bytes)
  deriving DecidableEq, Repr

/-- `process_line` up to the call of `insert_spec` (label_file.h:737-809). -/
def parseLine (line : Bytes) : Line :=
  match readEntries line with
  | .ub => .ub
  | .err => .err
  | .ok 0 _ => .skip
  | .ok 1 _ => .err
  | .ok 2 args => .spec (args.getD 0 []) 0 (args.getD 1 [])
  | .ok _ args =>
    match kindOf (args.getD 1 []) with
    | none => .err
    | some k => .spec (args.getD 0 []) k (args.getD 2 [])

/-- The loop of `process_text_file` (label_file.c:194-213) over the lines of a
file; `none` for an error (or undefined behaviour). -/
def processLines (pfx : Option Bytes) (inputno : Nat) : Nat → List Bytes → Data → Option Data
  | _, [], d => some d
  | lineno, l :: ls, d =>
    match parseLine l with
    | .ub => none
    | .err => none
    | .skip => processLines pfx inputno (lineno + 1) ls d
    | .spec regex kind ctx =>
      match insertSpec pfx d regex kind ctx inputno (lineno + 1) with
      | none => none
      | some d => processLines pfx inputno (lineno + 1) ls d

/-! ## Sorting -/

/-- `strcmp`: only the sign of the result is used. -/
def strcmp : Bytes → Bytes → Int
  | [], [] => 0
  | [], _ :: _ => -1
  | _ :: _, [] => 1
  | a :: as, b :: bs => if a < b then -1 else if b < a then 1 else strcmp as bs

/-- `strncmp`. -/
def strncmp (a b : Bytes) (n : Nat) : Int := strcmp (a.take n) (b.take n)

/-- `compare_literal_spec` (label_file.h:366-378). -/
def cmpLit (a b : Lit) : Int :=
  let r := strcmp a.literalMatch b.literalMatch
  if r ≠ 0 then r
  else (if a.kind < b.kind then 1 else 0) - (if a.kind > b.kind then 1 else 0)

/-- `compare_spec_node` (label_file.h:380-390). -/
def cmpNode (a b : Node) : Int := strcmp a.stem b.stem

/-- A sorting function: any `qsort` of the C standard, which may order equal
elements in any way. -/
structure Qsort where
  sort : {α : Type} → (α → α → Int) → List α → List α

mutual
/-- `sort_spec_node` (label_file.c:78-105). Here the children are sorted after
their subtrees; the comparison only looks at their stems. -/
def sortNode (q : Qsort) : Node → Node
  | .mk s l r c => .mk s (q.sort cmpLit l) r (q.sort cmpNode (sortNodes q c))
/-- The loop over the children. -/
def sortNodes (q : Qsort) : List Node → List Node
  | [] => []
  | c :: cs => sortNode q c :: sortNodes q cs
end

/-- An empty database (label_file.c:2463-2474). -/
def Data.empty : Data := ⟨.new [], 0⟩

/-- The files of `init` in order (label_file.c:1466-1489; the base file, the home
directories, the local one), each as its lines. Reading a file again after an
error (label_file.c:1183-1216) is not modelled. -/
def processFiles (pfx : Option Bytes) : Nat → List (List Bytes) → Data → Option Data
  | _, [], d => some d
  | i, f :: fs, d =>
    match processLines pfx i 0 f d with
    | none => none
    | some d => processFiles pfx (i + 1) fs d

/-- `selabel_open` for files: read and sort (label_file.c:1393-1506). -/
def load (q : Qsort) (pfx : Option Bytes) (files : List (List Bytes)) : Option Data :=
  (processFiles pfx 0 files .empty).map (fun d => { d with root := sortNode q d.root })

/-! ## Lookup -/

/-- Outcome of compiling and matching a regular expression (`compile_regex` and
`regex_match`). -/
inductive Out | full | part | no | err | invalid
  deriving DecidableEq, Repr

/-- The regular-expression engine: expression, path, partial matches wanted. -/
abbrev Engine := Bytes → Bytes → Bool → Out

/-- The comparison of a literal with the path (label_file.c:1547-1550). -/
def litCmp (partialM : Bool) (l : Lit) (key : Bytes) : Int :=
  if partialM then strncmp l.literalMatch key key.length else strcmp l.literalMatch key

/-- Go back to the first match (label_file.c:1554-1564). -/
def firstMatch (partialM : Bool) (a : Array Lit) (key : Bytes) : Nat → Nat
  | 0 => 0
  | m + 1 =>
    match a[m]? with
    | some l => if litCmp partialM l key = 0 then firstMatch partialM a key m else m + 1
    | none => m + 1

/-- The binary search of `search_literal_spec` (label_file.c:1541-1576). -/
def searchLitLoop (partialM : Bool) (a : Array Lit) (key : Bytes) (lower upper : Nat) : Option Nat :=
  if lower ≤ upper then
    let m := lower + (upper - lower) / 2
    match a[m]? with
    | none => none
    | some l =>
      let r := litCmp partialM l key
      if r = 0 then some (firstMatch partialM a key m)
      else if r < 0 then searchLitLoop partialM a key (m + 1) upper
      else if m = 0 then none
      else searchLitLoop partialM a key lower (m - 1)
  else none
termination_by upper + 1 - lower
decreasing_by all_goals omega

/-- `search_literal_spec` (label_file.c:1533-1579). -/
def searchLit (partialM : Bool) (a : Array Lit) (key : Bytes) : Option Nat :=
  if a.size = 0 then none else searchLitLoop partialM a key 0 (a.size - 1)

/-- The binary search of `search_child_node` (label_file.c:1769-1799). -/
def searchChildLoop (a : Array Node) (key : Bytes) (lower upper : Nat) : Option Node :=
  if lower ≤ upper then
    let m := lower + (upper - lower) / 2
    match a[m]? with
    | none => none
    | some c =>
      let r := strncmp c.stem key key.length
      if r = 0 && c.stem.length == key.length then some c
      else if r < 0 then searchChildLoop a key (m + 1) upper
      else if m = 0 then none
      else searchChildLoop a key lower (m - 1)
  else none
termination_by upper + 1 - lower
decreasing_by all_goals omega

/-- `search_child_node`. -/
def searchChild (a : Array Node) (key : Bytes) : Option Node :=
  if a.size = 0 then none else searchChildLoop a key 0 (a.size - 1)

/-- `lookup_find_deepest_node` (label_file.c:1801-1833): the node and its
parents, the deepest first. -/
def deepest (n : Node) (parents : List Node) (p : Bytes) : List Node :=
  match p with
  | [] => n :: parents
  | b :: bs =>
    if b ≠ slash then n :: parents
    else
      match h : cut bs with
      | none => n :: parents
      | some (seg, q) =>
        if seg = [] then n :: parents
        else
          match searchChild n.children.toArray seg with
          | none => n :: parents
          | some c => deepest c (n :: parents) q
termination_by p.length
decreasing_by
  have := cut_length h
  simp only [List.length_cons]; omega

/-- What a lookup finds: `struct lookup_result` (label_file.h:52-59). -/
structure Hit where
  regexStr : Bytes
  ctx : Bytes
  prefixLen : Nat
  kind : Nat
  hasMeta : Bool
  deriving DecidableEq, Repr

/-- The reasons for a lookup to find nothing: `ENOENT`, or the `EINVAL` of a
regular expression that cannot be compiled. -/
inductive Err | noent | inval
  deriving DecidableEq, Repr

/-- `<<none>>` -/
def none_ : Bytes := [60, 60, 110, 111, 110, 101, 62, 62]

/-- Whether a specification is for a kind of file (label_file.c:1629, 1677). -/
def kindOk (want have_ : Nat) : Bool := want == 0 || have_ == 0 || have_ == want

/-- The loop over the literals from the first match on (label_file.c:1625-1668). -/
def litLoop (partialM : Bool) (key : Bytes) (kind : Nat) : List Lit → Option (Except Err Hit)
  | [] => none
  | l :: ls =>
    if kindOk kind l.kind then
      if l.ctx = none_ then some (.error .noent)
      else some (.ok ⟨l.regexStr, l.ctx, l.prefixLen, l.kind, false⟩)
    else
      match ls with
      | [] => none
      | l' :: _ => if litCmp partialM l' key = 0 then litLoop partialM key kind ls else none

/-- The loop over the regular expressions of a node, in reverse order
(label_file.c:1670-1746), with the match of the nodes below, if any. -/
def reLoop (eng : Engine) (partialM : Bool) (key : Bytes) (kind : Nat) (child : Option Re) :
    List Re → Except Err (Option Re)
  | [] => .ok child
  | r :: rs =>
    if child.any (fun c => r.inputno < c.inputno || (r.inputno == c.inputno && r.lineno < c.lineno)) then
      .ok child
    else if !kindOk kind r.kind then reLoop eng partialM key kind child rs
    else
      match eng r.regexStr key partialM with
      | .invalid => .error .inval
      | .err => .error .noent
      | .no => reLoop eng partialM key kind child rs
      | .full => if r.ctx = none_ then .error .noent else .ok (some r)
      | .part =>
        if partialM then (if r.ctx = none_ then .error .noent else .ok (some r))
        else .error .noent

/-- The loop over the node and its parents, for the regular expressions
(label_file.c:1617, 1748-1750). -/
def nodesLoop (eng : Engine) (partialM : Bool) (key : Bytes) (kind : Nat) (child : Option Re) :
    List Node → Except Err (Option Re)
  | [] => .ok child
  | n :: ns =>
    match reLoop eng partialM key kind child n.res.reverse with
    | .error e => .error e
    | .ok c => nodesLoop eng partialM key kind c ns

/-- The literals of the deepest node (label_file.c:1618-1668). -/
def litPart (partialM : Bool) (key : Bytes) (kind : Nat) : List Node → Option (Except Err Hit)
  | [] => none
  | n :: _ =>
    match searchLit partialM n.lits.toArray key with
    | none => none
    | some i => litLoop partialM key kind (n.lits.drop i)

/-- `lookup_check_node` (label_file.c:1607-1767) without `find_all`. -/
def checkNode (eng : Engine) (partialM : Bool) (key : Bytes) (kind : Nat) (nodes : List Node) :
    Except Err Hit :=
  match litPart partialM key kind nodes with
  | some r => r
  | none =>
    match nodesLoop eng partialM key kind none nodes with
    | .error e => .error e
    | .ok none => .error .noent
    | .ok (some r) => .ok ⟨r.regexStr, r.ctx, r.prefixLen, r.kind, true⟩

/-! ## Paths -/

/-- Removal of duplicate slashes (label_file.c:1889-1903): each slash that is
followed by another one is dropped. -/
def dedup : Bytes → Bytes
  | [] => []
  | [b] => [b]
  | b :: c :: bs => if b = slash ∧ c = slash then dedup (c :: bs) else b :: dedup (c :: bs)

/-- Removal of a trailing slash (label_file.c:1905-1925). -/
def chop (k : Bytes) : Bytes :=
  if k.length > 1 ∧ k.getLast? = some slash then k.dropLast else k

/-- `struct selabel_sub` (label_file.h:75-80). -/
structure Sub where
  src : Bytes
  dst : Bytes
  deriving DecidableEq, Repr

/-- `selabel_apply_subs` (label_file.c:1231-1262). -/
def applySubs : List Sub → Bytes → Option Bytes
  | [], _ => none
  | s :: ss, src =>
    if src.take s.src.length = s.src then
      match src.drop s.src.length with
      | [] => some s.dst
      | b :: bs =>
        if b = slash then some (s.dst ++ (if s.dst = [slash] then bs else b :: bs))
        else applySubs ss src
    else applySubs ss src

/-- `selabel_sub_key` (label_file.c:1373-1389). -/
def subKey (subs dist : List Sub) (key : Bytes) : Bytes :=
  match applySubs subs key with
  | some k => (applySubs dist k).getD k
  | none => (applySubs dist key).getD key

/-- `lookup_all` without `find_all` (label_file.c:1862-1939), for a key that is
not NULL. `EINVAL` for the empty key. -/
def lookupAll (eng : Engine) (d : Data) (subs dist : List Sub) (key : Bytes) (kind : Nat) (partialM : Bool) :
    Except Err Hit :=
  if d.num = 0 then .error .noent
  else
    let key := dedup key
    if key.length = 0 then .error .inval
    else
      let key := subKey subs dist (chop key)
      checkNode eng partialM key kind (deepest d.root [] key)

/-- `lookup` (label_file.c:2032-2042): the context. -/
def lookup (eng : Engine) (d : Data) (subs dist : List Sub) (key : Bytes) (kind : Nat) : Except Err Bytes :=
  match lookupAll eng d subs dist key kind false with
  | .error e => .error e
  | .ok h => .ok h.ctx

/-- `partial_match` (label_file.c:2044-2049). -/
def partialMatch (eng : Engine) (d : Data) (subs dist : List Sub) (key : Bytes) : Bool :=
  match lookupAll eng d subs dist key 0 true with
  | .error _ => false
  | .ok _ => true

/-- The loop over the aliases in `lookup_best_match` (label_file.c:2080-2093). -/
def bestLoop (best : Option Hit) (prefixLen : Nat) : List (Except Err Hit) → Except Err Hit
  | [] => match best with
    | some h => .ok h
    | none => .error .noent
  | .error _ :: rs => bestLoop best prefixLen rs
  | .ok h :: rs =>
    if !h.hasMeta then .ok h
    else if h.prefixLen > prefixLen then bestLoop (some h) h.prefixLen rs
    else bestLoop best prefixLen rs

/-- `lookup_best_match` (label_file.c:2051-2107). -/
def bestMatch (eng : Engine) (d : Data) (subs dist : List Sub) (key : Bytes) (aliases : List Bytes)
    (kind : Nat) : Except Err Hit :=
  let look k := lookupAll eng d subs dist k kind false
  if aliases = [] then look key
  else
    match look key with
    | .ok h => if !h.hasMeta then .ok h else bestLoop (some h) h.prefixLen (aliases.map look)
    | .error _ => bestLoop none 0 (aliases.map look)

/-! ## The file of substitutions -/

/-- `fgets` of at most `n` bytes: what it reads and the rest of the file. -/
def chunk : Nat → Bytes → Bytes × Bytes
  | 0, s => ([], s)
  | _ + 1, [] => ([], [])
  | n + 1, b :: s => if b = 10 then ([b], s) else ((b :: (chunk n s).1), (chunk n s).2)

theorem chunk_length (n : Nat) (s : Bytes) (h : s ≠ []) : (chunk (n + 1) s).2.length < s.length := by
  have key : ∀ n s, (chunk n s).2.length ≤ s.length := by
    intro n
    induction n with
    | zero => intro s; simp [chunk]
    | succ n ih =>
      intro s
      cases s with
      | nil => simp [chunk]
      | cons b s =>
        rw [chunk]
        split
        · simp
        · have := ih s; simp only [List.length_cons]; omega
  cases s with
  | nil => exact absurd rfl h
  | cons b s =>
    rw [chunk]
    split
    · simp
    · have := key n s; simp only [List.length_cons]; omega

/-- The buffer of `selabel_subs_init`, 1024 bytes that may be undefined
(label_file.c:1267). -/
abbrev Buf := List (Option Byte)

/-- The effect of `fgets` on the buffer. -/
def put (buf : Buf) (c : Bytes) : Buf := c.map some ++ some 0 :: buf.drop (c.length + 1)

/-- `while (*p && isspace(*p)) p++` (label_file.c:1291, 1301); `none` when an
undefined byte is read. -/
def skipSpace (buf : Buf) (i : Nat) : Option Nat :=
  match h : buf[i]? with
  | some (some b) => if b ≠ 0 ∧ isspace b then skipSpace buf (i + 1) else some i
  | _ => none
termination_by buf.length - i
decreasing_by
  have : i < buf.length := by
    exact (List.getElem?_eq_some_iff.1 h).1
  omega

/-- `while (*p && !isspace(*p)) p++` (label_file.c:1295, 1304). -/
def skipWord (buf : Buf) (i : Nat) : Option Nat :=
  match h : buf[i]? with
  | some (some b) => if b ≠ 0 ∧ !isspace b then skipWord buf (i + 1) else some i
  | _ => none
termination_by buf.length - i
decreasing_by
  have : i < buf.length := by
    exact (List.getElem?_eq_some_iff.1 h).1
  omega

/-- The text between two places. -/
def bufText (buf : Buf) (i j : Nat) : Bytes := ((buf.drop i).take (j - i)).filterMap id

/-- One turn of the loop of `selabel_subs_init` (label_file.c:1284-1343): the
substitution, if any, and the buffer. -/
def subLine (buf : Buf) : Option (Option Sub × Buf) := do
  let src ← skipSpace buf 0
  if buf[src]? = some (some hash) then return (none, buf)
  let ptr ← skipWord buf src
  let buf := buf.set ptr (some 0)
  if buf[src]? = some (some 0) then return (none, buf)
  let dst ← skipSpace buf (ptr + 1)
  let end_ ← skipWord buf dst
  let buf := buf.set end_ (some 0)
  if buf[dst]? = some (some 0) then return (none, buf)
  return (some ⟨bufText buf src ptr, bufText buf dst end_⟩, buf)

/-- `selabel_subs_init` (label_file.c:1263-1370): the substitutions of a file, in
order; `none` when undefined bytes are read. -/
def subsInit (buf : Buf) (file : Bytes) : Option (List Sub) :=
  if h : file = [] then some []
  else
    match subLine (put buf (chunk 1022 file).1) with
    | none => none
    | some (s, buf) =>
      match subsInit buf (chunk 1022 file).2 with
      | none => none
      | some ss => some (s.toList ++ ss)
termination_by file.length
decreasing_by exact chunk_length 1021 file h

end Verif.FileLabel
