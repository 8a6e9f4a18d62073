import Verif.Bytes
/-!
# Sorting of file-context lines

Models `semanage_fc_sort` and the functions it calls
(libsemanage/src/semanage_store.c:2251-2830) on the bytes of the buffer.

Simplifications: memory allocation always succeeds (each failure makes the
function return -1); the singly linked lists of nodes and of buckets are lists;
the index `i` into the current line is represented by the bytes of the line
from `i` on; `int` counters are unbounded.

`none` stands for a read or write outside the allocated memory.
-/
namespace Verif.FcSort

/-- `isspace` in the C locale. -/
def isspace (b : Byte) : Bool := b == 32 || (9 ≤ b.toNat && b.toNat ≤ 13)

/-- `\` -/
abbrev bslash : Byte := 92
/-- newline -/
abbrev nl : Byte := 10
/-- carriage return -/
abbrev cr : Byte := 13
/-- `(char) EOF` -/
abbrev eofc : Byte := 255
/-- tab -/
abbrev tab : Byte := 9
/-- `#` -/
abbrev hash : Byte := 35
/-- `-` -/
abbrev dash : Byte := 45

/-- `semanage_file_context_node_t` (semanage_store.c:136-146) without `next`. -/
structure Node where
  path : Bytes
  fileType : Option Bytes
  context : Bytes
  pathLen : Nat
  effLen : Nat
  typeLen : Nat
  contextLen : Nat
  metaPos : Int
  deriving DecidableEq, Repr

/-- `semanage_fc_compare` (semanage_store.c:2303-2340). -/
def compare (a b : Node) : Int :=
  let am := decide (a.metaPos ≥ 0)
  let bm := decide (b.metaPos ≥ 0)
  if am && !bm then -1
  else if bm && !am then 1
  else if a.metaPos < b.metaPos then -1
  else if b.metaPos < a.metaPos then 1
  else if a.effLen < b.effLen then -1
  else if b.effLen < a.effLen then 1
  else if a.fileType.isNone && b.fileType.isSome then -1
  else if b.fileType.isNone && a.fileType.isSome then 1
  else 0

/-- `semanage_fc_merge` (semanage_store.c:2346-2383). The selection of the head
(2360-2366) is the same as the body of the loop (2368-2378). -/
def merge : List Node → List Node → List Node
  | [], right => right
  | left, [] => left
  | l :: left, r :: right =>
    if compare l r = 1 then r :: merge (l :: left) right
    else l :: merge left (r :: right)
termination_by l r => l.length + r.length

/-- One pass of the inner loop of `semanage_fc_merge_sort`
(semanage_store.c:2414-2429). -/
def mergePass : List (List Node) → List (List Node)
  | a :: b :: rest => merge a b :: mergePass rest
  | bs => bs

theorem mergePass_length : ∀ bs : List (List Node), (mergePass bs).length ≤ bs.length
  | [] => by simp [mergePass]
  | [_] => by simp [mergePass]
  | _ :: _ :: rest => by
    have := mergePass_length rest
    simp only [mergePass, List.length_cons]; omega

/-- `semanage_fc_merge_sort` (semanage_store.c:2400-2431): passes until one
bucket is left; the result is the list of that bucket. -/
def mergeSort : List (List Node) → List Node
  | [] => []
  | [b] => b
  | a :: b :: rest => mergeSort (mergePass (a :: b :: rest))
termination_by bs => bs.length
decreasing_by
  have := mergePass_length rest
  simp only [mergePass, List.length_cons]; omega

/-- The characters of the first `case` of semanage_store.c:2450-2459. -/
def isMeta (b : Byte) : Bool :=
  b == 46 || b == 94 || b == 36 || b == 63 || b == 42 || b == 43 || b == 124 || b == 91 ||
  b == 40 || b == 123

/-- The loop of `semanage_fc_find_meta` (semanage_store.c:2439-2471) from index
`c` on; the list is the string from `c` to its end. After a `\` at the end of
the string the index is beyond the terminating NUL: `none`. -/
def findMetaFrom (c esc : Nat) : Bytes → Option Int
  | [] => some (-1)
  | b :: bs =>
    if isMeta b then some ((c : Int) - esc)
    else if b = bslash then
      match bs with
      | [] => none
      | _ :: bs => findMetaFrom (c + 2) (esc + 1) bs
    else findMetaFrom (c + 1) esc bs

/-- `semanage_fc_find_meta` (semanage_store.c:2439-2471). -/
def findMeta (path : Bytes) : Option Int := findMetaFrom 0 0 path

/-- `semanage_strnchr` (semanage_store.c:2474-2490). -/
def strnchr (c : Byte) : Bytes → Option Nat
  | [] => none
  | b :: bs => if b = c then some 0 else (strnchr c bs).map (· + 1)

/-- `semanage_get_line_end` (semanage_store.c:2496-2512). -/
def lineEnd (buf : Bytes) : Option Nat :=
  match strnchr nl buf with
  | some k => some k
  | none =>
    match strnchr cr buf with
    | some k => some k
    | none => strnchr eofc buf

/-- The count of escape characters (semanage_store.c:2613-2630). -/
def escapes (just : Bool) : Bytes → Nat
  | [] => 0
  | b :: bs =>
    if b = bslash then (if just then escapes false bs else escapes true bs + 1)
    else escapes false bs

/-- `strndup(&line_buf[start], len)` of a piece of the line. -/
def strndup (s : Bytes) : Bytes := s.takeWhile (· ≠ 0)

/-- What the loop does with one line: ignore it or add a node. -/
inductive Parsed
  | skip
  | node (n : Node)
  deriving DecidableEq, Repr

/-- The end of the parsing of a line, from the context on
(semanage_store.c:2701-2722). `esc` is the count of escapes in `regex`. -/
def parseContext (regex : Bytes) (fileType : Option Bytes) (typeLen : Nat) (s : Bytes) :
    Option Parsed :=
  let ctx := s.takeWhile (fun b => !isspace b)
  match findMeta (strndup regex) with
  | none => none
  | some m => some (.node
      { path := strndup regex, fileType := fileType, context := strndup ctx,
        pathLen := regex.length, effLen := regex.length - escapes false regex,
        typeLen := typeLen, contextLen := ctx.length, metaPos := m })

/-- The body of the parsing loop for one line, its end-of-line character
included (semanage_store.c:2583-2728). -/
def parseLine (line : Bytes) : Option Parsed :=
  if line.length ≤ 1 then some .skip
  else
    let s := line.dropWhile isspace
    match s with
    | [] => some .skip
    | b :: _ =>
      if b = hash then some .skip
      else
        let regex := s.takeWhile (fun b => !isspace b)
        let s := s.dropWhile (fun b => !isspace b)
        if regex.length = 0 then some .skip
        else
          let s := s.dropWhile isspace
          match s with
          | [] => some .skip
          | b :: _ =>
            if b = dash then
              if s.length ≤ 2 then some .skip
              else
                let ty := strndup (s.take 2)
                let s := (s.drop 2).dropWhile isspace
                match s with
                | [] => some .skip
                | _ => parseContext regex (some ty) 2 s
            else parseContext regex none 0 s

theorem strnchr_lt {c : Byte} : ∀ {buf : Bytes} {k : Nat}, strnchr c buf = some k → k < buf.length
  | [], k, h => by simp [strnchr] at h
  | b :: bs, k, h => by
    simp only [strnchr] at h
    split at h
    · simp only [Option.some.injEq] at h; simp [← h]
    · simp only [Option.map_eq_some_iff] at h
      obtain ⟨j, hj, rfl⟩ := h
      have := strnchr_lt hj
      simp only [List.length_cons]; omega

theorem lineEnd_lt {buf : Bytes} {k : Nat} (h : lineEnd buf = some k) : k < buf.length := by
  unfold lineEnd at h
  split at h
  · rename_i k' hk; simp only [Option.some.injEq] at h; subst h; exact strnchr_lt hk
  · split at h
    · rename_i k' hk; simp only [Option.some.injEq] at h; subst h; exact strnchr_lt hk
    · exact strnchr_lt h

/-- The parsing loop (semanage_store.c:2562-2729). -/
def parse (buf : Bytes) : Option (List Node) :=
  match h : lineEnd buf with
  | none => some []
  | some k =>
    match parseLine (buf.take (k + 1)) with
    | none => none
    | some .skip => parse (buf.drop (k + 1))
    | some (.node n) =>
      match parse (buf.drop (k + 1)) with
      | none => none
      | some ns => some (n :: ns)
termination_by buf.length
decreasing_by all_goals (have := lineEnd_lt h; simp only [List.length_drop]; omega)

/-- The size of the output of one node (semanage_store.c:2776-2782). -/
def nodeSize (n : Node) : Nat :=
  (n.pathLen + 1) + (if n.fileType.isSome then n.typeLen + 1 else 0) + (n.contextLen + 1)

/-- The size of the output buffer (semanage_store.c:2774-2785). -/
def outSize (ns : List Node) : Nat := (ns.map nodeSize).sum + 1

/-- Write `s` at `pos`: `none` when it does not fit. -/
def writeAt (buf : Bytes) (pos : Nat) (s : Bytes) : Option Bytes :=
  if pos + s.length ≤ buf.length then some (buf.take pos ++ s ++ buf.drop (pos + s.length))
  else none

/-- `snprintf(pos, n, "%s<c>", s)`. -/
def snprintf (buf : Bytes) (pos n : Nat) (s : Bytes) (c : Byte) : Option Bytes :=
  writeAt buf pos ((s ++ [c]).take (n - 1) ++ [0])

/-- The output of one node (semanage_store.c:2800-2818). -/
def writeNode (buf : Bytes) (pos : Nat) (n : Node) : Option (Bytes × Nat) := do
  let buf ← snprintf buf pos (n.pathLen + 1 + 1) n.path tab
  let pos := pos + (n.pathLen + 1)
  let (buf, pos) ← match n.fileType with
    | none => some (buf, pos)
    | some t => do
      let buf ← snprintf buf pos (t.length + 1 + 1) t tab
      some (buf, pos + (t.length + 1))
  let buf ← snprintf buf pos (n.context.length + 1 + 1) n.context nl
  some (buf, pos + (n.context.length + 1))

/-- The output loop (semanage_store.c:2797-2818). -/
def writeAll (buf : Bytes) (pos : Nat) : List Node → Option (Bytes × Nat)
  | [] => some (buf, pos)
  | n :: ns =>
    match writeNode buf pos n with
    | none => none
    | some (buf, pos) => writeAll buf pos ns

/-- Result of `semanage_fc_sort`. -/
inductive Res
  | err
  | ok (out : Bytes)
  deriving DecidableEq, Repr

/-- `semanage_fc_sort` (semanage_store.c:2523-2836). -/
def fcSort (buf : Bytes) : Option Res :=
  if buf.length = 0 then some .err
  else
    match parse buf with
    | none => none
    | some ns =>
      let ns := mergeSort (ns.map (fun n => [n]))
      let size := outSize ns
      match writeAll (List.replicate size 0) 0 ns with
      | none => none
      | some (out, pos) => if pos + 1 = size then some (.ok out) else some .err

end Verif.FcSort
