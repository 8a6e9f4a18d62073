import Verif.FileLabel.Model
/-!
# Compiled `file_contexts` files

Models the writer of `file_contexts.bin` files in
libselinux/utils/sefcontext_compile.c and the reader of them in
libselinux/src/label_file.c (`load_mmap` and the functions it calls), with
`next_entry` (libselinux/src/label_file.h) and the two functions of
libselinux/src/regex.c that store a compiled regular expression.

Simplifications:
* Memory allocation and writing to the file always succeed (`calloc` of no
  entries does not return NULL).
* The serialized form of a regular expression is a parameter (`ser`), and so is
  what PCRE makes of the bytes it is given (`decode`).
* The file is loaded into a handle that is empty; merging it into a tree that is
  there already (`merge_mmap_spec_nodes`) is in `Merge.lean`.
* A stem with a NUL in its middle, which only a forged file has, is cut there.
-/
namespace Verif.CompFc
open Verif.FileLabel (Node Lit Re Data strcmp)

/-! ## Numbers -/

/-- `htobe16`, `htobe32`, `htobe64` and a raw copy of the integer, on `k` bytes. -/
def be (k v : Nat) : Bytes := (leBytes k v).reverse

/-- `be16toh`, `be32toh`, `be64toh`. -/
def beVal (bs : Bytes) : Nat := leVal bs.reverse

/-! ## The writer -/

/-- `sidtab_context_to_sid` (libselinux/src/avc_sidtab.c:95-117): a context that is
not in the table gets the next number. The table is the list of the contexts by
number. -/
def addCtx (t : List Bytes) (c : Bytes) : List Bytes := if c ∈ t then t else t ++ [c]

mutual
/-- `spec_node_to_sidtab` (sefcontext_compile.c:82-105). -/
def nodeCtxs : Node → List Bytes → List Bytes
  | .mk _ ls rs cs, t =>
    nodesCtxs cs ((rs.map Re.ctx).foldl addCtx ((ls.map Lit.ctx).foldl addCtx t))
/-- The loop over the children. -/
def nodesCtxs : List Node → List Bytes → List Bytes
  | [], t => t
  | c :: cs, t => nodesCtxs cs (nodeCtxs c t)
end

/-- `create_sidtab` (sefcontext_compile.c:107-116). -/
def table (n : Node) : List Bytes := nodeCtxs n []

/-- `sidtab_context_lookup`: the number of a context (from 1 on). -/
def idOf (t : List Bytes) (c : Bytes) : Nat := t.idxOf c + 1

/-- Write one after the other. -/
def wrAll {α : Type} (f : α → Option Bytes) : List α → Option Bytes
  | [] => some []
  | x :: xs => do
    let a ← f x
    let b ← wrAll f xs
    some (a ++ b)

/-- A context of `write_sidtab` (sefcontext_compile.c:212-232). -/
def wrCtx (c : Bytes) : Option Bytes :=
  if c.length = 0 ∨ c.length ≥ 65535 then none else some (be 2 c.length ++ c)

/-- `write_sidtab` (sefcontext_compile.c:172-235). -/
def wrTable (t : List Bytes) : Option Bytes := do
  let b ← wrAll wrCtx t
  some (be 4 t.length ++ b)

/-- A string with its length, both with the NUL (sefcontext_compile.c:255-267). -/
def wrStr (s : Bytes) : Option Bytes :=
  if s.length = 0 ∨ s.length ≥ 65535 then none else some (be 2 (s.length + 1) ++ (s ++ [0]))

/-- `write_literal_spec` (sefcontext_compile.c:237-290). -/
def wrLit (t : List Bytes) (l : Lit) : Option Bytes := do
  let r ← wrStr l.regexStr
  let m ← wrStr l.literalMatch
  some (be 4 (idOf t l.ctx) ++ (r ++ (m ++ be 1 l.kind)))

/-- `regex_writef` (regex.c:177-214): the serialized form of a regular expression,
or nothing. -/
def wrRegex (ser : Bytes → Option Bytes) (pre : Bool) (r : Bytes) : Option Bytes :=
  if pre then
    match ser r with
    | none => none
    | some x => if x.length ≥ 4294967295 then none else some (be 4 x.length ++ x)
  else some (be 4 0)

/-- `write_regex_spec` (sefcontext_compile.c:292-349). -/
def wrRe (ser : Bytes → Option Bytes) (pre : Bool) (t : List Bytes) (r : Re) : Option Bytes := do
  let s ← wrStr r.regexStr
  let x ← wrRegex ser pre r.regexStr
  some (be 4 (idOf t r.ctx) ++ (be 4 r.lineno ++ (s ++ (be 2 r.prefixLen ++ (be 1 r.kind ++ x)))))

/-- The stem (sefcontext_compile.c:359-370); only the root has no parent. -/
def wrStem (top : Bool) (s : Bytes) : Option Bytes :=
  if (s.length = 0 ∧ top = false) ∨ s.length ≥ 65535 then none else some (be 2 (s.length + 1) ++ (s ++ [0]))

mutual
/-- `write_spec_node` (sefcontext_compile.c:351-411). -/
def wrNode (ser : Bytes → Option Bytes) (pre : Bool) (t : List Bytes) (top : Bool) : Node → Option Bytes
  | .mk s ls rs cs => do
    let a ← wrStem top s
    let l ← wrAll (wrLit t) ls
    let r ← wrAll (wrRe ser pre t) rs
    let c ← wrNodes ser pre t cs
    some (a ++ (be 4 ls.length ++ (l ++ (be 4 rs.length ++ (r ++ (be 4 cs.length ++ c))))))
/-- The loop over the children. -/
def wrNodes (ser : Bytes → Option Bytes) (pre : Bool) (t : List Bytes) : List Node → Option Bytes
  | [] => some []
  | c :: cs => do
    let a ← wrNode ser pre t false c
    let b ← wrNodes ser pre t cs
    some (a ++ b)
end

/-- `SELINUX_MAGIC_COMPILED_FCONTEXT` (label_file.h:27). -/
def magic : Nat := 0xf97cff8a

/-- `SELINUX_COMPILED_FCONTEXT_TREE_LAYOUT` (label_file.h:35-38). -/
def version : Nat := 6

/-- The strings of `regex_version` and `regex_arch_string` (regex.c:36-119). -/
structure Lib where
  version : Bytes
  arch : Bytes

/-- A string of the head (sefcontext_compile.c:443-471). -/
def wrHead (s : Bytes) : Option Bytes :=
  if s.length = 0 ∨ s.length ≥ 4294967295 then none else some (be 4 s.length ++ s)

/-- `write_binary_file` (sefcontext_compile.c:413-509). -/
def compile (lib : Lib) (ser : Bytes → Option Bytes) (pre : Bool) (d : Data) : Option Bytes := do
  let v ← wrHead lib.version
  let a ← wrHead lib.arch
  let t ← wrTable (table d.root)
  let n ← wrNode ser pre (table d.root) true d.root
  some (be 4 magic ++ (be 4 version ++ (v ++ (a ++ (be 8 d.num ++ (t ++ n))))))

/-! ## The reader -/

/-- Outcome of a reader: a value and the rest of the mapping, an error, or memory
outside of the mapping (or of an array) was read. -/
inductive R (α : Type) where
  | ok (a : α) (rest : Bytes)
  | bad
  | oob
  deriving Repr, DecidableEq

/-- A reader: what it makes of the rest of the mapping. -/
abbrev P (α : Type) := Bytes → R α

/-- One reader after the other. -/
def andThen {α β : Type} (p : P α) (f : α → P β) : P β := fun s =>
  match p s with
  | .ok a r => f a r
  | .bad => .bad
  | .oob => .oob

/-- Nothing is read. -/
def ret {α : Type} (a : α) : P α := fun s => .ok a s

instance : Monad P where
  pure := ret
  bind := andThen

/-- `next_entry` (label_file.h:782-793). -/
def next (n : Nat) : P Bytes := fun s => if n > s.length then .bad else .ok (s.take n) (s.drop n)

/-- A number of `k` bytes. -/
def num (k : Nat) : P Nat := do
  let b ← next k
  ret (beVal b)

/-- `if (c) return -1`. -/
def refuse (c : Bool) : P Unit := fun s => if c then .bad else .ok () s

/-- `entry_size_check` (label_file.c:389-397); a product that overflows is larger
than the mapping. -/
def room (n size : Nat) : P Unit := fun s => if n * size > s.length then .bad else .ok () s

/-- The C string at an address: the bytes before the first NUL, which must be in
the mapping. -/
def strAt (s : Bytes) : Option Bytes := if 0 ∈ s then some (s.takeWhile (· ≠ 0)) else none

/-- A string of `len` bytes: its address, `next_entry`, and the check of its first
and last byte (label_file.c:524-530, 543-549, 640-646, 704-713); its text is read
later. -/
def str (len : Nat) : P Bytes := fun s =>
  if len > s.length then .bad
  else if len = 0 then .oob
  else
    match s[0]?, s[len - 1]? with
    | some a, some z =>
      if a = 0 ∨ z ≠ 0 then .bad
      else
        match strAt s with
        | none => .oob
        | some t => .ok t (s.drop len)
    | _, _ => .oob

/-- Read `n` times. -/
def rep {α : Type} (p : P α) : Nat → P (List α)
  | 0 => ret []
  | n + 1 => do
    let x ← p
    let xs ← rep p n
    ret (x :: xs)

/-- A context of `load_mmap_ctxarray` (label_file.c:441-477); `check` is
`selinux_validate`, which may replace the context, or `some` if the handle does
not validate. `<<none>>` is not validated. -/
def rdCtx (check : Bytes → Option Bytes) : P Bytes := do
  let n ← num 2
  refuse (n == 0 || n == 65535)
  room n 1
  let b ← next n
  let c := b.takeWhile (· ≠ 0)
  if c = FileLabel.none_ then ret c
  else
    match check c with
    | none => fun _ => .bad
    | some c => ret c

/-- `load_mmap_ctxarray` (label_file.c:415-481). -/
def rdTable (check : Bytes → Option Bytes) : P (List Bytes) := do
  let n ← num 4
  room n 3
  rep (rdCtx check) n

/-- The context with a number (label_file.c:500-512, 592-604). -/
def rdId (t : List Bytes) : P Bytes := do
  let i ← num 4
  refuse (i == 0 || i == 4294967295 || decide (i > t.length))
  match t[i - 1]? with
  | none => fun _ => .oob
  | some c => ret c

/-- A string with its length (label_file.c:518-530). -/
def rdStr : P (Nat × Bytes) := do
  let n ← num 2
  refuse (decide (n ≤ 1))
  let s ← str n
  ret (n, s)

/-- `load_mmap_literal_spec` (label_file.c:483-571). The line number stays 0. -/
def rdLit (t : List Bytes) : P Lit := do
  let c ← rdId t
  let r ← rdStr
  let m ← rdStr
  refuse (decide (m.1 - 1 > r.2.length))
  let k ← num 1
  ret ⟨c, r.2, m.2, m.1 - 1, k, 0⟩

/-- What PCRE makes of serialized bytes (`pcre2_serialize_get_number_of_codes` and
`pcre2_serialize_decode`, which get an address and no length): one expression,
something else, or it goes past the end of the bytes. -/
inductive Dec | one | other | outside
  deriving DecidableEq, Repr

/-- The calls of PCRE (regex.c:134-161), for an entry of `n` bytes: it gets all of
the rest of the mapping. -/
def rdDecode (decode : Bytes → Dec) (pre : Bool) (n : Nat) : P Unit := fun s =>
  if n ≠ 0 ∧ pre = true then
    match decode s with
    | .one => .ok () s
    | .other => .bad
    | .outside => .oob
  else .ok () s

/-- `regex_load_mmap` (regex.c:122-175). -/
def rdRegex (decode : Bytes → Dec) (pre : Bool) : P Unit := do
  let n ← num 4
  rdDecode decode pre n
  let _ ← next n
  ret ()

/-- `load_mmap_regex_spec` (label_file.c:573-674). -/
def rdRe (decode : Bytes → Dec) (pre : Bool) (input : Nat) (t : List Bytes) : P Re := do
  let c ← rdId t
  let l ← num 4
  refuse (l == 0 || l == 4294967295)
  let r ← rdStr
  let n ← num 2
  refuse (decide (n > r.2.length))
  let k ← num 1
  rdRegex decode pre
  ret ⟨c, r.2, n, k, input, l⟩

/-- The stem (label_file.c:698-715). -/
def rdStem (top : Bool) : P Bytes := do
  let n ← num 2
  refuse (n == 0)
  refuse ((n == 1) != top)
  if top then do
    let _ ← next n
    ret []
  else str n

/-- The loop over the children, each with a stem that is greater than the one
before (label_file.c:806-818). -/
def rdKids (p : P Node) : Nat → Option Bytes → P (List Node)
  | 0, _ => ret []
  | n + 1, prev => do
    let c ← p
    refuse (prev.any (fun s => decide (strcmp s c.stem ≥ 0)))
    let cs ← rdKids p n (some c.stem)
    ret (c :: cs)

/-- `load_mmap_spec_node` (label_file.c:676-824): the number is 32 less the
depth. -/
def rdNode (decode : Bytes → Dec) (pre : Bool) (input : Nat) (t : List Bytes) : Nat → Bool → P Node
  | 0, _ => fun _ => .bad
  | k + 1, top => do
    let s ← rdStem top
    let nl ← num 4
    refuse (nl == 4294967295)
    room nl 16
    let ls ← rep (rdLit t) nl
    let nr ← num 4
    refuse (nr == 4294967295)
    room nr 14
    let rs ← rep (rdRe decode pre input t) nr
    let nc ← num 4
    refuse (nc == 4294967295)
    room nc 14
    let cs ← rdKids (rdNode decode pre input t k false) nc none
    refuse (!top && nl == 0 && nr == 0 && nc == 0)
    ret (.mk s ls rs cs)

/-- A version string (label_file.c:884-920, 924-960): whether it is the expected
one. A string of another length is skipped, or not if it is too long. -/
def rdHead (want : Bytes) : P Bool := do
  let n ← num 4
  if want.length ≠ n then
    (fun s => if n > s.length then .ok false s else .ok false (s.drop n) : P Bool)
  else do
    room n 1
    let b ← next n
    ret (decide (b.takeWhile (· ≠ 0) = want))

/-- `load_mmap` into an empty handle (label_file.c:826-1030). -/
def load (lib : Lib) (decode : Bytes → Dec) (check : Bytes → Option Bytes) (input : Nat) : P Data := do
  let m ← num 4
  refuse (decide (m ≠ magic))
  let v ← num 4
  refuse (decide (v ≠ version))
  let okv ← rdHead lib.version
  let oka ← rdHead lib.arch
  let n ← num 8
  let t ← rdTable check
  let root ← rdNode decode (okv && oka) input t 32 true
  ret ⟨root, n⟩

end Verif.CompFc
