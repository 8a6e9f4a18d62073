import Verif.CompFc.Model
/-!
# Several files in one handle

Models `merge_mmap_spec_nodes` and the end of `load_mmap`
(libselinux/src/label_file.c), and `init` for any mixture of text files and
compiled files.

Simplifications:
* Numbers of entries never overflow, and neither does the sum of the numbers of
  specifications.
* Which of the files with the same name is the newest (`open_file`), and reading
  the other one after an error, are not modelled.
-/
namespace Verif.CompFc
open Verif.FileLabel (Node Lit Re Data strcmp Qsort cmpNode sortNode)

/-- The loop over the children of both nodes (label_file.c:322-348), for the first
child `c` of the destination, the others `cs`, and what is done once `c` is
through. -/
def mergeStep (f : Node → Node → Node) (c : Node) (cs : List Node) (go : List Node → List Node) : List Node → List Node
  | [] => c :: cs
  | d :: ds =>
    if strcmp c.stem d.stem = 0 then f c d :: go ds
    else if strcmp c.stem d.stem < 0 then c :: go (d :: ds)
    else d :: mergeStep f c cs go ds

/-- The loop over the children of both nodes and the copies of what remains
(label_file.c:322-363). -/
def mergeKids (f : Node → Node → Node) : List Node → List Node → List Node
  | [], ds => ds
  | c :: cs, ds => mergeStep f c cs (mergeKids f cs) ds

/-- `merge_mmap_spec_nodes` (label_file.c:215-387). The number bounds the levels
of the source, of which there are at most 32. -/
def merge (q : Qsort) : Nat → Node → Node → Node
  | 0, n, _ => n
  | k + 1, .mk s l r c, .mk _ l' r' c' =>
    .mk s (l ++ l') (r ++ r')
      (if c'.isEmpty then c else if c.isEmpty then c' else mergeKids (merge q k) (q.sort cmpNode c) c')

/-- A file: text (its lines), or compiled (its bytes). -/
inductive Source
  | text (lines : List Bytes)
  | compiled (bytes : Bytes)

/-- `process_file` (label_file.c:1171-1218) for one file, with the end of
`load_mmap` (label_file.c:990-1010). -/
def addFile (q : Qsort) (lib : Lib) (decode : Bytes → Dec) (check : Bytes → Option Bytes) (i : Nat) (d : Data) : Source → Option Data
  | .text lines => FileLabel.processLines none i 0 lines d
  | .compiled bytes =>
    match load lib decode check i bytes with
    | .ok x _ => some (if d.num = 0 then ⟨x.root, d.num + x.num⟩ else ⟨merge q 32 d.root x.root, d.num + x.num⟩)
    | _ => none

/-- The files in order (label_file.c:1466-1489). -/
def addFiles (q : Qsort) (lib : Lib) (decode : Bytes → Dec) (check : Bytes → Option Bytes) : Nat → List Source → Data → Option Data
  | _, [], d => some d
  | i, f :: fs, d =>
    match addFile q lib decode check i d f with
    | none => none
    | some d => addFiles q lib decode check (i + 1) fs d

/-- `selabel_open` for files (label_file.c:1393-1506): read and sort. -/
def openAll (q : Qsort) (lib : Lib) (decode : Bytes → Dec) (check : Bytes → Option Bytes) (fs : List Source) : Option Data :=
  (addFiles q lib decode check 0 fs .empty).map (fun d => { d with root := sortNode q d.root })

end Verif.CompFc
