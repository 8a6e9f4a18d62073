import Verif.Prelude

/-!
# Hash tables of libsepol

Models libsepol/src/hashtab.c and libsepol/src/symtab.c, and the hash and comparison functions of policydb.c:832-891.

* Keys and data are values of arbitrary types; pointer identity of keys is not modelled (`hashtab_remove` hands the stored key
  to `destroy`).
* A chain is a list; the array is a function from the slot number.
* Allocation failure is an input of each call (`ok`), so theorems hold for every failure pattern.
-/

namespace Verif.Hashtab

/-- The two function pointers of `hashtab_val_t`, hashtab.h:41-46: the hash depends on the size of the table. -/
structure Ops (κ : Type) where
  hash : Nat → κ → Nat
  cmp : κ → κ → Int

/-- `hashtab_val_t`. -/
structure Tab (κ δ : Type) where
  size : Nat
  nel : Nat
  htable : Nat → List (κ × δ)

/-- Return codes, errcodes.h. -/
inductive Code
  | ok
  | nomem
  | exist
  | noent
deriving DecidableEq, Repr

/-- `hashtab_create`, hashtab.c:37-64. -/
def create {κ δ : Type} (size : Nat) : Tab κ δ := ⟨size, 0, fun _ => []⟩

/-- `while (new_size <= h->nel && new_size * 2 != 0) new_size *= 2`, hashtab.c:71-72, on 32-bit numbers.  Every doubling adds a
trailing zero bit, so 32 rounds are enough. -/
def growSize (nel : Nat) : Nat → Nat → Nat
  | 0, size => size
  | fuel + 1, size => if size ≤ nel ∧ size * 2 % 2 ^ 32 ≠ 0 then growSize nel fuel (size * 2 % 2 ^ 32) else size

/-- Insertion of a moved node, hashtab.c:88-94. -/
def moveNode {κ δ : Type} (o : Ops κ) (x : κ × δ) : List (κ × δ) → List (κ × δ)
  | [] => [x]
  | y :: l => if o.cmp x.1 y.1 > 0 then y :: moveNode o x l else x :: y :: l

/-- One node of the old table, hashtab.c:86-97. -/
def move {κ δ : Type} (o : Ops κ) (size : Nat) (t : Nat → List (κ × δ)) (x : κ × δ) : Nat → List (κ × δ) :=
  fun i => if i = o.hash size x.1 then moveNode o x (t i) else t i

/-- All nodes in the order of `hashtab_map` and of the loops in hashtab.c:83-99. -/
def nodes {κ δ : Type} (h : Tab κ δ) : List (κ × δ) := (List.range h.size).flatMap h.htable

/-- `hashtab_check_resize`, hashtab.c:66-102. -/
def checkResize {κ δ : Type} (o : Ops κ) (ok : Bool) (h : Tab κ δ) : Tab κ δ :=
  let newSize := growSize h.nel 32 h.size
  if h.size = newSize then h
  else if ok = false then h
  else ⟨newSize, h.nel, (nodes h).foldl (move o newSize) (fun _ => [])⟩

/-- The walk of `hashtab_insert` through a chain, hashtab.c:116-139: `none` is an equal key. -/
def insertChain {κ δ : Type} (o : Ops κ) (x : κ × δ) : List (κ × δ) → Option (List (κ × δ))
  | [] => some [x]
  | y :: l =>
    if o.cmp x.1 y.1 > 0 then (insertChain o x l).map (y :: ·)
    else if o.cmp x.1 y.1 = 0 then none
    else some (x :: y :: l)

/-- `hashtab_insert`, hashtab.c:104-143; `ok1`, `ok2`: the allocations of the new table and of the node succeed. -/
def insert {κ δ : Type} (o : Ops κ) (ok1 ok2 : Bool) (k : κ) (d : δ) (h : Tab κ δ) : Tab κ δ × Code :=
  if h.nel = 2 ^ 32 - 1 then (h, .nomem)
  else
    let h := checkResize o ok1 h
    let v := o.hash h.size k
    match insertChain o (k, d) (h.htable v) with
    | none => (h, .exist)
    | some l =>
      if ok2 = false then (h, .nomem)
      else (⟨h.size, h.nel + 1, fun i => if i = v then l else h.htable i⟩, .ok)

/-- The walk of `hashtab_remove`, hashtab.c:156-175: the removed node and the rest; `none` is absent. -/
def removeChain {κ δ : Type} (o : Ops κ) (k : κ) : List (κ × δ) → Option ((κ × δ) × List (κ × δ))
  | [] => none
  | y :: l =>
    if o.cmp k y.1 > 0 then (removeChain o k l).map (fun r => (r.1, y :: r.2))
    else if o.cmp k y.1 = 0 then some (y, l)
    else none

/-- `hashtab_remove`, hashtab.c:145-182: also the node handed to `destroy`. -/
def remove {κ δ : Type} (o : Ops κ) (k : κ) (h : Tab κ δ) : Tab κ δ × Code × Option (κ × δ) :=
  let v := o.hash h.size k
  match removeChain o k (h.htable v) with
  | none => (h, .noent, none)
  | some (x, l) => (⟨h.size, h.nel - 1, fun i => if i = v then l else h.htable i⟩, .ok, some x)

/-- The walk of `hashtab_search`, hashtab.c:194-203. -/
def searchChain {κ δ : Type} (o : Ops κ) (k : κ) : List (κ × δ) → Option δ
  | [] => none
  | y :: l => if o.cmp k y.1 > 0 then searchChain o k l else if o.cmp k y.1 = 0 then some y.2 else none

/-- `hashtab_search`, hashtab.c:184-206. -/
def search {κ δ : Type} (o : Ops κ) (h : Tab κ δ) (k : κ) : Option δ := searchChain o k (h.htable (o.hash h.size k))

/-- `hashtab_map`, hashtab.c:229-251, with an `apply` that changes a state `σ`: stops at the first non-zero return. -/
def mapNodes {κ δ σ : Type} (apply : κ → δ → σ → Int × σ) : List (κ × δ) → σ → Int × σ
  | [], s => (0, s)
  | x :: l, s =>
    let r := apply x.1 x.2 s
    if r.1 ≠ 0 then r else mapNodes apply l r.2

def hmap {κ δ σ : Type} (apply : κ → δ → σ → Int × σ) (h : Tab κ δ) (s : σ) : Int × σ := mapNodes apply (nodes h) s

/-! ## The instances -/

/-- `spaceship_cmp`, private.h. -/
def spaceship (a b : Nat) : Int := if a > b then 1 else if a < b then -1 else 0

/-- `strcmp` on bytes (only the sign matters). -/
def strcmp : List (BitVec 8) → List (BitVec 8) → Int
  | [], [] => 0
  | [], _ :: _ => -1
  | _ :: _, [] => 1
  | a :: s, b :: t => if a.toNat < b.toNat then -1 else if b.toNat < a.toNat then 1 else strcmp s t

/-- `symhash`, symtab.c:16-26. -/
def symhash (size : Nat) (k : List (BitVec 8)) : Nat :=
  (k.foldl (fun (h : BitVec 32) c => ((h <<< 5) + h) ^^^ c.setWidth 32) 5381#32 &&& (BitVec.ofNat 32 size - 1#32)).toNat

/-- Symbol tables, symtab.c:36-43. -/
def symOps : Ops (List (BitVec 8)) := ⟨symhash, strcmp⟩

/-- `struct range_trans`, policydb.h. -/
structure RangeTrans where
  source : BitVec 32
  target : BitVec 32
  cls : BitVec 32
deriving DecidableEq, Repr

/-- `rangetr_hash` and `rangetr_cmp`, policydb.c:866-891. -/
def rangetrOps : Ops RangeTrans where
  hash size k := ((k.source + (k.target <<< 3) + (k.cls <<< 5)) &&& (BitVec.ofNat 32 size - 1#32)).toNat
  cmp a b :=
    let v := spaceship a.source.toNat b.source.toNat
    if v ≠ 0 then v
    else
      let v := spaceship a.target.toNat b.target.toNat
      if v ≠ 0 then v else spaceship a.cls.toNat b.cls.toNat

/-- `filename_trans_key_t`, policydb.h. -/
structure FilenameKey where
  ttype : BitVec 32
  tclass : BitVec 32
  name : List (BitVec 8)
deriving DecidableEq, Repr

/-- `partial_name_hash`, policydb.c:826-830, on 64-bit `unsigned long`. -/
def partialNameHash (c : BitVec 8) (prev : BitVec 64) : BitVec 64 :=
  (prev + (c.setWidth 64 <<< 4) + (c.setWidth 64 >>> 4)) * 11#64

/-- `filenametr_hash` and `filenametr_cmp`, policydb.c:832-864: the result is cut to 32 bits. -/
def filenametrOps : Ops FilenameKey where
  hash size k :=
    (k.name.foldl (fun h c => partialNameHash c h) ((k.ttype ^^^ k.tclass).setWidth 64) &&&
      (BitVec.ofNat 32 size - 1#32).setWidth 64).toNat
  cmp a b :=
    let v := spaceship a.ttype.toNat b.ttype.toNat
    if v ≠ 0 then v
    else
      let v := spaceship a.tclass.toNat b.tclass.toNat
      if v ≠ 0 then v else strcmp a.name b.name

end Verif.Hashtab
