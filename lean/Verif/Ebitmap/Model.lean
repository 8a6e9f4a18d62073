import Verif.Bytes

/-!
# Model of libsepol's extensible bitmaps

Models `libsepol/src/ebitmap.c` and the inline part of
`libsepol/include/sepol/policydb/ebitmap.h`.

Conventions.  A node chain is a `List Node`.  `uint32_t` positions are `Nat`s;
every place where the C code can wrap modulo 2^32 is written with an explicit
`% 2^32` (note that `MAPSIZE` is a `size_t`, so `n->startbit + MAPSIZE` is
computed in 64 bits and does not wrap, whereas an assignment to a `uint32_t`
does).  `MAPTYPE` (uint64_t) is `BitVec 64`.  Allocation failure (-ENOMEM) is not
modelled.
-/

namespace Verif.Ebitmap

/-- `ebitmap_node_t` (ebitmap.h:31-35); `next` is the list structure. -/
structure Node where
  startbit : Nat
  map : BitVec 64
deriving DecidableEq, Repr

/-- `ebitmap_t` (ebitmap.h:37-40). -/
structure Ebitmap where
  node : List Node
  highbit : Nat
deriving DecidableEq, Repr

/-- `ebitmap_init` (ebitmap.h:55-58). -/
def init : Ebitmap := ⟨[], 0⟩

/-- `MAPBIT << k` (ebitmap.h:29). -/
def mapBit (k : Nat) : BitVec 64 := 1#64 <<< k

/-- `new ? new->startbit + MAPSIZE : 0`, where `new` is the last node linked
(ebitmap.c:107-108, 156-157, 203-204; the target is a `uint32_t`). -/
def endOf : List Node → Nat
  | [] => 0
  | [n] => (n.startbit + 64) % 2^32
  | _ :: t => endOf t

/-- Loop of `ebitmap_or` (ebitmap.c:28-53). -/
def orNodes : List Node → List Node → List Node
  | [], l2 => l2
  | n1 :: t1, [] => n1 :: t1
  | n1 :: t1, n2 :: t2 =>
    if n1.startbit = n2.startbit then
      ⟨n1.startbit, n1.map ||| n2.map⟩ :: orNodes t1 t2
    else if n1.startbit < n2.startbit then
      n1 :: orNodes t1 (n2 :: t2)
    else
      n2 :: orNodes (n1 :: t1) t2
termination_by l1 l2 => l1.length + l2.length

/-- `ebitmap_or` (ebitmap.c:18-57). -/
def or (e1 e2 : Ebitmap) : Ebitmap :=
  ⟨orNodes e1.node e2.node, if e1.highbit > e2.highbit then e1.highbit else e2.highbit⟩

/-- `ebitmap_union` (ebitmap.c:59-70): the new value of `dst`. -/
def union (dst e1 : Ebitmap) : Ebitmap := or dst e1

/-- Loop of `ebitmap_and` (ebitmap.c:82-105). -/
def andNodes : List Node → List Node → List Node
  | [], _ => []
  | _ :: _, [] => []
  | n1 :: t1, n2 :: t2 =>
    if n1.startbit = n2.startbit then
      if n1.map &&& n2.map ≠ 0#64 then
        ⟨n1.startbit, n1.map &&& n2.map⟩ :: andNodes t1 t2
      else andNodes t1 t2
    else if n1.startbit > n2.startbit then
      andNodes (n1 :: t1) t2
    else
      andNodes t1 (n2 :: t2)
termination_by l1 l2 => l1.length + l2.length

/-- `ebitmap_and` (ebitmap.c:72-111). -/
def and (e1 e2 : Ebitmap) : Ebitmap :=
  let l := andNodes e1.node e2.node
  ⟨l, endOf l⟩

/-- Loop of `ebitmap_xor` (ebitmap.c:125-154). -/
def xorNodes : List Node → List Node → List Node
  | [], [] => []
  | [], n2 :: t2 =>
    if n2.map ≠ 0#64 then n2 :: xorNodes [] t2 else xorNodes [] t2
  | n1 :: t1, [] =>
    if n1.map ≠ 0#64 then n1 :: xorNodes t1 [] else xorNodes t1 []
  | n1 :: t1, n2 :: t2 =>
    if n1.startbit = n2.startbit then
      if n1.map ^^^ n2.map ≠ 0#64 then
        ⟨n1.startbit, n1.map ^^^ n2.map⟩ :: xorNodes t1 t2
      else xorNodes t1 t2
    else if n1.startbit < n2.startbit then
      if n1.map ≠ 0#64 then n1 :: xorNodes t1 (n2 :: t2) else xorNodes t1 (n2 :: t2)
    else
      if n2.map ≠ 0#64 then n2 :: xorNodes (n1 :: t1) t2 else xorNodes (n1 :: t1) t2
termination_by l1 l2 => l1.length + l2.length

/-- `ebitmap_xor` (ebitmap.c:113-160). -/
def xor (e1 e2 : Ebitmap) : Ebitmap :=
  let l := xorNodes e1.node e2.node
  ⟨l, endOf l⟩

/-- Loop of `ebitmap_not` (ebitmap.c:173-201), with fuel since the `uint32_t`
counter may wrap; `none` means that the fuel ran out. -/
def notLoop (maxbit : Nat) : Nat → List Node → Nat → Option (List Node)
  | 0, _, _ => none
  | fuel+1, n, cur =>
    if cur < maxbit then
      let hit : Bool := match n with
        | [] => false
        | m :: _ => decide (m.startbit = cur)
      let map0 : BitVec 64 := match n with
        | [] => BitVec.allOnes 64
        | m :: _ => if m.startbit = cur then ~~~ m.map else BitVec.allOnes 64
      let n' := if hit then n.tail else n
      let map := if maxbit - cur < 64 then map0 &&& (mapBit (maxbit - cur) - 1#64) else map0
      match notLoop maxbit fuel n' ((cur + 64) % 2^32) with
      | none => none
      | some rest => some (if map ≠ 0#64 then ⟨cur, map⟩ :: rest else rest)
    else some []

/-- `ebitmap_not` (ebitmap.c:162-207) run for at most `fuel` iterations. -/
def notFuel (fuel : Nat) (e1 : Ebitmap) (maxbit : Nat) : Option Ebitmap :=
  match notLoop maxbit fuel e1.node 0 with
  | none => none
  | some l => some ⟨l, endOf l⟩

/-- `ebitmap_andnot` (ebitmap.c:209-222) run with at most `fuel` iterations of
the complement loop. -/
def andnotFuel (fuel : Nat) (e1 e2 : Ebitmap) (maxbit : Nat) : Option Ebitmap :=
  match notFuel fuel e2 maxbit with
  | none => none
  | some e3 => some (and e1 e3)

/-- `__builtin_popcountll`: number of one bits (used at ebitmap.c:230). -/
def popcount (m : BitVec 64) : Nat := (List.range 64).countP fun i => m.getLsbD i

/-- `ebitmap_cardinality` (ebitmap.c:224-233); the `unsigned int` accumulator
wraps modulo 2^32. -/
def cardinality (e : Ebitmap) : Nat :=
  e.node.foldl (fun count n => (count + popcount n.map) % 2^32) 0

/-- Loop of `ebitmap_cmp` (ebitmap.c:257-268). -/
def cmpNodes : List Node → List Node → Bool
  | [], [] => true
  | n1 :: t1, n2 :: t2 =>
    if n1.startbit = n2.startbit ∧ n1.map = n2.map then cmpNodes t1 t2 else false
  | _, _ => false

/-- `ebitmap_cmp` (ebitmap.c:250-269): `true` models return value 1. -/
def cmp (e1 e2 : Ebitmap) : Bool :=
  if e1.highbit ≠ e2.highbit then false else cmpNodes e1.node e2.node

/-- Conversion of an `unsigned int` to `int` (ebitmap.c:245). -/
def toInt32 (n : Nat) : Int := if n < 2^31 then (n : Int) else (n : Int) - 2^32

/-- `ebitmap_hamming_distance` (ebitmap.c:235-248). -/
def hammingDistance (e1 e2 : Ebitmap) : Int :=
  if cmp e1 e2 then 0 else toInt32 (cardinality (xor e1 e2))

/-- `ebitmap_cpy` (ebitmap.c:271-297): copies every node and the high bit. -/
def cpy (src : Ebitmap) : Ebitmap :=
  ⟨src.node.map (fun n => ⟨n.startbit, n.map⟩), src.highbit⟩

/-- Loop of `ebitmap_contains` (ebitmap.c:306-323). -/
def containsNodes : List Node → List Node → Bool
  | _, [] => true
  | [], _ :: _ => false
  | n1 :: t1, n2 :: t2 =>
    if n1.startbit ≤ n2.startbit then
      if n1.startbit < n2.startbit then containsNodes t1 (n2 :: t2)
      else if n1.map &&& n2.map ≠ n2.map then false
      else containsNodes t1 t2
    else false

/-- `ebitmap_contains` (ebitmap.c:299-324): is `e2` a subset of `e1`? -/
def contains (e1 e2 : Ebitmap) : Bool :=
  if e1.highbit < e2.highbit then false else containsNodes e1.node e2.node

/-- `ebitmap_match_any` (ebitmap.c:326-346). -/
def matchAnyNodes : List Node → List Node → Bool
  | [], _ => false
  | _ :: _, [] => false
  | n1 :: t1, n2 :: t2 =>
    if n1.startbit < n2.startbit then matchAnyNodes t1 (n2 :: t2)
    else if n2.startbit < n1.startbit then matchAnyNodes (n1 :: t1) t2
    else if n1.map &&& n2.map ≠ 0#64 then true
    else matchAnyNodes t1 t2
termination_by l1 l2 => l1.length + l2.length

/-- `ebitmap_match_any` (ebitmap.c:326-346). -/
def matchAny (e1 e2 : Ebitmap) : Bool := matchAnyNodes e1.node e2.node

/-- Loop of `ebitmap_get_bit` (ebitmap.c:355-366). -/
def getBitNodes : List Node → Nat → Bool
  | [], _ => false
  | n :: t, bit =>
    if n.startbit ≤ bit then
      if n.startbit + 64 > bit then
        decide (n.map &&& mapBit (bit - n.startbit) ≠ 0#64)
      else getBitNodes t bit
    else false

/-- `ebitmap_get_bit` (ebitmap.c:348-367). -/
def getBit (e : Ebitmap) (bit : Nat) : Bool :=
  if e.highbit < bit then false else getBitNodes e.node bit

/-- Loop and insertion part of `ebitmap_set_bit` (ebitmap.c:380-440).  `prev` is
the start bit of the previously visited node, `hb` the current `e->highbit`;
returns the new chain and high bit. -/
def setBitNodes (bit : Nat) (value : Bool) (startbit highbit : Nat) :
    Option Nat → List Node → Nat → List Node × Nat
  | _, [], hb =>
    if value then ([⟨startbit, mapBit (bit - startbit)⟩], highbit) else ([], hb)
  | prev, n :: t, hb =>
    if n.startbit ≤ bit then
      if n.startbit + 64 > bit then
        if value then (⟨n.startbit, n.map ||| mapBit (bit - n.startbit)⟩ :: t, hb)
        else
          let m := n.map &&& ~~~ (mapBit (bit - n.startbit))
          if m = 0#64 then
            (t, if t = [] then
                  (match prev with
                   | some p => (p + 64) % 2^32
                   | none => 0)
                else hb)
          else (⟨n.startbit, m⟩ :: t, hb)
      else
        let r := setBitNodes bit value startbit highbit (some n.startbit) t hb
        (n :: r.1, r.2)
    else if value then (⟨startbit, mapBit (bit - startbit)⟩ :: n :: t, hb)
    else (n :: t, hb)

/-- `ebitmap_set_bit` (ebitmap.c:369-441): `none` models the -EINVAL return (the
bitmap is then untouched).  `bit` is assumed to be below 2^32 (it is an
`unsigned int`). -/
def setBit (e : Ebitmap) (bit : Nat) (value : Bool) : Option Ebitmap :=
  let startbit := bit / 64 * 64
  let highbit := (startbit + 64) % 2^32
  if highbit = 0 then none
  else
    let r := setBitNodes bit value startbit highbit none e.node e.highbit
    some ⟨r.1, r.2⟩

/-- Node map computed by `ebitmap_init_range` (ebitmap.c:471-480). -/
def rangeMap (minbit maxbit minstart maxstart startbit : Nat) : BitVec 64 :=
  if startbit ≠ minstart ∧ startbit ≠ maxstart then BitVec.allOnes 64
  else if startbit ≠ maxstart then BitVec.allOnes 64 <<< (minbit - startbit)
  else if startbit ≠ minstart then BitVec.allOnes 64 >>> (64 - (maxbit - startbit + 1))
  else (BitVec.allOnes 64 >>> (64 - (maxbit - minbit + 1))) <<< (minbit - startbit)

/-- Loop of `ebitmap_init_range` (ebitmap.c:463-484), `k` iterations. -/
def rangeNodes (minbit maxbit minstart maxstart : Nat) : Nat → Nat → List Node
  | 0, _ => []
  | k+1, startbit =>
    if startbit ≤ maxstart then
      ⟨startbit, rangeMap minbit maxbit minstart maxstart startbit⟩ ::
        rangeNodes minbit maxbit minstart maxstart k ((startbit + 64) % 2^32)
    else []

/-- `ebitmap_init_range` (ebitmap.c:443-489): `none` models -EINVAL or -EOVERFLOW
(the bitmap is then the empty one).  The number of iterations given to the loop
suffices since `maxhighbit ≠ 0` rules out wrap-around (proved: the result
contains every bit of the range). -/
def initRange (minbit maxbit : Nat) : Option Ebitmap :=
  let minstart := minbit / 64 * 64
  let maxstart := maxbit / 64 * 64
  let minhigh := (minstart + 64) % 2^32
  let maxhigh := (maxstart + 64) % 2^32
  if minbit > maxbit then none
  else if minhigh = 0 ∨ maxhigh = 0 then none
  else some ⟨rangeNodes minbit maxbit minstart maxstart ((maxstart - minstart) / 64 + 2) minstart,
             maxhigh⟩

/-- `while (map >>= 1) pos++` (ebitmap.c:505-506); `k` bounds the iterations
(64 suffice for a 64-bit map). -/
def topPos : Nat → BitVec 64 → Nat → Nat
  | 0, _, pos => pos
  | k+1, map, pos =>
    let map' := map >>> 1
    if map' ≠ 0#64 then topPos k map' (pos + 1) else pos

/-- `ebitmap_highest_set_bit` (ebitmap.c:491-509). -/
def highestSetBit (e : Ebitmap) : Nat :=
  match e.node.getLast? with
  | none => 0
  | some n => n.startbit + topPos 64 n.map 0

/-- `ebitmap_length` (ebitmap.h:43). -/
def length (e : Ebitmap) : Nat := if e.node = [] then 0 else e.highbit

/-- `ebitmap_startbit` / `ebitmap_start` (ebitmap.h:44-53). -/
def startBit (e : Ebitmap) : Nat :=
  match e.node with
  | [] => 0
  | n :: _ => n.startbit

/-- `ebitmap_node_get_bit` (ebitmap.h:70-75). -/
def nodeGetBit (n : Node) (bit : Nat) : Bool :=
  decide (n.map &&& mapBit (bit - n.startbit) ≠ 0#64)

/-- `ebitmap_next` (ebitmap.h:60-68) on the chain starting at the current node. -/
def next (n : Node) (t : List Node) (bit : Nat) : List Node × Nat :=
  match t with
  | n' :: _ => if bit = n.startbit + 64 - 1 then (t, n'.startbit) else (n :: t, bit + 1)
  | [] => (n :: t, bit + 1)

/-- `ebitmap_for_each_bit` (ebitmap.h:77-78): the list of `(bit,
ebitmap_node_get_bit(n, bit))` for which the loop body runs.  `none`: fuel
exhausted or a NULL node dereferenced. -/
def forEachLoop (len : Nat) : Nat → List Node → Nat → Option (List (Nat × Bool))
  | 0, _, _ => none
  | fuel+1, chain, bit =>
    if bit < len then
      match chain with
      | [] => none
      | n :: t =>
        let s := next n t bit
        match forEachLoop len fuel s.1 s.2 with
        | none => none
        | some r => some ((bit, nodeGetBit n bit) :: r)
    else some []

/-- `ebitmap_for_each_bit` (ebitmap.h:77-78). -/
def forEachBit (fuel : Nat) (e : Ebitmap) : Option (List (Nat × Bool)) :=
  forEachLoop (length e) fuel e.node (startBit e)

/-- `ebitmap_for_each_positive_bit` (ebitmap.h:80-81). -/
def forEachPositiveBit (fuel : Nat) (e : Ebitmap) : Option (List Nat) :=
  (forEachBit fuel e).map fun l => (l.filter (·.2)).map (·.1)

/-- `l && n->startbit <= l->startbit` (ebitmap.c:604-605). -/
def outOfOrder (l : Option Nat) (startbit : Nat) : Bool :=
  match l with
  | some p => decide (startbit ≤ p)
  | none => false

/-- Node loop of `ebitmap_read` (ebitmap.c:566-615); `l` is the start bit of the
previously read node. -/
def readNodes (highbit : Nat) : Nat → Option Nat → Bytes → Option (List Node × Bytes)
  | 0, _, bs => some ([], bs)
  | count+1, l, bs =>
    match nextLE 4 bs with
    | none => none
    | some (startbit, bs) =>
      if startbit % 64 ≠ 0 then none
      else if startbit > highbit - 64 then none
      else match nextLE 8 bs with
        | none => none
        | some (m, bs) =>
          let map := BitVec.ofNat 64 m
          if map = 0#64 then none
          else if outOfOrder l startbit then none
          else match readNodes highbit count (some startbit) bs with
            | none => none
            | some (ns, bs) => some (⟨startbit, map⟩ :: ns, bs)

/-- `l->startbit + MAPSIZE` for the last node read (ebitmap.c:616, computed in
64 bits). -/
def lastEnd : List Node → Nat
  | [] => 0
  | [n] => n.startbit + 64
  | _ :: t => lastEnd t

/-- `ebitmap_read` (ebitmap.c:530-633): `none` models an error return. -/
def read (bs : Bytes) : Option (Ebitmap × Bytes) :=
  match nextLE 4 bs with
  | none => none
  | some (mapsize, bs) => match nextLE 4 bs with
    | none => none
    | some (highbit, bs) => match nextLE 4 bs with
      | none => none
      | some (count, bs) =>
        if mapsize ≠ 64 then none
        else if highbit = 0 then some (⟨[], 0⟩, bs)
        else if highbit % 64 ≠ 0 then none
        else if count = 0 then none
        else match readNodes highbit count none bs with
          | none => none
          | some (ns, bs) =>
            if lastEnd ns ≠ highbit then none
            else some (⟨ns, highbit⟩, bs)

/-- `ebitmap_write` (libsepol/src/write.c:62-94). -/
def write (e : Ebitmap) : Bytes :=
  leBytes 4 64 ++ leBytes 4 e.highbit ++ leBytes 4 e.node.length ++
    (e.node.map fun n => leBytes 4 n.startbit ++ leBytes 8 n.map.toNat).flatten

end Verif.Ebitmap
