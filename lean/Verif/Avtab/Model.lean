import Verif.Bytes
import Verif.Prelude

/-!
# Model of the access vector table, libsepol/src/avtab.c

Rules are stored in hash buckets; every bucket is a singly linked chain sorted by
(source, target, class).  A chain is a `List Node`; a node pointer is the suffix
of the chain that starts at that node, so `node->next` is `List.tail`.

Simplifications: `malloc` succeeds; `parse_context` (an opaque pointer nobody in
avtab.c reads) and `merged` (scratch flag of the pre-version-20 writer) are
dropped.
-/

namespace Verif.Avtab

/-- AVTAB_* rule kinds, libsepol/include/sepol/policydb/avtab.h:54-69. -/
def ALLOWED : BitVec 16 := 0x0001#16
def AUDITALLOW : BitVec 16 := 0x0002#16
def AUDITDENY : BitVec 16 := 0x0004#16
def AV : BitVec 16 := 0x0007#16
def TRANSITION : BitVec 16 := 0x0010#16
def MEMBER : BitVec 16 := 0x0020#16
def CHANGE : BitVec 16 := 0x0040#16
def TYPE : BitVec 16 := 0x0070#16
def XPERMS_ALLOWED : BitVec 16 := 0x0100#16
def XPERMS_AUDITALLOW : BitVec 16 := 0x0200#16
def XPERMS_DONTAUDIT : BitVec 16 := 0x0400#16
def XPERMS : BitVec 16 := 0x0700#16
def ENABLED : BitVec 16 := 0x8000#16

/-- `avtab_key_t`, avtab.h:50-71.  The three `uint16_t` numbers are `Nat`s; the
byte-level reader only produces values below 2^16. -/
structure Key where
  source : Nat
  target : Nat
  cls : Nat
  specified : BitVec 16
deriving DecidableEq, Repr, Inhabited

/-- `avtab_extended_perms_t`, avtab.h:73-82; `perms` is the list of eight
32-bit words. -/
structure XPerms where
  specified : BitVec 8
  driver : BitVec 8
  perms : List (BitVec 32)
deriving DecidableEq, Repr, Inhabited

/-- The all-zero extended permission block returned by `calloc`, avtab.c:106. -/
def XPerms.zero : XPerms := ⟨0#8, 0#8, List.replicate 8 0#32⟩

/-- `avtab_datum_t`, avtab.h:84-87; the `xperms` pointer is an `Option`. -/
structure Datum where
  data : BitVec 32
  xperms : Option XPerms := none
deriving DecidableEq, Repr, Inhabited

/-- `struct avtab_node`, avtab.h:91-99, without `next`, `parse_context`, `merged`. -/
structure Node where
  key : Key
  datum : Datum
deriving DecidableEq, Repr, Inhabited

/-- `avtab_t`, avtab.h:101-106.  `htable = none` is the NULL table; otherwise the
function gives the chain of each bucket below `nslot`. -/
structure Avtab where
  htable : Option (Nat → List Node)
  nel : Nat
  nslot : Nat
  mask : Nat

/-- Bucket mixing step of the hash (macro `mix`), avtab.c:67-75. -/
@[irreducible] def mix (hash input : BitVec 32) : BitVec 32 :=
  let v := input * 0xcc9e2d51#32
  let v := (v <<< 15) ||| (v >>> 17)
  let v := v * 0x1b873593#32
  let hash := hash ^^^ v
  let hash := (hash <<< 13) ||| (hash >>> 19)
  hash * 5#32 + 0xe6546b64#32

/-- `avtab_hash`, avtab.c:56-90. -/
@[irreducible] def hash (k : Key) (mask : Nat) : Nat :=
  let h := mix (mix (mix 0#32 (BitVec.ofNat 32 k.cls)) (BitVec.ofNat 32 k.target))
            (BitVec.ofNat 32 k.source)
  let h := h ^^^ (h >>> 16)
  let h := h * 0x85ebca6b#32
  let h := h ^^^ (h >>> 13)
  let h := h * 0xc2b2ae35#32
  let h := h ^^^ (h >>> 16)
  (h &&& BitVec.ofNat 32 mask).toNat

/-- The kind mask without the enabled flag, avtab.c:140-141, 217-218. -/
def kindMask (s : BitVec 16) : BitVec 16 := s &&& ~~~ ENABLED

/-- The equality test of every chain walk, avtab.c:149-152, 193-196, 225-228,
261-264, 289-292: same source, target and class and overlapping kinds. -/
def hits (k : Key) (c : Key) : Bool :=
  k.source == c.source && k.target == c.target && k.cls == c.cls &&
    ((kindMask k.specified &&& c.specified) != 0#16)

/-- The three early-exit tests of every chain walk, avtab.c:158-166, 198-206,
231-239, 266-274, 294-302. -/
def before (k c : Key) : Bool :=
  decide (k.source < c.source) ||
  (k.source == c.source && decide (k.target < c.target)) ||
  (k.source == c.source && k.target == c.target && decide (k.cls < c.cls))

/-- Is this an extended permission rule, avtab.c:105, 154. -/
def isXperm (k : Key) : Bool := (k.specified &&& XPERMS) != 0#16

/-- The node built by `avtab_insert_node`, avtab.c:99-122: an extended-permission
key always gets its own (possibly zeroed) permission block. -/
def mkNode (k : Key) (d : Datum) : Node :=
  if isXperm k then ⟨k, ⟨d.data, some (d.xperms.getD XPerms.zero)⟩⟩
  else ⟨k, d⟩

/-- The chain walk and link-in of `avtab_insert`, avtab.c:147-169 with 124-130:
`none` is SEPOL_EEXIST. -/
def insertChain (k : Key) (n : Node) : List Node → Option (List Node)
  | [] => some [n]
  | c :: cs =>
    if hits k c.key then
      if isXperm ⟨k.source, k.target, k.cls, kindMask k.specified⟩ then some (n :: c :: cs) else none
    else if before k c.key then some (n :: c :: cs)
    else (insertChain k n cs).map (c :: ·)

/-- The chain walk and link-in of `avtab_insert_nonunique`, avtab.c:191-208. -/
def insertNonuniqueChain (k : Key) (n : Node) : List Node → List Node
  | [] => [n]
  | c :: cs =>
    if hits k c.key then n :: c :: cs
    else if before k c.key then n :: c :: cs
    else c :: insertNonuniqueChain k n cs

/-- The chain walk of `avtab_search`/`avtab_search_node`, avtab.c:224-242,
259-276: the suffix of the chain starting at the found node. -/
def searchChain (k : Key) : List Node → Option (List Node)
  | [] => none
  | c :: cs =>
    if hits k c.key then some (c :: cs)
    else if before k c.key then none
    else searchChain k cs

/-- Replace the chain of one bucket. -/
def setBucket (f : Nat → List Node) (i : Nat) (l : List Node) : Nat → List Node :=
  fun j => if j = i then l else f j

/-- Return codes of `avtab_insert`, avtab.c:136-174. -/
inductive InsertRes
  | ok
  | eexist
  | enomem
deriving DecidableEq, Repr

/-- `avtab_insert`, avtab.c:136-174: resulting table and return code. -/
def insert (h : Avtab) (k : Key) (d : Datum) : Avtab × InsertRes :=
  match h.htable with
  | none => (h, .enomem)
  | some tb =>
    match insertChain k (mkNode k d) (tb (hash k h.mask)) with
    | none => (h, .eexist)
    | some l => ({ h with htable := some (setBucket tb (hash k h.mask) l), nel := h.nel + 1 }, .ok)

/-- `avtab_insert_nonunique`, avtab.c:180-211: `none` is the NULL return. -/
def insertNonunique (h : Avtab) (k : Key) (d : Datum) : Option Avtab :=
  match h.htable with
  | none => none
  | some tb =>
    let i := hash k h.mask
    some { h with
      htable := some (setBucket tb i (insertNonuniqueChain k (mkNode k d) (tb i)))
      nel := h.nel + 1 }

/-- `avtab_search_node`, avtab.c:248-277. -/
def searchNode (h : Avtab) (k : Key) : Option (List Node) :=
  match h.htable with
  | none => none
  | some tb => searchChain k (tb (hash k h.mask))

/-- `avtab_search`, avtab.c:213-243. -/
def search (h : Avtab) (k : Key) : Option Datum :=
  match h.htable with
  | none => none
  | some tb => (searchChain k (tb (hash k h.mask))).bind (fun l => l.head?.map Node.datum)

/-- `avtab_search_node_next`, avtab.c:279-305: the walk continues in the chain
behind `node` with the key of `node` and the caller's kind mask. -/
def searchNodeNext (node : List Node) (specified : BitVec 16) : Option (List Node) :=
  match node with
  | [] => none
  | n :: rest => searchChain { n.key with specified := specified } rest

theorem searchChain_length (k : Key) (l s : List Node) (h : searchChain k l = some s) :
    s.length ≤ l.length ∧ s ≠ [] := by
  fun_induction searchChain k l with
  | case1 => simp at h
  | case2 c cs _ => simp at h; subst h; simp
  | case3 c cs _ _ => simp at h
  | case4 c cs _ _ ih => have := ih h; refine ⟨?_, this.2⟩; simp; omega

/-- The loop body of the enumeration idiom, starting at a node:
visit it, then continue with `avtab_search_node_next(node, specified)`. -/
def enumFrom (node : List Node) (specified : BitVec 16) : List Node :=
  match node with
  | [] => []
  | n :: rest =>
    match h : searchNodeNext (n :: rest) specified with
    | none => [n]
    | some s => n :: enumFrom s specified
termination_by node.length
decreasing_by
  have := (searchChain_length _ _ _ (by simpa [searchNodeNext] using h)).1
  simp; omega

/-- The enumeration idiom used by every client (services.c, write.c, assertion.c):
`for (node = avtab_search_node(h, &key); node; node = avtab_search_node_next(node, key.specified))`. -/
def enumerate (h : Avtab) (k : Key) : List Node :=
  match searchNode h k with
  | none => []
  | some s => enumFrom s k.specified

/-- All nodes in the order `avtab_map` visits them, avtab.c:344-352. -/
def nodes (h : Avtab) : List Node :=
  match h.htable with
  | none => []
  | some tb => (List.range h.nslot).flatMap tb

/-- Loop of `avtab_map` over the visiting order, avtab.c:344-353: stops at the
first non-zero return of the callback, whose state is threaded through. -/
def mapNodes {σ : Type} (apply : Node → σ → Int × σ) : List Node → σ → Int × σ
  | [], s => (0, s)
  | n :: ns, s =>
    let r := apply n s
    if r.1 ≠ 0 then r else mapNodes apply ns r.2

/-- `avtab_map`, avtab.c:333-354. -/
def map {σ : Type} (h : Avtab) (apply : Node → σ → Int × σ) (s : σ) : Int × σ :=
  mapNodes apply (nodes h) s

/-- `avtab_init`, avtab.c:356-361 (`nslot`/`mask` are left as the caller had them;
the model starts from zeroed memory). -/
def init : Avtab := ⟨none, 0, 0, 0⟩

/-- Number of significant bits of `work`: the loop avtab.c:373-376. -/
def bitLength (work : Nat) : Nat :=
  if work = 0 then 0 else bitLength (work / 2) + 1
termination_by work
decreasing_by omega

/-- MAX_AVTAB_HASH_BUCKETS, avtab.h:141-142. -/
def MAX_BUCKETS : Nat := 2 ^ 20

/-- Number of buckets chosen by `avtab_alloc` for `nrules ≠ 0`, avtab.c:373-381. -/
def slotsFor (nrules : Nat) : Nat :=
  let shift := bitLength nrules
  let shift := if shift > 2 then shift - 2 else shift
  min (2 ^ shift) MAX_BUCKETS

/-- `avtab_alloc`, avtab.c:363-392, with `calloc` succeeding. -/
def alloc (h : Avtab) (nrules : Nat) : Avtab :=
  if nrules = 0 then { h with nel := 0, nslot := 0, mask := 0 }
  else
    { htable := some (fun _ => []), nel := 0, nslot := slotsFor nrules, mask := slotsFor nrules - 1 }

/-- `avtab_destroy`, avtab.c:307-331 (`nel` is not reset by the C code either). -/
def destroy (h : Avtab) : Avtab :=
  match h.htable with
  | none => h
  | some _ => { h with htable := none, nslot := 0, mask := 0 }

/-! ## Binary format (policy version ≥ 20) -/

/-- Number of one bits, `__builtin_popcount` in avtab.c:542. -/
def popcount (b : BitVec 16) : Nat := (List.range 16).countP (fun i => b.getLsbD i)

/-- POLICYDB_VERSION_XPERMS_IOCTL, policydb.h:758. -/
def VERSION_XPERMS_IOCTL : Nat := 30

/-- `n` consecutive little-endian 32-bit words. -/
def nextWords : Nat → Bytes → Option (List (BitVec 32) × Bytes)
  | 0, bs => some ([], bs)
  | n + 1, bs => do
    let (w, bs) ← nextLE 4 bs
    let (ws, bs) ← nextWords n bs
    some (BitVec.ofNat 32 w :: ws, bs)

/-- The parsing half of `avtab_read_item` in the new format, avtab.c:526-581: key and
datum handed to `insertf`; `none` is the error return -1. -/
def readItem (vers : Nat) (bs : Bytes) : Option ((Key × Datum) × Bytes) := do
  let (s, bs) ← nextLE 2 bs
  let (t, bs) ← nextLE 2 bs
  let (c, bs) ← nextLE 2 bs
  let (sp, bs) ← nextLE 2 bs
  let spec := BitVec.ofNat 16 sp
  if spec &&& ~~~ (AV ||| TYPE ||| XPERMS ||| ENABLED) ≠ 0#16 then none
  else if popcount (spec &&& ~~~ ENABLED) ≠ 1 then none
  else if vers < VERSION_XPERMS_IOCTL ∧ spec &&& XPERMS ≠ 0#16 then none
  else if spec &&& XPERMS ≠ 0#16 then do
    let (xs, bs) ← nextLE 1 bs
    let (dr, bs) ← nextLE 1 bs
    let (ws, bs) ← nextWords 8 bs
    some ((⟨s, t, c, spec⟩, ⟨0#32, some ⟨BitVec.ofNat 8 xs, BitVec.ofNat 8 dr, ws⟩⟩), bs)
  else do
    let (d, bs) ← nextLE 4 bs
    some ((⟨s, t, c, spec⟩, ⟨BitVec.ofNat 32 d, none⟩), bs)

/-- The loop of `avtab_read`, avtab.c:614-624. -/
def readLoop (vers : Nat) : Nat → Avtab → Bytes → Option (Avtab × Bytes)
  | 0, a, bs => some (a, bs)
  | n + 1, a, bs =>
    match readItem vers bs with
    | none => none
    | some ((k, d), bs) =>
      match insert a k d with
      | (a', .ok) => readLoop vers n a' bs
      | (_, _) => none

/-- `avtab_read`, avtab.c:590-631, for an in-memory policy (PF_USE_MEMORY), new
format; `none` is the -1 return, on which the table has been destroyed. -/
def read (vers : Nat) (bs : Bytes) : Option (Avtab × Bytes) :=
  match nextLE 4 bs with
  | none => none
  | some (nel, bs) =>
    if nel = 0 ∨ nel = 2 ^ 32 - 1 ∨ nel * 12 > bs.length then none
    else readLoop vers nel (alloc init nel) bs

/-- Little-endian encoding of a list of words (`put_entry(buf32, 4, 8)`). -/
def putWords (ws : List (BitVec 32)) : Bytes := ws.flatMap (fun w => leBytes 4 w.toNat)

/-- `avtab_write_item`, new format, write.c:224-275, for a kernel policy on the
SELinux target and `conditional = 0`; `none` is POLICYDB_ERROR, or the NULL
dereference of `datum.xperms` (avtab_insert_node never leaves it NULL). -/
def writeItem (vers : Nat) (n : Node) : Option Bytes :=
  let hd := leBytes 2 n.key.source ++ leBytes 2 n.key.target ++ leBytes 2 n.key.cls
              ++ leBytes 2 n.key.specified.toNat
  if vers < VERSION_XPERMS_IOCTL ∧ isXperm n.key then none
  else if isXperm n.key then
    match n.datum.xperms with
    | none => none
    | some x =>
      some (hd ++ leBytes 1 x.specified.toNat ++ leBytes 1 x.driver.toNat ++ putWords x.perms)
  else some (hd ++ leBytes 4 n.datum.data.toNat)

/-- Loop over all nodes of `avtab_write`, write.c:320-329. -/
def writeItems (vers : Nat) : List Node → Option Bytes
  | [] => some []
  | n :: ns => do
    let b ← writeItem vers n
    let bs ← writeItems vers ns
    some (b ++ bs)

/-- `avtab_write` in the new format, write.c:312-329. -/
def write (vers : Nat) (h : Avtab) : Option Bytes := do
  let bs ← writeItems vers (nodes h)
  some (leBytes 4 h.nel ++ bs)

end Verif.Avtab
