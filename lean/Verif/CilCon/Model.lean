/-!
# Model of the treatment of context rules in CIL

`__cil_post_process_context_rules`, libsepol/cil/src/cil_post.c:2277-2332, with the comparison
functions of the rules, 169-474, and of their contexts, 66-141 and 476-570: the rules of each
kind (`portcon`, `nodecon`, `filecon`, ...) are sorted, duplicates are removed and conflicts are
errors.

Strings and addresses are lists of bytes without a zero at the end.  A symbol is given by its
fully qualified name.  Messages are left out; allocation succeeds.  `qsort` is not modelled: the
theorems are about any order that sorts the rules.
-/

namespace Verif.CilCon

abbrev Str := List Nat

/-- `strcmp`, and `memcmp` of areas of the same size; the library is free to choose the absolute
value of the result, of which only the sign is used. -/
def strcmp : Str → Str → Int
  | [], [] => 0
  | [], _ :: _ => -1
  | _ :: _, [] => 1
  | a :: as, b :: bs => if a < b then -1 else if b < a then 1 else strcmp as bs

/-! ### Contexts -/

/-- `struct cil_level`, cil_internal.h:721-726, after the evaluation of the category expressions;
the categories are `none` if the pointer is `NULL`. -/
structure Level where
  sens : Str
  cats : Option (List Str)
deriving DecidableEq, Repr

/-- `struct cil_context`, cil_internal.h:736-746; the range is never `NULL` after resolution. -/
structure Context where
  user : Str
  role : Str
  type : Str
  low : Level
  high : Level
deriving DecidableEq, Repr

/-- The inner loop of `cats_compare`, cil_post.c:77-80: the result if the function returns. -/
def catsInner (i : Str) : List Str → Option Int
  | [] => none
  | j :: js => if strcmp i j = 0 then some 0 else catsInner i js

/-- The loops of `cats_compare`, cil_post.c:76-82. -/
def catsLoop : List Str → List Str → Int
  | [], _ => 0
  | i :: is, js =>
    match catsInner i js with
    | some r => r
    | none => catsLoop is js

/-- `cats_compare`, cil_post.c:66-83. -/
def catsCompare : Option (List Str) → Option (List Str) → Int
  | none, none => 0
  | none, some _ => -1
  | some _, none => 1
  | some a, some b => catsLoop a b

/-- `level_compare`, cil_post.c:85-101.  If pointers are equal, so is what they point to. -/
def levelCompare (a b : Level) : Int :=
  if strcmp a.sens b.sens ≠ 0 then strcmp a.sens b.sens else catsCompare a.cats b.cats

/-- `range_compare`, cil_post.c:103-119. -/
def rangeCompare (a b : Context) : Int :=
  if levelCompare a.low b.low ≠ 0 then levelCompare a.low b.low else levelCompare a.high b.high

/-- `context_compare`, cil_post.c:121-141. -/
def contextCompare (a b : Context) : Int :=
  if strcmp a.user b.user ≠ 0 then strcmp a.user b.user
  else if strcmp a.role b.role ≠ 0 then strcmp a.role b.role
  else if strcmp a.type b.type ≠ 0 then strcmp a.type b.type
  else rangeCompare a b

/-- `context_compare` on pointers; `none` is the dereference of a null pointer. -/
def contextComparePtr : Option Context → Option Context → Option Int
  | some a, some b => some (contextCompare a b)
  | _, _ => none

/-! ### The rules -/

/-- `struct cil_filecon`, cil_internal.h:759-765; the context is `NULL` if the rule says `()`. -/
structure Filecon where
  path : Str
  type : Nat
  context : Option Context
deriving DecidableEq, Repr

/-- The characters `. ^ $ ? * + | [ ( {`, cil_post.c:177-187. -/
def isMeta (c : Nat) : Bool := c ∈ [46, 94, 36, 63, 42, 43, 124, 91, 40, 123]

/-- `struct fc_data`, cil_post.c:56-60. -/
structure FcData where
  isMeta : Bool
  stemLen : Nat
  strLen : Nat
deriving DecidableEq, Repr

/-- `default:` and what follows the switch, cil_post.c:200-207. -/
def FcData.plain (d : FcData) : FcData :=
  ⟨d.isMeta, if d.isMeta then d.stemLen else d.stemLen + 1, d.strLen + 1⟩

/-- `cil_post_fc_fill_data`, cil_post.c:169-209, from the counts so far. -/
def fcFill (d : FcData) : Str → FcData
  | [] => d
  | c :: cs =>
    if isMeta c then fcFill ⟨true, d.stemLen, d.strLen + 1⟩ cs
    else if c = 92 then
      match cs with
      | [] => d.plain
      | _ :: cs => fcFill d.plain cs
    else fcFill d.plain cs
termination_by s => s.length

/-- `cil_post_filecon_compare`, cil_post.c:211-256. -/
def fileconCompare (a b : Filecon) : Int :=
  let ad := fcFill ⟨false, 0, 0⟩ a.path
  let bd := fcFill ⟨false, 0, 0⟩ b.path
  if ad.isMeta && !bd.isMeta then -1
  else if bd.isMeta && !ad.isMeta then 1
  else if ad.stemLen < bd.stemLen then -1
  else if bd.stemLen < ad.stemLen then 1
  else if ad.strLen < bd.strLen then -1
  else if bd.strLen < ad.strLen then 1
  else if a.type < b.type then -1
  else if b.type < a.type then 1
  else strcmp a.path b.path

/-- `spaceship_cmp` on unsigned numbers, libsepol/src/private.h:65. -/
def spaceship {w : Nat} (a b : BitVec w) : Int := if a < b then -1 else if b < a then 1 else 0

/-- `struct cil_ibpkeycon`, cil_internal.h:774-780. -/
structure Ibpkeycon where
  subnet : Str
  low : BitVec 32
  high : BitVec 32
  context : Context
deriving DecidableEq, Repr

/-- `cil_post_ibpkeycon_compare`, cil_post.c:258-278. -/
def ibpkeyconCompare (a b : Ibpkeycon) : Int :=
  if strcmp a.subnet b.subnet ≠ 0 then strcmp a.subnet b.subnet
  else if spaceship (a.high - a.low) (b.high - b.low) = 0 then
    if a.low < b.low then -1 else if b.low < a.low then 1 else 0
  else spaceship (a.high - a.low) (b.high - b.low)

/-- `struct cil_portcon`, cil_internal.h:782-788. -/
structure Portcon where
  proto : Nat
  low : BitVec 32
  high : BitVec 32
  context : Context
deriving DecidableEq, Repr

/-- `cil_post_portcon_compare`, cil_post.c:280-301. -/
def portconCompare (a b : Portcon) : Int :=
  if spaceship (a.high - a.low) (b.high - b.low) = 0 then
    if a.low < b.low then -1 else if b.low < a.low then 1
    else if a.proto < b.proto then -1 else if a.proto > b.proto then 1 else 0
  else spaceship (a.high - a.low) (b.high - b.low)

/-- `struct cil_genfscon`, cil_internal.h:808-814. -/
structure Genfscon where
  fs : Str
  path : Str
  fileType : Nat
  context : Context
deriving DecidableEq, Repr

/-- `cil_post_genfscon_compare`, cil_post.c:303-315. -/
def genfsconCompare (a b : Genfscon) : Int :=
  if strcmp a.fs b.fs = 0 then strcmp a.path b.path else strcmp a.fs b.fs

/-- `struct cil_netifcon`, cil_internal.h:816-823. -/
structure Netifcon where
  interface : Str
  ifContext : Context
  packetContext : Context
deriving DecidableEq, Repr

/-- `cil_post_netifcon_compare`, cil_post.c:317-323. -/
def netifconCompare (a b : Netifcon) : Int := strcmp a.interface b.interface

/-- `struct cil_ibendportcon`, cil_internal.h:825-830. -/
structure Ibendportcon where
  dev : Str
  port : Nat
  context : Context
deriving DecidableEq, Repr

/-- `cil_post_ibendportcon_compare`, cil_post.c:325-342. -/
def ibendportconCompare (a b : Ibendportcon) : Int :=
  if strcmp a.dev b.dev ≠ 0 then strcmp a.dev b.dev
  else if a.port < b.port then -1 else if b.port < a.port then 1 else 0

/-- `struct cil_nodecon`, cil_internal.h:790-797, with the family of its address (`true` for
`AF_INET6`) and the bytes of the address and the mask, 4 or 16 according to the family. -/
structure Nodecon where
  v6 : Bool
  addr : Str
  mask : Str
  context : Context
deriving DecidableEq, Repr

/-- `cil_post_nodecon_compare`, cil_post.c:344-374. -/
def nodeconCompare (a b : Nodecon) : Int :=
  if a.v6 ≠ b.v6 then
    if a.v6 = false then -1 else 1
  else if strcmp a.mask b.mask ≠ 0 then -1 * strcmp a.mask b.mask
  else strcmp a.addr b.addr

/-- `struct cil_pirqcon`, cil_internal.h:831-835, and `struct cil_pcidevicecon`, 851-855. -/
structure Numcon where
  num : Nat
  context : Context
deriving DecidableEq, Repr

/-- `cil_post_pirqcon_compare`, cil_post.c:376-391, and `cil_post_pcidevicecon_compare`,
431-446. -/
def numconCompare (a b : Numcon) : Int :=
  if a.num < b.num then -1 else if b.num < a.num then 1 else 0

/-- `struct cil_iomemcon`, cil_internal.h:837-842 (64 bits), and `struct cil_ioportcon`, 844-849
(32 bits). -/
structure Iocon (w : Nat) where
  low : BitVec w
  high : BitVec w
  context : Context
deriving DecidableEq, Repr

/-- `cil_post_iomemcon_compare`, cil_post.c:393-410, and `cil_post_ioportcon_compare`,
412-429. -/
def ioconCompare {w : Nat} (a b : Iocon w) : Int :=
  if spaceship (a.high - a.low) (b.high - b.low) = 0 then
    if a.low < b.low then -1 else if b.low < a.low then 1 else 0
  else spaceship (a.high - a.low) (b.high - b.low)

/-- `struct cil_devicetreecon`, cil_internal.h:857-861. -/
structure Devicetreecon where
  path : Str
  context : Context
deriving DecidableEq, Repr

/-- `cil_post_devicetreecon_compare`, cil_post.c:448-457. -/
def devicetreeconCompare (a b : Devicetreecon) : Int := strcmp a.path b.path

/-- `struct cil_fsuse`, cil_internal.h:871-876. -/
structure Fsuse where
  type : Nat
  fs : Str
  context : Context
deriving DecidableEq, Repr

/-- `cil_post_fsuse_compare`, cil_post.c:459-474. -/
def fsuseCompare (a b : Fsuse) : Int :=
  if a.type < b.type then -1 else if b.type < a.type then 1 else strcmp a.fs b.fs

/-- `cil_post_netifcon_context_compare`, cil_post.c:504-514. -/
def netifconContextCompare (a b : Netifcon) : Int :=
  if contextCompare a.ifContext b.ifContext ≠ 0 then contextCompare a.ifContext b.ifContext
  else contextCompare a.packetContext b.packetContext

/-! ### Removing duplicates and finding conflicts -/

/-- The loop of `__cil_post_process_context_rules`, cil_post.c:2291-2328: `done` has the rules
before `sort->array[i]`, which is `cur`.  The result is whether there is no error, and the rules
kept; `none` is undefined behaviour. -/
def processLoop {α : Type} (cmp : α → α → Int) (con : α → α → Option Int) (multiple : Bool)
    (done : List α) (cur : α) (conflicting ok : Bool) : List α → Option (Bool × List α)
  | [] => some (ok, done ++ [cur])
  | x :: xs =>
    if cmp cur x ≠ 0 then processLoop cmp con multiple (done ++ [cur]) x false ok xs
    else if !multiple then processLoop cmp con multiple done cur true false xs
    else match con cur x with
      | none => none
      | some r =>
        if r ≠ 0 then processLoop cmp con multiple done cur true false xs
        else processLoop cmp con multiple done (if conflicting then cur else x) conflicting ok xs

/-- `__cil_post_process_context_rules`, cil_post.c:2277-2332, on the sorted rules. -/
def process {α : Type} (cmp : α → α → Int) (con : α → α → Option Int) (multiple : Bool) :
    List α → Option (Bool × List α)
  | [] => some (true, [])
  | x :: xs => processLoop cmp con multiple [] x false true xs

end Verif.CilCon
