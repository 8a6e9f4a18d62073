import Verif.Prelude

/-!
# Model of class and permission numbers in libselinux

`libselinux/src/mapping.c` (mapping between the application's numbers and those of the loaded
policy), `stringrep.c` (names, through a cache of what selinuxfs shows), the translation done in
`compute_av.c`, and `selinux_check_access` of `checkAccess.c`.

The kernel is the list of classes that `/sys/fs/selinux/class` shows.  Class numbers are 16 bits,
access vectors 32 bits, as in the code.
-/

namespace Verif.Mapping

/-- A class as `discover_class` reads it (stringrep.c:22-28, 85-153) and as the cache stores it.
The permission with index `i+1` is `perms[i]`.  Simplification: the indices in selinuxfs have no
gaps (the kernel numbers permissions 1, 2, ...), so the array `perms` is a list. -/
structure KClass where
  name : String
  value : BitVec 16
  perms : List String
  deriving DecidableEq, Repr

/-- `struct selinux_mapping`, mapping.c:20-24; `num_perms` is the length of `perms`. -/
structure Entry where
  value : BitVec 16
  perms : List (BitVec 32)
  deriving DecidableEq, Repr

/-- The static variables `discover_class_cache` (stringrep.c:30) and `current_mapping` with
`current_mapping_size` (mapping.c:26-27): the size is the length of the list. -/
structure Lib where
  cache : List KClass
  map : List Entry
  deriving DecidableEq, Repr

/-- The single-bit vector `UINT32_C(1) << i`. -/
def bit (i : Nat) : BitVec 32 := 1#32 <<< i

/-! ### mapping.c -/

/-- `unmap_class`, mapping.c:124-137. -/
def unmapClass (map : List Entry) (tclass : BitVec 16) : BitVec 16 :=
  match map[tclass.toNat]? with
  | some e => e.value
  | none => if map.length ≠ 0 then 0 else tclass

/-- The loop of `unmap_perm`, mapping.c:146-150. -/
def unmapLoop : List (BitVec 32) → Nat → BitVec 32 → BitVec 32 → BitVec 32
  | [], _, _, kperm => kperm
  | p :: ps, i, tperm, kperm =>
    if tperm &&& bit i ≠ 0 then unmapLoop ps (i + 1) (tperm &&& ~~~(bit i)) (kperm ||| p)
    else unmapLoop ps (i + 1) tperm kperm

/-- `unmap_perm`, mapping.c:139-161. -/
def unmapPerm (map : List Entry) (tclass : BitVec 16) (tperm : BitVec 32) : BitVec 32 :=
  match map[tclass.toNat]? with
  | some e => unmapLoop e.perms 0 tperm 0
  | none => if map.length ≠ 0 then 0 else tperm

/-- The loop of `map_class`, mapping.c:172-174. -/
def mapClassLoop (kclass : BitVec 16) : List Entry → Nat → Option Nat
  | [], _ => none
  | e :: es, i => if e.value = kclass then some i else mapClassLoop kclass es (i + 1)

/-- `map_class`, mapping.c:167-183. -/
def mapClass (map : List Entry) (kclass : BitVec 16) : BitVec 16 :=
  match mapClassLoop kclass map 0 with
  | some i => BitVec.ofNat 16 i
  | none => if map.length ≠ 0 then 0 else kclass

/-- The loop of `map_perm`, mapping.c:192-196. -/
def mapPermLoop : List (BitVec 32) → Nat → BitVec 32 → BitVec 32 → BitVec 32
  | [], _, _, tperm => tperm
  | p :: ps, i, kperm, tperm =>
    if kperm &&& p ≠ 0 then mapPermLoop ps (i + 1) (kperm &&& ~~~p) (tperm ||| bit i)
    else mapPermLoop ps (i + 1) kperm tperm

/-- `map_perm`, mapping.c:185-206. -/
def mapPerm (map : List Entry) (tclass : BitVec 16) (kperm : BitVec 32) : BitVec 32 :=
  match map[tclass.toNat]? with
  | some e => mapPermLoop e.perms 0 kperm 0
  | none => kperm

/-- `struct av_decision` without the sequence number and the flags. -/
structure Avd where
  allowed : BitVec 32
  decided : BitVec 32
  auditallow : BitVec 32
  auditdeny : BitVec 32
  deriving DecidableEq, Repr

/-- One of the loops of `map_decision` (mapping.c:217-222, 225-230, 233-235, 238-243):
bit `i` is set when `test (perms[i])`. -/
def bitLoop (test : BitVec 32 → Bool) : List (BitVec 32) → Nat → BitVec 32 → BitVec 32
  | [], _, result => result
  | p :: ps, i, result =>
    bitLoop test ps (i + 1) (if test p then result ||| bit i else result)

/-- The loop that sets the bits from `i` to 31, mapping.c:250-251; `k` is `32 - i`. -/
def restLoop : Nat → BitVec 32 → BitVec 32
  | 0, result => result
  | k + 1, result => restLoop k (result ||| bit (32 - (k + 1)))

/-- `map_decision`, mapping.c:208-254.  `deny` is the result of `security_deny_unknown`. -/
def mapDecision (map : List Entry) (deny : Int) (tclass : BitVec 16) (avd : Avd) : Avd :=
  match map[tclass.toNat]? with
  | none => avd
  | some e =>
    let allowUnknown : Bool := deny = 0
    { allowed := bitLoop (fun p => avd.allowed &&& p ≠ 0 || (allowUnknown && p = 0)) e.perms 0 0
      decided := bitLoop (fun p => avd.decided &&& p ≠ 0 || (allowUnknown && p = 0)) e.perms 0 0
      auditallow := bitLoop (fun p => avd.auditallow &&& p ≠ 0) e.perms 0 0
      auditdeny := restLoop (32 - e.perms.length)
        (bitLoop (fun p => avd.auditdeny &&& p ≠ 0 || (!allowUnknown && p = 0)) e.perms 0 0) }

/-! ### stringrep.c -/

/-- `string_to_security_class` (stringrep.c:196-211) with `get_class_cache_entry_name`
(stringrep.c:32-39) and `discover_class` (stringrep.c:50-171), when selinuxfs can be read and
allocations succeed: the class is looked up in the cache, then in the kernel; 0 is returned for
an unknown class.  (A name with a `/` is not looked up, stringrep.c:66; no kernel class has one.) -/
def stringToClass (kernel : List KClass) (l : Lib) (s : String) : Lib × BitVec 16 :=
  match l.cache.find? (fun n => n.name = s) with
  | some n => (l, mapClass l.map n.value)
  | none =>
    match kernel.find? (fun n => n.name = s) with
    | some n => ({ l with cache := n :: l.cache }, mapClass l.map n.value)
    | none => (l, 0)

/-- `get_class_cache_entry_value`, stringrep.c:41-48. -/
def cacheByValue (l : Lib) (c : BitVec 16) : Option KClass := l.cache.find? (fun n => c = n.value)

/-- `string_to_av_perm`, stringrep.c:234-249: only the cache is consulted. -/
def stringToPerm (l : Lib) (tclass : BitVec 16) (s : String) : BitVec 32 :=
  match cacheByValue l (unmapClass l.map tclass) with
  | some n =>
    match n.perms.findIdx? (fun p => p = s) with
    | some i => mapPerm l.map tclass (bit i)
    | none => 0
  | none => 0

/-- `security_class_to_string`, stringrep.c:251-262. -/
def classToString (l : Lib) (tclass : BitVec 16) : Option String :=
  (cacheByValue l (unmapClass l.map tclass)).map (·.name)

/-- `security_av_perm_to_string`, stringrep.c:264-280: the name of the lowest bit. -/
def permToString (l : Lib) (tclass : BitVec 16) (av : BitVec 32) : Option String :=
  let kav := unmapPerm l.map tclass av
  match cacheByValue l (unmapClass l.map tclass) with
  | some n =>
    if kav ≠ 0 then
      match (List.range 32).find? (fun i => bit i &&& kav ≠ 0) with
      | some i => n.perms[i]?
      | none => none
    else none
  | none => none

/-- `selinux_flush_class_cache`, stringrep.c:173-193. -/
def flush (l : Lib) : Lib := { l with cache := [] }

/-! ### selinux_set_mapping -/

/-- The inner loop, mapping.c:82-101: the values of the permission names of one class, `none` when
an unknown one is rejected.  An empty name is skipped: its place keeps the 0 of `calloc`. -/
def permLoop (l : Lib) (reject : Bool) (value : BitVec 16) : List String → Option (List (BitVec 32))
  | [] => some []
  | s :: ss =>
    if s = "" then (permLoop l reject value ss).map (0 :: ·)
    else
      let p := stringToPerm l value s
      if p = 0 ∧ reject = true then none
      else (permLoop l reject value ss).map (p :: ·)

/-- The outer loop, mapping.c:66-102. -/
def classLoop (kernel : List KClass) (reject : Bool) :
    Lib → List (String × List String) → Lib × Option (List Entry)
  | l, [] => (l, some [])
  | l, (name, perms) :: rest =>
    match stringToClass kernel l name with
    | (l, value) =>
      if value = 0 then
        if reject then (l, none)
        else
          match classLoop kernel reject l rest with
          | (l, r) => (l, r.map (⟨0, []⟩ :: ·))
      else
        match permLoop l reject value perms with
        | none => (l, none)
        | some ps =>
          match classLoop kernel reject l rest with
          | (l, r) => (l, r.map (⟨value, ps⟩ :: ·))

/-- `selinux_set_mapping`, mapping.c:33-118, for a list of classes with their permissions.
`reset` says whether `avc_reset` succeeds, `mem` whether `calloc` does, `rejectUnknown` is the
result of `security_reject_unknown`.  The result is undefined (`none`) when there are so many
classes that the 16-bit counter wraps, or more than 32 permissions in a class (an array without
room for its NULL).  The lookups happen with no mapping installed (mapping.c:43-45, 109). -/
def setMapping (kernel : List KClass) (reset mem : Bool) (rejectUnknown : Int) (l : Lib)
    (req : List (String × List String)) : Option (Lib × Bool) :=
  let l : Lib := { l with map := [] }
  if reset = false then some (l, false)
  else if req.length ≥ 65535 ∨ ∃ c ∈ req, c.2.length > 32 then none
  else if mem = false then some (l, false)
  else
    match classLoop kernel (rejectUnknown = 1) l req with
    | (l, none) => some (l, false)
    | (l, some es) => some ({ l with map := ⟨0, []⟩ :: es }, true)

/-! ### Users of the translation -/

/-- `security_compute_av_flags_raw`, compute_av.c:42-79: the class and the requested permissions
are translated, the kernel is asked, its answer is translated back.  `kav` is the kernel's answer
for the contexts in question. -/
def computeAv (kav : BitVec 16 → BitVec 32 → Avd) (deny : Int) (l : Lib) (tclass : BitVec 16)
    (requested : BitVec 32) : Avd :=
  let kclass := unmapClass l.map tclass
  let avd := kav kclass (unmapPerm l.map tclass requested)
  if kclass ≠ 0 then mapDecision l.map deny tclass avd else avd

/-- `selinux_check_access`, checkAccess.c:42-65, from the point where both contexts are known.
`hasPerm tclass av` is the answer of `avc_has_perm` (see `Verif/Avc`). -/
def checkAccess (kernel : List KClass) (deny : Int) (hasPerm : BitVec 16 → BitVec 32 → Bool)
    (l : Lib) (cls perm : String) : Lib × Bool :=
  match stringToClass kernel l cls with
  | (l, sclass) =>
    if sclass = 0 then (l, deny = 0)
    else
      let av := stringToPerm l sclass perm
      if av = 0 then (l, deny = 0)
      else (l, hasPerm sclass av)

/-- First pass of `security_av_string` over bit `i` and up, stringrep.c:292-298: `tmp` is `av >> i`.
The loop ends when `tmp` is 0, after at most 32 rounds (`fuel`). -/
def avLen (l : Lib) (tclass : BitVec 16) (av : BitVec 32) : Nat → Nat → BitVec 32 → Nat → Nat
  | 0, _, _, len => len
  | fuel + 1, i, tmp, len =>
    if tmp = 0 then len
    else
      let len := if tmp &&& 1 ≠ 0 then
          match permToString l tclass (av &&& bit i) with
          | some s => len + (s.toUTF8.size + 1)
          | none => len
        else len
      avLen l tclass av fuel (i + 1) (tmp >>> 1) len

/-- Second pass, stringrep.c:316-322: what `sprintf` appends. -/
def avText (l : Lib) (tclass : BitVec 16) (av : BitVec 32) : Nat → Nat → BitVec 32 → List String
  | 0, _, _ => []
  | fuel + 1, i, tmp =>
    if tmp = 0 then []
    else if tmp &&& 1 ≠ 0 then
      match permToString l tclass (av &&& bit i) with
      | some s => s :: avText l tclass av fuel (i + 1) (tmp >>> 1)
      | none => avText l tclass av fuel (i + 1) (tmp >>> 1)
    else avText l tclass av fuel (i + 1) (tmp >>> 1)

/-- `security_av_string`, stringrep.c:282-326: the names written, or `none` if the text written
with its terminator is longer than the buffer. -/
def avString (l : Lib) (tclass : BitVec 16) (av : BitVec 32) : Option String :=
  let size := avLen l tclass av 32 0 av 5
  let text := if av = 0 then "null"
    else "{ " ++ String.join ((avText l tclass av 32 0 av).map (· ++ " ")) ++ "}"
  if text.toUTF8.size + 1 ≤ size then some text else none

end Verif.Mapping
