import Verif.Sha.Model
import Verif.Prelude

/-!
# Model of the module checksum of libsemanage

`libsemanage/src/direct_api.c:863-1071` computes a digest of the modules that are to be linked,
`direct_api.c:1073-1124` compares and records it, and `direct_api.c:1200-1327` decides whether a
commit links the modules again.
-/

namespace Verif.Checksum
open Verif.Sha

/-- An active module, as the code finds it in the sandbox. -/
structure Module where
  name : Bytes
  /-- The file "cil" of the module directory, if there is one (uncompressed). -/
  cil : Option Bytes
  /-- `lang_ext` is "cil". -/
  isCil : Bool
  /-- What the compiler of its language makes of the file "hll"; `none` when that fails. -/
  compiled : Option Bytes
  deriving DecidableEq

/-- `struct extra_checksum_params`, direct_api.c:997-1002.  The two flags are those of the libsepol
handle, tested for being nonzero (direct_api.c:1028-1029). -/
structure Extra where
  disableDontaudit : Bool
  preserveTunables : Bool
  targetPlatform : Nat
  policyvers : Nat
  deriving DecidableEq

/-- `update_checksum_with_len`, direct_api.c:863-873. -/
def withLen (s : Nat) : Bytes := leBytes 8 s

/-- `update_checksum_with_bool`, direct_api.c:875-881. -/
def withBool (b : Bool) : Bytes := [if b then 1 else 0]

/-- `strcmp(a, b) <= 0` on strings without NUL. -/
def nameLe : Bytes → Bytes → Bool
  | [], _ => true
  | _ :: _, [] => false
  | a :: as, b :: bs => if a = b then nameLe as bs else decide (a < b)

/-- `qsort` with `modinfo_cmp`, direct_api.c:989-995, 1023.  Module names are distinct, so the result
of the sort does not depend on the algorithm; it is an insertion sort here. -/
def insertMod (m : Module) : List Module → List Module
  | [] => [m]
  | x :: xs => if nameLe m.name x.name then m :: x :: xs else x :: insertMod m xs

/-- See `insertMod`. -/
def sortMods (l : List Module) : List Module := l.foldr insertMod []

/-- The calls of `Sha256Update` for one module, direct_api.c:1035-1065 and
`semanage_compile_module` (direct_api.c:883-987): the cached file, unless the cache is to be ignored;
otherwise nothing for a module written in CIL, and what the compiler gives for another one.
`none`: the commit fails. -/
def feedModule (ignoreCache : Bool) (m : Module) : Option (List Bytes) :=
  match (if ignoreCache then none else m.cil) with
  | some c => some [withLen c.length, c]
  | none =>
    if m.isCil then some []
    else
      match m.compiled with
      | some c => some [withLen c.length, c]
      | none => none

/-- The loop over the modules, direct_api.c:1034-1066. -/
def feedModules (ignoreCache : Bool) : List Module → Option (List Bytes)
  | [] => some []
  | m :: ms =>
    match feedModule ignoreCache m with
    | none => none
    | some c =>
      match feedModules ignoreCache ms with
      | none => none
      | some cs => some (c ++ cs)

/-- All calls of `Sha256Update`, direct_api.c:1025-1066. -/
def feed (ignoreCache : Bool) (x : Extra) (mods : List Module) : Option (List Bytes) :=
  let mods := sortMods mods
  match feedModules ignoreCache mods with
  | none => none
  | some cs =>
    some ([withLen 2, withBool x.disableDontaudit, withBool x.preserveTunables,
      withLen x.targetPlatform, withLen x.policyvers, withLen mods.length] ++ cs)

/-- A digit of `%02x`. -/
def hexDigit (n : Nat) : UInt8 := if n < 10 then UInt8.ofNat (48 + n) else UInt8.ofNat (87 + n)

/-- `semanage_hash_to_checksum_string`, modules.c:980-991, with the NUL that
`CHECKSUM_CONTENT_SIZE` counts. -/
def checksumString (hash : Bytes) : Bytes :=
  [115, 104, 97, 50, 53, 54, 58] ++ hash.flatMap (fun b => [hexDigit (b.toNat / 16), hexDigit (b.toNat % 16)])
    ++ [0]

/-- `CHECKSUM_CONTENT_SIZE`, modules.c:981. -/
def contentSize : Nat := 7 + 1 + 2 * 32

/-- `semanage_compile_hll_modules`, direct_api.c:1004-1071: the checksum. -/
def compileModules (mem : Bytes) (ignoreCache : Bool) (x : Extra) (mods : List Module) : Option Bytes :=
  match feed ignoreCache x mods with
  | none => none
  | some cs =>
    match (sha256Updates (sha256Init mem) cs).bind sha256Final with
    | none => none
    | some h => some (checksumString h)

/-- The files of the sandbox that the decision reads. -/
structure Store where
  /-- `disable_dontaudit` exists. -/
  dontaudit : Bool
  /-- `preserve_tunables` exists. -/
  tunables : Bool
  /-- Which of the files of `semanage_computed_files` (direct_api.c:1127-1134) exist. -/
  computed : List Bool
  /-- `modules_checksum`. -/
  checksum : Option Bytes
  /-- The active modules. -/
  mods : List Module

/-- The part of the handle that the decision reads. -/
structure Handle where
  doRebuild : Bool
  modulesModified : Bool
  checkExt : Bool
  ignoreCache : Bool
  extra : Extra

/-- `semanage_compare_checksum`, direct_api.c:1073-1116: rebuild? -/
def compareChecksum (file : Option Bytes) (reference : Bytes) : Bool :=
  match file with
  | none => true
  | some f => if f.length ≠ contentSize then true else decide (f ≠ reference)

/-- What a commit does. -/
inductive Outcome where
  | fail
  /-- There are no modules: the commit ends at once (direct_api.c:1298-1301). -/
  | nothing
  /-- It goes on, after having linked the modules (`true`) or having read the policy that was linked
  before (`false`); the store is the sandbox with the new flag files and checksum. -/
  | proceed (rebuild : Bool) (s : Store)

/-- The decision, direct_api.c:1200-1327.  Errors of the file system other than a missing file are
not modelled. -/
def decideRebuild (mem : Bytes) (h : Handle) (s : Store) : Outcome :=
  let r := h.doRebuild || h.modulesModified
  let r := r || (s.dontaudit != h.extra.disableDontaudit)
  let r := r || (s.tunables != h.extra.preserveTunables)
  let s := { s with dontaudit := h.extra.disableDontaudit, tunables := h.extra.preserveTunables }
  let r := r || !(s.computed.all id)
  if r || h.checkExt then
    if s.mods.length = 0 then .nothing
    else
      match compileModules mem h.ignoreCache h.extra s.mods with
      | none => .fail
      | some sum =>
        let r := if !r && h.checkExt then compareChecksum s.checksum sum else r
        .proceed r { s with checksum := some sum }
  else .proceed r s

end Verif.Checksum
