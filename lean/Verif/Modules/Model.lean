import Verif.LocalFile.Model

/-!
# Model of the store of modules

How libsemanage keeps policy modules: `semanage_module_validate_name` and the other checks of libsemanage/src/modules.c, the functions
on modules of libsemanage/src/direct_api.c (`semanage_direct_install_info`, `semanage_direct_remove_key`,
`semanage_direct_set_enabled`, `semanage_direct_get_enabled`, `semanage_direct_get_module_info`, `semanage_direct_list_all`,
`semanage_direct_extract`, `semanage_compile_module`) and the choice of the modules that a policy is built from
(`semanage_get_active_modules` and `semanage_get_cil_paths`, libsemanage/src/semanage_store.c).

The directory "modules" of the transaction is a tree: a directory for each priority, in it a directory for each module with the files
"lang_ext", "hll" and "cil", and a directory "disabled".  Left out: failing system calls and allocations, limits on the length of
paths, files that are no directories and the other way round, messages, compression, the checksum (property C57) and the setting
`remove-hll` (its default is not to remove).  The wrappers `semanage_direct_install` and `semanage_direct_remove` call the functions
here with the priority of the handle.
-/

namespace Verif.Modules
open Verif
open Verif.Login (isSpace cstr)
open Verif.LocalFile (isDigit digitsVal caseEq)

/-! ## Checks, modules.c -/

/-- `isalpha` in the C locale. -/
def isAlpha (c : UInt8) : Bool := (65 ≤ c && c ≤ 90) || (97 ≤ c && c ≤ 122)

/-- `ISVALIDCHAR`, modules.c:826. -/
def validChar (c : UInt8) : Bool := isAlpha c || isDigit c || c == 95 || c == 45

/-- The loop of `semanage_module_validate_name`, modules.c:828-837. -/
def nameLoop : Bytes → Bool
  | [] => true
  | c :: cs =>
    if validChar c then nameLoop cs
    else if c == 46 then
      match cs with
      | [] => false
      | d :: ds => if validChar d then nameLoop ds else false
    else false

/-- `semanage_module_validate_name`, modules.c:813-843. -/
def validName : Bytes → Bool
  | [] => false
  | c :: cs => if isAlpha c then nameLoop cs else false

/-- `semanage_module_validate_lang_ext`, modules.c:870-898. -/
def validExt : Bytes → Bool
  | [] => false
  | c :: cs => if isAlpha c || isDigit c then cs.all validChar else false

/-- `semanage_module_validate_priority`, modules.c:795-802. -/
def validPriority (p : Nat) : Bool := 1 ≤ p && p ≤ 999

/-- `semanage_module_validate_enabled`, modules.c:852-859. -/
def validEnabled (e : Int) : Bool := e == 1 || e == 0 || e == -1

/-- `strtoul(str, &endptr, 10)` up to `*endptr == '\0'`, modules.c:756-760. -/
def strtoul (str : Bytes) : Option Nat :=
  let s := str.dropWhile isSpace
  let neg := s.head? == some 45
  let s := if s.head? = some 45 ∨ s.head? = some 43 then s.drop 1 else s
  if s = [] ∨ s.all isDigit = false then none
  else
    let v := digitsVal s
    if v ≥ 2 ^ 64 then none else some (if neg then (2 ^ 64 - v) % 2 ^ 64 else v)

/-- `semanage_string_to_priority`, modules.c:744-771. -/
def stringToPriority (str : Bytes) : Option Nat :=
  match strtoul str with
  | none => none
  | some v => if v > 65535 then none else if validPriority v then some v else none

/-! ## The tree -/

/-- The directory of a module: the contents of its files. -/
structure ModDir where
  langExt : Option Bytes
  hll : Option Bytes
  cil : Option Bytes
deriving DecidableEq

/-- The directory "modules". -/
structure Tree where
  prios : List (Bytes × List (Bytes × ModDir))
  disabled : List Bytes
deriving DecidableEq

/-- An entry of a directory. -/
def get {α : Type} (k : Bytes) (l : List (Bytes × α)) : Option α := (l.find? fun e => e.1 == k).map (·.2)

/-- Make or replace an entry of a directory. -/
def put {α : Type} (k : Bytes) (v : α) (l : List (Bytes × α)) : List (Bytes × α) := (k, v) :: l.filter fun e => e.1 != k

/-- Remove an entry from a directory. -/
def del {α : Type} (k : Bytes) (l : List (Bytes × α)) : List (Bytes × α) := l.filter fun e => e.1 != k

/-- `"%03u"` of a valid priority, modules.c:457-461. -/
def fmt3 (p : Nat) : Bytes := [UInt8.ofNat (48 + p / 100), UInt8.ofNat (48 + p / 10 % 10), UInt8.ofNat (48 + p % 10)]

/-- The directory of a module. -/
def dirOf (t : Tree) (p : Nat) (n : Bytes) : Option ModDir := (get (fmt3 p) t.prios).bind (get n)

/-- Write the directory of a module; the directory of its priority is made if there is none. -/
def putDir (t : Tree) (p : Nat) (n : Bytes) (d : ModDir) : Tree :=
  { t with prios := put (fmt3 p) (put n d ((get (fmt3 p) t.prios).getD [])) t.prios }

/-- Put an element at its place. -/
def sortIns {α : Type} (le : α → α → Bool) (a : α) : List α → List α
  | [] => [a]
  | b :: l => if le a b then a :: b :: l else b :: sortIns le a l

/-- Sorting, as `scandir` and `qsort` do. -/
def isort {α : Type} (le : α → α → Bool) : List α → List α
  | [] => []
  | a :: l => sortIns le a (isort le l)

/-- `strcmp(a, b) <= 0`. -/
def strLe : Bytes → Bytes → Bool
  | [], _ => true
  | _ :: _, [] => false
  | a :: as, b :: bs => if a = b then strLe as bs else a < b

/-! ## direct_api.c -/

/-- `semanage_module_info_t`. -/
structure Info where
  priority : Nat
  name : Bytes
  ext : Bytes
  enabled : Int
deriving DecidableEq

/-- The file "lang_ext" up to its first newline, direct_api.c:2309-2321; nothing can be read from an empty file. -/
def readExt (f : Option Bytes) : Option Bytes :=
  match f with
  | none => none
  | some [] => none
  | some bs =>
    let line := bs.takeWhile (· != 10)
    let line := cstr (line ++ (if line.length < bs.length then [10] else []))
    if validExt line then some line else none

/-- `semanage_direct_get_module_info` for a priority that is not 0, direct_api.c:2264-2370. -/
def infoAt (t : Tree) (p : Nat) (n : Bytes) : Option Info :=
  if validName n = false then none
  else if validPriority p = false then none
  else match (dirOf t p n).bind fun d => readExt d.langExt with
    | none => none
    | some ext => some ⟨p, n, ext, if t.disabled.contains n then 0 else 1⟩

/-- `versionsort` is the comparison `vs` of the C library, smaller or equal. -/
abbrev Cmp := Bytes → Bytes → Bool

/-- The names that `scandir` gives, direct_api.c:2530-2543: none that begins with a dot, and not `except`. -/
def scan {α : Type} (vs : Cmp) (except : Option Bytes) (l : List (Bytes × α)) : List Bytes :=
  isort vs ((l.map (·.1)).filter fun n => n.head? != some 46 && some n != except)

/-- The modules of a priority, direct_api.c:2636-2704. -/
def infosAt (t : Tree) (p : Nat) : List Bytes → Option (List Info)
  | [] => some []
  | n :: ns =>
    match infoAt t p n with
    | none => none
    | some i => (infosAt t p ns).map (i :: ·)

/-- The priorities, direct_api.c:2600-2706. -/
def infosOf (vs : Cmp) (t : Tree) : List Bytes → Option (List Info)
  | [] => some []
  | s :: ss =>
    match stringToPriority s with
    | none => none
    | some p =>
      match get (fmt3 p) t.prios with
      | none => none
      | some ms =>
        match infosAt t p (scan vs none ms) with
        | none => none
        | some is => (infosOf vs t ss).map (is ++ ·)

/-- "disabled". -/
def disabledName : Bytes := [100, 105, 115, 97, 98, 108, 101, 100]

/-- `semanage_direct_list_all`, direct_api.c:2545-2752: from the last priority on. -/
def listAll (vs : Cmp) (t : Tree) : Option (List Info) := infosOf vs t (scan vs (some disabledName) t.prios).reverse

/-- `semanage_direct_get_module_info`, direct_api.c:2194-2384: priority 0 means the first one in the list. -/
def getInfo (vs : Cmp) (t : Tree) (p : Nat) (n : Bytes) : Option Info :=
  if validName n = false then none
  else if p = 0 then
    match listAll vs t with
    | none => none
    | some l => l.find? fun i => i.name == n
  else infoAt t p n

/-- `semanage_direct_get_enabled`, direct_api.c:1981-2036. -/
def getEnabled (vs : Cmp) (t : Tree) (p : Nat) (n : Bytes) : Option Int :=
  match getInfo vs t p n with
  | none => none
  | some i => some (if t.disabled.contains i.name then 0 else 1)

/-- `semanage_direct_set_enabled`, direct_api.c:2038-2165. -/
def setEnabled (vs : Cmp) (t : Tree) (p : Nat) (n : Bytes) (e : Int) : Bool × Tree :=
  if validName n = false then (false, t)
  else if validEnabled e = false then (false, t)
  else match getInfo vs t p n with
    | none => (false, t)
    | some i =>
      if e = 0 then (true, { t with disabled := i.name :: t.disabled.filter (· != i.name) })
      else if e = 1 then (true, { t with disabled := t.disabled.filter (· != i.name) })
      else (true, t)

/-- `semanage_direct_set_module_info`, direct_api.c:2386-2528. -/
def setInfo (vs : Cmp) (t : Tree) (i : Info) : Bool × Tree :=
  let d := (dirOf t i.priority i.name).getD ⟨none, none, none⟩
  let t := putDir t i.priority i.name { d with langExt := some i.ext }
  let enabled :=
    if i.enabled = -1 then
      match getInfo vs t 0 i.name with
      | some j => j.enabled
      | none => 1
    else i.enabled
  setEnabled vs t 0 i.name enabled

/-- `semanage_module_info_validate`, modules.c:777-786. -/
def validInfo (i : Info) : Bool := validPriority i.priority && validName i.name && validExt i.ext && validEnabled i.enabled

/-- "cil". -/
def cilExt : Bytes := [99, 105, 108]

/-- `semanage_direct_install_info`, direct_api.c:2754-2881: what is not in CIL is compiled later. -/
def install (vs : Cmp) (t : Tree) (i : Info) (data : Bytes) : Bool × Tree :=
  if validInfo i = false then (false, t)
  else match setInfo vs t i with
    | (false, t) => (false, t)
    | (true, t) =>
      let d := (dirOf t i.priority i.name).getD ⟨none, none, none⟩
      if caseEq i.ext cilExt then (true, putDir t i.priority i.name { d with cil := some data })
      else (true, putDir t i.priority i.name { d with hll := some data, cil := none })

/-- `semanage_direct_remove_key`, direct_api.c:2883-2990. -/
def remove (vs : Cmp) (t : Tree) (p : Nat) (n : Bytes) : Bool × Tree :=
  if validPriority p = false then (false, t)
  else if validName n = false then (false, t)
  else match get (fmt3 p) t.prios with
    | none => (false, t)
    | some ms =>
      match get n ms with
      | none => (false, t)
      | some _ =>
        let t := { t with prios := put (fmt3 p) (del n ms) t.prios }
        match getInfo vs t 0 n with
        | none => (true, { t with disabled := t.disabled.filter (· != n) })
        | some _ => (true, t)

/-- The compilers of languages: what they make of a text, `none` if they fail or are missing. -/
abbrev Compiler := Bytes → Bytes → Option Bytes

/-- `semanage_compile_module`, direct_api.c:883-987. -/
def compileModule (compile : Compiler) (t : Tree) (i : Info) : Option Tree :=
  if caseEq i.ext cilExt then some t
  else match dirOf t i.priority i.name with
    | none => none
    | some d =>
      match d.hll.bind (compile i.ext) with
      | none => none
      | some c => some (putDir t i.priority i.name { d with cil := some c })

/-- `semanage_direct_extract`, direct_api.c:1802-1903. -/
def extract (vs : Cmp) (compile : Compiler) (t : Tree) (p : Nat) (n : Bytes) (wantCil : Bool) : Option (Info × Bytes) × Tree :=
  if validPriority p = false ∨ validName n = false then (none, t)
  else match dirOf t p n with
    | none => (none, t)
    | some d =>
      match getInfo vs t p n with
      | none => (none, t)
      | some i =>
        let read (t : Tree) : Option (Info × Bytes) × Tree :=
          match dirOf t p n with
          | none => (none, t)
          | some d => (((if wantCil ∨ i.ext = cilExt then d.cil else d.hll).map fun x => (i, x)), t)
        if wantCil = true ∧ i.ext ≠ cilExt ∧ d.cil = none then
          match compileModule compile t i with
          | none => (none, t)
          | some t => read t
        else read t

/-! ## The modules that a policy is built from, semanage_store.c -/

/-- The loop of `semanage_get_active_modules`, semanage_store.c:1142-1164. -/
def activeLoop : List Bytes → List Info → List Info
  | _, [] => []
  | seen, i :: is =>
    if i.enabled ≠ 1 then activeLoop seen is
    else if seen.contains i.name then activeLoop seen is
    else i :: activeLoop (i.name :: seen) is

/-- `semanage_get_active_modules`, semanage_store.c:1098-1206. -/
def active (vs : Cmp) (t : Tree) : Option (List Info) :=
  (listAll vs t).map fun l => isort (fun i j => strLe i.name j.name) (activeLoop [] l)

/-- The loop of `semanage_compile_hll_modules`, direct_api.c:1037-1068, without the checksum. -/
def compileLoop (compile : Compiler) (ignoreCache : Bool) : List Info → Tree → Bool × Tree
  | [], t => (true, t)
  | i :: is, t =>
    if ignoreCache = false ∧ ((dirOf t i.priority i.name).bind (·.cil)).isSome = true then compileLoop compile ignoreCache is t
    else match compileModule compile t i with
      | none => (false, t)
      | some t => compileLoop compile ignoreCache is t

/-- The files that are read, `semanage_get_cil_paths` and `semanage_load_files`, semanage_store.c:1040-1088 and 2060-2090. -/
def loadFiles (t : Tree) : List Info → Option (List (Bytes × Bytes))
  | [] => some []
  | i :: is =>
    match (dirOf t i.priority i.name).bind (·.cil) with
    | none => none
    | some c => (loadFiles t is).map ((i.name, c) :: ·)

/-- The rebuild in `semanage_direct_commit`, direct_api.c:1292-1343: the names and texts of the modules that go into the policy. -/
def build (vs : Cmp) (compile : Compiler) (ignoreCache : Bool) (t : Tree) : Option (List (Bytes × Bytes)) × Tree :=
  match active vs t with
  | none => (none, t)
  | some l =>
    match compileLoop compile ignoreCache l t with
    | (false, t) => (none, t)
    | (true, t) => (loadFiles t l, t)

/-- The store: the modules that were committed last and the texts that the policy was built from. -/
structure Store where
  tree : Tree
  policy : List (Bytes × Bytes)
deriving DecidableEq

/-- `semanage_direct_commit`, direct_api.c:1292-1643, after modules were changed: `t` is the tree of the transaction.  Without an active
module the commit ends at once, and with success.  Building a policy from texts may fail (`compiles`), installing it does not here
(properties C36 and C37). -/
def commit (vs : Cmp) (compile : Compiler) (compiles : List (Bytes × Bytes) → Bool) (ignoreCache : Bool) (s : Store) (t : Tree) :
    Bool × Store :=
  match active vs t with
  | none => (false, s)
  | some [] => (true, s)
  | some _ =>
    match build vs compile ignoreCache t with
    | (none, _) => (false, s)
    | (some p, t) => if compiles p then (true, ⟨t, p⟩) else (false, s)

end Verif.Modules
