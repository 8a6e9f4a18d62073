import Verif.CilBin.Model
import Verif.Optimize.Model

/-!
# Model of libsepol/cil/src/cil_binary.c: rules with extended permissions

Extended permissions are numbers from 0 to 65535: the commands of `ioctl`, or types of netlink messages.  The compiler collects
them in bitmaps, one for each pair of types, class and kind of rule, and then writes each bitmap as blocks of 256 bits.

What is simplified: each hash table is a list of keys and data, with the key found by `avrulex_compare`
(cil_binary.c:4652-4660), and `hashtab_map` visits it in any order; C24 is about hash tables.  Memory does not run out.  The
policy version is at least POLICYDB_VERSION_COND_XPERMS, so that rules may be in conditionals.
-/

namespace Verif.CilX
open Ebitmap (Ebitmap)
open Avtab (Avtab Key Datum XPerms)
open CilBin (Db Sym Target Kind Branch State typeDatum bits key shouldExpand expandType condInsertRule)

/-- CIL_PERMX_KIND_IOCTL and CIL_PERMX_KIND_NLMSG, cil_internal.h:640-641. -/
inductive XKind where
  | ioctl | nlmsg
deriving DecidableEq

/-- `struct cil_permissionx`, cil_internal.h:642-649, with the classes of `cil_expand_class(obj)`. -/
structure Permx where
  kind : XKind
  classes : List Nat
  perms : Ebitmap

/-- `struct cil_avrule` with extended permissions, cil_internal.h:623-637. -/
structure XRule where
  kind : Kind
  src : Sym
  tgt : Target
  permx : Permx

/-! ### Blocks of extended permissions -/

/-- XPERM_SETBITS, cil_binary.c:1654: bits 0 to x-1 of a word. -/
def setBits (x : Nat) : BitVec 32 := (1#32 <<< (x % 32)) - 1#32

/-- What `__avrule_xperm_setrangebits`, cil_binary.c:1664-1677, sets in word `i`. -/
def word (low high i : Nat) : BitVec 32 :=
  let h := (high + 1) % 2 ^ 16
  if low ≤ i * 32 ∧ (i + 1) * 32 - 1 ≤ high then BitVec.allOnes 32
  else if low ≤ i * 32 ∧ high < (i + 1) * 32 - 1 then setBits h
  else if i * 32 < low ∧ (i + 1) * 32 - 1 ≤ high then BitVec.allOnes 32 - setBits low
  else if i * 32 < low ∧ high ≤ (i + 1) * 32 - 1 then setBits h - setBits low
  else 0#32

/-- `__avrule_xperm_setrangebits`, cil_binary.c:1659-1679: the words from XPERM_IDX(low) to XPERM_IDX(high). -/
def setRange (low high : Nat) (ps : List (BitVec 32)) : List (BitVec 32) :=
  (List.range' (low / 32) (high / 32 + 1 - low / 32)).foldl (fun ps i => ps.modify i (· ||| word low high i)) ps

/-- The variables of `__cil_permx_bitmap_to_sepol_xperms_list`, cil_binary.c:1697-1702. -/
structure Loop where
  low : Nat
  fresh : Bool
  part : Option XPerms
  complete : Option XPerms
  out : List XPerms

/-- `specified` of a block of functions, cil_binary.c:1739-1746. -/
def XKind.spec : XKind → BitVec 8
  | .ioctl => Optimize.FUNCTION
  | .nlmsg => Optimize.NLMSG

/-- The body of the loop of `__cil_permx_bitmap_to_sepol_xperms_list`, cil_binary.c:1709-1751. -/
def step (kind : XKind) (e : Ebitmap) (s : Loop) (i : Nat) : Loop :=
  let low := if s.fresh then i % 2 ^ 16 else s.low
  if i % 256 ≠ 255 ∧ Ebitmap.getBit e (i + 1) = true then { s with low := low, fresh := false }
  else
    let high := i % 2 ^ 16
    if kind = .ioctl ∧ low % 256 = 0 ∧ high % 256 = 255 then
      let c := s.complete.getD ⟨Optimize.DRIVER, 0#8, List.replicate 8 0#32⟩
      ⟨low, true, s.part, some { c with perms := setRange (low / 256) (low / 256) c.perms }, s.out⟩
    else
      let (out, part) := match s.part with
        | some p => if p.driver.toNat ≠ low / 256 then (s.out ++ [p], none) else (s.out, some p)
        | none => (s.out, none)
      let p := part.getD ⟨kind.spec, BitVec.ofNat 8 (low / 256), List.replicate 8 0#32⟩
      ⟨low, true, some { p with perms := setRange (low % 256) (high % 256) p.perms }, s.complete, out⟩

/-- `__cil_permx_bitmap_to_sepol_xperms_list`, cil_binary.c:1695-1766. -/
def permxList (kind : XKind) (e : Ebitmap) : Option (List XPerms) :=
  (bits e).map fun l =>
    let s := l.foldl (step kind e) ⟨0, true, none, none, []⟩
    s.out ++ s.part.toList ++ s.complete.toList

/-! ### The tables of bitmaps -/

/-- A hash table from keys to bitmaps. -/
abbrev XTab := List (Key × Ebitmap)

/-- `struct cil_args_xperm_tables`, cil_binary.c:62-65. -/
structure Tabs where
  ioctl : XTab
  nlmsg : XTab

def Tabs.get (t : Tabs) : XKind → XTab
  | .ioctl => t.ioctl
  | .nlmsg => t.nlmsg

def Tabs.set (t : Tabs) : XKind → XTab → Tabs
  | .ioctl, x => { t with ioctl := x }
  | .nlmsg, x => { t with nlmsg := x }

/-- The search and the insertion or union of `__cil_avrulex_xperm_to_hashtable`, cil_binary.c:1863-1883. -/
def tabAdd (k : Key) (e : Ebitmap) : XTab → XTab
  | [] => [(k, Ebitmap.cpy e)]
  | (k', e') :: t => if k' = k then (k', Ebitmap.union e' e) :: t else (k', e') :: tabAdd k e t

/-- The kind of rule, cil_binary.c:1842-1855. -/
def xspec : Kind → Option (BitVec 16)
  | .allowed => some Avtab.XPERMS_ALLOWED
  | .auditallow => some Avtab.XPERMS_AUDITALLOW
  | .dontaudit => some Avtab.XPERMS_DONTAUDIT
  | .neverallow => none

/-- A loop that stops at an error. -/
def forE {α σ : Type} (f : α → σ → Option σ) : List α → σ → Option σ
  | [], st => some st
  | x :: l, st =>
    match f x st with
    | none => none
    | some st => forE f l st

/-- `__cil_avrulex_to_hashtable_helper`, cil_binary.c:1892-1934, with `__cil_avrulex_xperm_to_hashtable`. -/
def xHelper (db : Db) (tab : List Sym) (r : XRule) (src tgt : Sym) (t : Tabs) : Option Tabs :=
  (typeDatum tab src).bind fun sv =>
  (typeDatum tab tgt).bind fun tv =>
  forE (fun c t => (db.classVal c).bind fun cv =>
    (xspec r.kind).map fun sp => t.set r.permx.kind (tabAdd (key sv tv cv sp) r.permx.perms (t.get r.permx.kind))) r.permx.classes t

/-- `cil_avrulex_to_hashtable`, cil_binary.c:1936-2084. -/
def avrulexToHashtable (db : Db) (tab : List Sym) (r : XRule) (t : Tabs) : Option Tabs :=
  let go (s t : Sym) (x : Tabs) := xHelper db tab r s t x
  if r.kind = .dontaudit ∧ db.disableDontaudit then some t
  else
    match r.tgt with
    | .self =>
      ((expandType db r.src).bind bits).bind fun ss => forE (fun s => go (.type s) (.type s)) ss t
    | .notself =>
      ((expandType db r.src).bind bits).bind fun ss =>
        forE (fun s => forE (fun t x => if s ≠ t then go (.type s) (.type t) x else some x) (List.range db.numTypes)) ss t
    | .other =>
      ((expandType db r.src).bind bits).bind fun ss =>
        forE (fun s => forE (fun t x => if s ≠ t then go (.type s) (.type t) x else some x) ss) ss t
    | .sym tgt =>
      match shouldExpand db r.src, shouldExpand db tgt with
      | false, false => go r.src tgt t
      | true, true =>
        ((expandType db r.src).bind bits).bind fun ss =>
          ((expandType db tgt).bind bits).bind fun ts => forE (fun s => forE (fun t => go (.type s) (.type t)) ts) ss t
      | true, false => ((expandType db r.src).bind bits).bind fun ss => forE (fun s => go (.type s) tgt) ss t
      | false, true => ((expandType db tgt).bind bits).bind fun ts => forE (fun t => go r.src (.type t)) ts t

/-! ### Rules from the tables -/

/-- The insertion of a rule, cil_binary.c:1803-1810. -/
def insertX (st : State) (k : Key) (d : Datum) (cond : Option Branch) : Option State :=
  match cond with
  | some b => condInsertRule st k d b
  | none =>
    match Avtab.insert st.te k d with
    | (te, .ok) => some { st with te := te }
    | _ => none

/-- `__cil_avrulex_xperm_to_policydb`, cil_binary.c:1768-1825.  `data` is the permission `ioctl` or `nlmsg` of the class with the
value, as a vector. -/
def xpermToPolicydb (data : XKind → Nat → Option (BitVec 32)) (kind : XKind) (cond : Option Branch) (x : Key × Ebitmap) (st : State) :
    Option State :=
  (data kind x.1.cls).bind fun dt =>
  (permxList kind x.2).bind fun xs => forE (fun p st => insertX st x.1 ⟨dt, some p⟩ cond) xs st

/-- The rules with extended permissions outside of conditionals, or those of a branch of one `booleanif` statement. -/
structure Group where
  cond : Option Branch
  rules : List XRule

/-- Neverallow rules outside of conditionals are only checked, cil_binary.c:4194-4199; for branches see 2137-2151. -/
def ruleToTabs (db : Db) (tab : List Sym) (cond : Option Branch) (r : XRule) (t : Tabs) : Option Tabs :=
  if r.kind = .neverallow ∧ cond = none then some t else avrulexToHashtable db tab r t

/-- The rules of a branch, cil_binary.c:2529-2613, or those outside of conditionals, 5315-5376.  `ord` is the order in which
`hashtab_map` visits a table. -/
def groupToPolicydb (db : Db) (data : XKind → Nat → Option (BitVec 32)) (tab : List Sym) (ord : XTab → XTab) (g : Group) (st : State) :
    Option State :=
  (forE (ruleToTabs db tab g.cond) g.rules ⟨[], []⟩).bind fun t =>
  (forE (xpermToPolicydb data .ioctl g.cond) (ord t.ioctl) st).bind fun st =>
  forE (xpermToPolicydb data .nlmsg g.cond) (ord t.nlmsg) st

/-- All rules with extended permissions.  They are added to the state that the other rules make; the order in which rules of
different kinds are added is simplified. -/
def compileX (db : Db) (data : XKind → Nat → Option (BitVec 32)) (tab : List Sym) (ord : XTab → XTab) (gs : List Group) (st : State) :
    Option State :=
  forE (groupToPolicydb db data tab ord) gs st

end Verif.CilX
