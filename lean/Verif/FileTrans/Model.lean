import Verif.PolicyIO.Model

/-!
# Name-based type transitions

`policydb_filetrans_insert` (libsepol/src/policydb.c:2591-2664) and the three compilers that use it: the expansion of modules
(expand.c:1410-1493), secilc (cil_binary.c:1177-1290) and checkpolicy (policy_define.c:3471-3520).

The hash table is a list of entries with different keys, in the order in which they were made; nothing depends on it.  The type
numbers that are passed are positive and at most 2^32 - 64 (the sets of types are bitmaps).  Failing allocations are left out.
-/

namespace Verif.FileTrans
open Verif.PolicyIO Verif.Policy Verif.Services

/-- A rule: a process of type `source` that makes an object of class `cls` with the name `name` in a directory of type `target`
gives it the type `new`. -/
structure Rule where
  source : Nat
  target : Nat
  cls : Nat
  name : Str
  new : Nat
deriving DecidableEq

/-- What `policydb_filetrans_insert` returns: SEPOL_OK, SEPOL_EEXIST with `present_otype`, SEPOL_ENOMEM or the error of
`ebitmap_set_bit`. -/
inductive Res
  | ok
  | exists_ (present : Nat)
  | error
deriving DecidableEq

/-- The loop over the data of an entry and what follows, policydb.c:2603-2622 and 2661-2663: a datum for the new type, if there is one
before one that has the source, gets the source; otherwise there is a new datum at the end. -/
def insertData (stype otype : Nat) : List (Ebitmap.Ebitmap × Nat) → Res × List (Ebitmap.Ebitmap × Nat)
  | [] =>
    match Ebitmap.setBit Ebitmap.init (stype - 1) true with
    | none => (.error, [(Ebitmap.init, otype)])
    | some e => (.ok, [(e, otype)])
  | d :: l =>
    if Ebitmap.getBit d.1 (stype - 1) then (.exists_ d.2, d :: l)
    else if d.2 = otype then
      match Ebitmap.setBit d.1 (stype - 1) true with
      | none => (.error, d :: l)
      | some e => (.ok, (e, d.2) :: l)
    else
      let r := insertData stype otype l
      (r.1, d :: r.2)

/-- `policydb_filetrans_insert`, policydb.c:2591-2664. -/
def insert (r : Rule) : List FileTransP → Res × List FileTransP
  | [] =>
    let x := insertData r.source r.new []
    (x.1, [⟨r.name, r.target, r.cls, x.2⟩])
  | f :: l =>
    if f.name = r.name ∧ f.ttype = r.target ∧ f.tclass = r.cls then
      let x := insertData r.source r.new f.data
      (x.1, { f with data := x.2 } :: l)
    else
      let x := insert r l
      (x.1, f :: x.2)

/-- `expand_filename_trans_helper`, expand.c:1410-1443, and the body of the loop of `__cil_typetransition_to_avtab_helper`,
cil_binary.c:1189-1213: a rule that is there already is ignored, one that contradicts it is an error (`none`). -/
def add (r : Rule) (t : List FileTransP) : Option (List FileTransP) :=
  match insert r t with
  | (.ok, t) => some t
  | (.exists_ o, t) => if o = r.new then some t else none
  | (.error, _) => none

/-- The rules of a policy in their order, expand.c:1445-1493, cil_binary.c:1215-1290. -/
def compile : List Rule → List FileTransP → Option (List FileTransP)
  | [], t => some t
  | r :: l, t => (add r t).bind (compile l)

end Verif.FileTrans
