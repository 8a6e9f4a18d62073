import Verif.Validate.Model
import Verif.Bytes

/-!
# Model of the binary form of a kernel policy

`policydb_write` (libsepol/src/write.c) and `policydb_read` (libsepol/src/policydb.c, conditional.c), for kernel policies
(`policy_type` is POLICY_KERN) of version 26 and later that are written to and read from memory (PF_USE_MEMORY).  Of the
versions from 26 on all of 26-34 are modelled for the SELinux target and 30 for the Xen target (there is no other Xen
version from 26 on, policydb.c:63-320).

* A hash table is the list of its entries in the order in which `hashtab_map` meets them; reading a table appends to the
  list, so the order in which a table that was read lists its entries is not modelled.  That the implementation is a map is
  property C24.
* `policydb_context_isvalid`, which the reader calls for every context, is a parameter of the reader (`valid`); it is the
  subject of property C09.
* The bitmaps `ebitmap_read`/`ebitmap_write` and the access vector table `avtab_read`/`avtab_write` are those of properties
  C05 and C40.

Left out: messages, failing allocations and failing `put_entry`; `unsupported_format`; `parse_context` of conditional rules,
which is set for every rule of a kernel policy (expand.c:1776, conditional.c:669, cil_binary.c); the numbers
`process_class`, `dir_class`, `process_trans` that are derived from the names of classes.
-/

namespace Verif.PolicyIO
open Verif.Policy Verif.Services Verif.Validate

/-! ## Readers -/

/-- A reader takes what it needs from the front of the stream; `none` is failure. -/
def Rd (α : Type) := Bytes → Option (α × Bytes)

def Rd.bind {α β : Type} (m : Rd α) (f : α → Rd β) : Rd β := fun bs => (m bs).bind fun x => f x.1 x.2
def Rd.pure {α : Type} (a : α) : Rd α := fun bs => some (a, bs)
def Rd.fail {α : Type} : Rd α := fun _ => none

instance : Monad Rd where
  pure := Rd.pure
  bind := Rd.bind

/-- `if (bad) return -1`. -/
def Rd.reject (bad : Bool) : Rd Unit := if bad then Rd.fail else Rd.pure ()

/-- `next_entry` and `le32_to_cpu` of one word. -/
def u32 : Rd Nat := nextLE 4

/-- The same for 64 bits. -/
def u64 : Rd Nat := nextLE 8

/-- `next_entry` of `n` bytes that are kept as they are. -/
def raw (n : Nat) : Rd Bytes := fun bs => if bs.length < n then none else some (bs.take n, bs.drop n)

/-- What C makes of a buffer of bytes with a NUL behind it. -/
def cstr (bs : Bytes) : Str := (bs.takeWhile (· != 0)).map fun b => Char.ofNat b.toNat

/-- `str_read`, services.c:1764-1788. -/
def strRead (len : Nat) : Rd Str := do
  Rd.reject (len == 0)
  let bs ← raw len
  Rd.pure (cstr bs)

/-- `ebitmap_read`. -/
def ebm : Rd Ebitmap.Ebitmap := Ebitmap.read

/-- A loop of `n` rounds whose results form a list. -/
def times {α : Type} (r : Rd α) : Nat → Rd (List α)
  | 0 => Rd.pure []
  | n + 1 => do
    let a ← r
    let l ← times r n
    Rd.pure (a :: l)

/-! ## Writers -/

/-- `put_entry` of one word in little-endian order. -/
def w32 (n : Nat) : Bytes := leBytes 4 n

/-- The bytes of a string, without the NUL. -/
def strBytes (s : Str) : Bytes := s.map fun c => UInt8.ofNat c.toNat

/-- A loop that stops at the first failure. -/
def wAll {α : Type} (w : α → Option Bytes) : List α → Option Bytes
  | [] => some []
  | a :: l => do
    let b ← w a
    let bs ← wAll w l
    some (b ++ bs)

/-! ## The policy -/

/-- `class_datum_t`, policydb.h:111-136, with the name of the common. -/
structure ClassP where
  comkey : Option Str
  datum : ClassD

/-- An entry of `filename_trans`: the key, policydb.h, and the list of data. -/
structure FileTransP where
  name : Str
  ttype : Nat
  tclass : Nat
  data : List (Ebitmap.Ebitmap × Nat)

/-- `ocontext_t`, policydb.h:343-386: the members of the unions, each with its own name; what is in network order is kept
as bytes. -/
structure OconP where
  context0 : Context
  context1 : Context
  sid : Nat
  name : Option Str
  protocol : Nat
  lowPort : Nat
  highPort : Nat
  addr : Bytes
  mask : Bytes
  behavior : Nat
  prefix_ : Bytes
  lowPkey : Nat
  highPkey : Nat
  devName : Option Str
  ibPort : Nat
  pirq : Nat
  lowIoport : Nat
  highIoport : Nat
  lowIomem : Nat
  highIomem : Nat
  device : Nat

/-- An entry below `genfs_t.head`. -/
structure GenfsEntry where
  name : Str
  sclass : Nat
  context : Context

/-- `genfs_t`, policydb.h:388-392. -/
structure GenfsP where
  fstype : Str
  head : List GenfsEntry

/-- `policydb_t` of a kernel policy. -/
structure PolicyDb where
  version : Nat
  target : Nat
  mls : Nat
  handleUnknown : Nat
  policycaps : Ebitmap.Ebitmap
  permissive : Ebitmap.Ebitmap
  commons : Symtab CommonD
  classes : Symtab ClassP
  roles : Symtab RoleD
  types : Symtab TypeD
  users : Symtab UserD
  bools : Symtab BoolD
  levels : Symtab LevelD
  cats : Symtab CatD
  avtab : Avtab.Avtab
  conds : List CondD
  roleTrans : List RoleTrans
  roleAllow : List (Nat × Nat)
  filenameTrans : List FileTransP
  filenameTransCount : Nat
  ocontexts : Nat → List OconP
  genfs : List GenfsP
  rangeTrans : List RangeTr
  typeAttr : Nat → Ebitmap.Ebitmap
  attrType : Nat → Ebitmap.Ebitmap

/-- What `policydb_validate` looks at. -/
def OconP.toV (o : OconP) : Ocon where
  context0 := o.context0
  context1 := o.context1
  sid := o.sid
  hasName := o.name.isSome
  lowPort := o.lowPort
  highPort := o.highPort
  behavior := o.behavior
  lowPkey := o.lowPkey
  highPkey := o.highPkey
  ibPort := o.ibPort
  hasDevName := o.devName.isSome
  lowIoport := o.lowIoport
  highIoport := o.highIoport
  lowIomem := o.lowIomem
  highIomem := o.highIomem

/-- The policy as `policydb_index_*` and `policydb_validate` see it. -/
def PolicyDb.toV (p : PolicyDb) : VPolicy where
  version := p.version
  target := p.target
  mls := p.mls
  handleUnknown := p.handleUnknown
  policycaps := p.policycaps
  permissive := p.permissive
  commons := p.commons
  classes := ⟨p.classes.entries.map fun e => (e.1, e.2.datum), p.classes.nprim⟩
  roles := p.roles
  types := p.types
  users := p.users
  bools := p.bools
  levels := p.levels
  cats := p.cats
  avtab := Avtab.nodes p.avtab
  conds := p.conds
  roleTrans := p.roleTrans
  roleAllow := p.roleAllow
  filenameTrans := p.filenameTrans.map fun f => ⟨f.ttype, f.tclass, f.data⟩
  ocontexts := fun i => (p.ocontexts i).map OconP.toV
  genfs := p.genfs.map fun g => ⟨true, g.head.map fun e => (e.context, e.sclass)⟩
  rangeTrans := p.rangeTrans
  typeAttr := p.typeAttr
  attrType := p.attrType

/-! ## Writing -/

/-- `mls_write_level`, write.c:411-425. -/
def writeLevel (l : Level) : Bytes := w32 l.sens ++ Ebitmap.write l.cat

/-- `mls_level_eq`, mls_types.h. -/
def levelEq (a b : Level) : Bool := a.sens == b.sens && Ebitmap.cmp a.cat b.cat

/-- `mls_write_range_helper`, write.c:431-456. -/
def writeRange (r : Range) : Bytes :=
  if levelEq r.high r.low then w32 1 ++ (w32 r.low.sens ++ Ebitmap.write r.low.cat)
  else w32 2 ++ (w32 r.low.sens ++ (w32 r.high.sens ++ (Ebitmap.write r.low.cat ++ Ebitmap.write r.high.cat)))

/-- `sens_write`, write.c:458-484. -/
def writeSens (e : Str × LevelD) : Bytes :=
  w32 e.1.length ++ (w32 (if e.2.isalias then 1 else 0) ++ (strBytes e.1 ++ writeLevel e.2.level))

/-- `cat_write`, write.c:486-510. -/
def writeCat (e : Str × CatD) : Bytes :=
  w32 e.1.length ++ (w32 e.2.value ++ (w32 (if e.2.isalias then 1 else 0) ++ strBytes e.1))

/-- `role_trans_write`, write.c:512-555, from version 26 on. -/
def writeRoleTrans (l : List RoleTrans) : Bytes :=
  w32 l.length ++ l.flatMap fun t => w32 t.role ++ (w32 t.type ++ (w32 t.newRole ++ w32 t.tclass))

/-- `role_allow_write`, write.c:557-578. -/
def writeRoleAllow (l : List (Nat × Nat)) : Bytes := w32 l.length ++ l.flatMap fun t => w32 t.1 ++ w32 t.2

/-- The bits that `ebitmap_for_each_positive_bit` meets, as in property C04. -/
def posBits (e : Ebitmap.Ebitmap) : List Nat := (Ebitmap.forEachPositiveBit (e.highbit + 1) e).getD []

/-- `filename_write_one_compat`, write.c:580-614. -/
def writeFilenameCompat (f : FileTransP) : Bytes :=
  f.data.flatMap fun d => (posBits d.1).flatMap fun bit =>
    w32 f.name.length ++ (strBytes f.name ++ (w32 (bit + 1) ++ (w32 f.ttype ++ (w32 f.tclass ++ w32 d.2))))

/-- `filename_write_one`, write.c:616-662. -/
def writeFilename (f : FileTransP) : Bytes :=
  w32 f.name.length ++ (strBytes f.name ++ (w32 f.ttype ++ (w32 f.tclass ++ (w32 f.data.length ++
    f.data.flatMap fun d => Ebitmap.write d.1 ++ w32 d.2))))

/-- `filename_trans_write`, write.c:664-690. -/
def writeFilenameTrans (p : PolicyDb) : Bytes :=
  if p.version < 33 then w32 p.filenameTransCount ++ p.filenameTrans.flatMap writeFilenameCompat
  else w32 p.filenameTrans.length ++ p.filenameTrans.flatMap writeFilename

/-- `type_set_write`, write.c:708-724. -/
def writeTypeSet (s : TypeSet) : Bytes := Ebitmap.write s.types ++ (Ebitmap.write s.negset ++ w32 s.flags)

/-- An `int` as a 32-bit word. -/
def int32 (n : Int) : Nat := (n % 2 ^ 32).toNat

/-- `cond_write_bool`, write.c:726-758. -/
def writeBool (e : Str × BoolD) : Bytes := w32 e.2.value ++ (w32 (int32 e.2.state) ++ (w32 e.1.length ++ strBytes e.1))

/-- `avtab_write_item`, write.c:224-275, for a rule of a conditional (`conditional`) and for any target. -/
def writeItem (p : PolicyDb) (conditional : Bool) (n : Avtab.Node) : Option Bytes :=
  if decide (p.version < 34) && Avtab.isXperm n.key && conditional then none
  else if p.target != 0 && Avtab.isXperm n.key then none
  else Avtab.writeItem p.version n

/-- `avtab_write`, write.c:287-356. -/
def writeAvtab (p : PolicyDb) : Option Bytes := do
  let bs ← wAll (writeItem p false) (Avtab.nodes p.avtab)
  some (w32 p.avtab.nel ++ bs)

/-- `cond_write_av_list`, write.c:769-818. -/
def writeAvList (p : PolicyDb) (l : List Avtab.Node) : Option Bytes := do
  let bs ← wAll (writeItem p true) l
  some (w32 l.length ++ bs)

/-- `cond_write_node`, write.c:820-872. -/
def writeCond (p : PolicyDb) (c : CondD) : Option Bytes := do
  let t ← writeAvList p c.trueList
  let f ← writeAvList p c.falseList
  some (w32 (int32 c.curState) ++ (w32 c.expr.length ++
    ((c.expr.flatMap fun e => w32 e.exprType ++ w32 e.boolean) ++ (t ++ f))))

/-- `cond_write_list`, write.c:874-894. -/
def writeConds (p : PolicyDb) : Option Bytes := do
  let bs ← wAll (writeCond p) p.conds
  some (w32 p.conds.length ++ bs)

/-- `context_write`, write.c:900-921. -/
def writeContext (c : Context) : Bytes := w32 c.user ++ (w32 c.role ++ (w32 c.type ++ writeRange c.range))

/-- `perm_write`, write.c:929-952. -/
def writePerm (e : Str × Nat) : Bytes := w32 e.1.length ++ (w32 e.2 ++ strBytes e.1)

/-- `common_write`, write.c:954-982. -/
def writeCommon (e : Str × CommonD) : Bytes :=
  w32 e.1.length ++ (w32 e.2.value ++ (w32 e.2.perms.nprim ++ (w32 e.2.perms.entries.length ++
    (strBytes e.1 ++ e.2.perms.entries.flatMap writePerm))))

/-- CEXPR_XTARGET, constraint.h. -/
def XTARGET : Nat := 16

/-- An expression in `write_cons_helper`, write.c:1002-1030; CEXPR_NAMES is 5. -/
def writeCExpr (version : Nat) (allowxtarget : Bool) (e : CExpr) : Option Bytes :=
  if e.exprType = 5 then
    if !allowxtarget && e.attr &&& XTARGET != 0 then none
    else some (w32 e.exprType ++ (w32 e.attr ++ (w32 e.op ++ (Ebitmap.write e.names ++
      (if version ≥ 29 then writeTypeSet e.typeNames else [])))))
  else some (w32 e.exprType ++ (w32 e.attr ++ w32 e.op))

/-- `write_cons_helper`, write.c:984-1033. -/
def writeConstraint (version : Nat) (allowxtarget : Bool) (c : Constraint) : Option Bytes := do
  let bs ← wAll (writeCExpr version allowxtarget) c.expr
  some (w32 c.perms.toNat ++ (w32 c.expr.length ++ bs))

/-- A `char` as a 32-bit word: the sign bit is copied. -/
def char32 (c : Nat) : Nat := if c ≥ 128 then c + (2 ^ 32 - 256) else c

/-- `class_write`, write.c:1035-1138; DEFAULT_GLBLUB is 7. -/
def writeClass (version : Nat) (e : Str × ClassP) : Option Bytes := do
  let d := e.2.datum
  let cons ← wAll (writeConstraint version false) d.constraints
  let vts ← wAll (writeConstraint version true) d.validatetrans
  some (w32 e.1.length ++ (w32 (match e.2.comkey with | none => 0 | some k => k.length) ++ (w32 d.value ++ (w32 d.perms.nprim ++
    (w32 d.perms.entries.length ++ (w32 d.constraints.length ++ (strBytes e.1 ++
    ((match e.2.comkey with | none => [] | some k => strBytes k) ++ (d.perms.entries.flatMap writePerm ++ (cons ++
    (w32 d.validatetrans.length ++ (vts ++
    ((if version ≥ 27 then
        w32 (char32 d.defaultUser) ++ (w32 (char32 d.defaultRole) ++
          w32 (char32 (if decide (version < 32) && d.defaultRange == 7 then 0 else d.defaultRange)))
      else []) ++
    (if version ≥ 28 then w32 (char32 d.defaultType) else []))))))))))))))

/-- `role_write`, write.c:1140-1217; ROLE_ATTRIB is 1, OBJECT_R_VAL is 1. -/
def writeRole (e : Str × RoleD) : Bytes :=
  if e.2.flavor = 1 then []
  else w32 e.1.length ++ (w32 e.2.value ++ (w32 e.2.bounds ++ (strBytes e.1 ++ (Ebitmap.write e.2.dominates ++
    (if e.2.value = 1 then Ebitmap.write Ebitmap.init else Ebitmap.write e.2.types.types)))))

/-- `type_write`, write.c:1219-1295; TYPE_ATTRIB is 1; TYPEDATUM_PROPERTY_PRIMARY 1, TYPEDATUM_PROPERTY_ATTRIBUTE 2. -/
def writeType (e : Str × TypeD) : Bytes :=
  w32 e.1.length ++ (w32 e.2.value ++ (w32 ((if e.2.primary ≠ 0 then 1 else 0) + (if e.2.flavor = 1 then 2 else 0)) ++
    (w32 e.2.bounds ++ strBytes e.1)))

/-- `user_write`, write.c:1297-1353. -/
def writeUser (e : Str × UserD) : Bytes :=
  w32 e.1.length ++ (w32 e.2.value ++ (w32 e.2.bounds ++ (strBytes e.1 ++ (Ebitmap.write e.2.roles.roles ++
    (writeRange e.2.expRange ++ writeLevel e.2.expDfltlevel)))))

/-- `strlen` and the bytes of a name; a NULL pointer is undefined behaviour. -/
def writeName (s : Option Str) (f : Str → Bytes) : Option Bytes := s.map f

/-- A round of `ocontext_write_selinux`, write.c:1468-1596, for list number `i`. -/
def writeOconSelinux (i : Nat) (c : OconP) : Option Bytes :=
  match i with
  | 0 => some (if c.context0.user = 0 then [] else w32 c.sid ++ writeContext c.context0)
  | 1 => writeName c.name fun s => w32 s.length ++ (strBytes s ++ (writeContext c.context0 ++ writeContext c.context1))
  | 2 => some (w32 c.protocol ++ (w32 c.lowPort ++ (w32 c.highPort ++ writeContext c.context0)))
  | 3 => writeName c.name fun s => w32 s.length ++ (strBytes s ++ (writeContext c.context0 ++ writeContext c.context1))
  | 4 => some (c.addr ++ (c.mask ++ writeContext c.context0))
  | 5 => writeName c.name fun s => w32 c.behavior ++ (w32 s.length ++ (strBytes s ++ writeContext c.context0))
  | 6 => some (c.addr ++ (c.mask ++ writeContext c.context0))
  | 7 => some (c.prefix_ ++ (w32 c.lowPkey ++ (w32 c.highPkey ++ writeContext c.context0)))
  | 8 => writeName c.devName fun s => w32 s.length ++ (w32 c.ibPort ++ (strBytes s ++ writeContext c.context0))
  | _ => some []

/-- A round of `ocontext_write_xen`, write.c:1360-1466, for list number `i` and version 30. -/
def writeOconXen (i : Nat) (c : OconP) : Option Bytes :=
  match i with
  | 0 => some (if c.context0.user = 0 then [] else w32 c.sid ++ writeContext c.context0)
  | 1 => some (w32 c.pirq ++ writeContext c.context0)
  | 2 => some (w32 c.lowIoport ++ (w32 c.highIoport ++ writeContext c.context0))
  | 3 => some (leBytes 8 c.lowIomem ++ (leBytes 8 c.highIomem ++ writeContext c.context0))
  | 4 => some (w32 c.device ++ writeContext c.context0)
  | 5 => writeName c.name fun s => w32 s.length ++ (strBytes s ++ writeContext c.context0)
  | _ => some []

/-- The list number `i`: an initial SID without a context is not written, write.c:1475-1483, 1491-1493. -/
def writeOcons (p : PolicyDb) (i : Nat) : Option Bytes := do
  let bs ← wAll (if p.target = 0 then writeOconSelinux i else writeOconXen i) (p.ocontexts i)
  some (w32 ((p.ocontexts i).filter fun c => !(i == 0 && c.context0.user == 0)).length ++ bs)

/-- `genfs_write`, write.c:1613-1660. -/
def writeGenfs (l : List GenfsP) : Bytes :=
  w32 l.length ++ l.flatMap fun g => w32 g.fstype.length ++ (strBytes g.fstype ++ (w32 g.head.length ++
    g.head.flatMap fun c => w32 c.name.length ++ (strBytes c.name ++ (w32 c.sclass ++ writeContext c.context))))

/-- `range_write`, write.c:1726-1749, and `range_write_helper`, 1686-1724. -/
def writeRangeTrans (l : List RangeTr) : Bytes :=
  w32 l.length ++ l.flatMap fun t => w32 t.source ++ (w32 t.target ++ (w32 t.tclass ++ writeRange t.range))

/-- `policydb_lookup_compat`, policydb.c:63-505, 508-525, for kernel policies from version 26 on: the number of lists of
contexts; the number of symbol tables is 8. -/
def oconNum (target version : Nat) : Option Nat :=
  if target = 0 then
    if 26 ≤ version ∧ version ≤ 30 then some 7
    else if 31 ≤ version ∧ version ≤ 34 then some 9
    else none
  else if target = 1 then (if version = 30 then some 6 else none)
  else none

/-- POLICYDB_MAGIC, flask_types.h:48. -/
def magic : Nat := 0xf97cff8c

/-- `policydb_target_strings`, policydb.c:60. -/
def targetString (target : Nat) : Str := if target = 0 then "SE Linux".toList else "XenFlask".toList

/-- A symbol table in `policydb_write`, write.c:2341-2374. -/
def writeSym {δ : Type} (t : Symtab δ) (nel : Nat) (w : Str × δ → Option Bytes) : Option Bytes := do
  let bs ← wAll w t.entries
  some (w32 t.nprim ++ (w32 nel ++ bs))

/-- `policydb_write`, write.c:2217-2438, for a kernel policy from version 26 on; `none` is failure. -/
def write (p : PolicyDb) : Option Bytes := do
  let oconNum ← oconNum p.target p.version
  let config := (if p.mls ≠ 0 then 1 else 0) + (p.handleUnknown &&& 6)
  let commons ← writeSym p.commons p.commons.entries.length (fun e => some (writeCommon e))
  let classes ← writeSym p.classes p.classes.entries.length (writeClass p.version)
  let roles ← writeSym p.roles (p.roles.entries.filter fun e => e.2.flavor != 1).length (fun e => some (writeRole e))
  let types ← writeSym p.types p.types.entries.length (fun e => some (writeType e))
  let users ← writeSym p.users p.users.entries.length (fun e => some (writeUser e))
  let bools ← writeSym p.bools p.bools.entries.length (fun e => some (writeBool e))
  let levels ← writeSym p.levels p.levels.entries.length (fun e => some (writeSens e))
  let cats ← writeSym p.cats p.cats.entries.length (fun e => some (writeCat e))
  let avtab ← writeAvtab p
  let conds ← writeConds p
  let ocons ← wAll (writeOcons p) (List.range oconNum)
  some (w32 magic ++ (w32 (targetString p.target).length ++ (strBytes (targetString p.target) ++ (w32 p.version ++ (w32 config ++
    (w32 8 ++ (w32 oconNum ++ (Ebitmap.write p.policycaps ++ (Ebitmap.write p.permissive ++
    (commons ++ (classes ++ (roles ++ (types ++ (users ++ (bools ++ (levels ++ (cats ++ (avtab ++ (conds ++
    (writeRoleTrans p.roleTrans ++ (writeRoleAllow p.roleAllow ++ (writeFilenameTrans p ++
    (ocons ++ (writeGenfs p.genfs ++ (writeRangeTrans p.rangeTrans ++
    (List.range p.types.nprim).flatMap fun i => Ebitmap.write (p.typeAttr i))))))))))))))))))))))))))

/-! ## Reading -/

/-- `type_set_read`, policydb.c:1851-1867. -/
def readTypeSet : Rd TypeSet := do
  let types ← ebm
  let negset ← ebm
  let flags ← u32
  Rd.pure ⟨types, negset, flags⟩

/-- `mls_read_range_helper`, policydb.c:1873-1924; without items the word that is taken for the sensitivity is the number
of items, 0. -/
def readRange : Rd Range := do
  let items ← u32
  Rd.reject (decide (items > 2))
  let low ← if items > 0 then u32 else Rd.pure 0
  let high ← if items > 1 then u32 else Rd.pure low
  let lowCat ← ebm
  let highCat ← if items > 1 then ebm else Rd.pure (Ebitmap.cpy lowCat)
  Rd.pure ⟨⟨low, lowCat⟩, ⟨high, highCat⟩⟩

/-- `context_read_and_validate`, policydb.c:2041-2072. -/
def readContext (valid : Context → Bool) : Rd Context := do
  let user ← u32
  let role ← u32
  let type ← u32
  let range ← readRange
  Rd.reject (!valid ⟨user, role, type, range⟩)
  Rd.pure ⟨user, role, type, range⟩

/-- Reading the entries of a hash table: `hashtab_insert` fails for a key that is there; a round may yield no entry. -/
def readTable {κ δ : Type} [DecidableEq κ] (r : Rd (Option (κ × δ))) : Nat → List (κ × δ) → Rd (List (κ × δ))
  | 0, t => Rd.pure t
  | n + 1, t => do
    let e ← r
    match e with
    | none => readTable r n t
    | some e => do
      Rd.reject (t.any fun x => x.1 == e.1)
      readTable r n (t ++ [e])

/-- `perm_read`, policydb.c:2080-2114. -/
def readPerm (nprim : Nat) : Rd (Option (Str × Nat)) := do
  let len ← u32
  let value ← u32
  let key ← strRead len
  Rd.reject (!valueIsValid value nprim)
  Rd.pure (some (key, value))

/-- `common_read`, policydb.c:2116-2160; PERM_SYMTAB_SIZE is 32. -/
def readCommon : Rd (Option (Str × CommonD)) := do
  let len ← u32
  let value ← u32
  let nprim ← u32
  let nel ← u32
  let key ← strRead len
  Rd.reject (decide (nprim > 32))
  let perms ← readTable (readPerm nprim) nel []
  Rd.pure (some (key, ⟨value, ⟨perms, nprim⟩⟩))

/-- The empty type set that `constraint_expr_init` makes. -/
def emptyTypeSet : TypeSet := ⟨Ebitmap.init, Ebitmap.init, 0⟩

/-- The loop over the expressions in `read_cons_helper`, policydb.c:2193-2248; CEXPR_MAXDEPTH is 5. -/
def readCExprs (version : Nat) (allowxtarget : Bool) : Nat → Int → Rd (List CExpr)
  | 0, depth => do
    Rd.reject (depth != 0)
    Rd.pure []
  | n + 1, depth => do
    let exprType ← u32
    let attr ← u32
    let op ← u32
    if exprType = 1 then do
      Rd.reject (decide (depth < 0))
      let l ← readCExprs version allowxtarget n depth
      Rd.pure (⟨exprType, attr, op, Ebitmap.init, emptyTypeSet⟩ :: l)
    else if exprType = 2 ∨ exprType = 3 then do
      Rd.reject (decide (depth < 1))
      let l ← readCExprs version allowxtarget n (depth - 1)
      Rd.pure (⟨exprType, attr, op, Ebitmap.init, emptyTypeSet⟩ :: l)
    else if exprType = 4 then do
      Rd.reject (depth == 4)
      let l ← readCExprs version allowxtarget n (depth + 1)
      Rd.pure (⟨exprType, attr, op, Ebitmap.init, emptyTypeSet⟩ :: l)
    else if exprType = 5 then do
      Rd.reject (!allowxtarget && attr &&& XTARGET != 0)
      Rd.reject (depth == 4)
      let names ← ebm
      let typeNames ← if version ≥ 29 then readTypeSet else Rd.pure emptyTypeSet
      let l ← readCExprs version allowxtarget n (depth + 1)
      Rd.pure (⟨exprType, attr, op, names, typeNames⟩ :: l)
    else Rd.fail

/-- A round of `read_cons_helper`, policydb.c:2162-2255. -/
def readConstraint (version : Nat) (allowxtarget : Bool) : Rd Constraint := do
  let perms ← u32
  let nexpr ← u32
  let expr ← readCExprs version allowxtarget nexpr (-1)
  Rd.pure ⟨BitVec.ofNat 32 perms, expr⟩

/-- `hashtab_search` of the table of commons. -/
def findCommon (commons : List (Str × CommonD)) (key : Str) : Option CommonD := (commons.find? (·.1 == key)).map (·.2)

/-- The common of a class, policydb.c:2295-2307. -/
def readComkey (commons : List (Str × CommonD)) (len2 : Nat) : Rd (Option Str × Option CommonD) :=
  if len2 = 0 then Rd.pure (none, none)
  else do
    let k ← strRead len2
    match findCommon commons k with
    | none => Rd.fail
    | some c => Rd.pure (some k, some c)

/-- A word that is there from version `first` on. -/
def since (version first : Nat) : Rd Nat := if version ≥ first then u32 else Rd.pure 0

/-- `class_read`, policydb.c:2257-2356. -/
def readClass (version : Nat) (commons : List (Str × CommonD)) : Rd (Option (Str × ClassP)) := do
  let len ← u32
  let len2 ← u32
  let value ← u32
  let nprim ← u32
  let nel ← u32
  let ncons ← u32
  let key ← strRead len
  Rd.reject (decide (value > 65535))
  Rd.reject (decide (nprim > 32))
  let com ← readComkey commons len2
  let perms ← readTable (readPerm nprim) nel []
  let constraints ← times (readConstraint version false) ncons
  let nvt ← u32
  let validatetrans ← times (readConstraint version true) nvt
  let defaultUser ← since version 27
  let defaultRole ← since version 27
  let defaultRange ← since version 27
  let defaultType ← since version 28
  Rd.pure (some (key, ⟨com.1, {
    value := value
    common := com.2
    perms := ⟨perms, nprim⟩
    constraints := constraints
    validatetrans := validatetrans
    defaultUser := defaultUser % 256
    defaultRole := defaultRole % 256
    defaultType := defaultType % 256
    defaultRange := defaultRange % 256 }⟩))

/-- OBJECT_R, policydb.h. -/
def objectR : Str := "object_r".toList

/-- `role_read`, policydb.c:2358-2428: `object_r` is in the table already. -/
def readRole : Rd (Option (Str × RoleD)) := do
  let len ← u32
  let value ← u32
  let bounds ← u32
  let key ← strRead len
  let dominates ← ebm
  let types ← ebm
  if key = objectR then do
    Rd.reject (value != 1)
    Rd.pure none
  else Rd.pure (some (key, ⟨value, dominates, ⟨types, Ebitmap.init, 0⟩, bounds, Ebitmap.init, 0⟩))

/-- `type_read`, policydb.c:2430-2514. -/
def readType : Rd (Option (Str × TypeD)) := do
  let len ← u32
  let value ← u32
  let properties ← u32
  let bounds ← u32
  let key ← strRead len
  Rd.pure (some (key, ⟨value, if properties.testBit 0 then 1 else 0, if properties.testBit 1 then 1 else 0, Ebitmap.init, 0, bounds⟩))

/-- `mls_read_level`, policydb.c:3255-3277. -/
def readLevel : Rd Level := do
  let sens ← u32
  let cat ← ebm
  Rd.pure ⟨sens, cat⟩

/-- An empty semantic level. -/
def emptySem : SemLevel := ⟨0, []⟩

/-- `user_read`, policydb.c:3279-3357. -/
def readUser : Rd (Option (Str × UserD)) := do
  let len ← u32
  let value ← u32
  let bounds ← u32
  let key ← strRead len
  let roles ← ebm
  let range ← readRange
  let level ← readLevel
  Rd.pure (some (key, ⟨value, ⟨roles, 0⟩, emptySem, emptySem, emptySem, range, level, bounds⟩))

/-- `cond_read_bool`, conditional.c:567-610; what is not 0 or 1 fails. -/
def readBool : Rd (Option (Str × BoolD)) := do
  let value ← u32
  let state ← u32
  let len ← u32
  Rd.reject (!(state == 0 || state == 1))
  let key ← strRead len
  Rd.pure (some (key, ⟨value, state, 0⟩))

/-- `sens_read`, policydb.c:3359-3396; `isalias` is a byte. -/
def readSens : Rd (Option (Str × LevelD)) := do
  let len ← u32
  let isalias ← u32
  let key ← strRead len
  let level ← readLevel
  Rd.pure (some (key, ⟨level, isalias % 256 != 0, 0⟩))

/-- `cat_read`, policydb.c:3398-3432. -/
def readCat : Rd (Option (Str × CatD)) := do
  let len ← u32
  let value ← u32
  let isalias ← u32
  let key ← strRead len
  Rd.pure (some (key, ⟨value, isalias % 256 != 0⟩))

/-- A symbol table in `policydb_read`, policydb.c:4346-4365; `t` is what is in the table already. -/
def readSym {δ : Type} (r : Rd (Option (Str × δ))) (t : List (Str × δ)) : Rd (Symtab δ) := do
  let nprim ← u32
  let nel ← u32
  Rd.reject (nprim == 2 ^ 32 - 1)
  (fun bs => Rd.reject (decide (nprim * 12 > bs.length)) bs)
  Rd.reject (nel != 0 && nprim == 0)
  let entries ← readTable r nel t
  Rd.pure ⟨entries, nprim⟩

/-- `role_trans_read`, policydb.c:2516-2557, from version 26 on. -/
def readRoleTrans : Rd (List RoleTrans) := do
  let nel ← u32
  times (do
    let role ← u32
    let type ← u32
    let newRole ← u32
    let tclass ← u32
    Rd.pure (⟨role, type, tclass, newRole⟩ : RoleTrans)) nel

/-- `role_allow_read`, policydb.c:2559-2588. -/
def readRoleAllow : Rd (List (Nat × Nat)) := do
  let nel ← u32
  times (do
    let role ← u32
    let newRole ← u32
    Rd.pure (role, newRole)) nel

/-- The search through the data in `policydb_filetrans_insert`, policydb.c:2603-2615 and 2661-2663: `none` is SEPOL_EEXIST,
the inner `none` a bit that is too big. -/
def insertStype (stype otype : Nat) : List (Ebitmap.Ebitmap × Nat) → Option (Option (List (Ebitmap.Ebitmap × Nat)))
  | [] => some ((Ebitmap.setBit Ebitmap.init (stype - 1) true).map fun e => [(e, otype)])
  | d :: l =>
    if Ebitmap.getBit d.1 (stype - 1) then none
    else if d.2 = otype then some ((Ebitmap.setBit d.1 (stype - 1) true).map fun e => (e, otype) :: l)
    else (insertStype stype otype l).map fun o => o.map fun l => d :: l

/-- `policydb_filetrans_insert`, policydb.c:2591-2664, as `filename_trans_read_one_compat` (2666-2710) uses it: a rule that is there
already is ignored, `none` is failure. -/
def filetransInsert (name : Str) (ttype tclass stype otype : Nat) : List FileTransP → Option (List FileTransP × Nat)
  | [] => ((Ebitmap.setBit Ebitmap.init (stype - 1) true).map fun e => ([⟨name, ttype, tclass, [(e, otype)]⟩], 1))
  | f :: l =>
    if f.name = name ∧ f.ttype = ttype ∧ f.tclass = tclass then
      match insertStype stype otype f.data with
      | none => some (f :: l, 0)
      | some none => none
      | some (some data) => some ({ f with data := data } :: l, 1)
    else (filetransInsert name ttype tclass stype otype l).map fun r => (f :: r.1, r.2)

/-- The loop of `filename_trans_read` before version 33, policydb.c:2666-2710, 2836-2841: the table and
`filename_trans_count`. -/
def readFilenamesCompat : Nat → List FileTransP × Nat → Rd (List FileTransP × Nat)
  | 0, s => Rd.pure s
  | n + 1, s => do
    let len ← u32
    let name ← strRead len
    let stype ← u32
    let ttype ← u32
    let tclass ← u32
    let otype ← u32
    Rd.reject (stype == 0)
    match filetransInsert name ttype tclass stype otype s.1 with
    | none => Rd.fail
    | some r => readFilenamesCompat n (r.1, s.2 + r.2)

/-- `filename_trans_check_datum`, policydb.c:2712-2740: the loop with the bitmaps of the source types and of the types seen so far;
`true` is 0. -/
def checkDatum : List (Ebitmap.Ebitmap × Nat) → Ebitmap.Ebitmap → Ebitmap.Ebitmap → Bool
  | [], _, _ => true
  | d :: l, stypes, otypes =>
    if Ebitmap.getBit otypes d.2 then false
    else match Ebitmap.setBit otypes d.2 true with
      | none => false
      | some otypes =>
        if Ebitmap.matchAny stypes d.1 then false
        else checkDatum l (Ebitmap.union stypes d.1) otypes

/-- `filename_trans_read_one`, policydb.c:2742-2823: key and data. -/
def readFilename : Rd (Option ((Str × Nat × Nat) × List (Ebitmap.Ebitmap × Nat))) := do
  let len ← u32
  let name ← strRead len
  let ttype ← u32
  let tclass ← u32
  let ndatum ← u32
  Rd.reject (ndatum == 0)
  let data ← times (do
    let stypes ← ebm
    let otype ← u32
    Rd.pure (stypes, otype)) ndatum
  Rd.reject (decide (ndatum > 1) && !checkDatum data Ebitmap.init Ebitmap.init)
  Rd.pure (some ((name, ttype, tclass), data))

/-- `filename_trans_read`, policydb.c:2825-2850; the second number is `filename_trans_count`. -/
def readFilenameTrans (version : Nat) : Rd (List FileTransP × Nat) := do
  let nel ← u32
  if version < 33 then readFilenamesCompat nel ([], 0)
  else do
    let t ← readTable readFilename nel []
    Rd.pure (t.map (fun e => ⟨e.1.1, e.1.2.1, e.1.2.2, e.2⟩), (t.map fun e => (e.2.map fun d => Ebitmap.cardinality d.1).sum).sum)

/-- `cond_insertf`, conditional.c:619-694: the new `te_cond_avtab` and the node.  `cur->node == node_ptr` compares pointers; the
two nodes have the same key and `node_ptr` is the only node of `te_cond_avtab` with it, so comparing what they hold is
the same. -/
def condInsert (te tc : Avtab.Avtab) (other : List Avtab.Node) (k : Avtab.Key) (d : Avtab.Datum) : Option (Avtab.Avtab × Avtab.Node) :=
  if k.specified &&& Avtab.TYPE != 0 && (Avtab.search te k).isSome then none
  else if k.specified &&& Avtab.TYPE != 0 && !(
    if other.isEmpty then (Avtab.search tc k).isNone
    else match Avtab.searchNode tc k with
      | none => true
      | some l => (Avtab.searchNodeNext l k.specified).isNone && (match l with | [] => false | n :: _ => other.contains n)) then none
  else (Avtab.insertNonunique tc k d).map fun tc => (tc, Avtab.mkNode k d)

/-- The loop of `cond_read_av_list`, conditional.c:721-729. -/
def readAvLoop (version : Nat) (te : Avtab.Avtab) (other : List Avtab.Node) : Nat → Avtab.Avtab → Rd (Avtab.Avtab × List Avtab.Node)
  | 0, tc => Rd.pure (tc, [])
  | n + 1, tc => do
    let kd ← (Avtab.readItem version : Rd (Avtab.Key × Avtab.Datum))
    match condInsert te tc other kd.1 kd.2 with
    | none => Rd.fail
    | some r => do
      let s ← readAvLoop version te other n r.1
      Rd.pure (s.1, r.2 :: s.2)

/-- `cond_read_av_list`, conditional.c:696-733. -/
def readAvList (version : Nat) (te : Avtab.Avtab) (other : List Avtab.Node) (tc : Avtab.Avtab) : Rd (Avtab.Avtab × List Avtab.Node) := do
  let len ← u32
  readAvLoop version te other len tc

/-- A 32-bit word as an `int`. -/
def toInt32 (n : Nat) : Int := if n < 2 ^ 31 then n else (n : Int) - 2 ^ 32

/-- A round of the loop over the expression in `cond_read_node`, conditional.c:763-786, with `expr_isvalid`, 735-745;
COND_LAST is 7. -/
def readCondTok (nbools : Nat) : Rd CondTok := do
  let exprType ← u32
  let boolean ← u32
  Rd.reject (exprType == 0 || decide (exprType > 7))
  Rd.reject (decide (boolean > nbools))
  Rd.pure ⟨exprType, boolean⟩

/-- `cond_read_node`, conditional.c:747-819. -/
def readCond (version nbools : Nat) (te tc : Avtab.Avtab) : Rd (Avtab.Avtab × CondD) := do
  let curState ← u32
  let len ← u32
  let expr ← times (readCondTok nbools) len
  let t ← readAvList version te [] tc
  let f ← readAvList version te t.2 t.1
  Rd.pure (f.1, ⟨toInt32 curState, expr, t.2, f.2, 0⟩)

/-- The loop of `cond_read_list`, conditional.c:837-853. -/
def readCondLoop (version nbools : Nat) (te : Avtab.Avtab) : Nat → Avtab.Avtab → Rd (List CondD)
  | 0, _ => Rd.pure []
  | n + 1, tc => do
    let r ← readCond version nbools te tc
    let l ← readCondLoop version nbools te n r.1
    Rd.pure (r.2 :: l)

/-- `cond_read_list`, conditional.c:821-857. -/
def readConds (version nbools : Nat) (te : Avtab.Avtab) : Rd (List CondD) := do
  let len ← u32
  readCondLoop version nbools te len (Avtab.alloc Avtab.init te.nel)

/-- `mls_context_init` and `calloc`. -/
def emptyContext : Context := ⟨0, 0, 0, ⟨⟨0, Ebitmap.init⟩, ⟨0, Ebitmap.init⟩⟩⟩

/-- `calloc(1, sizeof(ocontext_t))`. -/
def emptyOcon : OconP :=
  ⟨emptyContext, emptyContext, 0, none, 0, 0, 0, [], [], 0, [], 0, 0, none, 0, 0, 0, 0, 0, 0, 0⟩

/-- A round of `ocontext_read_selinux`, policydb.c:2983-3124, for list number `i`. -/
def readOconSelinux (valid : Context → Bool) (i : Nat) : Rd OconP :=
  match i with
  | 0 => do
    let sid ← u32
    Rd.reject (sid == 2 ^ 32 - 1)
    let c ← readContext valid
    Rd.pure { emptyOcon with sid := sid, context0 := c }
  | 2 => do
    let protocol ← u32
    let low ← u32
    let high ← u32
    let c ← readContext valid
    Rd.pure { emptyOcon with protocol := protocol % 2 ^ 8, lowPort := low % 2 ^ 16, highPort := high % 2 ^ 16, context0 := c }
  | 4 => do
    let addr ← raw 4
    let mask ← raw 4
    let c ← readContext valid
    Rd.pure { emptyOcon with addr := addr, mask := mask, context0 := c }
  | 5 => do
    let behavior ← u32
    let len ← u32
    let name ← strRead len
    let c ← readContext valid
    Rd.pure { emptyOcon with behavior := behavior, name := some name, context0 := c }
  | 6 => do
    let addr ← raw 16
    let mask ← raw 16
    let c ← readContext valid
    Rd.pure { emptyOcon with addr := addr, mask := mask, context0 := c }
  | 7 => do
    let pre ← raw 8
    let low ← u32
    let high ← u32
    Rd.reject (decide (low > 65535) || decide (high > 65535))
    let c ← readContext valid
    Rd.pure { emptyOcon with prefix_ := pre, lowPkey := low, highPkey := high, context0 := c }
  | 8 => do
    let len ← u32
    let port ← u32
    Rd.reject (len == 0 || decide (len > 63))
    Rd.reject (decide (port > 255) || port == 0)
    let name ← strRead len
    let c ← readContext valid
    Rd.pure { emptyOcon with devName := some name, ibPort := port, context0 := c }
  | _ => do
    let len ← u32
    Rd.reject (decide (len > 63))
    let name ← strRead len
    let c0 ← readContext valid
    let c1 ← readContext valid
    Rd.pure { emptyOcon with name := some name, context0 := c0, context1 := c1 }

/-- A round of `ocontext_read_xen`, policydb.c:2876-2951, for list number `i` and version 30. -/
def readOconXen (valid : Context → Bool) (i : Nat) : Rd OconP :=
  match i with
  | 0 => do
    let sid ← u32
    Rd.reject (sid == 2 ^ 32 - 1)
    let c ← readContext valid
    Rd.pure { emptyOcon with sid := sid, context0 := c }
  | 1 => do
    let pirq ← u32
    let c ← readContext valid
    Rd.pure { emptyOcon with pirq := pirq % 2 ^ 16, context0 := c }
  | 2 => do
    let low ← u32
    let high ← u32
    let c ← readContext valid
    Rd.pure { emptyOcon with lowIoport := low, highIoport := high, context0 := c }
  | 3 => do
    let low ← u64
    let high ← u64
    let c ← readContext valid
    Rd.pure { emptyOcon with lowIomem := low, highIomem := high, context0 := c }
  | 4 => do
    let device ← u32
    let c ← readContext valid
    Rd.pure { emptyOcon with device := device, context0 := c }
  | _ => do
    let len ← u32
    let name ← strRead len
    let c ← readContext valid
    Rd.pure { emptyOcon with name := some name, context0 := c }

/-- The list number `i`. -/
def readOcons (valid : Context → Bool) (target i : Nat) : Rd (List OconP) := do
  let nel ← u32
  times (if target = 0 then readOconSelinux valid i else readOconXen valid i) nel

/-- `ocontext_read`, policydb.c:3127-3142: the lists from `i` on. -/
def readOconLists (valid : Context → Bool) (target : Nat) : Nat → Nat → Rd (List (List OconP))
  | _, 0 => Rd.pure []
  | i, n + 1 => do
    let l ← readOcons valid target i
    let r ← readOconLists valid target (i + 1) n
    Rd.pure (l :: r)

/-- `strcmp(a, b) < 0`. -/
def strLt : Str → Str → Bool
  | [], [] => false
  | [], _ :: _ => true
  | _ :: _, [] => false
  | a :: s, b :: t => if a.toNat < b.toNat then true else if b.toNat < a.toNat then false else strLt s t

/-- The place of a new `genfs_t`, policydb.c:3172-3189: what comes before and behind; `none` for a name that is there. -/
def genfsSplit (fstype : Str) : List GenfsP → Option (List GenfsP × List GenfsP)
  | [] => some ([], [])
  | g :: l =>
    if fstype = g.fstype then none
    else if strLt fstype g.fstype then some ([], g :: l)
    else (genfsSplit fstype l).map fun r => (g :: r.1, r.2)

/-- The place of a new entry, policydb.c:3213-3232: `none` for an entry that is there. -/
def genfsInsert (e : GenfsEntry) : List GenfsEntry → Option (List GenfsEntry)
  | [] => some [e]
  | c :: l =>
    if e.name = c.name ∧ (c.sclass = 0 ∨ e.sclass = 0 ∨ e.sclass = c.sclass) then none
    else if e.name.length > c.name.length then some (e :: c :: l)
    else (genfsInsert e l).map fun l => c :: l

/-- The entries of a file system, policydb.c:3194-3235. -/
def readGenfsEntries (valid : Context → Bool) : Nat → List GenfsEntry → Rd (List GenfsEntry)
  | 0, h => Rd.pure h
  | n + 1, h => do
    let len ← u32
    let name ← strRead len
    let sclass ← u32
    let c ← readContext valid
    match genfsInsert ⟨name, sclass, c⟩ h with
    | none => Rd.fail
    | some h => readGenfsEntries valid n h

/-- The loop of `genfs_read`, policydb.c:3158-3237. -/
def readGenfsLoop (valid : Context → Bool) : Nat → List GenfsP → Rd (List GenfsP)
  | 0, g => Rd.pure g
  | n + 1, g => do
    let len ← u32
    let fstype ← strRead len
    match genfsSplit fstype g with
    | none => Rd.fail
    | some r => do
      let nel ← u32
      let head ← readGenfsEntries valid nel []
      readGenfsLoop valid n (r.1 ++ ⟨fstype, head⟩ :: r.2)

/-- `genfs_read`, policydb.c:3144-3249. -/
def readGenfs (valid : Context → Bool) : Rd (List GenfsP) := do
  let nel ← u32
  readGenfsLoop valid nel []

/-- A round of `range_read`, policydb.c:3565-3600. -/
def readRangeTr (ntypes nclasses : Nat) : Rd (Option ((Nat × Nat × Nat) × Range)) := do
  let source ← u32
  let target ← u32
  Rd.reject (!valueIsValid source ntypes)
  Rd.reject (!valueIsValid target ntypes)
  let tclass ← u32
  Rd.reject (!valueIsValid tclass nclasses)
  let range ← readRange
  Rd.pure (some ((source, target, tclass), range))

/-- `range_read`, policydb.c:3551-3645. -/
def readRangeTrans (ntypes nclasses : Nat) : Rd (List RangeTr) := do
  let nel ← u32
  let t ← readTable (readRangeTr ntypes nclasses) nel []
  Rd.pure (t.map fun e => ⟨e.1.1, e.1.2.1, e.1.2.2, e.2⟩)

/-- `a[i] = e`. -/
def upd (a : Nat → Ebitmap.Ebitmap) (i : Nat) (e : Ebitmap.Ebitmap) : Nat → Ebitmap.Ebitmap := fun j => if j = i then e else a j

/-- The loop over the attributes of type `i`, policydb.c:4459-4470: `none` is failure. -/
def attrLoop (ntypes i : Nat) : List Nat → (Nat → Ebitmap.Ebitmap) → Option (Nat → Ebitmap.Ebitmap)
  | [], a => some a
  | j :: l, a =>
    if i = j then attrLoop ntypes i l a
    else if j ≥ ntypes then none
    else (Ebitmap.setBit (a j) i true).bind fun e => attrLoop ntypes i l (upd a j e)

/-- A round of the loop over the types, policydb.c:4456-4480, after the bitmap `m` is read; the maps of attributes of types
and of types of attributes. -/
def attrStep (types : Index TypeD) (ntypes i : Nat) (m : Ebitmap.Ebitmap) (s : (Nat → Ebitmap.Ebitmap) × (Nat → Ebitmap.Ebitmap)) :
    Option ((Nat → Ebitmap.Ebitmap) × (Nat → Ebitmap.Ebitmap)) :=
  (attrLoop ntypes i (posBits m) s.2).bind fun at_ =>
    match types i with
    | none => some (upd s.1 i m, at_)
    | some t =>
      (Ebitmap.setBit m i true).bind fun m =>
        if t.2.flavor ≠ 1 then (Ebitmap.setBit (at_ i) i true).map fun e => (upd s.1 i m, upd at_ i e)
        else some (upd s.1 i m, at_)

/-- The loop over the types from `i` on, policydb.c:4452-4481. -/
def readAttrs (types : Index TypeD) (ntypes : Nat) : Nat → Nat → (Nat → Ebitmap.Ebitmap) × (Nat → Ebitmap.Ebitmap) →
    Rd ((Nat → Ebitmap.Ebitmap) × (Nat → Ebitmap.Ebitmap))
  | _, 0, s => Rd.pure s
  | i, n + 1, s => do
    let m ← ebm
    match attrStep types ntypes i m s with
    | none => Rd.fail
    | some s => readAttrs types ntypes (i + 1) n s

/-- The entry for `object_r` that `roles_init` makes, policydb.c:789-823. -/
def objectRole : Str × RoleD := (objectR, ⟨1, Ebitmap.init, emptyTypeSet, 0, Ebitmap.init, 0⟩)

/-- The header, policydb.c:4158-4320: version, target, configuration and the number of lists of contexts.  The string
need only be equal up to a NUL. -/
def readHeader : Rd (Nat × Nat × Nat × Nat) := do
  let m ← u32
  let len ← u32
  Rd.reject (m != magic)
  Rd.reject (len == 0 || decide (len > 32))
  let s ← raw len
  let target ← (if cstr s = targetString 0 then Rd.pure 0 else if cstr s = targetString 1 then Rd.pure 1 else Rd.fail : Rd Nat)
  let version ← u32
  let config ← u32
  let symNum ← u32
  let oconN ← u32
  Rd.reject (decide (version < 26) || decide (version > 34))
  match oconNum target version with
  | none => Rd.fail
  | some n => do
    Rd.reject (symNum != 8 || oconN != n)
    Rd.pure (version, target, config, n)

/-- The list number `i` of those that were read; the others are NULL. -/
def nthList (l : List (List OconP)) (i : Nat) : List OconP := (l[i]?).getD []

/-- `policydb_read`, policydb.c:4146-4490, for a kernel policy from version 26 on. -/
def read (valid : PolicyDb → Context → Bool) : Rd PolicyDb := do
  let h ← readHeader
  let version := h.1
  let policycaps ← ebm
  let permissive ← ebm
  let commons ← readSym readCommon []
  let classes ← readSym (readClass version commons.entries) []
  let roles ← readSym readRole [objectRole]
  let types ← readSym readType []
  let users ← readSym readUser []
  let bools ← readSym readBool []
  let levels ← readSym readSens []
  let cats ← readSym readCat []
  let avtab ← (Avtab.read version : Rd Avtab.Avtab)
  let conds ← readConds version bools.nprim avtab
  let roleTrans ← readRoleTrans
  let roleAllow ← readRoleAllow
  let ft ← readFilenameTrans version
  let p : PolicyDb := {
    version := version
    target := h.2.1
    mls := if h.2.2.1.testBit 0 then 1 else 0
    handleUnknown := h.2.2.1 &&& 6
    policycaps := policycaps
    permissive := permissive
    commons := commons
    classes := classes
    roles := roles
    types := types
    users := users
    bools := bools
    levels := levels
    cats := cats
    avtab := avtab
    conds := conds
    roleTrans := roleTrans
    roleAllow := roleAllow
    filenameTrans := ft.1
    filenameTransCount := ft.2
    ocontexts := fun _ => []
    genfs := []
    rangeTrans := []
    typeAttr := fun _ => Ebitmap.init
    attrType := fun _ => Ebitmap.init }
  match index p.toV with
  | none => Rd.fail
  | some a => do
    let ocons ← readOconLists (valid p) p.target 0 h.2.2.2
    let genfs ← readGenfs (valid p)
    let rangeTrans ← readRangeTrans types.nprim classes.nprim
    let maps ← readAttrs a.types types.nprim 0 types.nprim (fun _ => Ebitmap.init, fun _ => Ebitmap.init)
    let p := { p with
      ocontexts := nthList ocons
      genfs := genfs
      rangeTrans := rangeTrans
      typeAttr := maps.1
      attrType := maps.2 }
    Rd.reject (accept p.toV != some true)
    Rd.pure p

end Verif.PolicyIO
