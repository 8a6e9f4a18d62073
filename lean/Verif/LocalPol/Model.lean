import Verif.ObjStmt.Model

/-!
# Model of the merge of local customisations into the policy

libsemanage/src/policy_components.c, ports_local.c, ibpkeys_local.c; libsepol/src/ports.c, nodes.c, interfaces.c, ibpkeys.c,
ibendports.c, users.c, booleans.c.

The records of the local databases are taken as given (how they are kept is C35, how they are read is C95).  A record holds what
`context_from_record` makes of its context: `none` if it is not valid in the policy.  An IPv4 address is a word whose first bit is its
most significant one, an IPv6 address four such words; what is in memory is `stored` of them.  A node has an address and a mask of the
same protocol.  Allocations succeed.
-/

namespace Verif.LocalPol
open Verif.Policy Verif.Mls Verif.Services Verif.ObjStmt

/-! ## Records -/

/-- `sepol_port_t`, port_record.c:11-22; `proto` is 0 for udp, 1 for tcp, 2 for dccp, 3 for sctp, port_record.h:16-19. -/
structure PortRec where
  proto : Int
  low : Int
  high : Int
  con : Option Context
deriving DecidableEq

/-- `sepol_ibpkey_t`, ibpkey_record.c:14-25. -/
structure PkeyRec where
  subnet : Nat
  low : Int
  high : Int
  con : Option Context
deriving DecidableEq

/-- `sepol_ibendport_t`, ibendport_record.c:14-23. -/
structure EndportRec where
  dev : Str
  port : Int
  con : Option Context
deriving DecidableEq

/-- `sepol_iface_t`, iface_record.c:10-20. -/
structure IfaceRec where
  name : Str
  ifcon : Option Context
  msgcon : Option Context
deriving DecidableEq

/-- `sepol_node_t`, node_record.c:17-33. -/
inductive NodeRec
  | v4 (addr mask : BitVec 32) (con : Option Context)
  | v6 (addr mask : Words) (con : Option Context)
deriving DecidableEq

/-! ## From records to entries -/

/-- An `int` assigned to a `uint16_t`. -/
def u16 (n : Int) : Nat := (n % 2 ^ 16).toNat

/-- An `int` assigned to a `uint8_t`. -/
def u8 (n : Int) : Nat := (n % 2 ^ 8).toNat

/-- `sepol2ipproto`, ports.c:17-33. -/
def ipproto (p : Int) : Option Nat :=
  if p = 1 then some 6 else if p = 0 then some 17 else if p = 2 then some 33 else if p = 3 then some 132 else none

/-- `port_from_record`, ports.c:55-112. -/
def portEntry (r : PortRec) : Option (Ocon PortKey) :=
  match ipproto r.proto with
  | none => none
  | some p => if u16 r.low > u16 r.high then none else r.con.map (entry ⟨p, u16 r.low, u16 r.high⟩ ·)

/-- `ibpkey_from_record`, ibpkeys.c:16-66. -/
def pkeyEntry (r : PkeyRec) : Option (Ocon PkeyKey) :=
  if u16 r.low > u16 r.high then none else r.con.map (entry ⟨r.subnet, u16 r.low, u16 r.high⟩ ·)

/-- `ibendport_from_record`, ibendports.c:14-69: `strncpy` keeps 63 bytes of the name. -/
def endportEntry (r : EndportRec) : Option (Ocon (Str × Nat)) := r.con.map (entry (r.dev.take 63, u8 r.port) ·)

/-- `iface_from_record`, interfaces.c:12-64. -/
def ifaceEntry (r : IfaceRec) : Option (Ocon Str) :=
  match r.ifcon, r.msgcon with
  | some c, some d => some (entry r.name c d)
  | _, _ => none

/-! ## Adding an entry -/

/-- `sepol_port_modify`, ports.c:253-287; `sepol_ibpkey_modify`, ibpkeys.c:186-214; `sepol_ibendport_modify`, ibendports.c:188-217: the new
entry becomes the first one. -/
def pushEntry {ρ κ : Type} (mk : ρ → Option (Ocon κ)) (l : List (Ocon κ)) (r : ρ) : Option (List (Ocon κ)) :=
  match mk r with
  | none => none
  | some e => some (e :: l)

/-- The loop of `sepol_iface_modify`, interfaces.c:181-198: the first entry of that name is replaced. -/
def replaceFirst (name : Str) (e : Ocon Str) : List (Ocon Str) → Option (List (Ocon Str))
  | [] => none
  | c :: l => if strcmp name c.key = 0 then some (e :: l) else (replaceFirst name e l).map (c :: ·)

/-- `sepol_iface_modify`, interfaces.c:164-215. -/
def ifaceModify (l : List (Ocon Str)) (r : IfaceRec) : Option (List (Ocon Str)) :=
  match ifaceEntry r with
  | none => none
  | some e => match replaceFirst r.name e l with
    | some l' => some l'
    | none => some (e :: l)

/-- `node_from_record` and `sepol_node_modify`, nodes.c:14-81, 296-343. -/
def nodeModify (cfg : Cfg) (ob : Objects) : NodeRec → Option Objects
  | .v4 a m con => con.map fun c => { ob with node := entry (stored cfg a, stored cfg m) c :: ob.node }
  | .v6 a m con => con.map fun c => { ob with node6 := entry (stored6 cfg a, stored6 cfg m) c :: ob.node6 }

/-- `load_records`, policy_components.c:59-97: the first failure ends the merge. -/
def loadRecords {ρ σ : Type} (modify : σ → ρ → Option σ) : List ρ → σ → Option σ
  | [], s => some s
  | r :: rs, s => match modify s r with
    | none => none
    | some s' => loadRecords modify rs s'

/-- `memcmp` of two addresses of four bytes as a sign. -/
def memcmp4 (a b : BitVec 32) : Int := if a.toNat < b.toNat then -1 else if b.toNat < a.toNat then 1 else 0

/-- `sepol_node_compare2`, node_record.c:332-349. -/
def nodeCompare (cfg : Cfg) : NodeRec → NodeRec → Int
  | .v4 .., .v6 .. => -1
  | .v6 .., .v4 .. => 1
  | .v4 a m _, .v4 a' m' _ => if memcmp4 m m' ≠ 0 then memcmp4 m m' else memcmp4 a a'
  | .v6 a m _, .v6 a' m' _ =>
    let rc1 := memcmp6 cfg (stored6 cfg a) (stored6 cfg a')
    let rc2 := memcmp6 cfg (stored6 cfg m) (stored6 cfg m')
    if rc2 ≠ 0 then rc2 else rc1

/-- The local databases of kernel objects. -/
structure Local where
  ports : List PortRec
  ifaces : List IfaceRec
  nodes : List NodeRec
  pkeys : List PkeyRec
  endports : List EndportRec

/-- The object components of `semanage_base_merge_components`, policy_components.c:109-205.  `sort` is what `qsort` does with
`compare2_qsort`, policy_components.c:171-173. -/
def mergeObjects (cfg : Cfg) (sort : List NodeRec → List NodeRec) (loc : Local) (ob : Objects) : Option Objects :=
  match loadRecords (pushEntry portEntry) loc.ports ob.port with
  | none => none
  | some port =>
    match loadRecords ifaceModify loc.ifaces ob.netif with
    | none => none
    | some netif =>
      match loadRecords (nodeModify cfg) (sort loc.nodes) { ob with port := port, netif := netif } with
      | none => none
      | some ob =>
        match loadRecords (pushEntry pkeyEntry) loc.pkeys ob.ibpkey with
        | none => none
        | some ibpkey =>
          match loadRecords (pushEntry endportEntry) loc.endports ob.ibendport with
          | none => none
          | some ibendport => some { ob with ibpkey := ibpkey, ibendport := ibendport }

/-! ## Looking at the ports of a policy -/

/-- `sepol_port_query`, ports.c:213-250: the entry (outer `none`: an error). -/
def portQuery (l : List (Ocon PortKey)) (proto low high : Int) : Option (Option (Ocon PortKey)) :=
  match ipproto proto with
  | none => none
  | some p => some (l.find? fun c => decide (p = c.key.protocol) && decide ((c.key.low : Int) = low) && decide ((c.key.high : Int) = high))

/-- `sepol_port_exists`, ports.c:175-210. -/
def portExists (l : List (Ocon PortKey)) (proto low high : Int) : Option Bool :=
  match ipproto proto with
  | none => none
  | some p => some (l.any fun c => decide (p = c.key.protocol) && decide ((c.key.low : Int) = low) && decide ((c.key.high : Int) = high))

/-! ## Overlap -/

/-- `sepol_port_compare2`, port_record.c:109-134. -/
def portCompare (a b : PortRec) : Int :=
  if a.low = b.low ∧ a.high = b.high ∧ a.proto = b.proto then 0
  else if a.low < b.low then -1 else if b.low < a.low then 1
  else if a.high < b.high then -1 else if b.high < a.high then 1
  else if a.proto < b.proto then -1 else 1

/-- `sepol_ibpkey_compare2`, ibpkey_record.c:187-208. -/
def pkeyCompare (a b : PkeyRec) : Int :=
  if a.subnet < b.subnet then -1 else if b.subnet < a.subnet then 1
  else if a.low < b.low then -1 else if b.low < a.low then 1
  else if a.high < b.high then -1 else if b.high < a.high then 1
  else 0

/-- The loop of `semanage_port_validate_local`, ports_local.c:90-128, over the sorted records. -/
def validatePorts : List PortRec → Bool
  | [] => true
  | p :: rest =>
    match rest.find? (fun q => decide (p.proto = q.proto)) with
    | none => validatePorts rest
    | some q => if q.low ≤ p.high then false else validatePorts rest

/-- The loop of `semanage_ibpkey_validate_local`, ibpkeys_local.c:98-147. -/
def validatePkeys : List PkeyRec → Bool
  | [] => true
  | p :: rest =>
    match rest.find? (fun q => decide (p.subnet = q.subnet)) with
    | none => validatePkeys rest
    | some q => if q.low ≤ p.high then false else validatePkeys rest

/-- `semanage_port_validate_local`, ports_local.c:75-143; `sort` is `qsort`. -/
def portValidateLocal (sort : List PortRec → List PortRec) (l : List PortRec) : Bool :=
  validatePorts (if l.length > 1 then sort l else l)

/-- `semanage_ibpkey_validate_local`, ibpkeys_local.c:78-162. -/
def pkeyValidateLocal (sort : List PkeyRec → List PkeyRec) (l : List PkeyRec) : Bool :=
  validatePkeys (if l.length > 1 then sort l else l)

/-! ## Users -/

/-- `sepol_user_t`, user_record.c:10-28. -/
structure UserRec where
  name : Str
  roles : List Str
  level : Option Str
  range : Option Str
deriving DecidableEq

/-- `user_datum_t`, policydb.h:205-214: sets of roles by their bits; `roles` and its expansion `cache`. -/
structure UDatum where
  value : Nat
  roles : List Nat
  cache : List Nat
  level : Level
  range : Range
deriving DecidableEq

/-- What `sepol_user_modify` looks at and changes: roles with the bits of the roles they dominate, users, the number of users, whether MLS is
on, and `mls_from_string`. -/
structure UPolicy where
  roleTable : Str → Option (List Nat)
  users : List (Str × UDatum)
  nprim : Nat
  mls : Bool
  mlsOf : Str → Option Range

/-- `user_datum_init`, policydb.c. -/
def initDatum (value : Nat) : UDatum := ⟨value, [], [], ⟨0, Ebitmap.init⟩, emptyRange⟩

/-- The loop over the roles, users.c:159-175: whether it succeeds, and the bits set so far. -/
def addRoles (p : UPolicy) : List Str → List Nat → Bool × List Nat
  | [], acc => (true, acc)
  | r :: rs, acc => match p.roleTable r with
    | none => (false, acc)
    | some d => addRoles p rs (acc ++ d)

/-- Roles and MLS fields, users.c:159-222: whether it succeeds, and what is in the datum then. -/
def fillUser (p : UPolicy) (r : UserRec) (d : UDatum) : Bool × UDatum :=
  let a := addRoles p r.roles d.roles
  let d := { d with roles := a.2 }
  if a.1 = false then (false, d)
  else if p.mls then
    match r.level with
    | none => (false, d)
    | some l => match p.mlsOf l with
      | none => (false, d)
      | some lr =>
        let d := { d with level := lr.low }
        match r.range with
        | none => (false, d)
        | some g => match p.mlsOf g with
          | none => (false, d)
          | some gr => (true, { d with range := gr })
  else if r.level ≠ none ∨ r.range ≠ none then (false, d)
  else (true, d)

/-- `hashtab_search` in the table of users. -/
def userOf (users : List (Str × UDatum)) (name : Str) : Option UDatum := (users.find? (fun x => x.1 = name)).map Prod.snd

/-- The datum of a user is written in place. -/
def writeUser (users : List (Str × UDatum)) (name : Str) (d : UDatum) : List (Str × UDatum) :=
  users.map fun x => if x.1 = name then (x.1, d) else x

/-- `sepol_user_modify`, users.c:104-285: whether it succeeds, and the policy.  A datum that is in the table is emptied and filled in place; a
new one is put into the table, and its `cache` computed, at the end.  `role_set_expand`, expand.c:2455-2522, copies the roles as no flag is
set. -/
def userModify (p : UPolicy) (r : UserRec) : Bool × UPolicy :=
  match userOf p.users r.name with
  | some old =>
    let f := fillUser p r (initDatum old.value)
    (f.1, { p with users := writeUser p.users r.name f.2 })
  | none =>
    let f := fillUser p r (initDatum 0)
    if f.1 = false then (false, p)
    else
      let d := { f.2 with value := p.nprim + 1, cache := f.2.roles }
      (true, { p with users := p.users ++ [(r.name, d)], nprim := p.nprim + 1 })

/-- `load_records` for users; a failure ends the merge with the policy as it is then. -/
def loadUsers : List UserRec → UPolicy → Bool × UPolicy
  | [], p => (true, p)
  | r :: rs, p =>
    let m := userModify p r
    if m.1 = false then (false, m.2) else loadUsers rs m.2

/-- The test of the role in `context_is_valid`, context.c:53-72: the bit of the role is in the `cache` of the user. -/
def userHasRole (p : UPolicy) (user : Str) (bit : Nat) : Bool :=
  match userOf p.users user with
  | none => false
  | some d => d.cache.contains bit

/-! ## Booleans -/

/-- Booleans of the policy with their values, and the values for which the conditionals have been evaluated last. -/
structure BPolicy where
  bools : List (Str × Bool)
  evaluated : List (Str × Bool)
deriving DecidableEq

/-- `sepol_bool_set`, booleans.c:14-52, 82-104. -/
def boolSet (p : BPolicy) (r : Str × Int) : Option BPolicy :=
  if p.bools.any (fun b => b.1 = r.1) = false then none
  else if r.2 ≠ 0 ∧ r.2 ≠ 1 then none
  else
    let bs := p.bools.map fun b => if b.1 = r.1 then (b.1, decide (r.2 = 1)) else b
    some ⟨bs, bs⟩

/-- `clear_obsolete`, policy_components.c:15-57: the records to load, and the local database without the deleted ones.  The database is an
`activedb`/`file` list: `del` takes the records with that name out. -/
def clearObsolete (p : BPolicy) (recs : List (Str × Int)) : List (Str × Int) × List (Str × Int) :=
  let live := recs.filter fun r => p.bools.any fun b => b.1 = r.1
  (live, recs.foldl (fun db r => if p.bools.any (fun b => b.1 = r.1) then db else db.filter (fun x => x.1 ≠ r.1)) recs)

/-- The booleans in `semanage_base_merge_components`: policy and local database afterwards. -/
def mergeBools (recs : List (Str × Int)) (p : BPolicy) : Option (BPolicy × List (Str × Int)) :=
  let c := clearObsolete p recs
  match loadRecords boolSet c.1 p with
  | none => none
  | some p' => some (p', c.2)

end Verif.LocalPol
