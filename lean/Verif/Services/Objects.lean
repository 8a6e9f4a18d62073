import Verif.Sidtab.Model

/-!
# Model of the labels of kernel objects

libsepol/src/services.c:1872-2150, 2247-2340, libsepol/src/policydb.c:3144-3245.

Addresses are words in the byte order in which they are stored; `malloc` succeeds.
-/

namespace Verif.Services
open Verif.Policy Verif.Mls

/-- `ocontext_t`, policydb.h:343-386: the key (the union `u`, `v`), two contexts and the two cached SIDs
(0: not yet computed). -/
structure Ocon (κ : Type) where
  key : κ
  ctx0 : Context
  ctx1 : Context
  sid0 : Nat
  sid1 : Nat
deriving DecidableEq

/-- `u.port`, policydb.h:346-350. -/
structure PortKey where
  protocol : Nat
  low : Nat
  high : Nat
deriving DecidableEq

/-- `u.ibpkey`, policydb.h:369-373. -/
structure PkeyKey where
  subnet : Nat
  low : Nat
  high : Nat
deriving DecidableEq

/-- `uint32_t[4]`. -/
structure Words where
  w0 : BitVec 32
  w1 : BitVec 32
  w2 : BitVec 32
  w3 : BitVec 32
deriving DecidableEq

/-- The object context lists of `policydb_t`, policydb.h:584-592. -/
structure Objects where
  fs : List (Ocon Str)
  netif : List (Ocon Str)
  /-- name and behavior -/
  fsuse : List (Ocon (Str × Nat))
  port : List (Ocon PortKey)
  ibpkey : List (Ocon PkeyKey)
  ibendport : List (Ocon (Str × Nat))
  /-- address and mask -/
  node : List (Ocon (BitVec 32 × BitVec 32))
  node6 : List (Ocon (Words × Words))
  /-- file system types with their entries (path prefix and class) -/
  genfs : List (Str × List (Ocon (Str × Nat)))
  dirClass : Nat

/-- SID table and object lists: everything the lookups change. -/
structure OState where
  st : Sidtab.Sidtab
  ob : Objects

/-! flask.h: initial SIDs -/
def SID_UNLABELED : Nat := 3
def SID_FS : Nat := 4
def SID_FILE : Nat := 5
def SID_PORT : Nat := 9
def SID_NETIF : Nat := 10
def SID_NETMSG : Nat := 11
def SID_NODE : Nat := 12

/-! services.h: labeling behaviors -/
def FS_USE_GENFS : Nat := 4
def FS_USE_NONE : Nat := 5

/-- `while (c) { if (match) break; c = c->next; }`: the entries passed, the found one, the rest. -/
def splitFirst {α : Type} (m : α → Bool) : List α → Option (List α × α × List α)
  | [] => none
  | a :: l => if m a then some ([], a, l) else (splitFirst m l).map (fun r => (a :: r.1, r.2))

/-- `if (!c->sid[0]) rc = sepol_sidtab_context_to_sid(sidtab, &c->context[0], &c->sid[0])`, services.c:1936-1941:
the flag is false if the conversion failed. -/
def get0 {κ : Type} (st : Sidtab.Sidtab) (o : Ocon κ) : Sidtab.Sidtab × Ocon κ × Bool :=
  if o.sid0 ≠ 0 then (st, o, true)
  else match Sidtab.contextToSid st o.ctx0 with
    | none => (st, { o with sid0 := 0 }, false)
    | some (st', sid) => (st', { o with sid0 := sid }, true)

/-- The same for both SIDs, services.c:1894-1905 and 2033-2044: both are computed when one is missing. -/
def get01 {κ : Type} (st : Sidtab.Sidtab) (o : Ocon κ) : Sidtab.Sidtab × Ocon κ × Bool :=
  if o.sid0 ≠ 0 ∧ o.sid1 ≠ 0 then (st, o, true)
  else match Sidtab.contextToSid st o.ctx0 with
    | none => (st, { o with sid0 := 0 }, false)
    | some (st', sid) =>
      match Sidtab.contextToSid st' o.ctx1 with
      | none => (st', { o with sid0 := sid, sid1 := 0 }, false)
      | some (st'', sid') => (st'', { o with sid0 := sid, sid1 := sid' }, true)

/-- Outcome of a lookup: nothing matches, the SID table is full, or an entry with its SIDs. -/
inductive Found (κ : Type)
  | absent
  | failed
  | entry (o : Ocon κ)

/-- Search and resolve, the common shape of all lookups. -/
def find {κ : Type} (get : Sidtab.Sidtab → Ocon κ → Sidtab.Sidtab × Ocon κ × Bool) (m : κ → Bool) (st : Sidtab.Sidtab)
    (l : List (Ocon κ)) : Sidtab.Sidtab × List (Ocon κ) × Found κ :=
  match splitFirst (fun o => m o.key) l with
  | none => (st, l, .absent)
  | some (pre, o, post) =>
    let r := get st o
    (r.1, pre ++ r.2.1 :: post, if r.2.2 then .entry r.2.1 else .failed)

/-- What a call reports: SIDs; -ENOENT with a SID; -EINVAL; -ENOMEM; behavior and SID of `sepol_fs_use`
(`none`: the output variable is not written). -/
inductive Reply
  | sids (l : List Nat)
  | notFound (sid : Nat)
  | invalid
  | noSid
  | use (behavior : Nat) (sid : Option Nat)
deriving DecidableEq

/-- `strcmp`: the sign of the first difference. -/
def strcmp : Str → Str → Int
  | [], [] => 0
  | [], _ :: _ => -1
  | _ :: _, [] => 1
  | a :: s, b :: t => if a.toNat < b.toNat then -1 else if b.toNat < a.toNat then 1 else strcmp s t

/-- `strncmp`. -/
def strncmp : Nat → Str → Str → Int
  | 0, _, _ => 0
  | _ + 1, [], [] => 0
  | _ + 1, [], _ :: _ => -1
  | _ + 1, _ :: _, [] => 1
  | n + 1, a :: s, b :: t => if a.toNat < b.toNat then -1 else if b.toNat < a.toNat then 1 else strncmp n s t

def reply1 {κ : Type} (dflt : Nat) : Found κ → Reply
  | .absent => .sids [dflt]
  | .failed => .noSid
  | .entry o => .sids [o.sid0]

def reply2 {κ : Type} (d0 d1 : Nat) : Found κ → Reply
  | .absent => .sids [d0, d1]
  | .failed => .noSid
  | .entry o => .sids [o.sid0, o.sid1]

/-- `sepol_fs_sid`, services.c:1879-1916. -/
def fsSid (name : Str) (s : OState) : OState × Reply :=
  let r := find get01 (fun k => strcmp k name == 0) s.st s.ob.fs
  (⟨r.1, { s.ob with fs := r.2.1 }⟩, reply2 SID_FS SID_FILE r.2.2)

/-- `sepol_ibpkey_sid`, services.c:1922-1951. -/
def ibpkeySid (subnet pkey : Nat) (s : OState) : OState × Reply :=
  let r := find get0 (fun k => decide (k.low ≤ pkey) && decide (k.high ≥ pkey) && (subnet == k.subnet)) s.st s.ob.ibpkey
  (⟨r.1, { s.ob with ibpkey := r.2.1 }⟩, reply1 SID_UNLABELED r.2.2)

/-- `sepol_ibendport_sid`, services.c:1957-1986. -/
def ibendportSid (dev : Str) (port : Nat) (s : OState) : OState × Reply :=
  let r := find get0 (fun k => (k.2 == port) && (strcmp dev k.1 == 0)) s.st s.ob.ibendport
  (⟨r.1, { s.ob with ibendport := r.2.1 }⟩, reply1 SID_UNLABELED r.2.2)

/-- `sepol_port_sid`, services.c:1993-2023. -/
def portSid (protocol port : Nat) (s : OState) : OState × Reply :=
  let r := find get0 (fun k => (k.protocol == protocol) && decide (k.low ≤ port) && decide (k.high ≥ port)) s.st s.ob.port
  (⟨r.1, { s.ob with port := r.2.1 }⟩, reply1 SID_PORT r.2.2)

/-- `sepol_netif_sid`, services.c:2032-2069. -/
def netifSid (name : Str) (s : OState) : OState × Reply :=
  let r := find get01 (fun k => strcmp name k == 0) s.st s.ob.netif
  (⟨r.1, { s.ob with netif := r.2.1 }⟩, reply2 SID_NETIF SID_NETMSG r.2.2)

/-- `match_ipv6_addrmask`, services.c:2071-2083. -/
def matchIpv6 (input addr mask : Words) : Bool :=
  (addr.w0 == input.w0 &&& mask.w0) && (addr.w1 == input.w1 &&& mask.w1) &&
  (addr.w2 == input.w2 &&& mask.w2) && (addr.w3 == input.w3 &&& mask.w3)

/-- The address given to `sepol_node_sid`: family and length are checked first, services.c:2097-2137. -/
inductive Addr
  | inet (a : BitVec 32)
  | inet6 (a : Words)
  /-- right family, wrong length -/
  | badLength
  /-- another family -/
  | other

/-- `sepol_node_sid`, services.c:2091-2155. -/
def nodeSid (a : Addr) (s : OState) : OState × Reply :=
  match a with
  | .inet a =>
    let r := find get0 (fun k => k.1 == a &&& k.2) s.st s.ob.node
    (⟨r.1, { s.ob with node := r.2.1 }⟩, reply1 SID_NODE r.2.2)
  | .inet6 a =>
    let r := find get0 (fun k => matchIpv6 a k.1 k.2) s.st s.ob.node6
    (⟨r.1, { s.ob with node6 := r.2.1 }⟩, reply1 SID_NODE r.2.2)
  | .badLength => (s, .invalid)
  | .other => (s, .sids [SID_NODE])

/-- `sepol_genfs_sid`, services.c:2252-2300. -/
def genfsSid (fstype path : Str) (sclass : Nat) (s : OState) : OState × Reply :=
  match splitFirst (fun g => decide (strcmp fstype g.1 ≤ 0)) s.ob.genfs with
  | none => (s, .notFound SID_UNLABELED)
  | some (pre, g, post) =>
    if strcmp fstype g.1 ≠ 0 then (s, .notFound SID_UNLABELED)
    else
      let r := find get0 (fun k => ((k.2 == 0) || (sclass == k.2)) && (strncmp k.1.length k.1 path == 0)) s.st g.2
      (⟨r.1, { s.ob with genfs := pre ++ (g.1, r.2.1) :: post }⟩,
        match r.2.2 with
        | .absent => .notFound SID_UNLABELED
        | .failed => .noSid
        | .entry o => .sids [o.sid0])

/-- `sepol_fs_use`, services.c:2302-2339. -/
def fsUse (fstype : Str) (s : OState) : OState × Reply :=
  let r := find get0 (fun k => strcmp fstype k.1 == 0) s.st s.ob.fsuse
  match r.2.2 with
  | .entry o => (⟨r.1, { s.ob with fsuse := r.2.1 }⟩, .use o.key.2 (some o.sid0))
  | .failed => (⟨r.1, { s.ob with fsuse := r.2.1 }⟩, .noSid)
  | .absent =>
    let g := genfsSid fstype ['/'] s.ob.dirClass s
    (g.1, match g.2 with
      | .sids [sid] => .use FS_USE_GENFS (some sid)
      | .notFound sid => .use FS_USE_NONE (some sid)
      | _ => .use FS_USE_NONE none)

/-- A call into the server. -/
inductive Query
  | fs (name : Str)
  | ibpkey (subnet pkey : Nat)
  | ibendport (dev : Str) (port : Nat)
  | port (protocol port : Nat)
  | netif (name : Str)
  | node (a : Addr)
  | genfs (fstype path : Str) (sclass : Nat)
  | fsUse (fstype : Str)
  /-- any other call that converts a context (context_to_sid, compute_sid, get_user_sids) -/
  | convert (c : Context)

def ask (s : OState) : Query → OState × Reply
  | .fs n => fsSid n s
  | .ibpkey a b => ibpkeySid a b s
  | .ibendport a b => ibendportSid a b s
  | .port a b => portSid a b s
  | .netif n => netifSid n s
  | .node a => nodeSid a s
  | .genfs a b c => genfsSid a b c s
  | .fsUse a => fsUse a s
  | .convert c =>
    match Sidtab.contextToSid s.st c with
    | none => (s, .noSid)
    | some (st, sid) => (⟨st, s.ob⟩, .sids [sid])

/-! ## Reading the genfs section, policydb.c:3144-3245 -/

/-- An entry of the policy file: path prefix, class, context. -/
structure GenEntry where
  name : Str
  sclass : Nat
  ctx : Context

/-- Insertion of an entry, policydb.c:3206-3226: `none` is a duplicate. -/
def insertEntry (e : GenEntry) : List (Ocon (Str × Nat)) → Option (List (Ocon (Str × Nat)))
  | [] => some [⟨(e.name, e.sclass), e.ctx, ⟨0, 0, 0, emptyRange⟩, 0, 0⟩]
  | c :: l =>
    if strcmp e.name c.key.1 = 0 ∧ (c.key.2 = 0 ∨ e.sclass = 0 ∨ e.sclass = c.key.2) then none
    else if e.name.length > c.key.1.length then
      some (⟨(e.name, e.sclass), e.ctx, ⟨0, 0, 0, emptyRange⟩, 0, 0⟩ :: c :: l)
    else (insertEntry e l).map (c :: ·)

/-- The entries of one file system type, policydb.c:3187-3229. -/
def readEntries : List GenEntry → List (Ocon (Str × Nat)) → Option (List (Ocon (Str × Nat)))
  | [], acc => some acc
  | e :: l, acc => (insertEntry e acc).bind (readEntries l)

/-- Position of a new file system type, policydb.c:3166-3182 (the entries are read into it afterwards). -/
def insertFs (g : Str × List (Ocon (Str × Nat))) :
    List (Str × List (Ocon (Str × Nat))) → Option (List (Str × List (Ocon (Str × Nat))))
  | [] => some [g]
  | h :: l =>
    if strcmp g.1 h.1 = 0 then none
    else if strcmp g.1 h.1 < 0 then some (g :: h :: l)
    else (insertFs g l).map (h :: ·)

/-- `genfs_read`, policydb.c:3144-3245, on the parsed records of the file. -/
def genfsRead : List (Str × List GenEntry) → List (Str × List (Ocon (Str × Nat))) →
    Option (List (Str × List (Ocon (Str × Nat))))
  | [], acc => some acc
  | f :: l, acc =>
    (readEntries f.2 []).bind fun es => (insertFs (f.1, es) acc).bind fun acc => genfsRead l acc

end Verif.Services
