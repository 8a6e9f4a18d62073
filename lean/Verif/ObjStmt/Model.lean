import Verif.Services.Objects

/-!
# Model of the object labelling statements of checkpolicy

checkpolicy/policy_define.c:4798-6105: `fscon`, `pirqcon`, `iomemcon`, `ioportcon`, `pcidevicecon`,
`devicetreecon`, `portcon`, `ibpkeycon`, `ibendportcon`, `netifcon`, `nodecon`, `fs_use_*` and `genfscon`.

The second pass is modelled (in the first pass every function only drops its operands).  A statement carries its operands
as they come from the scanner; `parse_security_context` and `inet_pton` are represented by their results (`none`: failed),
`malloc` succeeds.  An IPv4 address or mask is a word whose most significant bit is the first bit of the address, an
IPv6 one four such words: what is in memory is `stored` below.
-/

namespace Verif.ObjStmt
open Verif.Policy Verif.Mls Verif.Services

/-- The target of the compiler, the byte order of the machine it runs on, and the classes of the policy
(`p_classes`). -/
structure Cfg where
  xen : Bool
  littleEndian : Bool
  classOf : Str → Option Nat

/-- A statement; numbers are `unsigned int`s except those of `iomemcon`, policy_parse.y:904-926. -/
inductive Stmt
  | fs (major minor : Nat) (c0 c1 : Option Context)
  | port (proto : Str) (low high : Nat) (c : Option Context)
  | ibpkey (subnet : Option Words) (low high : Nat) (c : Option Context)
  | ibendport (dev : Str) (port : Nat) (c : Option Context)
  | netif (name : Str) (c0 c1 : Option Context)
  | node (addr mask : Option (BitVec 32)) (c : Option Context)
  | nodeCidr (addr : Option (BitVec 32)) (bits : Nat) (c : Option Context)
  | node6 (addr mask : Option Words) (c : Option Context)
  | node6Cidr (addr : Option Words) (bits : Nat) (c : Option Context)
  | fsUse (behavior : Nat) (fstype : Str) (c : Option Context)
  | genfs (fstype path : Str) (type : Option Str) (c : Option Context)
  | pirq (n : Nat) (c : Option Context)
  | iomem (low high : Nat) (c : Option Context)
  | ioport (low high : Nat) (c : Option Context)
  | pcidevice (n : Nat) (c : Option Context)
  | devicetree (path : Str) (c : Option Context)

/-- The lists of `policydb_t`: those of the SELinux target and those of the Xen target, policydb.h:584-601. -/
structure Db where
  ob : Objects
  pirq : List (Ocon Nat)
  iomem : List (Ocon (Nat × Nat))
  ioport : List (Ocon (Nat × Nat))
  pcidevice : List (Ocon Nat)
  devicetree : List (Ocon Str)

/-- How a statement ends: the new lists; -1 with the lists as they are then and, if there is one, the file system type
whose name is freed although it is still in the list; or a write beyond the end of a buffer. -/
inductive Res
  | ok (db : Db)
  | error (db : Db) (dangling : Option Str)
  | overflow

/-- `htobe32` on a machine with the other byte order. -/
def bswap (x : BitVec 32) : BitVec 32 :=
  x.extractLsb' 0 8 ++ x.extractLsb' 8 8 ++ x.extractLsb' 16 8 ++ x.extractLsb' 24 8

/-- The `uint32_t` that has the bytes of the address in memory order; also its inverse. -/
def stored (cfg : Cfg) (x : BitVec 32) : BitVec 32 := if cfg.littleEndian then bswap x else x

def stored6 (cfg : Cfg) (w : Words) : Words := ⟨stored cfg w.w0, stored cfg w.w1, stored cfg w.w2, stored cfg w.w3⟩

/-- `memset(newc, 0, sizeof(*newc))` and the assignments that follow. -/
def entry {κ : Type} (key : κ) (c0 : Context) (c1 : Context := ⟨0, 0, 0, emptyRange⟩) : Ocon κ := ⟨key, c0, c1, 0, 0⟩

/-- The loop over a list that ends with the new entry behind its last one, e.g. policy_define.c:5195-5219:
`none` if an entry clashes. -/
def addLast {α : Type} (clash : α → Bool) (n : α) : List α → Option (List α)
  | [] => some [n]
  | c :: l => if clash c then none else (addLast clash n l).map (c :: ·)

/-- The loop over a list that ends with the new entry in front of it, e.g. policy_define.c:5457-5473. -/
def addFirst {α : Type} (clash : α → Bool) (n : α) (l : List α) : Option (List α) :=
  if l.any clash then none else some (n :: l)

/-- The loop of `insert_ipv4_node` and `insert_ipv6_node`, policy_define.c:5484-5505, 5732-5753: the new entry goes in
front of the first one with a smaller mask. -/
def insertNode {α : Type} (same larger : α → Bool) (n : α) : List α → Option (List α)
  | [] => some [n]
  | c :: l =>
    if same c then none
    else if larger c then some (n :: c :: l)
    else (insertNode same larger n l).map (c :: ·)

/-- The end of most functions: the list is replaced, or -1 is returned. -/
def done {α : Type} (db : Db) (set : List α → Db) : Option (List α) → Res
  | none => .error db none
  | some l => .ok (set l)

/-- A digit of `%x`. -/
def hexDigit (n : Nat) : Char := if n < 10 then Char.ofNat (48 + n) else Char.ofNat (87 + n)

/-- `%x`. -/
def hex (n : Nat) : Str := if n < 16 then [hexDigit n] else hex (n / 16) ++ [hexDigit (n % 16)]

/-- `%02x`. -/
def hex2 (n : Nat) : Str := if n < 16 then ['0', hexDigit n] else hex n

/-- `define_fs_context`, policy_define.c:4798-4857: the name is written to 6 bytes. -/
def defineFs (cfg : Cfg) (major minor : Nat) (c0 c1 : Option Context) (db : Db) : Res :=
  if cfg.xen then .error db none
  else
    let name := hex2 major ++ ':' :: hex2 minor
    if name.length + 1 > 6 then .overflow
    else match c0, c1 with
      | some c0, some c1 =>
        done db (fun l => { db with ob := { db.ob with fs := l } })
          (addFirst (fun c => strcmp name c.key == 0) (entry name c0 c1) db.ob.fs)
      | _, _ => .error db none

/-- `define_pirq_context`, policy_define.c:4860-4909; `u.pirq` is a `uint16_t`. -/
def definePirq (cfg : Cfg) (n : Nat) (c : Option Context) (db : Db) : Res :=
  if !cfg.xen then .error db none
  else match c with
    | none => .error db none
    | some ctx =>
      done db (fun l => { db with pirq := l })
        (addLast (fun c => n == c.key) (entry (n % 2 ^ 16) ctx) db.pirq)

/-- `define_iomem_context`, policy_define.c:4911-4970. -/
def defineIomem (cfg : Cfg) (low high : Nat) (c : Option Context) (db : Db) : Res :=
  if !cfg.xen then .error db none
  else if low > high then .error db none
  else match c with
    | none => .error db none
    | some ctx =>
      done db (fun l => { db with iomem := l })
        (addLast (fun c => decide (low ≤ c.key.2) && decide (c.key.1 ≤ high)) (entry (low, high) ctx) db.iomem)

/-- `define_ioport_context`, policy_define.c:4972-5031. -/
def defineIoport (cfg : Cfg) (low high : Nat) (c : Option Context) (db : Db) : Res :=
  if !cfg.xen then .error db none
  else if low > high then .error db none
  else match c with
    | none => .error db none
    | some ctx =>
      done db (fun l => { db with ioport := l })
        (addLast (fun c => decide (low ≤ c.key.2) && decide (c.key.1 ≤ high)) (entry (low, high) ctx) db.ioport)

/-- `define_pcidevice_context`, policy_define.c:5033-5083. -/
def definePcidevice (cfg : Cfg) (n : Nat) (c : Option Context) (db : Db) : Res :=
  if !cfg.xen then .error db none
  else match c with
    | none => .error db none
    | some ctx =>
      done db (fun l => { db with pcidevice := l }) (addLast (fun c => n == c.key) (entry n ctx) db.pcidevice)

/-- `define_devicetree_context`, policy_define.c:5085-5138. -/
def defineDevicetree (cfg : Cfg) (path : Str) (c : Option Context) (db : Db) : Res :=
  if !cfg.xen then .error db none
  else match c with
    | none => .error db none
    | some ctx =>
      done db (fun l => { db with devicetree := l })
        (addLast (fun c => strcmp path c.key == 0) (entry path ctx) db.devicetree)

def str (s : String) : Str := s.toList

/-- The protocols of `define_port_context`, policy_define.c:5171-5183. -/
def protocol (id : Str) : Option Nat :=
  if id = str "tcp" ∨ id = str "TCP" then some 6
  else if id = str "udp" ∨ id = str "UDP" then some 17
  else if id = str "dccp" ∨ id = str "DCCP" then some 33
  else if id = str "sctp" ∨ id = str "SCTP" then some 132
  else none

/-- `define_port_context`, policy_define.c:5140-5230: `u.port.low_port` and `high_port` are `uint16_t`s. -/
def definePort (cfg : Cfg) (id : Str) (low high : Nat) (c : Option Context) (db : Db) : Res :=
  if cfg.xen then .error db none
  else match protocol id with
    | none => .error db none
    | some proto =>
      if low > high then .error db none
      else match c with
        | none => .error db none
        | some ctx =>
          done db (fun l => { db with ob := { db.ob with port := l } })
            (addLast (fun c : Ocon PortKey => if proto ≠ c.key.protocol then false
                else if low = c.key.low ∧ high = c.key.high then true
                else decide (c.key.low ≤ low) && decide (c.key.high ≥ high))
              (entry ⟨proto, low % 2 ^ 16, high % 2 ^ 16⟩ ctx) db.ob.port)

/-- The eight bytes of `subnet_prefix` as a number (only compared for equality). -/
def subnetOf (w : Words) : Nat := w.w0.toNat * 2 ^ 32 + w.w1.toNat

/-- `define_ibpkey_context`, policy_define.c:5232-5336. -/
def defineIbpkey (cfg : Cfg) (subnet : Option Words) (low high : Nat) (c : Option Context) (db : Db) : Res :=
  if cfg.xen then .error db none
  else match subnet with
    | none => .error db none
    | some w =>
      if w.w2 ≠ 0 ∨ w.w3 ≠ 0 then .error db none
      else if low > 0xffff ∨ high > 0xffff then .error db none
      else if low > high then .error db none
      else match c with
        | none => .error db none
        | some ctx =>
          done db (fun l => { db with ob := { db.ob with ibpkey := l } })
            (addLast (fun c : Ocon PkeyKey =>
                if low = c.key.low ∧ high = c.key.high ∧ c.key.subnet = subnetOf w then true
                else decide (c.key.low ≤ low) && decide (c.key.high ≥ high) && (c.key.subnet == subnetOf w))
              (entry ⟨subnetOf w, low, high⟩ ctx) db.ob.ibpkey)

/-- `define_ibendport_context`, policy_define.c:5338-5416; `IB_DEVICE_NAME_MAX` is 64. -/
def defineIbendport (cfg : Cfg) (dev : Str) (port : Nat) (c : Option Context) (db : Db) : Res :=
  if cfg.xen then .error db none
  else if port > 0xff ∨ port = 0 then .error db none
  else if dev.length > 63 then .error db none
  else match c with
    | none => .error db none
    | some ctx =>
      done db (fun l => { db with ob := { db.ob with ibendport := l } })
        (addLast (fun c : Ocon (Str × Nat) => (port == c.key.2) && (strcmp c.key.1 dev == 0)) (entry (dev, port) ctx)
          db.ob.ibendport)

/-- `define_netif_context`, policy_define.c:5418-5474. -/
def defineNetif (cfg : Cfg) (name : Str) (c0 c1 : Option Context) (db : Db) : Res :=
  if cfg.xen then .error db none
  else match c0, c1 with
    | some c0, some c1 =>
      done db (fun l => { db with ob := { db.ob with netif := l } })
        (addFirst (fun c => strcmp name c.key == 0) (entry name c0 c1) db.ob.netif)
    | _, _ => .error db none

/-- `insert_ipv4_node`, policy_define.c:5476-5506: addresses and masks are compared as they are stored. -/
def insertIpv4 (addr mask : BitVec 32) (ctx : Context) (db : Db) : Res :=
  done db (fun l => { db with ob := { db.ob with node := l } })
    (insertNode (fun c : Ocon (BitVec 32 × BitVec 32) => (mask == c.key.2) && (addr == c.key.1))
      (fun c => decide (mask > c.key.2)) (entry (addr, mask) ctx) db.ob.node)

/-- `define_ipv4_node_context`, policy_define.c:5509-5581 (without the warnings). -/
def defineNode (cfg : Cfg) (addr mask : Option (BitVec 32)) (c : Option Context) (db : Db) : Res :=
  if cfg.xen then .error db none
  else match addr, mask, c with
    | some a, some m, some ctx => insertIpv4 (stored cfg a) (stored cfg m) ctx db
    | _, _, _ => .error db none

/-- `~((UINT32_C(1) << (32 - bits)) - 1)` for 0 < `bits` ≤ 32, policy_define.c:5635, 5706. -/
def maskBits (bits : Nat) : BitVec 32 := ~~~((1#32 <<< (32 - bits)) - 1#32)

/-- `define_ipv4_cidr_node_context`, policy_define.c:5583-5660 (without the warnings). -/
def defineNodeCidr (cfg : Cfg) (addr : Option (BitVec 32)) (bits : Nat) (c : Option Context) (db : Db) : Res :=
  if cfg.xen then .error db none
  else match addr with
    | none => .error db none
    | some a =>
      if bits > 32 then .error db none
      else
        let mask := if bits = 0 then 0 else stored cfg (maskBits bits)
        match c with
        | none => .error db none
        | some ctx => insertIpv4 (stored cfg a &&& mask) mask ctx db

/-- `memcmp(a, b, 16)` of two stored addresses: the first byte that differs decides, i.e. the first word that differs, most
significant byte first. -/
def memcmp6 (cfg : Cfg) (a b : Words) : Int :=
  let cmp (x y : BitVec 32) : Int :=
    if (stored cfg x).toNat < (stored cfg y).toNat then -1 else if (stored cfg y).toNat < (stored cfg x).toNat then 1 else 0
  if cmp a.w0 b.w0 ≠ 0 then cmp a.w0 b.w0
  else if cmp a.w1 b.w1 ≠ 0 then cmp a.w1 b.w1
  else if cmp a.w2 b.w2 ≠ 0 then cmp a.w2 b.w2
  else cmp a.w3 b.w3

/-- `insert_ipv6_node`, policy_define.c:5724-5755. -/
def insertIpv6 (cfg : Cfg) (addr mask : Words) (ctx : Context) (db : Db) : Res :=
  done db (fun l => { db with ob := { db.ob with node6 := l } })
    (insertNode (fun c : Ocon (Words × Words) => (memcmp6 cfg mask c.key.2 == 0) && (memcmp6 cfg addr c.key.1 == 0))
      (fun c => decide (memcmp6 cfg mask c.key.2 > 0)) (entry (addr, mask) ctx) db.ob.node6)

/-- `define_ipv6_node_context`, policy_define.c:5757-5830 (without the warnings). -/
def defineNode6 (cfg : Cfg) (addr mask : Option Words) (c : Option Context) (db : Db) : Res :=
  if cfg.xen then .error db none
  else match addr, mask, c with
    | some a, some m, some ctx => insertIpv6 cfg (stored6 cfg a) (stored6 cfg m) ctx db
    | _, _, _ => .error db none

/-- A word of `ipv6_cidr_bits_to_mask`, policy_define.c:5700-5707. -/
def maskWord (cfg : Cfg) (bits : Nat) : BitVec 32 :=
  if bits = 0 then 0 else if bits ≥ 32 then ~~~0#32 else stored cfg (maskBits bits)

/-- What is left of the bits for the next word, policy_define.c:5709-5712. -/
def bitsLeft (bits : Nat) : Nat := if bits ≥ 32 then bits - 32 else 0

/-- `ipv6_cidr_bits_to_mask`, policy_define.c:5695-5714. -/
def maskWords (cfg : Cfg) (bits : Nat) : Words :=
  ⟨maskWord cfg bits, maskWord cfg (bitsLeft bits), maskWord cfg (bitsLeft (bitsLeft bits)),
    maskWord cfg (bitsLeft (bitsLeft (bitsLeft bits)))⟩

/-- `ipv6_apply_mask`, policy_define.c:5716-5722. -/
def applyMask (a m : Words) : Words := ⟨a.w0 &&& m.w0, a.w1 &&& m.w1, a.w2 &&& m.w2, a.w3 &&& m.w3⟩

/-- `define_ipv6_cidr_node_context`, policy_define.c:5832-5908 (without the warnings). -/
def defineNode6Cidr (cfg : Cfg) (addr : Option Words) (bits : Nat) (c : Option Context) (db : Db) : Res :=
  if cfg.xen then .error db none
  else match addr with
    | none => .error db none
    | some a =>
      if bits > 128 then .error db none
      else match c with
        | none => .error db none
        | some ctx => insertIpv6 cfg (applyMask (stored6 cfg a) (maskWords cfg bits)) (maskWords cfg bits) ctx db

/-- `define_fs_use`, policy_define.c:5910-5960. -/
def defineFsUse (cfg : Cfg) (behavior : Nat) (fstype : Str) (c : Option Context) (db : Db) : Res :=
  if cfg.xen then .error db none
  else match c with
    | none => .error db none
    | some ctx =>
      done db (fun l => { db with ob := { db.ob with fsuse := l } })
        (addFirst (fun c : Ocon (Str × Nat) => strcmp fstype c.key.1 == 0) (entry (fstype, behavior) ctx) db.ob.fsuse)

abbrev Genfs := List (Str × List (Ocon (Str × Nat)))

/-- The list element of a file system type, made if there is none, policy_define.c:5985-6007; the flag tells whether it is
new. -/
def place (fstype : Str) : Genfs → Genfs × Bool
  | [] => ([(fstype, [])], true)
  | g :: l =>
    if strcmp fstype g.1 ≤ 0 then
      if strcmp fstype g.1 ≠ 0 then ((fstype, []) :: g :: l, true) else (g :: l, false)
    else let r := place fstype l; (g :: r.1, r.2)

/-- `type` and the class it stands for, policy_define.c:6024-6050. -/
def className (type : Str) : Option Str :=
  match type with
  | ['b'] => some (str "blk_file")
  | ['c'] => some (str "chr_file")
  | ['d'] => some (str "dir")
  | ['p'] => some (str "fifo_file")
  | ['l'] => some (str "lnk_file")
  | ['s'] => some (str "sock_file")
  | ['-'] => some (str "file")
  | _ => none

/-- `newc->v.sclass`, policy_define.c:6016-6062: 0 without a type. -/
def classValue (cfg : Cfg) : Option Str → Option Nat
  | none => some 0
  | some t => (className t).bind cfg.classOf

/-- The loop over the entries of a file system type, policy_define.c:6069-6087. -/
def insertGen (n : Ocon (Str × Nat)) : List (Ocon (Str × Nat)) → Option (List (Ocon (Str × Nat)))
  | [] => some [n]
  | c :: l =>
    if strcmp n.key.1 c.key.1 = 0 ∧ (n.key.2 = 0 ∨ c.key.2 = 0 ∨ n.key.2 = c.key.2) then none
    else if n.key.1.length > c.key.1.length then some (n :: c :: l)
    else (insertGen n l).map (c :: ·)

/-- The new entry is put into the element found by `place`. -/
def insertAt (fstype : Str) (n : Ocon (Str × Nat)) : Genfs → Option Genfs
  | [] => none
  | g :: l =>
    if g.1 = fstype then (insertGen n g.2).map (fun es => (g.1, es) :: l)
    else (insertAt fstype n l).map (g :: ·)

/-- `define_genfs_context_helper`, policy_define.c:5962-6100.  At `fail` the name of the file system type is freed unless
the list had it before. -/
def defineGenfs (cfg : Cfg) (fstype path : Str) (type : Option Str) (c : Option Context) (db : Db) : Res :=
  if cfg.xen then .error db none
  else
    let p := place fstype db.ob.genfs
    let fail := Res.error { db with ob := { db.ob with genfs := p.1 } } (if p.2 then some fstype else none)
    match classValue cfg type, c with
    | some cls, some ctx =>
      match insertAt fstype (entry (path, cls) ctx) p.1 with
      | none => fail
      | some g => .ok { db with ob := { db.ob with genfs := g } }
    | _, _ => fail

/-- The actions of policy_parse.y:684-794. -/
def define (cfg : Cfg) : Stmt → Db → Res
  | .fs a b c d => defineFs cfg a b c d
  | .port a b c d => definePort cfg a b c d
  | .ibpkey a b c d => defineIbpkey cfg a b c d
  | .ibendport a b c => defineIbendport cfg a b c
  | .netif a b c => defineNetif cfg a b c
  | .node a b c => defineNode cfg a b c
  | .nodeCidr a b c => defineNodeCidr cfg a b c
  | .node6 a b c => defineNode6 cfg a b c
  | .node6Cidr a b c => defineNode6Cidr cfg a b c
  | .fsUse a b c => defineFsUse cfg a b c
  | .genfs a b c d => defineGenfs cfg a b c d
  | .pirq a b => definePirq cfg a b
  | .iomem a b c => defineIomem cfg a b c
  | .ioport a b c => defineIoport cfg a b c
  | .pcidevice a b => definePcidevice cfg a b
  | .devicetree a b => defineDevicetree cfg a b

/-- The statements of a source, one after the other; the parser stops at the first error (`YYABORT`). -/
def run (cfg : Cfg) : List Stmt → Db → Res
  | [], db => .ok db
  | s :: l, db =>
    match define cfg s db with
    | .ok db => run cfg l db
    | r => r

/-- The policy at the start: no statement was seen (the class `dir` is looked up when the policy is loaded). -/
def start (dirClass : Nat) : Db := ⟨⟨[], [], [], [], [], [], [], [], [], dirClass⟩, [], [], [], [], []⟩

end Verif.ObjStmt
