import Verif.ObjStmt.Model
import Verif.Services.ObjectsSpec

/-!
# Specification of the object labelling statements

What a statement is for is said in terms of its operands only: names, numbers, and bits of addresses counted from the
first one.  Replies of the server and the contexts that SIDs stand for are those of `Verif.Services.ObjectsSpec`.
-/

namespace Verif.ObjStmt
open Verif.Policy Verif.Mls Verif.Services

/-- The context in a statement. -/
def Stmt.label : Stmt → Option Context
  | .fs _ _ c _ | .netif _ c _ | .port _ _ _ c | .ibpkey _ _ _ c | .ibendport _ _ c | .node _ _ c | .nodeCidr _ _ c
  | .node6 _ _ c | .node6Cidr _ _ c | .fsUse _ _ c | .genfs _ _ _ c | .pirq _ c | .iomem _ _ c | .ioport _ _ c
  | .pcidevice _ c | .devicetree _ c => c

/-- The second context of a statement that has two. -/
def Stmt.label2 : Stmt → Option Context
  | .fs _ _ _ c | .netif _ _ c => c
  | _ => none

/-- What `parse_security_context` returns is properly built. -/
def Stmt.WF (s : Stmt) : Prop := ∀ c, s.label = some c ∨ s.label2 = some c → WFRange c.range

/-- Numbers of protocols. -/
def ProtoName (id : Str) (p : Nat) : Prop :=
  (p = 6 ∧ (id = "tcp".toList ∨ id = "TCP".toList)) ∨ (p = 17 ∧ (id = "udp".toList ∨ id = "UDP".toList)) ∨
  (p = 33 ∧ (id = "dccp".toList ∨ id = "DCCP".toList)) ∨ (p = 132 ∧ (id = "sctp".toList ∨ id = "SCTP".toList))

/-- Bit `i` of an IPv6 address, 0 being the first one. -/
def bit6 (w : Words) (i : Nat) : Bool :=
  if i < 32 then w.w0.getMsbD i else if i < 64 then w.w1.getMsbD (i - 32)
  else if i < 96 then w.w2.getMsbD (i - 64) else w.w3.getMsbD (i - 96)

/-- A `portcon` for the port. -/
def ForPort (p n : Nat) : Stmt → Prop
  | .port id low high _ => ProtoName id p ∧ low ≤ n ∧ n ≤ high
  | _ => False

/-- An `ibpkeycon` for the key; the subnet is given by the first two words of its prefix. -/
def ForPkey (w0 w1 : BitVec 32) (n : Nat) : Stmt → Prop
  | .ibpkey (some w) low high _ => w.w0 = w0 ∧ w.w1 = w1 ∧ low ≤ n ∧ n ≤ high
  | _ => False

/-- An `ibendportcon` for the port of the device. -/
def ForEndport (dev : Str) (n : Nat) : Stmt → Prop
  | .ibendport d p _ => d = dev ∧ p = n
  | _ => False

/-- A `nodecon` for the IPv4 address: all bits of the mask agree, and bits outside the mask are not set in the statement. -/
def For4 (a : BitVec 32) : Stmt → Prop
  | .node (some n) (some m) _ => ∀ i < 32, n.getMsbD i = (a.getMsbD i && m.getMsbD i)
  | .nodeCidr (some n) k _ => ∀ i < k, a.getMsbD i = n.getMsbD i
  | _ => False

/-- The bits that an IPv4 `nodecon` looks at. -/
def Looks4 : Stmt → Nat → Prop
  | .node _ (some m) _, i => m.getMsbD i = true
  | .nodeCidr _ k _, i => i < k
  | _, _ => False

/-- The same for IPv6. -/
def For6 (a : Words) : Stmt → Prop
  | .node6 (some n) (some m) _ => ∀ i < 128, bit6 n i = (bit6 a i && bit6 m i)
  | .node6Cidr (some n) k _ => ∀ i < k, bit6 a i = bit6 n i
  | _ => False

def Looks6 : Stmt → Nat → Prop
  | .node6 _ (some m) _, i => i < 128 ∧ bit6 m i = true
  | .node6Cidr _ k _, i => i < k
  | _, _ => False

/-- `t` looks at everything that `s` looks at, and at more. -/
def More (looks : Stmt → Nat → Prop) (t s : Stmt) : Prop := (∀ i, looks s i → looks t i) ∧ ∃ i, looks t i ∧ ¬ looks s i

/-- Types of files and their classes. -/
def TypeClass (type cls : Str) : Prop :=
  (type = ['b'] ∧ cls = "blk_file".toList) ∨ (type = ['c'] ∧ cls = "chr_file".toList) ∨ (type = ['d'] ∧ cls = "dir".toList) ∨
  (type = ['p'] ∧ cls = "fifo_file".toList) ∨ (type = ['l'] ∧ cls = "lnk_file".toList) ∨
  (type = ['s'] ∧ cls = "sock_file".toList) ∨ (type = ['-'] ∧ cls = "file".toList)

/-- A `genfscon` for the path of a file of class `cls` on the file system. -/
def ForFile (cfg : Cfg) (fs path : Str) (cls : Nat) : Stmt → Prop
  | .genfs f p t _ => f = fs ∧ p <+: path ∧ (t = none ∨ ∃ t' n, t = some t' ∧ TypeClass t' n ∧ cfg.classOf n = some cls)
  | _ => False

def Stmt.pathLength : Stmt → Nat
  | .genfs _ p _ _ => p.length
  | _ => 0

/-- `s` is the first statement with `P`. -/
def FirstStmt (ss : List Stmt) (P : Stmt → Prop) (s : Stmt) : Prop :=
  ∃ before after, ss = before ++ s :: after ∧ P s ∧ ∀ x ∈ before, ¬ P x

/-- `s` has `P`, and no statement with `P` is better. -/
def BestStmt (ss : List Stmt) (P : Stmt → Prop) (better : Stmt → Stmt → Prop) (s : Stmt) : Prop :=
  s ∈ ss ∧ P s ∧ ∀ t ∈ ss, P t → ¬ better t s

/-- The server answers with the context of the chosen statement; with `none` if no statement is for the object; an
error is reported only if no SID is left. -/
def Answers (ss : List Stmt) (P chosen : Stmt → Prop) (none : Reply) (after : OState) (r : Reply) : Prop :=
  (∃ s c x, chosen s ∧ s.label = some c ∧ r = .sids [x] ∧ StandsFor after x c) ∨
  ((∀ s ∈ ss, ¬ P s) ∧ r = none) ∨
  ((∃ s ∈ ss, P s) ∧ r = .noSid ∧ Full after)

/-- The same for statements with two contexts. -/
def Answers2 (ss : List Stmt) (P : Stmt → Prop) (none : Reply) (after : OState) (r : Reply) : Prop :=
  (∃ s ∈ ss, ∃ c d x y, P s ∧ s.label = some c ∧ s.label2 = some d ∧ r = .sids [x, y] ∧ StandsFor after x c ∧
    StandsFor after y d) ∨
  ((∀ s ∈ ss, ¬ P s) ∧ r = none) ∨
  ((∃ s ∈ ss, P s) ∧ r = .noSid ∧ Full after)

def ForNetif (name : Str) : Stmt → Prop
  | .netif n _ _ => n = name
  | _ => False

def ForFs (fs : Str) : Stmt → Prop
  | .fsUse _ f _ => f = fs
  | _ => False

/-- Two hexadecimal digits. -/
def twoHex (n : Nat) : Str := ["0123456789abcdef".toList.getD (n / 16) '?', "0123456789abcdef".toList.getD (n % 16) '?']

/-- An `fscon` for the device. -/
def ForDevice (major minor : Nat) : Stmt → Prop
  | .fs a b _ _ => a = major ∧ b = minor
  | _ => False

/-! ## Which statements are accepted -/

/-- Numbers that fit where they are stored. -/
def Stmt.Fits : Stmt → Prop
  | .port _ low high _ => low < 2 ^ 16 ∧ high < 2 ^ 16
  | .pirq n _ => n < 2 ^ 16
  | .fs a b _ _ => a < 2 ^ 8 ∧ b < 2 ^ 8
  | _ => True

/-- The classes of a policy have numbers from 1 on, all different. -/
structure Cfg.WF (cfg : Cfg) : Prop where
  pos : ∀ n v, cfg.classOf n = some v → v ≠ 0
  inj : ∀ n n' v, cfg.classOf n = some v → cfg.classOf n' = some v → n = n'

/-- A statement that is right by itself. -/
def Legal (cfg : Cfg) : Stmt → Prop
  | .fs _ _ c d => cfg.xen = false ∧ c ≠ none ∧ d ≠ none
  | .port id low high c => cfg.xen = false ∧ (∃ p, ProtoName id p) ∧ low ≤ high ∧ c ≠ none
  | .ibpkey w low high c =>
    cfg.xen = false ∧ (∃ v, w = some v ∧ v.w2 = 0 ∧ v.w3 = 0) ∧ low ≤ high ∧ high < 2 ^ 16 ∧ c ≠ none
  | .ibendport d n c => cfg.xen = false ∧ d.length < 64 ∧ 0 < n ∧ n < 2 ^ 8 ∧ c ≠ none
  | .netif _ c d => cfg.xen = false ∧ c ≠ none ∧ d ≠ none
  | .node n m c => cfg.xen = false ∧ n ≠ none ∧ m ≠ none ∧ c ≠ none
  | .nodeCidr n k c => cfg.xen = false ∧ n ≠ none ∧ k ≤ 32 ∧ c ≠ none
  | .node6 n m c => cfg.xen = false ∧ n ≠ none ∧ m ≠ none ∧ c ≠ none
  | .node6Cidr n k c => cfg.xen = false ∧ n ≠ none ∧ k ≤ 128 ∧ c ≠ none
  | .fsUse _ _ c => cfg.xen = false ∧ c ≠ none
  | .genfs _ _ t c => cfg.xen = false ∧ (∀ t', t = some t' → ∃ n v, TypeClass t' n ∧ cfg.classOf n = some v) ∧ c ≠ none
  | .pirq _ c => cfg.xen = true ∧ c ≠ none
  | .iomem low high c => cfg.xen = true ∧ low ≤ high ∧ c ≠ none
  | .ioport low high c => cfg.xen = true ∧ low ≤ high ∧ c ≠ none
  | .pcidevice _ c => cfg.xen = true ∧ c ≠ none
  | .devicetree _ c => cfg.xen = true ∧ c ≠ none

/-- The bits of the network of an IPv4 `nodecon`. -/
def Net4 : Stmt → Nat → Bool
  | .node (some n) _ _, i => n.getMsbD i
  | .nodeCidr (some n) k _, i => decide (i < k) && n.getMsbD i
  | _, _ => false

def Net6 : Stmt → Nat → Bool
  | .node6 (some n) _ _, i => bit6 n i
  | .node6Cidr (some n) k _, i => decide (i < k) && bit6 n i
  | _, _ => false

def Stmt.is4 : Stmt → Bool
  | .node _ _ _ | .nodeCidr _ _ _ => true
  | _ => false

def Stmt.is6 : Stmt → Bool
  | .node6 _ _ _ | .node6Cidr _ _ _ => true
  | _ => false

/-- The second statement is refused because of the first one: it is for the same thing, for a part of the same range
(ports and keys), for something that overlaps (Xen), or for the same network. -/
def Clash (s t : Stmt) : Prop :=
  match s, t with
  | .fs a b _ _, .fs a' b' _ _ => a = a' ∧ b = b'
  | .port id low high _, .port id' low' high' _ => (∃ p, ProtoName id p ∧ ProtoName id' p) ∧ low ≤ low' ∧ high' ≤ high
  | .ibpkey w low high _, .ibpkey w' low' high' _ => w = w' ∧ low ≤ low' ∧ high' ≤ high
  | .ibendport d n _, .ibendport d' n' _ => d = d' ∧ n = n'
  | .netif n _ _, .netif n' _ _ => n = n'
  | .fsUse _ f _, .fsUse _ f' _ => f = f'
  | .genfs f p t _, .genfs f' p' t' _ => f = f' ∧ p = p' ∧ (t = none ∨ t' = none ∨ t = t')
  | .pirq n _, .pirq n' _ => n = n'
  | .iomem low high _, .iomem low' high' _ => ∃ x, low ≤ x ∧ x ≤ high ∧ low' ≤ x ∧ x ≤ high'
  | .ioport low high _, .ioport low' high' _ => ∃ x, low ≤ x ∧ x ≤ high ∧ low' ≤ x ∧ x ≤ high'
  | .pcidevice n _, .pcidevice n' _ => n = n'
  | .devicetree p _, .devicetree p' _ => p = p'
  | s, t =>
    (s.is4 = true ∧ t.is4 = true ∧ (∀ i, Looks4 s i ↔ Looks4 t i) ∧ ∀ i, Net4 s i = Net4 t i) ∨
    (s.is6 = true ∧ t.is6 = true ∧ (∀ i, Looks6 s i ↔ Looks6 t i) ∧ ∀ i < 128, Net6 s i = Net6 t i)

end Verif.ObjStmt
