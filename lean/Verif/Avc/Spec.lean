import Verif.Avc.Model

/-!
# Specification vocabulary for the access vector cache

A history is a list of operations, the oldest first.  Every operation carries the answers the
kernel would give at that moment.  The specification below speaks about histories only: it
does not mention the cache.
-/

namespace Verif.Avc

/-- One operation of a history. -/
inductive Op where
  /-- `avc_has_perm_noaudit` with the caller's entry reference and the kernel's answer -/
  | check (k : Key) (req : AV) (aeref : Option Nat) (srv : Srv)
  /-- `avc_compute_create` with the kernel's answers -/
  | create (k : Key) (srv : Srv) (new : Option Sid)
  /-- `avc_reset` -/
  | reset
  /-- a notification that the kernel's mode changed -/
  | setenforce (enf : Bool)
  /-- a notification that a policy was loaded -/
  | policyload (seqno : Nat)
  /-- `avc_ss_grant`, `avc_ss_revoke`, `avc_ss_try_revoke`, `avc_ss_set_audit*` -/
  | control (ev : Event) (k : Key) (perms : AV) (seqno : Nat) (cbs : List Callback)

/-- Executing one operation (only its effect on the cache). -/
def step (s : Cache) : Op → Cache
  | Op.check k req aeref srv => (hasPerm s k req aeref srv).cache
  | Op.create k srv new => (computeCreate s k srv new).1
  | Op.reset => reset s
  | Op.setenforce enf => processSetenforce s enf
  | Op.policyload n => processPolicyload s n
  | Op.control ev k perms seqno cbs => (control s ev k perms seqno cbs).1

/-- Executing a history. -/
def run (s : Cache) (ops : List Op) : Cache := ops.foldl step s

/-- The API is called with security identifiers, not with NULL (except for the wildcards of
control events), and the SID table never returns NULL. -/
def Op.Valid : Op → Prop
  | Op.check k _ _ _ => k.ssid ≠ 0 ∧ k.tsid ≠ 0
  | Op.create k _ new => k.ssid ≠ 0 ∧ k.tsid ≠ 0 ∧ new ≠ some 0
  | _ => True

/-- The operations that empty the cache: resets, policy loads, and switches to enforcing mode
(which are ignored when the application fixed the mode, `ov`). -/
def Op.flushes (ov : Bool) : Op → Bool
  | Op.reset => true
  | Op.setenforce enf => enf && !ov
  | Op.policyload _ => true
  | _ => false

/-- `P` holds of an operation of the history that no flush followed. -/
def Since (ov : Bool) (ops : List Op) (P : Op → Prop) : Prop :=
  ∃ pre o post, ops = pre ++ o :: post ∧ P o ∧ ∀ o' ∈ post, o'.flushes ov = false

/-- During this operation the kernel's decision for `k` is `d`. -/
def Op.answers (k : Key) (d : Avd) : Op → Prop
  | Op.check k' _ _ srv => k' = k ∧ srv = Srv.ans d
  | Op.create k' srv _ => k' = k ∧ srv = Srv.ans d
  | _ => False

/-- During this operation the kernel computes the new context `c` for `k`. -/
def Op.creates (k : Key) (c : Sid) : Op → Prop
  | Op.create k' _ new => k' = k ∧ new = some c
  | _ => False

/-- A control event for `k'` concerns the decision for `k`. -/
def Covers (k' k : Key) : Prop :=
  (k'.ssid = 0 ∨ k'.ssid = k.ssid) ∧ (k'.tsid = 0 ∨ k'.tsid = k.tsid) ∧ k'.tclass = k.tclass

/-- This operation grants permission `p` of `k`. -/
def Op.grants (k : Key) (p : Nat) : Op → Prop
  | Op.control Event.grant k' perms _ _ => Covers k' k ∧ perms.getLsbD p = true
  | _ => False

/-- This operation revokes permission `p` of `k`. -/
def Op.revokes (k : Key) (p : Nat) : Op → Prop
  | Op.control Event.revoke k' perms _ _ => Covers k' k ∧ perms.getLsbD p = true
  | Op.control Event.tryRevoke k' perms _ _ => Covers k' k ∧ perms.getLsbD p = true
  | _ => False

/-- The sequence number an operation announces. -/
def Op.announces : Op → Nat
  | Op.policyload n => n
  | Op.control _ _ _ n _ => n
  | _ => 0

/-- The largest sequence number announced in a history. -/
def announced (ops : List Op) : Nat := ops.foldl (fun m o => max m o.announces) 0

/-- The kernel answered `d` for `k` since the last flush, and at that moment no larger
sequence number had been announced. -/
def Accepted (ov : Bool) (ops : List Op) (k : Key) (d : Avd) : Prop :=
  ∃ pre o post, ops = pre ++ o :: post ∧ o.answers k d ∧ announced pre ≤ d.seqno ∧
    ∀ o' ∈ post, o'.flushes ov = false

/-- Permission `p` of `k` was granted by a control event since the last flush. -/
def Granted (ov : Bool) (ops : List Op) (k : Key) (p : Nat) : Prop := Since ov ops (Op.grants k p)

/-- Permission `p` of `k` was revoked by a control event since the last flush. -/
def Revoked (ov : Bool) (ops : List Op) (k : Key) (p : Nat) : Prop := Since ov ops (Op.revokes k p)

/-- The decision is for a permissive domain. -/
def Avd.permissive (d : Avd) : Prop := d.flags &&& flagPermissive ≠ 0

/-- The entries in the cache, bucket by bucket. -/
def linked (s : Cache) : List Nat := (List.range nslots).flatMap s.slots

/-- The triple an entry is for. -/
def Entry.key (e : Entry) : Key := ⟨e.ssid, e.tsid, e.tclass⟩

end Verif.Avc
