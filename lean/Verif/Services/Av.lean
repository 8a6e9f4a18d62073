import Verif.Services.Constraint
import Verif.Avtab.Model
import Verif.Sidtab.Model

/-!
# Model of access decisions

libsepol/src/services.c:844-1157, libsepol/src/conditional.c:861-887.

`none` as outer result is undefined behaviour (index out of bounds, NULL datum) or exhausted
recursion fuel; `some none` is the return code -EINVAL.
-/

namespace Verif.Services
open Verif.Policy Verif.Mls

/-- The parts of `class_datum_t` used at run time, policydb.h:113-132. -/
structure ClassInfo where
  constraints : List Constraint
  validatetrans : List Constraint

/-- The parts of `policydb_t` used by access decisions, policydb.h:470-600. -/
structure SPolicy where
  pol : Policy
  nClasses : Nat
  /-- `class_val_to_struct` by index -/
  classes : Nat → Option ClassInfo
  /-- `type_attr_map` by index; `none` outside the array -/
  typeAttr : Nat → Option Ebitmap.Ebitmap
  /-- `type_val_to_struct` by index -/
  typeStruct : Nat → Option TypeDatum
  te : Avtab.Avtab
  cond : Avtab.Avtab
  processClass : Nat
  transDyntrans : BitVec 32
  roleAllow : List (Nat × Nat)

/-- `struct sepol_av_decision`, flask_types.h (without `decided` and `seqno`, which are
constant). -/
structure Avd where
  allowed : BitVec 32
  auditallow : BitVec 32
  auditdeny : BitVec 32
deriving DecidableEq, Repr

/-! services.h:  reasons -/
def REASON_TE : BitVec 32 := 1#32
def REASON_CONS : BitVec 32 := 2#32
def REASON_RBAC : BitVec 32 := 4#32
def REASON_BOUNDS : BitVec 32 := 8#32

/-- One node of the unconditional table, services.c:957-965. -/
def teNode (a : Avd) (n : Avtab.Node) : Avd :=
  if n.key.specified = Avtab.ALLOWED then { a with allowed := a.allowed ||| n.datum.data }
  else if n.key.specified = Avtab.AUDITALLOW then { a with auditallow := a.auditallow ||| n.datum.data }
  else if n.key.specified = Avtab.AUDITDENY then { a with auditdeny := a.auditdeny &&& n.datum.data }
  else a

/-- The test `(kind | ENABLED) == (specified & (kind | ENABLED))`, conditional.c:871-884. -/
def enabledKind (kind : BitVec 16) (n : Avtab.Node) : Bool :=
  (kind ||| Avtab.ENABLED) == (n.key.specified &&& (kind ||| Avtab.ENABLED))

/-- One node of the conditional table, `cond_compute_av`, conditional.c:861-887. -/
def condNode (a : Avd) (n : Avtab.Node) : Avd :=
  let a := if enabledKind Avtab.ALLOWED n then { a with allowed := a.allowed ||| n.datum.data } else a
  let a := if enabledKind Avtab.AUDITDENY n then { a with auditdeny := a.auditdeny &&& n.datum.data } else a
  if enabledKind Avtab.AUDITALLOW n then { a with auditallow := a.auditallow ||| n.datum.data } else a

/-- The key of one attribute pair, services.c:942-949; the fields are `uint16_t`. -/
def avKey (cls i j : Nat) : Avtab.Key := ⟨(i + 1) % 2 ^ 16, (j + 1) % 2 ^ 16, cls, Avtab.AV⟩

/-- Body of the double loop, services.c:948-969. -/
def pairPass (p : SPolicy) (cls : Nat) (a : Avd) (i j : Nat) : Avd :=
  (Avtab.enumerate p.cond (avKey cls i j)).foldl condNode ((Avtab.enumerate p.te (avKey cls i j)).foldl teNode a)

/-- The double loop, services.c:946-971. -/
def tePass (p : SPolicy) (cls : Nat) (sbits tbits : List Nat) : Avd :=
  sbits.foldl (fun a i => tbits.foldl (fun a j => pairPass p cls a i j) a) ⟨0#32, 0#32, BitVec.allOnes 32⟩

/-- The constraint loop, services.c:983-993. -/
def consPass (p : SPolicy) (s t : Context) : List Constraint → BitVec 32 → Option (BitVec 32)
  | [], allowed => some allowed
  | c :: l, allowed =>
    if c.perms &&& allowed = 0#32 then consPass p s t l allowed
    else match constraintEval p.pol s t none c with
      | none => none
      | some rc => consPass p s t l (if rc = 0 then allowed &&& ~~~ c.perms else allowed)

/-- The role allow check, services.c:1006-1018. -/
def roleAllowPass (p : SPolicy) (s t : Context) (cls : Nat) (allowed : BitVec 32) : BitVec 32 :=
  if cls = p.processClass ∧ allowed &&& p.transDyntrans ≠ 0#32 ∧ s.role ≠ t.role then
    if p.roleAllow.any (fun ra => s.role == ra.1 && t.role == ra.2) then allowed
    else allowed &&& ~~~ p.transDyntrans
  else allowed

/-- The pair of statements after each stage, services.c:973-977, 995-999, 1020-1024. -/
def note (flag : BitVec 32) (r : BitVec 32 × BitVec 32) (allowed : BitVec 32) : BitVec 32 × BitVec 32 :=
  if r.1 &&& ~~~ allowed ≠ 0#32 then (r.1 &&& allowed, r.2 ||| flag) else r

/-- `context_struct_compute_av` with `type_attribute_bounds_av` inlined, services.c:850-1026.
`fuel` bounds the recursion through type bounds. -/
def computeAv : Nat → SPolicy → Context → Context → Nat → BitVec 32 → Option (Option (Avd × BitVec 32))
  | 0, _, _, _, _, _ => none
  | fuel + 1, p, s, t, cls, requested =>
    if cls = 0 ∨ cls > p.nClasses then some none
    else
      (p.typeAttr (pred32 s.type)).bind fun sattr =>
      (p.typeAttr (pred32 t.type)).bind fun tattr =>
      (Ebitmap.forEachPositiveBit (sattr.highbit + 1) sattr).bind fun sbits =>
      (Ebitmap.forEachPositiveBit (tattr.highbit + 1) tattr).bind fun tbits =>
      let a := tePass p cls sbits tbits
      let r := note REASON_TE (requested, 0#32) a.allowed
      (p.classes (cls - 1)).bind fun ci =>
      (consPass p s t ci.constraints a.allowed).bind fun allowed =>
      let r := note REASON_CONS r allowed
      let allowed := roleAllowPass p s t cls allowed
      let r := note REASON_RBAC r allowed
      -- type_attribute_bounds_av
      (p.typeStruct (pred32 s.type)).bind fun source =>
      if source.bounds = 0 then some (some (⟨allowed, a.auditallow, a.auditdeny⟩, r.2))
      else
        (p.typeStruct (pred32 t.type)).bind fun target =>
        (computeAv fuel p { s with type := source.bounds }
          (if target.bounds ≠ 0 then { t with type := target.bounds } else t) cls r.1).bind fun lo =>
        let loAllowed := match lo with | some (lo, _) => lo.allowed | none => 0#32
        let masked := ~~~ loAllowed &&& allowed
        if masked = 0#32 then some (some (⟨allowed, a.auditallow, a.auditdeny⟩, r.2))
        else some (some (⟨allowed &&& ~~~ masked, a.auditallow, a.auditdeny⟩, r.2 ||| REASON_BOUNDS))

/-- `sepol_compute_av_reason`, services.c:1091-1118. -/
def computeAvSid (fuel : Nat) (p : SPolicy) (st : Sidtab.Sidtab) (ssid tsid cls : Nat) (requested : BitVec 32) :
    Option (Option (Avd × BitVec 32)) :=
  match Sidtab.search st ssid with
  | none => some none
  | some s =>
    match Sidtab.search st tsid with
    | none => some none
    | some t => computeAv fuel p s t cls requested

/-- The loop of `sepol_validate_transition_reason_buffer`, services.c:1079-1086: `some true` is 0,
`some false` is -EPERM. -/
def validateTransLoop (p : SPolicy) (o n t : Context) : List Constraint → Option Bool
  | [] => some true
  | c :: l =>
    match constraintEval p.pol o n (some t) c with
    | none => none
    | some rc => if rc = 0 then some false else validateTransLoop p o n t l

/-- `sepol_validate_transition_reason_buffer`, services.c:1032-1088, after SID lookup:
`some none` is -EINVAL. -/
def validateTransition (p : SPolicy) (o n t : Context) (cls : Nat) : Option (Option Bool) :=
  if cls = 0 ∨ cls > p.nClasses then some none
  else
    match p.classes (cls - 1) with
    | none => none
    | some ci => (validateTransLoop p o n t ci.validatetrans).map some

end Verif.Services
