import Verif.Services.Av

/-!
# Model of the computation of labels for new objects

libsepol/src/services.c:1320-1520, libsepol/src/mls.c:453-507, 603-665.

The outcome `none` is undefined behaviour, `some none` a negative return code.  `range_tr` is a hash
table keyed by source type, target type and class (property C24 covers the table itself).
-/

namespace Verif.Services
open Verif.Policy Verif.Mls

/-- The default rules of `class_datum_t`, policydb.h:119-134; 0 is "unset". -/
structure Defaults where
  user : Nat
  role : Nat
  type : Nat
  range : Nat

/-- `role_trans_t`, policydb.h:150-156. -/
structure RoleTrans where
  role : Nat
  type : Nat
  cls : Nat
  newRole : Nat

/-- The parts of `policydb_t` used to label new objects. -/
structure LPolicy extends SPolicy where
  /-- defaults of `class_val_to_struct[i]`, `none` for a NULL entry -/
  defaults : Nat → Option Defaults
  roleTr : List RoleTrans
  rangeTr : Nat → Nat → Nat → Option Range

/-- The three callers of `sepol_compute_sid`, services.c:1484-1530. -/
inductive Kind
  | transition
  | change
  | member
deriving DecidableEq, Repr

/-- The value of `specified`. -/
def Kind.code : Kind → BitVec 16
  | .transition => Avtab.TRANSITION
  | .change => Avtab.CHANGE
  | .member => Avtab.MEMBER

/-! policydb.h:121-133 -/
def DEFAULT_SOURCE : Nat := 1
def DEFAULT_TARGET : Nat := 2
def DEFAULT_SOURCE_LOW : Nat := 1
def DEFAULT_SOURCE_HIGH : Nat := 2
def DEFAULT_SOURCE_LOW_HIGH : Nat := 3
def DEFAULT_TARGET_LOW : Nat := 4
def DEFAULT_TARGET_HIGH : Nat := 5
def DEFAULT_TARGET_LOW_HIGH : Nat := 6
def DEFAULT_GLBLUB : Nat := 7

/-- `cladatum`, services.c:1375-1376 and mls.c:627-631. -/
def classDefaults (p : LPolicy) (cls : Nat) : Option Defaults :=
  if cls ≠ 0 ∧ cls ≤ p.nClasses then p.defaults (cls - 1) else none

/-- The user identity, services.c:1381-1396. -/
def newUser (p : LPolicy) (s t : Context) (cls : Nat) : Kind → Nat
  | .member => t.user
  | _ =>
    match classDefaults p cls with
    | some d => if d.user = DEFAULT_TARGET then t.user else s.user
    | none => s.user

/-- The default role, services.c:1399-1408. -/
def defaultRole (p : LPolicy) (s t : Context) (cls : Nat) : Nat :=
  let unset := if cls = p.processClass then s.role else OBJECT_R_VAL
  match classDefaults p cls with
  | some d => if d.role = DEFAULT_SOURCE then s.role else if d.role = DEFAULT_TARGET then t.role else unset
  | none => unset

/-- The default type, services.c:1411-1424. -/
def defaultType (p : LPolicy) (s t : Context) (cls : Nat) : Nat :=
  let unset := if cls = p.processClass then s.type else t.type
  match classDefaults p cls with
  | some d => if d.type = DEFAULT_SOURCE then s.type else if d.type = DEFAULT_TARGET then t.type else unset
  | none => unset

/-- The rule lookup, services.c:1427-1444: the unconditional rule, otherwise the first enabled
conditional one.  The key fields are `uint16_t`. -/
def typeRule (p : LPolicy) (s t : Context) (cls : Nat) (k : Kind) : Option Avtab.Datum :=
  let key : Avtab.Key := ⟨s.type % 2 ^ 16, t.type % 2 ^ 16, cls, k.code⟩
  match Avtab.search p.te key with
  | some d => some d
  | none =>
    ((Avtab.enumerate p.cond key).find? (fun n => n.key.specified &&& Avtab.ENABLED != 0#16)).map (·.datum)

/-- The type, services.c:1446-1449. -/
def newType (p : LPolicy) (s t : Context) (cls : Nat) (k : Kind) : Nat :=
  match typeRule p s t cls k with
  | some d => d.data.toNat
  | none => defaultType p s t cls

/-- The role, services.c:1452-1464. -/
def newRole (p : LPolicy) (s t : Context) (cls : Nat) : Kind → Nat
  | .transition =>
    match p.roleTr.find? (fun r => r.role == s.role && r.type == t.type && r.cls == cls) with
    | some r => r.newRole
    | none => defaultRole p s t cls
  | _ => defaultRole p s t cls

/-- `mls_context_cpy_low`, context.h:52-71: both levels of the result are the low level. -/
def rangeLow (r : Range) : Range := ⟨levelCpy r.low, levelCpy r.low⟩

/-- `mls_context_cpy_high`, context.h:73-92. -/
def rangeHigh (r : Range) : Range := ⟨levelCpy r.high, levelCpy r.high⟩

/-- The case AVTAB_CHANGE, mls.c:651-657. -/
def changeRange (p : LPolicy) (s : Context) (cls : Nat) : Range :=
  if cls = p.processClass then rangeCpy s.range else rangeLow s.range

/-- `default_range`, mls.c:613 and 627-631. -/
def defaultRange (p : LPolicy) (cls : Nat) : Nat :=
  match classDefaults p cls with
  | some d => d.range
  | none => 0

/-- `mls_compute_sid`, mls.c:603-665: `none` is an error return. -/
def mlsComputeSid (p : LPolicy) (s t : Context) (cls : Nat) (k : Kind) : Option Range :=
  if p.pol.mls = false then some emptyRange
  else match k with
    | .transition =>
      match p.rangeTr s.type t.type cls with
      | some r => some (rangeCpy r)
      | none =>
        let dr := defaultRange p cls
        if dr = DEFAULT_SOURCE_LOW then some (rangeLow s.range)
        else if dr = DEFAULT_SOURCE_HIGH then some (rangeHigh s.range)
        else if dr = DEFAULT_SOURCE_LOW_HIGH then some (rangeCpy s.range)
        else if dr = DEFAULT_TARGET_LOW then some (rangeLow t.range)
        else if dr = DEFAULT_TARGET_HIGH then some (rangeHigh t.range)
        else if dr = DEFAULT_TARGET_LOW_HIGH then some (rangeCpy t.range)
        else if dr = DEFAULT_GLBLUB then rangeGlblub s.range t.range
        else some (changeRange p s cls)
    | .change => some (changeRange p s cls)
    | .member => some (rangeLow s.range)

/-- The new context, services.c:1378-1470. -/
def newContext (p : LPolicy) (s t : Context) (cls : Nat) (k : Kind) : Option Context :=
  (mlsComputeSid p s t cls k).map fun r =>
    ⟨newUser p s t cls k, newRole p s t cls k, newType p s t cls k, r⟩

/-- `compute_sid_handle_invalid_context`, services.c:1320-1346: in permissive mode the three contexts and the
name of the class are printed; a value without a name is an access outside an array.  `some true` is
the return value 0. -/
def handleInvalid (enforcing : Bool) (p : LPolicy) (s t n : Context) (cls : Nat) : Option Bool :=
  if enforcing then some false
  else
    (contextToString p.pol s).bind fun _ =>
    (contextToString p.pol t).bind fun _ =>
    (contextToString p.pol n).bind fun _ =>
    if cls = 0 ∨ cls > p.nClasses then none else some true

/-- `sepol_compute_sid`, services.c:1348-1482: the new SID table and SID. -/
def computeSid (enforcing : Bool) (p : LPolicy) (st : Sidtab.Sidtab) (ssid tsid cls : Nat) (k : Kind) :
    Option (Option (Sidtab.Sidtab × Nat)) :=
  match Sidtab.search st ssid with
  | none => some none
  | some s =>
    match Sidtab.search st tsid with
    | none => some none
    | some t =>
      match newContext p s t cls k with
      | none => some none
      | some n =>
        if isValid p.pol n then some (Sidtab.contextToSid st n)
        else match handleInvalid enforcing p s t n cls with
          | none => none
          | some false => some none
          | some true => some (Sidtab.contextToSid st n)

end Verif.Services
