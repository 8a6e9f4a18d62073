import Verif.Sidtab.Model

/-!
# Model of `sepol_load_policy`, libsepol/src/services.c:1520-1872

The parsed image is an argument (`none`: `policydb_read` fails); the active policy is
`mypolicydb`, the default.  A destroyed policy is `none`: using it is undefined.
`malloc` succeeds.
-/

namespace Verif.Sidtab
open Verif.Policy Verif.Mls

/-- `class_datum_t`, policydb.h:113-132 (fields compared on reload); permission tables as
association lists, `common` is `comdatum`. -/
structure ClassDatum where
  value : Nat
  common : Option (List (Str × Nat))
  perms : List (Str × Nat)
deriving DecidableEq

/-- A loaded policy. -/
structure Db where
  pol : Policy
  classes : List (Str × ClassDatum)

/-- `hashtab_map(.., validate_perm, ..)`, services.c:1526-1544: true is success. -/
def validatePerms (old new : List (Str × Nat)) : Bool :=
  old.all (fun kv => match new.lookup kv.1 with
    | none => false
    | some v => kv.2 == v)

/-- `validate_class`, services.c:1551-1591: true is success. -/
def validateClass (new : List (Str × ClassDatum)) (key : Str) (d : ClassDatum) : Bool :=
  match new.lookup key with
  | none => false
  | some d2 =>
    if d.value ≠ d2.value then false
    else if d.common.isSome ≠ d2.common.isSome then false
    else
      (match d.common, d2.common with
        | some c, some c2 => validatePerms c c2
        | _, _ => true) && validatePerms d.perms d2.perms

/-- `hashtab_map(policydb->p_classes.table, validate_class, &newpolicydb)`,
services.c:1832-1837. -/
def validateClasses (old new : Db) : Bool :=
  old.classes.all (fun kd => validateClass new.classes kd.1 kd.2)

/-- `convert_context`, services.c:1631-1696, `convert_context_handle_invalid_context`,
services.c:1602-1616; `none` is a non-zero return.  A NULL name (not dereferenced by valid
contexts) counts as not found. -/
def convertCtx (enforcing : Bool) (oldp newp : Policy) (c : Context) : Option Context := do
  let u ← (oldp.userName (c.user - 1)).bind newp.users
  let r ← (oldp.roleName (c.role - 1)).bind newp.roles
  let t ← (oldp.typeName (c.type - 1)).bind newp.types
  let range ← convertContext oldp newp c.range
  let c' : Context := ⟨u.value, r.value, t.value, range⟩
  if !isValid newp c' then
    if enforcing then none else some c'
  else some c'

/-- State of the security server: the active policy (`none` after `policydb_destroy`) and
the active SID table. -/
structure Server where
  db : Option Db
  sidtab : Sidtab

/-- `sepol_load_policy`, services.c:1807-1872: the new state, and whether the return value
is 0.  With a destroyed active policy the behaviour is undefined; the model fails. -/
def loadPolicy (enforcing : Bool) (s : Server) (image : Option Db) : Server × Bool :=
  match image with
  | none => ({ s with db := none }, false)
  | some new =>
    match s.db with
    | none => (s, false)
    | some old =>
      if !validateClasses old new then (s, false)
      else
        let st := setShutdown s.sidtab
        match cloneInto (nodes st) init with
        | none => ({ s with sidtab := st }, false)
        | some t =>
          let t := mapRemove t (convertCtx enforcing old.pol new.pol)
          (⟨some new, setFrom t⟩, true)

end Verif.Sidtab
