import Verif.Services.Av

/-!
# Contexts a user can enter

Models `sepol_get_user_sids`, libsepol/src/services.c:2166-2245.
-/

namespace Verif.Services
open Verif.Policy Verif.Mls

/-- The parts of the policy used only here: `user->roles.roles`, `role_val_to_struct[i]->types.types` (`none`:
NULL entry), `process_trans`. -/
structure UPolicy extends SPolicy where
  userRoles : Str → Ebitmap.Ebitmap
  roleTypes : Nat → Option Ebitmap.Ebitmap
  processTrans : BitVec 32

/-- Local variables of the loops: SID table, `rc`, `mysids`. -/
structure UState where
  st : Sidtab.Sidtab
  rc : Int
  sids : List Nat

/-- Body of the inner loop, services.c:2203-2239: the new variables, and whether the loops go on.  `none` is
undefined behaviour: without MLS `usercon.range` is never initialised, yet it is searched for in the SID table and
copied (services.c:2218).  The growing array is a list. -/
def tryType (fuel : Nat) (p : UPolicy) (fromcon : Context) (user : UserDatum) (i j : Nat) (u : UState) : Option (UState × Bool) :=
  if j + 1 = fromcon.type then some (u, true)
  else
    match setupUserRange fromcon.range user emptyRange p.pol.mls with
    | none => some (u, true)
    | some r =>
      match computeAv fuel p.toSPolicy fromcon ⟨user.value, i + 1, j + 1, r⟩ p.processClass p.processTrans with
      | none => none
      | some none => some ({ u with rc := -22 }, true)
      | some (some a) =>
        if a.1.allowed &&& p.processTrans = 0#32 then some ({ u with rc := 0 }, true)
        else if p.pol.mls = false then none
        else
          match Sidtab.contextToSid u.st ⟨user.value, i + 1, j + 1, r⟩ with
          | none => some ({ u with rc := -12 }, false)
          | some (st, sid) => some (⟨st, 0, u.sids ++ [sid]⟩, true)

/-- The inner loop, services.c:2202-2240. -/
def typeLoop (fuel : Nat) (p : UPolicy) (fromcon : Context) (user : UserDatum) (i : Nat) : List Nat → UState → Option (UState × Bool)
  | [], u => some (u, true)
  | j :: l, u => (tryType fuel p fromcon user i j u).bind fun r => if r.2 then typeLoop fuel p fromcon user i l r.1 else some r

/-- The outer loop, services.c:2199-2241. -/
def roleLoop (fuel : Nat) (p : UPolicy) (fromcon : Context) (user : UserDatum) : List Nat → UState → Option (UState × Bool)
  | [], u => some (u, true)
  | i :: l, u =>
    (p.roleTypes i).bind fun types =>
    (Ebitmap.forEachPositiveBit (types.highbit + 1) types).bind fun js =>
    (typeLoop fuel p fromcon user i js u).bind fun r => if r.2 then roleLoop fuel p fromcon user l r.1 else some r

/-- `sepol_get_user_sids`, services.c:2166-2245: the SID table afterwards, the return code, and the array if it is
handed out. -/
def getUserSids (fuel : Nat) (p : UPolicy) (st : Sidtab.Sidtab) (fromsid : Nat) (name : Str) :
    Option (Sidtab.Sidtab × Int × Option (List Nat)) :=
  match Sidtab.search st fromsid with
  | none => some (st, -22, none)
  | some fromcon =>
    match p.pol.users name with
    | none => some (st, -22, none)
    | some user =>
      (Ebitmap.forEachPositiveBit ((p.userRoles name).highbit + 1) (p.userRoles name)).bind fun is =>
      (roleLoop fuel p fromcon user is ⟨st, 0, []⟩).bind fun r =>
      some (r.1.st, r.1.rc, if r.2 then some r.1.sids else none)

end Verif.Services
