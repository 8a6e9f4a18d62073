import Verif.Mls.Model

/-!
# Model of libsepol/src/context.c and the string functions of context_record.c
-/

namespace Verif.Mls

open Verif.Policy

/-- `mls_context_cmp`, context.h:100-105: on a policy without MLS both ranges are
empty and compare equal. -/
def mlsContextCmp (c1 c2 : Context) : Bool := rangeEq c1.range c2.range

/-- `context_cmp`, context.h:138-143. -/
def contextCmp (c1 c2 : Context) : Bool :=
  (c1.user == c2.user) && (c1.role == c2.role) && (c1.type == c2.type) && mlsContextCmp c1 c2

/-- `context_cpy`, context.h:121-127. -/
def contextCpy (c : Context) : Context := ⟨c.user, c.role, c.type, rangeCpy c.range⟩

/-- `context_is_valid`, context.c:35-78, also exported as
`policydb_context_isvalid`, context.c:16-19. -/
def isValid (p : Policy) (c : Context) : Bool :=
  if c.role = 0 ∨ c.role > p.nRoles then false
  else if c.user = 0 ∨ c.user > p.nUsers then false
  else if c.type = 0 ∨ c.type > p.nTypes then false
  else if c.role ≠ OBJECT_R_VAL then
    match p.roleStruct (c.role - 1) with
    | none => false
    | some role =>
      if !Ebitmap.getBit role.cache (c.type - 1) then false
      else match p.userStruct (c.user - 1) with
        | none => false
        | some usr =>
          if !Ebitmap.getBit usr.cache (c.role - 1) then false
          else contextIsValid p c
  else contextIsValid p c

/-- Index arrays accessed with `value - 1`; value 0 is out of range (`none`). -/
def nameOf (names : Nat → Option Str) (v : Nat) : Option Str :=
  if v = 0 then none else names (v - 1)

/-- `context_to_string`, context.c:87-138: the string, `none` for a NULL name or an
out-of-range value (undefined behaviour in C). -/
def contextToString (p : Policy) (c : Context) : Option Str := do
  let u ← nameOf p.userName c.user
  let r ← nameOf p.roleName c.role
  let t ← nameOf p.typeName c.type
  let m ← sidToContext p c.range
  some (u ++ ':' :: (r ++ ':' :: (t ++ m)))

/-- The number of bytes `context_to_string` allocates and reports, context.c:99-107. -/
def contextStringSize (p : Policy) (c : Context) : Option Nat := do
  let u ← nameOf p.userName c.user
  let r ← nameOf p.roleName c.role
  let t ← nameOf p.typeName c.type
  let m ← computeContextLen p c.range
  some (u.length + 1 + (r.length + 1) + t.length + m + 1)

/-- `sepol_context_t`, context_record.c:9-21. -/
structure Record where
  user : Str
  role : Str
  type : Str
  mls : Option Str
deriving DecidableEq, Repr

/-- Outcome of a call: value, error return, or undefined behaviour. -/
inductive Res (α : Type) where
  | ok : α → Res α
  | err : Res α
  | ub : Res α
deriving DecidableEq, Repr

/-- "<<none>>", context_record.c:206. -/
def noneStr : Str := ['<', '<', 'n', 'o', 'n', 'e', '>', '>']

/-- `strchr(low, ':')` and the split it performs, context_record.c:225-229. -/
def splitColon (s : Str) : Option (Str × Str) :=
  match (scan (· == ':') s).2 with
  | [] => none
  | _ :: rest => some ((scan (· == ':') s).1, rest)

/-- `sepol_context_from_string`, context_record.c:198-268.  `ok none` is the special
string "<<none>>" for which the record pointer becomes NULL. -/
def recordFromString (s : Str) : Res (Option Record) :=
  if s = noneStr then .ok none
  else match splitColon s with
    | none => .err
    | some (u, s1) => match splitColon s1 with
      | none => .err
      | some (r, s2) => match splitColon s2 with
        | none => .ok (some ⟨u, r, s2, none⟩)
        | some (t, m) => .ok (some ⟨u, r, t, some m⟩)

/-- `sepol_context_to_string`, context_record.c:270-321. -/
def recordToString (c : Record) : Str :=
  match c.mls with
  | some m => c.user ++ ':' :: (c.role ++ ':' :: (c.type ++ ':' :: m))
  | none => c.user ++ ':' :: (c.role ++ ':' :: c.type)

/-- `context_from_record`, context.c:143-237. -/
def contextFromRecord (p : Policy) (rec : Record) : Option Context :=
  match p.users rec.user, p.roles rec.role, p.types rec.type with
  | some u, some r, some t =>
    if t.flavor = TYPE_ATTRIB then none
    else
      let range? : Option Range :=
        match rec.mls with
        | some m => if p.mls then fromString p m else none
        | none => if p.mls then none else some emptyRange
      match range? with
      | none => none
      | some range =>
        if isValid p ⟨u.value, r.value, t.value, range⟩ then some ⟨u.value, r.value, t.value, range⟩
        else none
  | _, _, _ => none

/-- `context_to_record`, context.c:242-286. -/
def contextToRecord (p : Policy) (c : Context) : Option Record := do
  let u ← nameOf p.userName c.user
  let r ← nameOf p.roleName c.role
  let t ← nameOf p.typeName c.type
  if p.mls then do
    let m ← toString p c.range
    some ⟨u, r, t, some m⟩
  else some ⟨u, r, t, none⟩

/-- `context_from_string`, context.c:291-331, on a buffer of `con_str_len` bytes (the
saturated length SIZE_MAX is not representable as a buffer).  The text ends at the
first NUL in it.  "<<none>>" makes `context_from_record` dereference a NULL record. -/
def contextFromString (p : Policy) (buf : Str) : Res Context :=
  if buf = [] then .err
  else match recordFromString (buf.takeWhile (· ≠ Char.ofNat 0)) with
    | .err => .err
    | .ub => .ub
    | .ok none => .ub
    | .ok (some rec) => match contextFromRecord p rec with
      | none => .err
      | some c => .ok c

/-- `sepol_context_check`, context.c:333-343: success? -/
def contextCheck (p : Policy) (rec : Record) : Bool := (contextFromRecord p rec).isSome

end Verif.Mls
