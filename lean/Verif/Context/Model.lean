import Verif.Prelude
import Verif.Bytes

/-!
# Model of the context handle of libselinux (`libselinux/src/context.c`)

A C string is the list of its bytes, without the terminating NUL.  A handle
is the list of the four pointers `component[0..3]` of `context_private_t`
(context.c:12-15); a NULL pointer is `none`.  The cached `current_str` is not
modelled: `context_str` frees and recomputes it on every call
(context.c:122-128).  `int count` and `size_t total` are natural numbers: they
would wrap only for strings of 2^31 bytes and more.
-/

namespace Verif.Context

/-- Result of a call: the value returned, a failure that the call reports, or
undefined behaviour (an access outside an object, or through NULL). -/
inductive Res (α : Type) where
  | ok (a : α)
  | err
  | ub
deriving Repr, DecidableEq

/-- `':'` -/
abbrev colon : UInt8 := 58
/-- `' '` -/
abbrev space : UInt8 := 32
/-- `'\n'` -/
abbrev nl : UInt8 := 10
/-- `'\t'` -/
abbrev tab : UInt8 := 9
/-- `'\r'` -/
abbrev cr : UInt8 := 13

/-- The four component pointers (context.c:14). -/
abbrev Handle := List (Option Bytes)

/-- context.c:38-39: all components NULL. -/
def empty : Handle := [none, none, none, none]

/-- The sanity check of `context_new` (context.c:40-53): counts the colons,
`none` if a forbidden character is met. -/
def scan : Nat → Bytes → Option Nat
  | count, [] => some count
  | count, b :: p =>
    if b = colon then scan (count + 1) p
    else if b = nl ∨ b = tab ∨ b = cr then none
    else if b = space then (if count < 3 then none else scan count p)
    else scan count p

/-- The component that starts at `tok` (context.c:64-71): up to the next colon
for the first three, everything for the last. -/
def piece (i : Nat) (tok : Bytes) : Bytes :=
  if i < 3 then tok.takeWhile (· ≠ colon) else tok

/-- The tokenising loop (context.c:63-75).  `mem i` says whether `strndup` for
component `i` succeeds.  A fifth component would be written after the array. -/
def tokens (mem : Nat → Bool) (i : Nat) (tok : Bytes) (h : Handle) : Res Handle :=
  if tok = [] then .ok h
  else if i < 4 then
    if mem i then
      tokens mem (i + 1) (tok.drop ((piece i tok).length + 1)) (h.set i (some (piece i tok)))
    else .err
  else .ub
termination_by 4 - i

/-- `context_new` (context.c:22-81).  `mem0` says whether both `malloc` calls
succeed. -/
def contextNew (mem0 : Bool) (mem : Nat → Bool) (s : Bytes) : Res Handle :=
  if mem0 then
    match scan 0 s with
    | none => .err
    | some count => if count < 2 ∨ count > 5 then .err else tokens mem 0 s empty
  else .err

/-- The size computed in `context_str` (context.c:123-127, 153-157). -/
def total : Handle → Nat
  | [] => 0
  | none :: h => total h
  | some c :: h => c.length + 1 + total h

/-- The loop that copies components 1 to 3 (context.c:133-138, 163-168). -/
def copyRest : Handle → Bytes
  | [] => []
  | none :: h => copyRest h
  | some c :: h => colon :: c ++ copyRest h

/-- `context_str` and `context_to_str` (context.c:117-141, 147-171; the same
code apart from the cache).  `stpcpy` from a NULL `component[0]` and a write
after the end of the buffer are undefined. -/
def contextStr (mem : Bool) (h : Handle) : Res Bytes :=
  if mem then
    match h with
    | some u :: rest =>
      if (u ++ copyRest rest).length + 1 ≤ total h then .ok (u ++ copyRest rest) else .ub
    | _ => .ub
  else .err

/-- The character test of `set_comp` (context.c:181-182). -/
def badChar (idx : Nat) (b : UInt8) : Bool :=
  b = tab ∨ b = nl ∨ b = cr ∨ ((b = colon ∨ b = space) ∧ idx ≠ 3)

/-- `set_comp` (context.c:175-196): the handle after the call and whether the
call succeeded.  `mem` says whether `strdup` succeeds. -/
def setComp (mem : Bool) (h : Handle) (idx : Nat) (str : Option Bytes) : Handle × Bool :=
  match str with
  | none => (h.set idx none, true)
  | some s =>
    if s.any (badChar idx) then (h, false)
    else if mem then (h.set idx (some s), true)
    else (h, false)

/-- `context_user_get` (context.c:206, component 0). -/
def userGet (h : Handle) : Option Bytes := h.getD 0 none
/-- `context_role_get` (context.c:208, component 1). -/
def roleGet (h : Handle) : Option Bytes := h.getD 1 none
/-- `context_type_get` (context.c:205, component 2). -/
def typeGet (h : Handle) : Option Bytes := h.getD 2 none
/-- `context_range_get` (context.c:207, component 3). -/
def rangeGet (h : Handle) : Option Bytes := h.getD 3 none

/-- A call of one of the four setters (context.c:214-217). -/
inductive Op where
  | user (s : Option Bytes)
  | role (s : Option Bytes)
  | type (s : Option Bytes)
  | range (s : Option Bytes)

/-- The setters (context.c:209-217). -/
def setter (mem : Bool) (h : Handle) : Op → Handle × Bool
  | .user s => setComp mem h 0 s
  | .role s => setComp mem h 1 s
  | .type s => setComp mem h 2 s
  | .range s => setComp mem h 3 s

/-- A history of setter calls on one handle, each with its allocation
outcome. -/
def setters : Handle → List (Bool × Op) → Handle
  | h, [] => h
  | h, (mem, o) :: os => setters (setter mem h o).1 os

end Verif.Context
