import Verif.LabelObj.Media
/-!
# Lists of types

Models `selinux_check_securetty_context` (libselinux/src/selinux_check_securetty_context.c)
and `is_context_customizable` (libselinux/src/is_customizable_type.c).

Simplifications:
* The files can be opened and do not change while they are read, and memory does not run out.
* The type of the context is given (`context_new` is C32); `none`: it is not a context.
* `getline` reads lines of any length.
-/
namespace Verif.TypeList
open Verif.LabelObj (cstr fgets)

/-- `isspace` -/
def isSpace (b : UInt8) : Bool := b == 32 || (9 ≤ b.toNat && b.toNat ≤ 13)

/-- What repeated reads of at most `k` bytes up to a newline give, with at most so many reads. -/
def chunks (k : Nat) : Nat → Bytes → List Bytes
  | 0, _ => []
  | n + 1, s => if s = [] then [] else (fgets k s).1 :: chunks k n (fgets k s).2

/-- The first word of a line that `getline` read (selinux_check_securetty_context.c:24-38);
`none`: there is no word. -/
def word (line : Bytes) : Option Bytes :=
  let line := if line.getLast? = some 10 then line.dropLast else line
  let start := (cstr line).dropWhile isSpace
  if start = [] then none else some (start.takeWhile (fun b => !isSpace b))

/-- `selinux_check_securetty_context` (selinux_check_securetty_context.c:8-51): whether it
returns 0. -/
def securetty (file : Bytes) (type : Option Bytes) : Bool :=
  match type with
  | none => false
  | some t => (chunks file.length file.length file).any (fun l => word l == some t)

/-- What `is_context_customizable` returns. -/
inductive Res
  | error
  | no
  | yes
  /-- a write before the buffer -/
  | oob
  deriving DecidableEq, Repr

/-- The entry for what `fgets` read: the last character is dropped
(is_customizable_type.c:47-48); `none`: there is none. -/
def entry (buf : Bytes) : Option Bytes := if cstr buf = [] then none else some (cstr buf).dropLast

/-- The second pass (is_customizable_type.c:44-58), with at most `ctr` entries; `none`: a write
before the buffer. -/
def fill : Nat → List Bytes → Option (List Bytes)
  | 0, _ => some []
  | _, [] => some []
  | ctr + 1, b :: bs => (entry b).bind fun e => (fill ctr bs).map (e :: ·)

/-- `is_context_customizable` (is_customizable_type.c:15-98), with pages of `page` bytes. -/
def customizable (page : Nat) (file : Bytes) (type : Option Bytes) : Res :=
  let bufs := chunks (page - 1) file.length file
  let ctr := min bufs.length (2 ^ 32 - 1)
  if ctr = 0 then .error
  else
    match fill ctr bufs with
    | none => .oob
    | some list =>
      match type with
      | none => .error
      | some t => if list.any (· == t) then .yes else .no

end Verif.TypeList
