import Verif.LabelObj.Media
/-!
# The configuration file

Models `selinux_getenforcemode`, `selinux_getpolicytype` and `init_selinux_config`
(libselinux/src/selinux_config.c), as functions of the contents of
`/etc/selinux/config`.

Simplifications:
* Memory does not run out; a file that cannot be opened is `none`.
* The locale is C (`isspace`, `iscntrl`, `strncasecmp`).
* `atoi` does not overflow.
* The paths below the policy root are left out.
-/
namespace Verif.Config
open Verif.FileLabel (isspace)
open Verif.LabelObj (str cstr fgets)

/-- `tolower` -/
def lower (b : UInt8) : UInt8 := if 65 ≤ b.toNat ∧ b.toNat ≤ 90 then b + 32 else b

/-- `iscntrl` -/
def iscntrl (b : UInt8) : Bool := b.toNat < 32 || b == 127

/-- `isdigit` -/
def isdigit (b : UInt8) : Bool := 48 ≤ b.toNat && b.toNat ≤ 57

/-- `!strncasecmp(s, tag, strlen(tag))` -/
def icase (tag s : Bytes) : Bool := (s.take tag.length).map lower == tag.map lower

/-- The lines `fgets` or `getline` give, at most `k` bytes each; `n` bounds the number
of lines. -/
def pieces (k : Nat) : Nat → Bytes → List Bytes
  | 0, _ => []
  | n + 1, s => if s = [] then [] else (fgets k s).1 :: pieces k n (fgets k s).2

/-- What a line says about the mode (selinux_config.c:102-127). -/
def modeLine (buf : Bytes) : Option Int :=
  if (cstr buf).take 8 ≠ str "SELINUX=" then none
  else if icase (str "enforcing") (((cstr buf).drop 8).dropWhile isspace) then some 1
  else if icase (str "permissive") (((cstr buf).drop 8).dropWhile isspace) then some 0
  else if icase (str "disabled") (((cstr buf).drop 8).dropWhile isspace) then some (-1)
  else none

/-- `selinux_getenforcemode` (selinux_config.c:89-133) with pages of `page` bytes;
`none` is a return of -1. -/
def getEnforceMode (page : Nat) : Option Bytes → Option Int
  | none => none
  | some s => (pieces (page - 1) s.length s).findSome? modeLine

/-- `line_buf[len - 1] = 0` (selinux_config.c:172-173). -/
def chop (l : Bytes) : Bytes := if l.getLast? = some 10 then l.dropLast else l

/-- The loop that cuts the end of a type (selinux_config.c:191-196). It does not look at
the first byte. -/
def rtrim : Bytes → Bytes
  | [] => []
  | c :: r => c :: (r.reverse.dropWhile (fun b => isspace b || iscntrl b)).reverse

/-- `atoi` of text that begins with a digit. -/
def atoi (v : Bytes) : Int := (v.takeWhile isdigit).foldl (fun n d => 10 * n + (d.toNat - 48)) 0

/-- `selinux_policytype` and `require_seusers`. -/
structure St where
  type : Option Bytes
  require : Int
  deriving DecidableEq, Repr

/-- A line in `init_selinux_config` (selinux_config.c:172-221). -/
def confLine (st : St) (l : Bytes) : St :=
  let p := (cstr (chop l)).dropWhile isspace
  if p.head? = some 35 ∨ p = [] then st
  else if icase (str "SELINUXTYPE=") p then
    { st with type := some (rtrim ((p.drop 12).dropWhile isspace)) }
  else if p.take 15 = str "REQUIRESEUSERS=" then
    let v := (p.drop 15).dropWhile isspace
    if (v.head?.map isdigit) = some true then { st with require := atoi v }
    else if ¬ icase (str "true") v then { st with require := 1 }
    else if ¬ icase (str "false") v then { st with require := 0 }
    else st
  else st

/-- `init_selinux_config` (selinux_config.c:157-232), called once: the type that
`selinux_getpolicytype` gives, the policy root and `require_seusers` (0 at first,
seusers.c:95). -/
def initConfig (file : Option Bytes) : Bytes × Bytes × Int :=
  let st : St := match file with
    | none => ⟨none, 0⟩
    | some s => (pieces s.length s.length s).foldl confLine ⟨none, 0⟩
  let type := st.type.getD (str "targeted")
  (type, str "/etc/selinux/" ++ type, st.require)

end Verif.Config
