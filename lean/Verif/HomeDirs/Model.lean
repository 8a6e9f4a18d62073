import Verif.LabelObj.Media
/-!
# The file contexts of home directories

Models `semanage_str_replace` (libsemanage/src/utilities.c) and, of
libsemanage/src/genhomedircon.c, `replace_all`, `extract_context`, `check_line`,
`write_replacements`, `write_contexts` and `write_context_file`.

Simplifications:
* Memory does not run out and writing does not fail.
* The template is the list of its lines without their newlines. The header and the
  comments are not part of the output.
* What the functions on contexts of libsepol answer is a parameter, as are the lists
  of directories and users (`get_home_dirs`, `get_users`).
-/
namespace Verif.HomeDirs
open Verif.FileLabel (isspace)
open Verif.LabelObj (str)

/-- `strstr`: where the first occurrence is. -/
def strstr (pat : Bytes) : Bytes → Option Nat
  | [] => if pat = [] then some 0 else none
  | b :: s => if pat.isPrefixOf (b :: s) then some 0 else (strstr pat s).map (· + 1)

/-- How `semanage_str_replace` ends. -/
inductive Res
  | ok (s : Bytes)
  | null
  /-- a write outside of the buffer -/
  | oob
  /-- the assertion fails -/
  | abort
  deriving DecidableEq, Repr

/-- The loop that counts (utilities.c:248-252). -/
def countLoop (search : Bytes) (lim : Nat) : Nat → Bytes → Nat → Nat
  | 0, _, c => c
  | n + 1, s, c =>
    match strstr search s with
    | none => c
    | some i => if lim ≠ 0 ∧ c + 1 ≥ lim then c + 1 else countLoop search lim n (s.drop (i + search.length)) (c + 1)

/-- The copy of the last part (utilities.c:282-285), with `out` already in the
buffer. -/
def finish (size : Nat) (out psrc : Bytes) : Res :=
  if out.length + psrc.length + 1 ≠ size then .abort else .ok (out ++ psrc)

/-- The loop that fills the buffer (utilities.c:265-281). -/
def fill (search repl : Bytes) (size : Nat) : Nat → Bytes → Bytes → Nat → Res
  | 0, psrc, out, _ => finish size out psrc
  | n + 1, psrc, out, count =>
    match strstr search psrc with
    | none => finish size out psrc
    | some i =>
      if (out ++ psrc.take i).length > size then .oob
      else if (out ++ psrc.take i ++ repl).length > size then .oob
      else if count - 1 = 0 then finish size (out ++ psrc.take i ++ repl) (psrc.drop (i + search.length))
      else fill search repl size n (psrc.drop (i + search.length)) (out ++ psrc.take i ++ repl) (count - 1)

/-- The size of the buffer (utilities.c:257), in numbers of 64 bits. -/
def newSize (search repl src : Bytes) (count : Nat) : Nat :=
  (src.length + 1 + count * ((repl.length + 2 ^ 64 - search.length) % 2 ^ 64)) % 2 ^ 64

/-- `semanage_str_replace` (utilities.c:233-286). -/
def strReplace (search repl src : Bytes) (lim : Nat) : Res :=
  if search.length = 0 then .null
  else
    let count := countLoop search lim (src.length + 1) src 0
    if count = 0 then .ok src
    else fill search repl (newSize search repl src count) (src.length + 1) src [] count

/-- `replace_all` (genhomedircon.c:534-550). -/
def replaceAll (s : Bytes) : List (Bytes × Bytes) → Res
  | [] => .ok s
  | (a, b) :: ps =>
    match strReplace a b s 0 with
    | .ok s' => replaceAll s' ps
    | r => r

/-- `extract_context` (genhomedircon.c:552-576). -/
def extractContext (line : Bytes) : Option Bytes :=
  let tr := line.reverse.takeWhile isspace
  let body := line.reverse.dropWhile isspace
  if body.length ≤ 1 then none
  else some ((body.takeWhile (fun b => !isspace b)).reverse ++ tr.reverse)

/-- An entry of a user. -/
structure User where
  name : Bytes
  uid : Bytes
  pfx : Bytes
  home : Bytes
  deriving DecidableEq, Repr

/-- The functions of libsepol: whether `sepol_context_from_string` and
`sepol_context_check` accept a context, and the context with user, range and role of
a user. -/
structure Env where
  valid : Bytes → Bool
  forUser : User → Bytes → Option Bytes

/-- `check_line` (genhomedircon.c:578-597). -/
def checkLine (e : Env) (line : Bytes) : Bool :=
  match extractContext line with
  | none => false
  | some c => e.valid c

/-- What becomes of a line of the template. -/
inductive Out
  | fail
  | skip
  | line (l : Bytes)
  deriving DecidableEq, Repr

/-- A line in `write_replacements` (genhomedircon.c:605-614). -/
def replLine (e : Env) (repl : List (Bytes × Bytes)) (t : Bytes) : Out :=
  match replaceAll t repl with
  | .ok l => if checkLine e l then .line l else .skip
  | _ => .fail

/-- A line in `write_contexts` (genhomedircon.c:630-694). -/
def userLine (e : Env) (u : User) (repl : List (Bytes × Bytes)) (t : Bytes) : Out :=
  match replaceAll t repl with
  | .ok l =>
    match extractContext l with
    | none => .fail
    | some old =>
      if old = str "<<none>>" then (if checkLine e l then .line l else .skip)
      else
        match e.forUser u old with
        | none => .fail
        | some new =>
          match strReplace old new l 1 with
          | .ok l' => if checkLine e l' then .line l' else .skip
          | _ => .fail
  | _ => .fail

/-- The loops over a template; `none` if one of them fails. -/
def writeAll (f : Bytes → Out) : List Bytes → Option (List Bytes)
  | [] => some []
  | t :: ts =>
    match f t with
    | .fail => none
    | .skip => writeAll f ts
    | .line l => (writeAll f ts).map (l :: ·)

/-- `write_home_dir_context` (genhomedircon.c:704-723). -/
def homeDir (e : Env) (tpl : List Bytes) (u : User) : Option (List Bytes) :=
  writeAll (userLine e u [(str "HOME_DIR", u.home), (str "ROLE", u.pfx)]) tpl

/-- `write_home_root_context` (genhomedircon.c:725-734). -/
def homeRoot (e : Env) (tpl : List Bytes) (h : Bytes) : Option (List Bytes) :=
  writeAll (replLine e [(str "HOME_ROOT", h)]) tpl

/-- `write_username_context` (genhomedircon.c:736-748). -/
def userName (e : Env) (tpl : List Bytes) (u : User) : Option (List Bytes) :=
  writeAll (userLine e u [(str "%{USERNAME}", u.name), (str "%{USERID}", u.uid), (str "ROLE", u.pfx)]) tpl

/-- `write_user_context` (genhomedircon.c:750-760). -/
def userCtx (e : Env) (tpl : List Bytes) (u : User) : Option (List Bytes) :=
  writeAll (userLine e u [(str "USER", u.name), (str "ROLE", u.pfx)]) tpl

/-- One after the other, unless one fails. -/
def andThen (a b : Option (List Bytes)) : Option (List Bytes) :=
  match a with
  | none => none
  | some x => b.map (x ++ ·)

/-- The same over a list. -/
def forEach {α : Type} (f : α → Option (List Bytes)) : List α → Option (List Bytes)
  | [] => some []
  | a :: as => andThen (f a) (forEach f as)

/-- `HOME_ROOT_PRED` (genhomedircon.c:478-481). -/
def isRoot (l : Bytes) : Bool := (str "HOME_ROOT").isPrefixOf l
/-- `HOME_DIR_PRED` (genhomedircon.c:483-486). -/
def isDir (l : Bytes) : Bool := (str "HOME_DIR").isPrefixOf l
/-- `USERNAME_CONTEXT_PRED` (genhomedircon.c:489-495). -/
def isName (l : Bytes) : Bool := (strstr (str "%{USERNAME}") l).isSome || (strstr (str "%{USERID}") l).isSome
/-- `USER_CONTEXT_PRED` (genhomedircon.c:498-504). -/
def isUser (l : Bytes) : Bool := if isName l then false else (strstr (str "USER") l).isSome

/-- `write_context_file` (genhomedircon.c:1296-1390), for the directories `hs`, the
users `us` and the fallback user `fb`; `none` is an error. -/
def contextFile (e : Env) (hs : List Bytes) (us : List User) (fb : User) (tpl : List Bytes) : Option (List Bytes) :=
  let dirs := tpl.filter isDir
  let roots := tpl.filter isRoot
  let names := tpl.filter isName
  let users := tpl.filter isUser
  if (dirs ≠ [] ∨ roots ≠ []) ∧ hs = [] then some []
  else
    andThen
      (if dirs ≠ [] ∨ roots ≠ [] then
        forEach (fun h => andThen (homeDir e dirs { fb with home := h ++ str "/[^/]+" }) (homeRoot e roots h)) hs
      else some [])
      (if users ≠ [] ∨ names ≠ [] then
        andThen (userName e names fb) (andThen (userCtx e users fb)
          (forEach (fun u => andThen (homeDir e dirs u) (andThen (userName e names u) (userCtx e users u))) us))
      else some [])

end Verif.HomeDirs
