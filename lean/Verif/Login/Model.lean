import Verif.Context.Model

/-!
# Model of the choice of a context for a login

`getseuserbyname` and `getseuser` (libselinux/src/seusers.c), `get_ordered_context_list` and the functions around it
(libselinux/src/get_context_list.c), `get_default_type` (libselinux/src/get_default_type.c).

A C string is the list of its bytes without the NUL; a file is the list of its bytes, `none` if it cannot be opened.  The paths of
files, messages, failing allocations and failing reads are left out.  Handles of contexts are those of property C32.
-/

namespace Verif.Login
open Verif.Context

/-! ## Reading lines -/

/-- `isspace` in the C locale. -/
def isSpace (b : UInt8) : Bool := b == 32 || (9 ≤ b && b ≤ 13)

/-- A buffer as a C string. -/
def cstr (bs : Bytes) : Bytes := bs.takeWhile (· != 0)

/-- What successive calls of `getline` read from a file; a line has its newline. -/
def lines : Bytes → List Bytes
  | [] => []
  | b :: bs =>
    if b = nl then [b] :: lines bs
    else match lines bs with
      | [] => [[b]]
      | l :: ls => (b :: l) :: ls

/-- What `fgets` with a buffer of `n + 1` bytes reads from a file. -/
def fgets : Nat → Bytes → Bytes
  | 0, _ => []
  | _, [] => []
  | n + 1, b :: bs => if b = nl then [b] else b :: fgets n bs

/-! ## seusers.c -/

/-- What `process_seusers` returns. -/
inductive Parsed
  | skip
  | error
  | entry (luser seuser : Bytes) (level : Option Bytes)
deriving DecidableEq

/-- `process_seusers`, seusers.c:19-93. -/
def processSeusers (mls : Bool) (buffer : Bytes) : Parsed :=
  let start := (cstr buffer).dropWhile isSpace
  if start.head? = some 35 ∨ start = [] then .skip
  else
    let luser := start.takeWhile (· != colon)
    let after := start.drop luser.length
    if after = [] then .error
    else
      let start := after.drop 1
      let found := start.contains colon
      let seuser := if found then start.takeWhile (· != colon) else start.takeWhile (fun c => !isSpace c)
      if seuser = [] then .error
      else if !mls || !found then .entry luser seuser none
      else
        let level := (start.drop (seuser.length + 1)).takeWhile (fun c => !isSpace c)
        if level = [] then .error else .entry luser seuser (some level)

/-- The entry for users that have none, `"__default__"`. -/
def defaultName : Bytes := [95, 95, 100, 101, 102, 97, 117, 108, 116, 95, 95]

/-- `seuser` and `level`. -/
abbrev Mapped := Bytes × Option Bytes

/-- The loop of `getseuserbyname`, seusers.c:212-245: the entry of the user, of a group, the default.  `member` is `check_group`. -/
def seusersLoop (mls : Bool) (member : Bytes → Bool) (name : Bytes) :
    List Bytes → Option Mapped → Option Mapped → Option Mapped × Option Mapped × Option Mapped
  | [], group, dflt => (none, group, dflt)
  | l :: ls, group, dflt =>
    match processSeusers mls l with
    | .skip => seusersLoop mls member name ls group dflt
    | .error => seusersLoop mls member name ls group dflt
    | .entry luser seuser level =>
      if luser = name then (some (seuser, level), group, dflt)
      else if luser.head? = some 37 ∧ group = none ∧ member (luser.drop 1) = true then
        seusersLoop mls member name ls (some (seuser, level)) dflt
      else if dflt = none ∧ luser = defaultName then seusersLoop mls member name ls group (some (seuser, level))
      else seusersLoop mls member name ls group dflt

/-- `getseuserbyname`, seusers.c:188-285; `none` is -1. -/
def getseuserbyname (require mls : Bool) (member : Bytes → Bool) (file : Option Bytes) (name : Bytes) : Option Mapped :=
  let fallback := if require then none else some (name, none)
  match file with
  | none => fallback
  | some bs =>
    match seusersLoop mls member name (lines bs) none none with
    | (some m, _, _) => some m
    | (none, some m, _) => some m
    | (none, none, some m) => some m
    | (none, none, none) => fallback

/-- The loop of `getseuser`, seusers.c:304-319. -/
def recLoop (service : Option Bytes) : List Bytes → Option Bytes → Option Bytes
  | [], rec_ => rec_
  | l :: ls, rec_ =>
    let buffer := cstr l
    if buffer.take 2 = [42, colon] then recLoop service ls (some buffer)
    else match service with
      | none => recLoop service ls rec_
      | some s =>
        if buffer.take s.length = s ∧ (buffer.drop s.length).head? = some colon then some buffer
        else recLoop service ls rec_

/-- The record, seusers.c:321-342. -/
def parseRec (rec_ : Bytes) : Option Mapped :=
  let after := rec_.dropWhile (· != colon)
  if after = [] then none
  else
    let start := after.drop 1
    let seuser := start.takeWhile (· != colon)
    let after := start.drop seuser.length
    if after = [] then none
    else
      let level := after.drop 1
      some (seuser, some (if level.getLast? = some nl then level.dropLast else level))

/-- `getseuser`, seusers.c:287-350; `byname` is `getseuserbyname`. -/
def getseuser (byname : Option Mapped) (file : Option Bytes) (service : Option Bytes) : Option Mapped :=
  match file.bind fun bs => (recLoop service (lines bs) none).bind parseRec with
  | some m => some m
  | none => byname

/-! ## get_context_list.c -/

/-- The line that is searched for, get_context_list.c:164-195: role and type of the line and what follows the first word. -/
def lineMatch (l : Bytes) : Option (Bytes × Bytes × Bytes) :=
  let l := cstr (if l.getLast? = some nl then l.dropLast else l)
  let start := l.dropWhile isSpace
  let word := start.takeWhile (fun c => !isSpace c)
  let after := start.drop word.length
  if start = [] ∨ after = [] then none
  else
    let linerole := start.takeWhile (fun c => !isSpace c && c != colon)
    let s := start.drop linerole.length
    if s.head? ≠ some colon then none
    else
      let s := s.drop 1
      let linetype := s.takeWhile (fun c => !isSpace c && c != colon)
      if s.drop linetype.length = [] then none
      else some (linerole, linetype, after.drop 1)

/-- The search, get_context_list.c:164-205. -/
def findLine (role type : Bytes) : List Bytes → Option Bytes
  | [] => none
  | l :: ls =>
    match lineMatch l with
    | none => findLine role type ls
    | some (r, t, rest) => if role = r ∧ type = t then some rest else findLine role type ls

theorem length_dropWhile_le (p : UInt8 → Bool) : ∀ l : Bytes, (l.dropWhile p).length ≤ l.length
  | [] => Nat.le_refl _
  | a :: l => by
    rw [List.dropWhile_cons]
    split
    · exact Nat.le_succ_of_le (length_dropWhile_le p l)
    · exact Nat.le_refl _

/-- The words that the loop at get_context_list.c:207-220 meets. -/
def words (start : Bytes) : List Bytes :=
  let s := start.dropWhile isSpace
  if s = [] then []
  else
    let w := s.takeWhile (fun c => !isSpace c)
    w :: words (s.drop (w.length + 1))
termination_by start.length
decreasing_by
  rename_i h
  have := length_dropWhile_le isSpace start
  have : 0 < (start.dropWhile isSpace).length := List.length_pos_iff.2 h
  simp only [List.length_drop]
  omega

/-- The context that is made from a word, get_context_list.c:222-263: `.err` ends the loop, `none` skips the word. -/
def candidate (user : Bytes) (level : Option Bytes) (w : Bytes) : Res (Option Bytes) :=
  match contextNew true (fun _ => true) (user ++ colon :: w) with
  | .err => .ok none
  | .ub => .ub
  | .ok h =>
    match setComp true h 3 level with
    | (_, false) => .err
    | (h, true) =>
      match contextStr true h with
      | .ok s => .ok (some s)
      | .err => .err
      | .ub => .ub

/-- The loop over the words, get_context_list.c:207-290; `valid` is `security_check_context`.  The list of contexts that were found
before grows; a failure keeps what is in it. -/
def addWords (valid : Bytes → Bool) (user : Bytes) (level : Option Bytes) : List Bytes → List Bytes → Res (List Bytes)
  | [], reachable => .ok reachable
  | w :: ws, reachable =>
    match candidate user level w with
    | .ub => .ub
    | .err => .ok reachable
    | .ok none => addWords valid user level ws reachable
    | .ok (some c) =>
      if reachable.contains c then addWords valid user level ws reachable
      else if valid c then addWords valid user level ws (reachable ++ [c])
      else addWords valid user level ws reachable

/-- `get_context_user`, get_context_list.c:119-295. -/
def getContextUser (valid : Bytes → Bool) (file : Option Bytes) (fromcon : Handle) (user : Bytes) (reachable : List Bytes) :
    Res (List Bytes) :=
  match file, roleGet fromcon, typeGet fromcon with
  | some bs, some role, some type =>
    match findLine role type (lines bs) with
    | none => .ok reachable
    | some rest => addWords valid user (rangeGet fromcon) (words rest) reachable
  | _, _, _ => .ok reachable

/-- What `security_check_context` and `errno` say: valid, there is no selinuxfs, anything else. -/
inductive Check
  | ok
  | noent
  | bad
deriving DecidableEq

/-- `get_failsafe_context`, get_context_list.c:297-340.  A line that starts with a NUL makes `buf[plen - 1]` an access outside of
the buffer. -/
def failsafe (check : Bytes → Check) (file : Option Bytes) (user : Bytes) : Res Bytes :=
  match file with
  | none => .err
  | some bs =>
    if bs = [] then .err
    else
      let p := cstr (fgets 254 bs)
      if p = [] then .ub
      else
        let con := user ++ colon :: (if p.getLast? = some nl then p.dropLast else p)
        if check con = .bad then .err else .ok con

/-- The files: of the user, of all users, of the last resort. -/
structure Files where
  user : Option Bytes
  default : Option Bytes
  failsafe : Option Bytes

/-- `get_ordered_context_list`, get_context_list.c:402-496, with a given `fromcon`. -/
def getOrderedContextList (check : Bytes → Check) (files : Files) (user fromcon : Bytes) : Res (List Bytes) :=
  let last : Res (List Bytes) :=
    match failsafe check files.failsafe user with
    | .ok c => .ok [c]
    | .err => .err
    | .ub => .ub
  match contextNew true (fun _ => true) fromcon with
  | .ub => .ub
  | .err => last
  | .ok con =>
    match getContextUser (fun c => check c == .ok) files.user con user [] with
    | .ub => .ub
    | .err => .err
    | .ok r =>
      match getContextUser (fun c => check c == .ok) files.default con user r with
      | .ub => .ub
      | .err => .err
      | .ok r => if r = [] then last else .ok r

/-- `get_ordered_context_list_with_level`, get_context_list.c:342-380, with a given level and `fromcon`. -/
def getOrderedContextListWithLevel (check : Bytes → Check) (files : Files) (user level fromcon : Bytes) : Res (List Bytes) :=
  match contextNew true (fun _ => true) fromcon with
  | .ub => .ub
  | .err => .err
  | .ok con =>
    match setComp true con 3 (some level) with
    | (_, false) => .err
    | (con, true) =>
      match contextStr true con with
      | .ub => .ub
      | .err => .err
      | .ok newfromcon => getOrderedContextList check files user newfromcon

/-- The search of `get_default_context_with_role`, get_context_list.c:31-47: the first context with the role. -/
def withRole (role : Bytes) : List Bytes → Option Bytes
  | [] => none
  | c :: cs =>
    match contextNew true (fun _ => true) c with
    | .ok h => if roleGet h = some role then some c else withRole role cs
    | _ => withRole role cs

/-- `get_default_context_with_role`, get_context_list.c:16-55. -/
def getDefaultContextWithRole (check : Bytes → Check) (files : Files) (user role fromcon : Bytes) : Res Bytes :=
  match getOrderedContextList check files user fromcon with
  | .ub => .ub
  | .err => .err
  | .ok l => match withRole role l with
    | none => .err
    | some c => .ok c

/-- `get_default_context`, get_context_list.c:102-117. -/
def getDefaultContext (check : Bytes → Check) (files : Files) (user fromcon : Bytes) : Res Bytes :=
  match getOrderedContextList check files user fromcon with
  | .ub => .ub
  | .err => .err
  | .ok [] => .err
  | .ok (c :: _) => .ok c

/-! ## get_default_type.c -/

theorem fgets_length_pos {n : Nat} {bs : Bytes} (hn : 0 < n) (h : bs ≠ []) : 0 < (fgets n bs).length := by
  match n, bs, hn, h with
  | n + 1, b :: bs, _, _ => unfold fgets; split <;> simp

/-- `find_default_type`, get_default_type.c:27-70: what `fgets` reads loses its last character, whatever it is.  An empty string in
the buffer makes `buf[strlen(buf) - 1]` an access outside of it. -/
def findDefaultType (role : Bytes) (bs : Bytes) : Res Bytes :=
  if h : bs = [] then .err
  else
    let got := fgets 249 bs
    let buf := cstr got
    if buf = [] then .ub
    else
      let buf := buf.dropLast
      let ptr := buf.dropWhile isSpace
      if ptr ≠ [] ∧ ptr.take role.length = role ∧ (ptr.drop role.length).head? = some colon then
        .ok ((ptr.drop (role.length + 1)).take (buf.length - role.length - 1))
      else findDefaultType role (bs.drop got.length)
termination_by bs.length
decreasing_by
  have := fgets_length_pos (n := 249) (by omega) h
  have : 0 < bs.length := List.length_pos_iff.2 h
  simp only [List.length_drop]
  omega

/-- `get_default_type`, get_default_type.c:10-25. -/
def getDefaultType (file : Option Bytes) (role : Bytes) : Res Bytes :=
  match file with
  | none => .err
  | some bs => findDefaultType role bs

end Verif.Login
