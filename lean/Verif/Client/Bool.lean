import Verif.Bytes
import Verif.Prelude

/-!
# Model of libselinux/src/booleans.c

The booleans of the running policy are in the directory `booleans` of selinuxfs: each has an active value and a pending one, and a commit makes
the pending values active.  Allocations succeed, `selinux_mnt` is set.
-/

namespace Verif.Client

/-! ## `selinux_boolean_sub` -/

/-- `isspace` in the C locale. -/
def isSp (c : UInt8) : Bool := c = 32 || (9 ≤ c && c ≤ 13)

/-- `while (*p && isspace(*p)) p++`, booleans.c:112-113,126-127, on memory: `none` if the end of what was ever written is passed. -/
def skipSp : Bytes → Option Bytes
  | [] => none
  | c :: l => if c ≠ 0 ∧ isSp c then skipSp l else some (c :: l)

/-- `while (*p && !isspace(*p)) p++`, booleans.c:119-121,130-132: what was passed, and the memory from there. -/
def word : Bytes → Option (Bytes × Bytes)
  | [] => none
  | c :: l => if c ≠ 0 ∧ !isSp c then (word l).map fun (w, r) => (c :: w, r) else some ([], c :: l)

/-- What a line gives: go on with the memory as it is now, or the name found. -/
inductive Line where
  | next (mem : Bytes)
  | found (d : Bytes)
deriving DecidableEq

/-- The body of the loop, booleans.c:108-139, on the buffer of `getline`.  A word is ended by a 0 in its place.  `none`: memory is read that was
never written. -/
def lineSub (name mem : Bytes) : Option Line :=
  match skipSp mem with
  | none => none
  | some src =>
    if src.head? = some 0 ∨ src.head? = some 35 then some (.next mem)
    else
      match word src with
      | none => none
      | some (w, r) =>
        let mem' := mem.take (mem.length - r.length) ++ 0 :: r.tail
        if w ≠ name then some (.next mem')
        else
          match skipSp r.tail with
          | none => none
          | some dst =>
            if dst.head? = some 0 then some (.next mem')
            else
              match word dst with
              | none => none
              | some (d, _) => some (.found (if 47 ∈ d then name else d))

/-- `getline` puts a line and a 0 into the buffer; what was behind stays there. -/
def getline (mem line : Bytes) : Bytes := line ++ 0 :: mem.drop (line.length + 1)

/-- The loop, booleans.c:107-140. -/
def subLoop (name : Bytes) : Bytes → List Bytes → Option Bytes
  | _, [] => some name
  | mem, l :: ls =>
    match lineSub name (getline mem l) with
    | none => none
    | some (.found d) => some d
    | some (.next m) => subLoop name m ls

/-- The lines `getline` gives, with the newline if there is one. -/
def fileLines : Bytes → List Bytes
  | [] => []
  | c :: l =>
    if c = 10 then [c] :: fileLines l
    else match fileLines l with
      | [] => [[c]]
      | x :: xs => (c :: x) :: xs

/-- `selinux_boolean_sub`, booleans.c:94-148, with the contents of the file of substitutions if it can be opened.  `none`: undefined. -/
def booleanSub (file : Option Bytes) (name : Bytes) : Option Bytes :=
  match file with
  | none => some name
  | some f => subLoop name [] (fileLines f)

/-! ## Values -/

/-- The booleans: active and pending value. -/
abbrev St := Bytes → Option (Bool × Bool)

/-- What comes from outside: which of them can be opened to read and to write, whether a commit succeeds, and the substitutions
(`booleanSub`). -/
structure BEnv where
  readable : Bytes → Bool
  writable : Bytes → Bool
  commitOk : Bool
  alt : Bytes → Bytes

/-- A name that can be one of a file in the directory; others fail with another error than `ENOENT`. -/
def plain (n : Bytes) : Bool := n ≠ [] ∧ n ≠ [46] ∧ n ≠ [46, 46] ∧ 47 ∉ n ∧ n.length ≤ 255

/-- `bool_open`, booleans.c:150-197: the boolean that is opened. -/
def boolOpen (e : BEnv) (may : Bytes → Bool) (st : St) (n : Bytes) : Option Bytes :=
  if !plain n then none
  else if (st n).isSome then (if may n then some n else none)
  else if !plain (e.alt n) then none
  else if (st (e.alt n)).isSome ∧ may (e.alt n) then some (e.alt n) else none

/-- `security_get_boolean_active`, booleans.c:250-267. -/
def getActive (e : BEnv) (st : St) (n : Bytes) : Int :=
  match boolOpen e e.readable st n with
  | none => -1
  | some f => match st f with | some (a, _) => (if a then 1 else 0) | none => -1

/-- `security_get_boolean_pending`, booleans.c:233-248. -/
def getPending (e : BEnv) (st : St) (n : Bytes) : Int :=
  match boolOpen e e.readable st n with
  | none => -1
  | some f => match st f with | some (_, p) => (if p then 1 else 0) | none => -1

/-- What a write to the file does. -/
def setPending (st : St) (f : Bytes) (v : Bool) : St := fun g => if g = f then (st f).map fun x => (x.1, v) else st g

/-- `security_set_boolean`, booleans.c:269-300. -/
def setBool (e : BEnv) (st : St) (n : Bytes) (v : Int) : Option St :=
  if v < 0 ∨ 1 < v then none
  else match boolOpen e e.writable st n with
    | none => none
    | some f => some (setPending st f (v = 1))

/-- What a commit does in the kernel. -/
def commitAll (st : St) : St := fun g => (st g).map fun x => (x.2, x.2)

/-- `security_commit_booleans`, booleans.c:302-327. -/
def commit (e : BEnv) (st : St) : Option St := if e.commitOk then some (commitAll st) else none

/-- `rollback`, booleans.c:329-337. -/
def rollback (e : BEnv) : St → List (Bytes × Int) → St
  | st, [] => st
  | st, x :: l => rollback e ((setBool e st x.1 (getActive e st x.1)).getD st) l

/-- `!!value`, booleans.c:345. -/
def norm (v : Int) : Int := if v = 0 then 0 else 1

/-- The loop of `security_set_boolean_list`, booleans.c:344-350. -/
def setLoop (e : BEnv) : St → List (Bytes × Int) → List (Bytes × Int) → St × Bool
  | st, _, [] => (st, true)
  | st, done, x :: l =>
    match setBool e st x.1 (norm x.2) with
    | none => (rollback e st done, false)
    | some st' => setLoop e st' (done ++ [x]) l

/-- `security_set_boolean_list`, booleans.c:339-362: the booleans afterwards and whether it returned 0.  That it writes the values back as 0 or 1
is left out. -/
def setList (e : BEnv) (st : St) (l : List (Bytes × Int)) (permanent : Bool) : St × Bool :=
  match setLoop e st [] l with
  | (st', false) => (st', false)
  | (st', true) =>
    match commit e st' with
    | none => (st', false)
    | some st'' => (st'', !permanent)

end Verif.Client
