import Verif.LabelObj.Model
/-!
# `matchmediacon`

Models `matchmediacon` (libselinux/src/matchmediacon.c:14-68).

Simplifications:
* The file can be opened and read.
* The result is the context before it is translated.
* The end of the file is what is left being empty: whether `feof` or `fgets`
  notices it makes no difference to the result.
-/
namespace Verif.LabelObj
open Verif.FileLabel (isspace)

/-- `fgets` for at most so many bytes without the end: what is read and what is
left. -/
def fgets : Nat → Bytes → Bytes × Bytes
  | 0, s => ([], s)
  | _ + 1, [] => ([], [])
  | k + 1, b :: s => if b = 10 then ([b], s) else (b :: (fgets k s).1, (fgets k s).2)

/-- What a line gives. -/
inductive Try
  | ub  -- the byte before the buffer is read
  | next
  | found (rest : Bytes)
  deriving DecidableEq, Repr

/-- The body of the loop (matchmediacon.c:28-49). -/
def tryLine (media l : Bytes) : Try :=
  if cstr l = [] then .ub
  else if (cstr l).dropLast.dropWhile isspace = [] then .next
  else if ((cstr l).dropLast.dropWhile isspace).dropWhile (fun b => !isspace b) = [] then .next
  else if media = ((cstr l).dropLast.dropWhile isspace).takeWhile (fun b => !isspace b) then
    .found (((cstr l).dropLast.dropWhile isspace).dropWhile (fun b => !isspace b)).tail
  else .next

/-- The results. -/
inductive Med
  | ub
  | fail
  | ok (ctx : Bytes)
  deriving DecidableEq, Repr

/-- From the line that was found on (matchmediacon.c:55-67). -/
def finish (r : Bytes) : Med := if r.dropWhile isspace = [] then .fail else .ok (r.dropWhile isspace)

/-- The loop over the file (matchmediacon.c:23-53), `PATH_MAX` bytes at a time. The
number bounds the rounds: a round reads a byte at least. -/
def mediaLoop (media : Bytes) : Nat → Bytes → Med
  | 0, _ => .fail
  | k + 1, s =>
    if s = [] then .fail
    else match tryLine media (fgets 4095 s).1 with
      | .ub => .ub
      | .next => mediaLoop media k (fgets 4095 s).2
      | .found r => finish r

/-- `matchmediacon` (matchmediacon.c:14-68). -/
def matchmediacon (s media : Bytes) : Med := mediaLoop media s.length s

end Verif.LabelObj
