import Verif.CilX.Model

/-!
# Model of checkpolicy/policy_define.c: lists of extended permissions

How checkpolicy turns the list of numbers of a rule `allowxperm`, `auditallowxperm`, `dontauditxperm` or `neverallowxperm` into blocks
of 256 bits: `avrule_xperm_ranges`, `define_te_avtab_ioctl`, `define_te_avtab_netlink` and what they call.

Left out: failing allocations, and the types and classes of the rule, which are copied to every block.  The number that `strtoul` reads
from a word is taken as given.  A queue with `-` in front or at the end, which the grammar does not allow (policy_parse.y:801-821), is
refused here.
-/

namespace Verif.Xperm
open Avtab (XPerms)
open CilX (XKind setRange)

/-- A word in `id_queue`, policy_parse.y:801-821. -/
inductive Tok
  | tilde
  | dash
  | num (n : Nat)
deriving DecidableEq

/-- `av_xperm_range_t`, policy_define.c:1912-1915: `uint16_t`. -/
structure Range where
  low : Nat
  high : Nat
deriving DecidableEq, Repr

/-- `avrule_read_xperm_ranges`, policy_define.c:1990-2041: whether the ranges are to be left out, and the ranges, the last one first. -/
def readLoop : List Tok → Bool → List Range → Option (Bool × List Range)
  | [], om, acc => some (om, acc.reverse)
  | .tilde :: ts, _, acc => readLoop ts true acc
  | .dash :: .num n :: ts, om, r :: acc =>
    if n % 2 ^ 16 < r.low then none else readLoop ts om (⟨r.low, n % 2 ^ 16⟩ :: acc)
  | .dash :: _, _, _ => none
  | .num n :: ts, om, acc => readLoop ts om (⟨n % 2 ^ 16, n % 2 ^ 16⟩ :: acc)

/-- The inner loop of `avrule_sort_xperms`, policy_define.c:1938-1956: `pre` are the elements before `r2`. -/
def insLoop (s : Range) (pre : List Range) : List Range → List Range
  | [] => pre
  | r2 :: rest =>
    if s.low < r2.low then s :: r2 :: rest
    else match rest with
      | [] => pre ++ [r2, s]
      | r3 :: rest' => if s.low < r3.low then pre ++ r2 :: s :: r3 :: rest' else insLoop s (pre ++ [r2]) (r3 :: rest')

/-- `avrule_sort_xperms`, policy_define.c:1923-1969. -/
def sort (l : List Range) : List Range := l.foldl (fun acc s => if acc = [] then [s] else insLoop s [] acc) []

/-- `avrule_merge_xperms`, policy_define.c:1971-1988. -/
def merge : List Range → List Range
  | [] => []
  | [r] => [r]
  | r :: n :: rest =>
    if r.high + 1 ≥ n.low then merge (⟨r.low, if r.high < n.high then n.high else r.high⟩ :: rest)
    else r :: merge (n :: rest)
termination_by l => l.length

/-- The loop of `avrule_omit_xperms`, policy_define.c:2065-2078; `low` is that of the range that was made last, its `high` is 0 unless it
is set. -/
def omitLoop (low : Nat) : List Range → List Range
  | [] => [⟨low, 0⟩]
  | r :: rest =>
    ⟨low, (r.low + 65535) % 2 ^ 16⟩ ::
      match rest with
      | [] => [⟨(r.high + 1) % 2 ^ 16, 65535⟩]
      | r' :: rest' => omitLoop ((r.high + 1) % 2 ^ 16) (r' :: rest')

/-- `avrule_omit_xperms`, policy_define.c:2044-2090. -/
def omitRanges : List Range → List Range
  | [] => []
  | r :: rest => if r.low = 0 then omitLoop ((r.high + 1) % 2 ^ 16) rest else omitLoop 0 (r :: rest)

/-- `avrule_xperm_ranges`, policy_define.c:2092-2117. -/
def ranges (ts : List Tok) : Option (List Range) :=
  match readLoop ts false [] with
  | none => none
  | some (_, []) => none
  | some (om, l) => some (if om then omitRanges (merge (sort l)) else merge (sort l))

/-- `xperm_test`, libsepol/include/sepol/policydb/policydb.h:254. -/
def xtest (x : Nat) (ps : List (BitVec 32)) : Bool := (ps.getD (x / 32) 0#32).getLsbD (x % 32)

/-- `xperm_set`, policydb.h:255. -/
def xset (x : Nat) (ps : List (BitVec 32)) : List (BitVec 32) := ps.modify (x / 32) (· ||| (1#32 <<< (x % 32)))

/-- `avrule_xperms_used`, policy_define.c:2277-2286. -/
def used (ps : List (BitVec 32)) : Bool := ps.any (· != 0#32)

/-- The bits after `calloc`. -/
def zeros : List (BitVec 32) := List.replicate 8 0#32

/-- The bits that `avrule_ioctl_completedriver` sets, policy_define.c:2336-2366.  `avrule_xperm_setrangebits`, policy_define.c:2247-2275, has
the same text as the function of cil_binary.c that `setRange` models. -/
def completeBits (l : List Range) : List (BitVec 32) :=
  l.foldl (fun ps r =>
    let high := (r.high + 1) / 256
    let low := if r.low % 256 ≠ 0 then r.low / 256 + 1 else r.low / 256
    if high > low then setRange low (high - 1) ps else ps) zeros

/-- The bits that `avrule_xperm_partialdriver` sets, policy_define.c:2297-2325. -/
def partialBits (l : List Range) (complete : Option (List (BitVec 32))) : List (BitVec 32) :=
  l.foldl (fun ps r =>
    let low := r.low / 256
    let high := r.high / 256
    match complete with
    | some c =>
      let ps := if xtest low c = false then xset low ps else ps
      if xtest high c = false then xset high ps else ps
    | none => xset high (xset low ps)) zeros

/-- The bits that `avrule_xperm_func` sets for a driver, policy_define.c:2378-2417. -/
def funcBits (l : List Range) (driver : Nat) : List (BitVec 32) :=
  l.foldl (fun ps r =>
    if driver ≠ r.low / 256 ∧ driver ≠ r.high / 256 then ps
    else
      let p :=
        if driver = r.low / 256 then (r.low, if r.high > driver * 256 + 255 then driver * 256 + 255 else r.high)
        else (if r.low < driver * 256 then driver * 256 else r.low, r.high)
      setRange (p.1 % 256) (p.2 % 256) ps) zeros

/-- The blocks of `avrule_xperm_func` for the drivers of which bits are set, policy_define.c:2535-2560 and 2598-2623:
`xperms_for_each_bit`, policy_define.c:2428-2439, visits the bits that are set from the lowest on. -/
def funcBlocks (spec : BitVec 8) (l : List Range) (drivers : List (BitVec 32)) : List XPerms :=
  ((List.range 256).filter fun d => xtest d drivers).filterMap fun d =>
    if used (funcBits l d) then some ⟨spec, BitVec.ofNat 8 d, funcBits l d⟩ else none

/-- `define_te_avtab_ioctl`, policy_define.c:2490-2574: the blocks of the rules. -/
def ioctlRules (ts : List Tok) : Option (List XPerms) :=
  match ranges ts with
  | none => none
  | some l =>
    let c := completeBits l
    let p := partialBits l (if used c then some c else none)
    some ((if used c then [⟨Optimize.DRIVER, 0#8, c⟩] else []) ++ if used p then funcBlocks Optimize.FUNCTION l p else [])

/-- `define_te_avtab_netlink`, policy_define.c:2575-2637. -/
def nlmsgRules (ts : List Tok) : Option (List XPerms) :=
  match ranges ts with
  | none => none
  | some l =>
    let p := partialBits l none
    some (if used p then funcBlocks Optimize.NLMSG l p else [])

end Verif.Xperm
