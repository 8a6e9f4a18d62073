import Verif.KernelCil.Model
import Verif.Policy.Types

/-!
# Model of the writing of levels

libsepol/src/kernel_to_cil.c:1030-1126 and 1980-2026, kernel_to_conf.c:1030-1112 and 1936-1972.  `cat` and `sens` are
the tables of names `p_cat_val_to_name` and `p_sens_val_to_name`, which have a name for every value that is used.
Lengths fit an `int`.
-/

namespace Verif.KernelCil
open Policy (Level Range)

/-- The loop over the bits in all four functions, for example kernel_to_cil.c:1037-1057: at the end of every run of bits
its first bit `start`, its last bit `i` and the number of bits `range`. -/
def runs (cats : Ebitmap.Ebitmap) : List Nat → Nat → Nat → List (Nat × Nat × Nat)
  | [], _, _ => []
  | i :: l, start, range =>
    let start := if range = 0 then i else start
    if Ebitmap.getBit cats (i + 1) then runs cats l start (range + 1)
    else (start, i, range + 1) :: runs cats l start 0

/-- The runs of a set. -/
def catRuns (cats : Ebitmap.Ebitmap) : Option (List (Nat × Nat × Nat)) :=
  (Ebitmap.forEachPositiveBit (cats.highbit + 1) cats).map fun l => runs cats l 0 0

/-- `snprintf(p, remaining, …)` for a text and the check of its result: what remains, if it fits. -/
def put (remaining : Nat) (s : Str) : Option Nat := if s.length ≥ remaining then none else some (remaining - s.length)

/-! ### CIL -/

/-- What is added for a run, kernel_to_cil.c:1046-1053. -/
def runLen (cat : Nat → Str) : Nat × Nat × Nat → Nat
  | (start, i, range) =>
    (cat start).length + (if range > 2 then (cat (i - 1)).length + "(range  ) ".length else if range = 2 then (cat (i - 1)).length + 2 else if range = 1 then 1 else 0)

/-- `cats_ebitmap_len`, kernel_to_cil.c:1030-1063. -/
def catsLen (cat : Nat → Str) (rs : List (Nat × Nat × Nat)) : Nat :=
  let len := (rs.map (runLen cat)).sum
  if len > 0 then len + 2 else len

/-- The text of a run, kernel_to_cil.c:1095-1107. -/
def runText (cat : Nat → Str) : Nat × Nat × Nat → Str
  | (start, i, range) =>
    if range > 1 then
      if range = 2 then cat start ++ ' ' :: (cat i ++ [' '])
      else "(range ".toList ++ (cat start ++ ' ' :: (cat i ++ ") ".toList))
    else cat start ++ [' ']

/-- The loop of `cats_ebitmap_to_str`, kernel_to_cil.c:1084-1115; `none` if a text does not fit. -/
def catsLoop (cat : Nat → Str) : List (Nat × Nat × Nat) → Nat → Option Str
  | [], _ => some []
  | r :: rs, remaining => (put remaining (runText cat r)).bind fun rest => (catsLoop cat rs rest).map (runText cat r ++ ·)

/-- `cats_ebitmap_to_str`, kernel_to_cil.c:1065-1126; `none` is NULL. -/
def catsToStr (cat : Nat → Str) (cats : Ebitmap.Ebitmap) : Option Str :=
  (catRuns cats).bind fun rs =>
    if catsLen cat rs = 0 then none
    else (catsLoop cat rs (catsLen cat rs - 1)).map fun body => ('(' :: body).dropLast ++ [')']

/-- `level_to_str`, kernel_to_cil.c:1980-1996.  `none`: the NULL that `cats_ebitmap_to_str` returns is printed with
`%s`, which is undefined (and `(null)` with glibc). -/
def levelToStr (sens cat : Nat → Str) (l : Level) : Option Str :=
  if l.cat.node.isEmpty then some ('(' :: (sens (l.sens - 1) ++ [')']))
  else (catsToStr cat l.cat).map (paren2 (sens (l.sens - 1)))

/-- `range_to_str`, kernel_to_cil.c:1998-2021. -/
def rangeToStr (sens cat : Nat → Str) (r : Range) : Option Str :=
  (levelToStr sens cat r.low).bind fun low => (levelToStr sens cat r.high).map fun high => paren2 low high

/-! ### policy.conf -/

/-- What is added for a run, kernel_to_conf.c:1046-1049. -/
def runLenConf (cat : Nat → Str) : Nat × Nat × Nat → Nat
  | (start, i, range) => (cat start).length + 1 + (if range > 1 then (cat i).length + 1 else 0)

/-- The text of a run, kernel_to_conf.c:1087-1096. -/
def runTextConf (cat : Nat → Str) (first : Bool) : Nat × Nat × Nat → Str
  | (start, i, range) =>
    (if first then [] else [',']) ++ (cat start ++ (if range > 1 then (if range = 2 then ',' else '.') :: cat i else []))

/-- The loop of `cats_ebitmap_to_str`, kernel_to_conf.c:1076-1105. -/
def catsLoopConf (cat : Nat → Str) : List (Nat × Nat × Nat) → Bool → Nat → Option Str
  | [], _, _ => some []
  | r :: rs, first, remaining =>
    (put remaining (runTextConf cat first r)).bind fun rest => (catsLoopConf cat rs false rest).map (runTextConf cat first r ++ ·)

/-- `cats_ebitmap_to_str`, kernel_to_conf.c:1057-1114, with `cats_ebitmap_len`, lines 1030-1055. -/
def catsToConf (cat : Nat → Str) (cats : Ebitmap.Ebitmap) : Option Str :=
  (catRuns cats).bind fun rs =>
    if (rs.map (runLenConf cat)).sum = 0 then none
    else catsLoopConf cat rs true (rs.map (runLenConf cat)).sum

/-- `level_to_str`, kernel_to_conf.c:1936-1952; `none` as for CIL. -/
def levelToConf (sens cat : Nat → Str) (l : Level) : Option Str :=
  if l.cat.node.isEmpty then some (sens (l.sens - 1))
  else (catsToConf cat l.cat).map fun c => sens (l.sens - 1) ++ ':' :: c

/-- `range_to_str`, kernel_to_conf.c:1954-1977. -/
def rangeToConf (sens cat : Nat → Str) (r : Range) : Option Str :=
  (levelToConf sens cat r.low).bind fun low => (levelToConf sens cat r.high).map fun high => low ++ (" - ".toList ++ high)

end Verif.KernelCil
