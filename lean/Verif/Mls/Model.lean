import Verif.Policy.Types
import Verif.Prelude

/-!
# Model of libsepol/src/mls.c and mls_types.h: levels, ranges and their text form
-/

namespace Verif.Mls

open Verif.Policy

abbrev Ebitmap := Verif.Ebitmap.Ebitmap

/-! ## Levels and ranges, mls_types.h -/

/-- `mls_level_eq`, mls_types.h:102-105. -/
def levelEq (l1 l2 : Level) : Bool := (l1.sens == l2.sens) && Ebitmap.cmp l1.cat l2.cat

/-- `mls_level_dom`, mls_types.h:107-110. -/
def levelDom (l1 l2 : Level) : Bool := decide (l1.sens ≥ l2.sens) && Ebitmap.contains l1.cat l2.cat

/-- `mls_level_incomp`, mls_types.h:112-113. -/
def levelIncomp (l1 l2 : Level) : Bool := !levelDom l1 l2 && !levelDom l2 l1

/-- `mls_level_between`, mls_types.h:115-116. -/
def levelBetween (l1 l2 l3 : Level) : Bool := levelDom l1 l2 && levelDom l3 l1

/-- `mls_range_contains`, mls_types.h:118-120. -/
def rangeContains (r1 r2 : Range) : Bool := levelDom r2.low r1.low && levelDom r1.high r2.high

/-- `mls_level_cpy`, mls_types.h:77-84. -/
def levelCpy (src : Level) : Level := ⟨src.sens, Ebitmap.cpy src.cat⟩

/-- `mls_range_cpy`, mls_types.h:122-138. -/
def rangeCpy (src : Range) : Range := ⟨levelCpy src.low, levelCpy src.high⟩

/-- `mls_range_eq`, mls_types.h:152-156. -/
def rangeEq (r1 r2 : Range) : Bool := levelEq r1.low r2.low && levelEq r1.high r2.high

/-- `mls_range_glblub`, mls_types.h:53-74: `none` is the -EINVAL return. -/
def rangeGlblub (r1 r2 : Range) : Option Range :=
  if r1.high.sens < r2.low.sens ∨ r2.high.sens < r1.low.sens then none
  else some ⟨⟨max r1.low.sens r2.low.sens, Ebitmap.and r1.low.cat r2.low.cat⟩,
             ⟨min r1.high.sens r2.high.sens, Ebitmap.and r1.high.cat r2.high.cat⟩⟩

/-- `mls_setup_user_range`, mls.c:509-545: the new (low, high) levels of `usercon`,
`none` for -EINVAL.  (The C code copies the level structures shallowly.) -/
def setupUserRange (fromcon : Range) (user : UserDatum) (usercon : Range) (mls : Bool) : Option Range :=
  if mls then
    let sen? :=
      if levelBetween user.expDfltLevel fromcon.low fromcon.high then some user.expDfltLevel
      else if levelBetween fromcon.low user.expDfltLevel user.expRange.high then some fromcon.low
      else if levelBetween fromcon.high user.expRange.low user.expDfltLevel then some user.expRange.low
      else none
    match sen? with
    | none => none
    | some sen =>
      if levelDom user.expRange.high fromcon.high then some ⟨sen, fromcon.high⟩
      else if levelDom fromcon.high user.expRange.high then some ⟨sen, user.expRange.high⟩
      else none
  else some usercon

/-! ## Text form, mls.c:42-448 -/

/-- The visiting order of `ebitmap_for_each_bit` (ebitmap.h:77-78).  The loop needs
at most `highbit + 1` steps (C04); `none` cannot happen for well-formed maps. -/
def visit (e : Ebitmap) : Option (List (Nat × Bool)) := Ebitmap.forEachBit (e.highbit + 1) e

/-- Pending end of a run of `range` set bits, written when bit `i` is not set or at
the end (mls.c:212-224 and 229-237): a separator and the name of bit `i-1`.
`none` models `strlen(NULL)`. -/
def flush (p : Policy) (range i : Nat) : Option Str :=
  if range > 1 then
    (p.catName (i - 1)).map (fun n => (if range > 2 then '.' else ',') :: n)
  else some []

/-- Category loop of `mls_sid_to_context`, mls.c:194-237, given the visited bits;
`fin` is the value of `i` when the loop ends. -/
def catLoop (p : Policy) (fin : Nat) : List (Nat × Bool) → Nat → Bool → Option Str
  | [], range, _ => flush p range fin
  | (i, true) :: l, range, sep =>
    if range ≠ 0 then catLoop p fin l (range + 1) sep
    else do
      let name ← p.catName i
      let r ← catLoop p fin l 1 true
      some ((if sep then ',' else ':') :: (name ++ r))
  | (i, false) :: l, range, sep => do
    let f ← flush p range i
    let r ← catLoop p fin l 0 sep
    some (f ++ r)

/-- One iteration of the level loop of `mls_sid_to_context`, mls.c:184-237.
`sens - 1` on sensitivity 0 would be an out-of-range index: `none`. -/
def levelText (p : Policy) (l : Level) : Option Str := do
  if l.sens = 0 then none
  let s ← p.sensName (l.sens - 1)
  let v ← visit l.cat
  let c ← catLoop p (Ebitmap.length l.cat) v 0 false
  some (s ++ c)

/-- `mls_sid_to_context`, mls.c:167-252: the characters written to `*scontext`. -/
def sidToContext (p : Policy) (r : Range) : Option Str :=
  if p.mls then do
    let lo ← levelText p r.low
    if levelEq r.low r.high then some (':' :: lo)
    else do
      let hi ← levelText p r.high
      some (':' :: (lo ++ '-' :: hi))
  else some []

/-- Length counterpart of `flush`, mls.c:138-142 and 147-148. -/
def flushLen (p : Policy) (range i : Nat) : Option Nat :=
  if range > 1 then (p.catName (i - 1)).map (fun n => n.length + 1) else some 0

/-- Category loop of `mls_compute_context_len`, mls.c:127-148. -/
def catLenLoop (p : Policy) (fin : Nat) : List (Nat × Bool) → Nat → Option Nat
  | [], range => flushLen p range fin
  | (i, true) :: l, range =>
    if range ≠ 0 then catLenLoop p fin l (range + 1)
    else do
      let name ← p.catName i
      let r ← catLenLoop p fin l 1
      some (name.length + 1 + r)
  | (i, false) :: l, range => do
    let f ← flushLen p range i
    let r ← catLenLoop p fin l 0
    some (f + r)

/-- One iteration of the level loop of `mls_compute_context_len`, mls.c:121-148. -/
def levelLen (p : Policy) (l : Level) : Option Nat := do
  if l.sens = 0 then none
  let s ← p.sensName (l.sens - 1)
  let v ← visit l.cat
  let c ← catLenLoop p (Ebitmap.length l.cat) v 0
  some (s.length + c)

/-- `mls_compute_context_len`, mls.c:109-160 (unsigned overflow of a 4 GiB text is
not modelled). -/
def computeContextLen (p : Policy) (r : Range) : Option Nat :=
  if p.mls then do
    let lo ← levelLen p r.low
    if levelEq r.low r.high then some (1 + lo)
    else do
      let hi ← levelLen p r.high
      some (1 + lo + 1 + hi)
  else some 0

/-- Scan to the first character satisfying `stop` (or the end): the token and the
remaining text starting at the delimiter; the loops mls.c:348-349, 369-370, 426-427. -/
def scan (stop : Char → Bool) : Str → Str × Str
  | [] => ([], [])
  | c :: cs => if stop c then ([], c :: cs) else ((c :: (scan stop cs).1), (scan stop cs).2)

theorem scan_len (stop : Char → Bool) (s : Str) : (scan stop s).2.length ≤ s.length := by
  induction s with
  | nil => simp [scan]
  | cons c cs ih => unfold scan; split <;> simp; omega

/-- `value - 1` on a `uint32_t` value, mls.c:391. -/
@[irreducible] def pred32 (v : Nat) : Nat := (v + 2 ^ 32 - 1) % 2 ^ 32

/-- The loop `for (i = catdatum->s.value; i < rngdatum->s.value; i++) ebitmap_set_bit(...)`,
mls.c:410-416, over the given bits. -/
def setBits : List Nat → Ebitmap → Option Ebitmap
  | [], e => some e
  | b :: bs, e => match Ebitmap.setBit e b true with
    | none => none
    | some e' => setBits bs e'

/-- `.last` part of a category token, mls.c:396-417; `v` is the value of the first
category. -/
def addRange (p : Policy) (v : Nat) (rest : Str) (cat : Ebitmap) : Option Ebitmap :=
  match rest with
  | [] => some cat
  | _ :: rng =>
    (p.cats rng).bind fun rv =>
      if v ≥ rv then none else setBits (List.range' v (rv - v)) cat

/-- Processing of one category token (name or `first.last`), mls.c:376-417. -/
def addToken (p : Policy) (tok : Str) (cat : Ebitmap) : Option Ebitmap :=
  (p.cats (scan (· == '.') tok).1).bind fun v =>
    (Ebitmap.setBit cat (pred32 v) true).bind fun cat =>
      addRange p v (scan (· == '.') tok).2 cat

/-- Category loop of `mls_context_to_sid`, mls.c:367-421: resulting category set,
the delimiter that ended it (`none` = end of string) and the text behind it. -/
def parseCats (p : Policy) (s : Str) (cat : Ebitmap) : Option (Ebitmap × Option Char × Str) :=
  match addToken p (scan (fun c => c == ',' || c == '-') s).1 cat with
  | none => none
  | some cat =>
    match h : (scan (fun c => c == ',' || c == '-') s).2 with
    | [] => some (cat, none, [])
    | d :: rest => if d = ',' then parseCats p rest cat else some (cat, some d, rest)
termination_by s.length
decreasing_by
  have := scan_len (fun c => c == ',' || c == '-') s
  rw [h] at this
  simp at this; omega

/-- One level of `mls_context_to_sid` after its sensitivity token has been scanned,
mls.c:356-422: `d`/`rest` are the delimiter behind the sensitivity and the text
behind that. -/
def parseLevel (p : Policy) (tok : Str) (d : Option Char) (rest : Str) (cat : Ebitmap) :
    Option (Level × Option Char × Str) :=
  match p.levels tok with
  | none => none
  | some lev =>
    if d = some ':' then
      match parseCats p rest cat with
      | none => none
      | some (c, d', rest') => some (⟨lev.sens, c⟩, d', rest')
    else some (⟨lev.sens, cat⟩, d, rest)

/-- Delimiter and text behind it, from the remainder of `scan`. -/
def delim : Str → Option Char × Str
  | [] => (none, [])
  | c :: cs => (some c, cs)

/-- `mls_context_to_sid`, mls.c:329-448, on a context whose MLS fields are `ctx`
initially (`context_init` in every caller); `none` is STATUS_ERR.  `hasMls` is
`oldc != 0`.  The final value of `*scontext`, ignored by all callers, is dropped.
A policy without MLS leaves the context unchanged. -/
def contextToSid (p : Policy) (hasMls : Bool) (s : Str) (ctx : Range) : Option Range :=
  if !p.mls then some ctx
  else if !hasMls then none
  else
    let t := scan (fun c => c == ':' || c == '-') s
    match parseLevel p t.1 (delim t.2).1 (delim t.2).2 ctx.low.cat with
    | none => none
    | some (lo, d, rest) =>
      if d = some '-' then
        let t := scan (· == ':') rest
        match parseLevel p t.1 (delim t.2).1 (delim t.2).2 ctx.high.cat with
        | none => none
        | some (hi, _, _) => some ⟨lo, hi⟩
      else some ⟨lo, levelCpy lo⟩

/-- The empty range of `context_init`, context.h:116-119. -/
def emptyRange : Range := ⟨⟨0, Ebitmap.init⟩, ⟨0, Ebitmap.init⟩⟩

/-- `mls_to_string`, mls.c:42-76, for an MLS policy: the text without the leading
colon. -/
def toString (p : Policy) (r : Range) : Option Str := (sidToContext p r).map List.tail

/-- `mls_from_string`, mls.c:78-103 (called on initialised contexts). -/
def fromString (p : Policy) (s : Str) : Option Range := contextToSid p true s emptyRange

/-- `sepol_mls_contains`, mls.c:667-704: `none` is STATUS_ERR. -/
def mlsContains (p : Policy) (m1 m2 : Str) : Option Bool := do
  let r1 ← fromString p m1
  let r2 ← fromString p m2
  some (rangeContains r1 r2)

/-- `sepol_mls_check`, mls.c:706-723: success? -/
def mlsCheck (p : Policy) (m : Str) : Bool := (fromString p m).isSome

/-! ## Validity, mls.c:258-317 -/

/-- One iteration of the level loop of `mls_context_isvalid`, mls.c:279-302.  The
category test is `i > nprim`, as written. -/
def levelValid (p : Policy) (l : Level) : Bool :=
  if l.sens = 0 ∨ l.sens > p.nLevels then false
  else match p.sensName (l.sens - 1) with
    | none => false
    | some key => match p.levels key with
      | none => false
      | some lev => match Ebitmap.forEachPositiveBit (l.cat.highbit + 1) l.cat with
        | none => false
        | some bits => bits.all (fun i => !decide (i > p.nCats) && Ebitmap.getBit lev.cat i)

/-- `mls_context_isvalid`, mls.c:258-317. -/
def contextIsValid (p : Policy) (c : Context) : Bool :=
  if !p.mls then true
  else if !levelDom c.range.high c.range.low then false
  else if !levelValid p c.range.low then false
  else if !levelValid p c.range.high then false
  else if c.role = OBJECT_R_VAL then true
  else if c.user = 0 ∨ c.user > p.nUsers then false
  else match p.userStruct (c.user - 1) with
    | none => false
    | some u => rangeContains u.expRange c.range

/-! ## Conversion between policies, mls.c:552-601 -/

/-- Category loop of `mls_convert_context`, mls.c:580-595. -/
def convertCats (oldp newp : Policy) : List Nat → Ebitmap → Option Ebitmap
  | [], e => some e
  | i :: l, e => do
    let n ← oldp.catName i
    let v ← newp.cats n
    let e' ← Ebitmap.setBit e (pred32 v) true
    convertCats oldp newp l e'

/-- One level of `mls_convert_context`, mls.c:565-597. -/
def convertLevel (oldp newp : Policy) (l : Level) : Option Level := do
  if l.sens = 0 then none
  let n ← oldp.sensName (l.sens - 1)
  let lev ← newp.levels n
  let bits ← Ebitmap.forEachPositiveBit (l.cat.highbit + 1) l.cat
  let cat ← convertCats oldp newp bits Ebitmap.init
  some ⟨lev.sens, cat⟩

/-- `mls_convert_context`, mls.c:552-601: `none` is an error return (the context may
then be half converted). -/
def convertContext (oldp newp : Policy) (r : Range) : Option Range :=
  if !oldp.mls then some r
  else do
    let lo ← convertLevel oldp newp r.low
    let hi ← convertLevel oldp newp r.high
    some ⟨lo, hi⟩

end Verif.Mls
