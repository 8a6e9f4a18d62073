import Verif.Login.Model

/-!
# Model of the files of local customisations

The files in which libsemanage keeps local customisations: libsemanage/src/parse_utils.c, the functions that print and parse records
(booleans_file.c, fcontexts_file.c, ibendports_file.c, ibpkeys_file.c, interfaces_file.c, nodes_file.c, ports_file.c, seusers_file.c,
users_base_file.c, users_extra_file.c), `dbase_file_cache` and `dbase_file_flush` (database_file.c), and `sepol_context_from_string`
and `sepol_context_to_string` (libsepol/src/context_record.c).

A string is the list of its bytes without the NUL.  Messages, line numbers, failing allocations, reads and writes are left out; names
and contexts that are NULL where they must not be are left out too.
-/

namespace Verif.LocalFile
open Verif.Context Verif.Login

/-! ## parse_utils.c -/

/-- `parse_info_t`: the place in the buffer (`ptr`, up to the end of the buffer, with its NULs) and the lines that were not read. -/
structure St where
  cur : Option Bytes
  more : List Bytes
deriving DecidableEq

/-- What a function of the parser does: it succeeds, reports an error, or reads outside of its buffer or through NULL. -/
inductive Out (α : Type)
  | ok (a : α) (s : St)
  | err
  | ub
deriving DecidableEq

/-- A function on the state. -/
def Parser (α : Type) := St → Out α

/-- One after the other. -/
def Parser.bind {α β : Type} (p : Parser α) (f : α → Parser β) : Parser β := fun s =>
  match p s with
  | .ok a s => f a s
  | .err => .err
  | .ub => .ub

instance : Monad Parser where
  pure a := fun s => .ok a s
  bind := Parser.bind

/-- Report an error. -/
def fail {α : Type} : Parser α := fun _ => .err

/-- The buffer of a line, parse_utils.c:104-108: the newline becomes a NUL, another one follows. -/
def loadLine (l : Bytes) : Bytes := if l.getLast? = some nl then l.dropLast ++ [0, 0] else l ++ [0]

/-- The loop over lines, parse_utils.c:101-128; at the end `ptr` is NULL. -/
def nextLine : List Bytes → St
  | [] => ⟨none, []⟩
  | l :: ls =>
    let ptr := (loadLine l).dropWhile isSpace
    if ptr.head? ≠ some 0 ∧ ptr.head? ≠ some 35 then ⟨some ptr, ls⟩ else nextLine ls

/-- `parse_skip_space`, parse_utils.c:83-139. -/
def skipSpace : Parser Unit := fun s =>
  match s.cur with
  | none => .ok () (nextLine s.more)
  | some p =>
    match p.dropWhile isSpace with
    | [] => .ub
    | c :: r => if c ≠ 0 then .ok () ⟨some (c :: r), s.more⟩ else .ok () (nextLine s.more)

/-- `parse_assert_noeof`, parse_utils.c:141-151, with the buffer from `ptr` on. -/
def noeof : Parser Bytes := fun s =>
  match s.cur with
  | none => .err
  | some p => .ok p s

/-- Set `ptr`. -/
def setPtr (p : Bytes) : Parser Unit := fun s => .ok () { s with cur := some p }

/-- `*ptr`, with what follows; there is nothing to read behind the end of the buffer. -/
def deref (p : Bytes) : Parser (UInt8 × Bytes) := fun s =>
  match p with
  | [] => .ub
  | c :: r => .ok (c, r) s

/-- `parse_assert_space`, parse_utils.c:153-169. -/
def assertSpace : Parser Unit := do
  let p ← noeof
  let (c, _) ← deref p
  if c ≠ 0 ∧ isSpace c = false then fail else skipSpace

/-- `parse_assert_ch`, parse_utils.c:171-188. -/
def assertCh (ch : UInt8) : Parser Unit := do
  let p ← noeof
  let (c, r) ← deref p
  if c ≠ ch then fail else setPtr r

/-- `parse_assert_str`, parse_utils.c:190-209. -/
def assertStr (str : Bytes) : Parser Unit := do
  let p ← noeof
  let _ ← deref p
  if p.take str.length = str then setPtr (p.drop str.length) else fail

/-- `parse_optional_ch`, parse_utils.c:211-221. -/
def optionalCh (ch : UInt8) : Parser Bool := fun s =>
  match s.cur with
  | none => .ok false s
  | some [] => .ub
  | some (c :: r) => if c ≠ ch then .ok false s else .ok true { s with cur := some r }

/-- `parse_optional_str`, parse_utils.c:223-232: `ptr` is not compared with NULL. -/
def optionalStr (str : Bytes) : Parser Bool := fun s =>
  match s.cur with
  | none => .ub
  | some [] => .ub
  | some p => if p.take str.length = str then .ok true { s with cur := some (p.drop str.length) } else .ok false s

/-- `parse_fetch_string`, parse_utils.c:269-305. -/
def fetchString (delim : UInt8) (spaces : Bool) : Parser Bytes := do
  let p ← noeof
  let w := p.takeWhile (fun c => c != 0 && (spaces || !isSpace c) && c != delim)
  let _ ← deref (p.drop w.length)
  if w = [] then fail
  else do
    setPtr (p.drop w.length)
    pure w

/-- `isdigit`. -/
def isDigit (c : UInt8) : Bool := 48 ≤ c && c ≤ 57

/-- The number that digits stand for. -/
def digitsVal (ds : Bytes) : Nat := ds.foldl (fun n d => 10 * n + (d.toNat - 48)) 0

/-- `value = strtol(str, &test, 10)`, parse_utils.c:250: the greatest `long` if it is too great, and then the lower 32 bits. -/
def toInt (n : Nat) : Int :=
  let v : Nat := min n (2 ^ 63 - 1) % 2 ^ 32
  if v < 2 ^ 31 then (v : Int) else (v : Int) - 2 ^ 32

/-- `parse_fetch_int`, parse_utils.c:234-267. -/
def fetchInt (delim : UInt8) : Parser Int := do
  let str ← fetchString delim false
  if (str.head?.map isDigit) ≠ some true then fail
  else if str.all isDigit = false then fail
  else pure (toInt (digitsVal str))

/-! ## Contexts -/

/-- `sepol_context_t`. -/
structure Con where
  user : Bytes
  role : Bytes
  type : Bytes
  mls : Option Bytes
deriving DecidableEq

/-- `sepol_context_from_string`, context_record.c:198-268: `none` is an error, `some none` the absence of a context. -/
def conFromString (str : Bytes) : Option (Option Con) :=
  if str = [60, 60, 110, 111, 110, 101, 62, 62] then some none
  else
    let user := str.takeWhile (· != colon)
    if str.drop user.length = [] then none
    else
      let low := str.drop (user.length + 1)
      let role := low.takeWhile (· != colon)
      if low.drop role.length = [] then none
      else
        let low := low.drop (role.length + 1)
        let type := low.takeWhile (· != colon)
        if low.drop type.length = [] then some (some ⟨user, role, low, none⟩)
        else some (some ⟨user, role, type, some (low.drop (type.length + 1))⟩)

/-- `sepol_context_to_string`, context_record.c:270-321. -/
def conToString (c : Con) : Bytes :=
  match c.mls with
  | none => c.user ++ colon :: (c.role ++ colon :: c.type)
  | some m => c.user ++ colon :: (c.role ++ colon :: (c.type ++ colon :: m))

/-- A context that is read from a string and may not be absent. -/
def someCon (str : Bytes) : Parser Con :=
  match conFromString str with
  | some (some c) => pure c
  | _ => fail

/-- The digits of a number. -/
def dec (n : Nat) : Bytes := if n < 10 then [UInt8.ofNat (48 + n)] else dec (n / 10) ++ [UInt8.ofNat (48 + n % 10)]

/-- `printf` with `%d`. -/
def decInt (n : Int) : Bytes := if n < 0 then 45 :: dec n.natAbs else dec n.toNat

/-- Lower case, for `strcasecmp`. -/
def lower (c : UInt8) : UInt8 := if 65 ≤ c ∧ c ≤ 90 then c + 32 else c

/-- `strcasecmp(str, lit) == 0` for a literal in lower case. -/
def caseEq (str lit : Bytes) : Bool := str.map lower == lit

/-! ## Records -/

/-- `semanage_seuser_t`. -/
structure Seuser where
  name : Bytes
  sename : Bytes
  mls : Option Bytes
deriving DecidableEq

/-- `seuser_print`, seusers_file.c:22-42, without the newline. -/
def Seuser.print (r : Seuser) : Bytes := r.name ++ colon :: (r.sename ++ (match r.mls with | none => [] | some m => colon :: m))

/-- `seuser_parse`, seusers_file.c:44-107; `none` is STATUS_NODATA. -/
def Seuser.parse : Parser (Option Seuser) := do
  skipSpace
  fun s => if s.cur = none then .ok none s else (do
    let name ← fetchString colon true
    skipSpace
    assertCh colon
    skipSpace
    let sename ← fetchString colon true
    skipSpace
    if (← optionalCh colon) = false then pure (some ⟨name, sename, none⟩)
    else do
      skipSpace
      let mls ← fetchString 32 false
      assertSpace
      pure (some ⟨name, sename, some mls⟩) : Parser (Option Seuser)) s

/-- `semanage_bool_t`. -/
structure Boolean where
  name : Bytes
  value : Int
deriving DecidableEq

/-- `bool_print`, booleans_file.c:23-36. -/
def Boolean.print (r : Boolean) : Bytes := r.name ++ 61 :: decInt r.value

/-- The value, booleans_file.c:66-77: `true`, `TRUE`, `false`, `FALSE` or a number. -/
def boolValue : Parser Int := do
  if ← optionalStr [116, 114, 117, 101] then pure 1
  else if ← optionalStr [84, 82, 85, 69] then pure 1
  else if ← optionalStr [102, 97, 108, 115, 101] then pure 0
  else if ← optionalStr [70, 65, 76, 83, 69] then pure 0
  else fetchInt 32

/-- `bool_parse`, booleans_file.c:38-100. -/
def Boolean.parse : Parser (Option Boolean) := do
  skipSpace
  fun s => if s.cur = none then .ok none s else (do
    let name ← fetchString 61 false
    skipSpace
    assertCh 61
    skipSpace
    let value ← boolValue
    if value ≠ 0 ∧ value ≠ 1 then fail
    else do
      assertSpace
      pure (some ⟨name, value⟩) : Parser (Option Boolean)) s

/-- SEMANAGE_FCONTEXT_ALL and so on, semanage/fcontext_record.h:44-51. -/
inductive FType
  | all | reg | dir | char | block | sock | link | pipe
deriving DecidableEq

/-- `semanage_fcontext_t`. -/
structure Fcontext where
  expr : Bytes
  type : FType
  con : Option Con
deriving DecidableEq

/-- `type_str`, fcontexts_file.c:22-43. -/
def typeStr : FType → Bytes
  | .all => [32, 32]
  | .reg => [45, 45]
  | .dir => [45, 100]
  | .char => [45, 99]
  | .block => [45, 98]
  | .sock => [45, 115]
  | .link => [45, 108]
  | .pipe => [45, 112]

/-- The context or `<<none>>`, fcontexts_file.c:65-73. -/
def conText : Option Con → Bytes
  | none => [60, 60, 110, 111, 110, 101, 62, 62]
  | some c => conToString c

/-- `fcontext_print`, fcontexts_file.c:45-78. -/
def Fcontext.print (r : Fcontext) : Bytes := r.expr ++ 32 :: (typeStr r.type ++ 32 :: conText r.con)

/-- The type, fcontexts_file.c:102-118. -/
def parseType (str : Bytes) : Option FType :=
  if caseEq str [45, 115] then some .sock
  else if caseEq str [45, 112] then some .pipe
  else if caseEq str [45, 98] then some .block
  else if caseEq str [45, 108] then some .link
  else if caseEq str [45, 99] then some .char
  else if caseEq str [45, 100] then some .dir
  else if caseEq str [45, 45] then some .reg
  else none

/-- The context of a file, fcontexts_file.c:128-144. -/
def Fcontext.finish (expr : Bytes) (type : FType) (str : Bytes) : Parser (Option Fcontext) :=
  match conFromString str with
  | none => fail
  | some con => do
    assertSpace
    pure (some ⟨expr, type, con⟩)

/-- `fcontext_parse`, fcontexts_file.c:80-159. -/
def Fcontext.parse : Parser (Option Fcontext) := do
  skipSpace
  fun s => if s.cur = none then .ok none s else (do
    let expr ← fetchString 32 false
    assertSpace
    let str ← fetchString 32 false
    match parseType str with
    | none => Fcontext.finish expr .all str
    | some type => do
      assertSpace
      let str ← fetchString 32 false
      Fcontext.finish expr type str : Parser (Option Fcontext)) s

/-- SEMANAGE_PROTO_*, and any other number. -/
inductive Proto
  | udp | tcp | dccp | sctp | other
deriving DecidableEq

/-- `sepol_port_get_proto_str`, port_record.c:173-188. -/
def protoStr : Proto → Bytes
  | .udp => [117, 100, 112]
  | .tcp => [116, 99, 112]
  | .dccp => [100, 99, 99, 112]
  | .sctp => [115, 99, 116, 112]
  | .other => [63, 63, 63]

/-- ports_file.c:80-93. -/
def parseProto (str : Bytes) : Option Proto :=
  if caseEq str [116, 99, 112] then some .tcp
  else if caseEq str [117, 100, 112] then some .udp
  else if caseEq str [100, 99, 99, 112] then some .dccp
  else if caseEq str [115, 99, 116, 112] then some .sctp
  else none

/-- `semanage_port_t`. -/
structure Port where
  proto : Proto
  low : Int
  high : Int
  con : Con
deriving DecidableEq

/-- A number or two, ports_file.c:37-43, ibpkeys_file.c:40-46. -/
def printRange (low high : Int) : Bytes :=
  if low = high then decInt low else decInt low ++ [32, 45, 32] ++ decInt high

/-- `port_print`, ports_file.c:22-58. -/
def Port.print (r : Port) : Bytes :=
  [112, 111, 114, 116, 99, 111, 110, 32] ++ protoStr r.proto ++ 32 :: (printRange r.low r.high ++ 32 :: conToString r.con)

/-- A number or two, ports_file.c:98-123, ibpkeys_file.c:91-118. -/
def parseRange : Parser (Int × Int) := do
  let low ← fetchInt 45
  let p ← noeof
  let (c, _) ← deref p
  if c ≠ 0 ∧ c ≠ 45 then assertSpace else pure ()
  if ← optionalCh 45 then do
    skipSpace
    let high ← fetchInt 32
    assertSpace
    pure (low, high)
  else pure (low, low)

/-- `port_parse`, ports_file.c:60-162. -/
def Port.parse : Parser (Option Port) := do
  skipSpace
  fun s => if s.cur = none then .ok none s else (do
    assertStr [112, 111, 114, 116, 99, 111, 110]
    assertSpace
    let str ← fetchString 32 false
    match parseProto str with
    | none => fail
    | some proto => do
      assertSpace
      let (low, high) ← parseRange
      let str ← fetchString 32 false
      let con ← someCon str
      assertSpace
      pure (some ⟨proto, low, high, con⟩) : Parser (Option Port)) s

/-- `semanage_iface_t`. -/
structure Iface where
  name : Bytes
  ifcon : Con
  msgcon : Con
deriving DecidableEq

/-- `iface_print`, interfaces_file.c:21-54. -/
def Iface.print (r : Iface) : Bytes :=
  [110, 101, 116, 105, 102, 99, 111, 110, 32] ++ r.name ++ 32 :: (conToString r.ifcon ++ 32 :: conToString r.msgcon)

/-- `iface_parse`, interfaces_file.c:56-145. -/
def Iface.parse : Parser (Option Iface) := do
  skipSpace
  fun s => if s.cur = none then .ok none s else (do
    assertStr [110, 101, 116, 105, 102, 99, 111, 110]
    assertSpace
    let name ← fetchString 32 false
    assertSpace
    let str ← fetchString 32 false
    let ifcon ← someCon str
    assertSpace
    let str ← fetchString 32 false
    let msgcon ← someCon str
    assertSpace
    pure (some ⟨name, ifcon, msgcon⟩) : Parser (Option Iface)) s

/-- `semanage_ibendport_t`. -/
structure Ibendport where
  name : Bytes
  port : Int
  con : Con
deriving DecidableEq

/-- `ibendport_print`, ibendports_file.c:22-57. -/
def Ibendport.print (r : Ibendport) : Bytes :=
  [105, 98, 101, 110, 100, 112, 111, 114, 116, 99, 111, 110, 32] ++ r.name ++ 32 :: (decInt r.port ++ 32 :: conToString r.con)

/-- `ibendport_parse`, ibendports_file.c:59-130. -/
def Ibendport.parse : Parser (Option Ibendport) := do
  skipSpace
  fun s => if s.cur = none then .ok none s else (do
    assertStr [105, 98, 101, 110, 100, 112, 111, 114, 116, 99, 111, 110]
    assertSpace
    let name ← fetchString 32 false
    assertSpace
    let port ← fetchInt 32
    assertSpace
    let str ← fetchString 32 false
    let con ← someCon str
    assertSpace
    pure (some ⟨name, port, con⟩) : Parser (Option Ibendport)) s

/-- How addresses are converted: `inet_pton` and `inet_ntop` for nodes (libsepol/src/node_record.c), the same for subnet prefixes
(libsepol/src/ibpkey_record.c).  What they do is a parameter. -/
structure AddrFns (A : Type) where
  read : Bytes → Option A
  show_ : A → Bytes

/-- `semanage_node_t`; `v6` is the protocol. -/
structure Node (A : Type) where
  v6 : Bool
  addr : A
  mask : A
  con : Con
deriving DecidableEq

/-- "ipv4" or "ipv6", `sepol_node_get_proto_str`. -/
def v6Str (v6 : Bool) : Bytes := if v6 then [105, 112, 118, 54] else [105, 112, 118, 52]

/-- `node_print`, nodes_file.c:22-58. -/
def Node.print {A : Type} (f : Bool → AddrFns A) (r : Node A) : Bytes :=
  [110, 111, 100, 101, 99, 111, 110, 32] ++ v6Str r.v6 ++ 32 :: ((f r.v6).show_ r.addr ++ 32 :: ((f r.v6).show_ r.mask ++
    32 :: conToString r.con))

/-- An address. -/
def readAddr {A : Type} (f : AddrFns A) (str : Bytes) : Parser A :=
  match f.read str with
  | none => fail
  | some a => pure a

/-- `node_parse`, nodes_file.c:60-155. -/
def Node.parse {A : Type} (f : Bool → AddrFns A) : Parser (Option (Node A)) := do
  skipSpace
  fun s => if s.cur = none then .ok none s else (do
    assertStr [110, 111, 100, 101, 99, 111, 110]
    assertSpace
    let str ← fetchString 32 false
    if caseEq str [105, 112, 118, 52] = false ∧ caseEq str [105, 112, 118, 54] = false then fail
    else do
      let v6 := !caseEq str [105, 112, 118, 52]
      assertSpace
      let str ← fetchString 32 false
      let addr ← readAddr (f v6) str
      assertSpace
      let str ← fetchString 32 false
      let mask ← readAddr (f v6) str
      assertSpace
      let str ← fetchString 32 false
      let con ← someCon str
      assertSpace
      pure (some ⟨v6, addr, mask, con⟩) : Parser (Option (Node A))) s

/-- `semanage_ibpkey_t`. -/
structure Ibpkey (A : Type) where
  prefix_ : A
  low : Int
  high : Int
  con : Con
deriving DecidableEq

/-- `ibpkey_print`, ibpkeys_file.c:22-63. -/
def Ibpkey.print {A : Type} (f : AddrFns A) (r : Ibpkey A) : Bytes :=
  [105, 98, 112, 107, 101, 121, 99, 111, 110, 32] ++ f.show_ r.prefix_ ++ 32 :: (printRange r.low r.high ++ 32 :: conToString r.con)

/-- `ibpkey_parse`, ibpkeys_file.c:65-155. -/
def Ibpkey.parse {A : Type} (f : AddrFns A) : Parser (Option (Ibpkey A)) := do
  skipSpace
  fun s => if s.cur = none then .ok none s else (do
    assertStr [105, 98, 112, 107, 101, 121, 99, 111, 110]
    assertSpace
    let str ← fetchString 32 false
    let prefix_ ← readAddr f str
    assertSpace
    let (low, high) ← parseRange
    let str ← fetchString 32 false
    let con ← someCon str
    assertSpace
    pure (some ⟨prefix_, low, high, con⟩) : Parser (Option (Ibpkey A))) s

/-- `semanage_user_base_t`. -/
structure User where
  name : Bytes
  roles : List Bytes
  level : Option Bytes
  range : Option Bytes
deriving DecidableEq

/-- `user_base_print`, users_base_file.c:23-63: the level and the range only if there are both. -/
def User.print (r : User) : Bytes :=
  [117, 115, 101, 114, 32] ++ r.name ++ [32, 114, 111, 108, 101, 115, 32, 123, 32] ++ (r.roles.flatMap fun x => x ++ [32]) ++ [125, 32] ++
    (match r.level, r.range with
     | some l, some g => [108, 101, 118, 101, 108, 32] ++ l ++ [32, 114, 97, 110, 103, 101, 32] ++ g
     | _, _ => []) ++ [59]

/-- `sepol_user_add_role`, libsepol/src/user_record.c:172-202. -/
def addRole (roles : List Bytes) (role : Bytes) : List Bytes := if roles.contains role then roles else roles ++ [role]

/-- The bytes that are left, with room for the NULs of each line. -/
def St.size (s : St) : Nat := (match s.cur with | none => 0 | some p => p.length + 1) + (s.more.map fun l => l.length + 3).sum

/-- The loop over roles, users_base_file.c:99-134.  `true` means that the semicolon was read.  Each turn advances `ptr`, so the number
of turns is limited by the bytes that are left. -/
def rolesLoop : Nat → Bool → List Bytes → Parser (List Bytes × Bool)
  | 0, _, _ => fail
  | n + 1, islist, roles => do
    skipSpace
    let p ← noeof
    let start := p.takeWhile (fun c => c != 0 && c != 59 && c != 125 && !isSpace c)
    let (delim, rest) ← deref (p.drop start.length)
    setPtr rest
    let roles := addRole roles start
    if delim ≠ 0 ∧ isSpace delim = false then
      if islist = true ∧ delim = 125 then pure (roles, false)
      else if islist = false ∧ delim = 59 then pure (roles, true)
      else fail
    else do
      skipSpace
      if ← optionalCh 59 then pure (roles, true)
      else do
        let close ← optionalCh 125
        if close = false ∧ islist = true then rolesLoop n islist roles else pure (roles, false)

/-- The level and the range, users_base_file.c:136-172. -/
def userMls : Parser (Option (Bytes × Bytes)) := do
  skipSpace
  if ← optionalStr [108, 101, 118, 101, 108] then do
    assertSpace
    let level ← fetchString 32 false
    assertSpace
    assertStr [114, 97, 110, 103, 101]
    assertSpace
    let range ← fetchString 59 true
    pure (some (level, range))
  else pure none

/-- `user_base_parse`, users_base_file.c:65-197. -/
def User.parse : Parser (Option User) := do
  skipSpace
  fun s => if s.cur = none then .ok none s else (do
    assertStr [117, 115, 101, 114]
    assertSpace
    let name ← fetchString 32 false
    assertSpace
    assertStr [114, 111, 108, 101, 115]
    assertSpace
    let islist ← optionalCh 123
    let (roles, semicolon) ← fun s => rolesLoop (s.size + 1) islist [] s
    if semicolon then pure (some ⟨name, roles, none, none⟩)
    else do
      let mls ← userMls
      skipSpace
      assertCh 59
      pure (some ⟨name, roles, mls.map (·.1), mls.map (·.2)⟩) : Parser (Option User)) s

/-- `semanage_user_extra_t`. -/
structure UserExtra where
  name : Bytes
  prefix_ : Bytes
deriving DecidableEq

/-- `user_extra_print`, users_extra_file.c:23-39. -/
def UserExtra.print (r : UserExtra) : Bytes :=
  [117, 115, 101, 114, 32] ++ r.name ++ [32, 112, 114, 101, 102, 105, 120, 32] ++ r.prefix_ ++ [59]

/-- `user_extra_parse`, users_extra_file.c:41-100. -/
def UserExtra.parse : Parser (Option UserExtra) := do
  skipSpace
  fun s => if s.cur = none then .ok none s else (do
    assertStr [117, 115, 101, 114]
    assertSpace
    let name ← fetchString 32 false
    assertSpace
    assertStr [112, 114, 101, 102, 105, 120]
    assertSpace
    let pre ← fetchString 59 true
    skipSpace
    assertCh 59
    pure (some ⟨name, pre⟩) : Parser (Option UserExtra)) s

/-! ## database_file.c -/

/-- The loop of `dbase_file_cache`, database_file.c:70-97; a record goes to the front of the list.  The limit on the number of turns is
the number of bytes that are left. -/
def cacheLoop {α : Type} (parse : Parser (Option α)) : Nat → List α → St → Out (List α)
  | 0, _, _ => .err
  | n + 1, cache, s =>
    match parse s with
    | .err => .err
    | .ub => .ub
    | .ok none s => .ok cache s
    | .ok (some r) s => cacheLoop parse n (r :: cache) s

/-- What reading a file gives. -/
inductive Read (α : Type)
  | ok (l : List α)
  | err
  | ub
deriving DecidableEq

/-- `dbase_file_cache`, database_file.c:40-111; without a file there are no records (parse_utils.c:45-57). -/
def cache {α : Type} (parse : Parser (Option α)) (file : Option Bytes) : Read α :=
  let s : St := ⟨none, (file.map lines).getD []⟩
  match cacheLoop parse (s.size + 1) [] s with
  | .ok l _ => .ok l
  | .err => .err
  | .ub => .ub

/-- "# This file is auto-generated by libsemanage\n# Do not edit directly.\n\n", database_file.c:137-138. -/
def header : Bytes := "# This file is auto-generated by libsemanage\n# Do not edit directly.\n\n".toUTF8.toList

/-- `dbase_file_flush`, database_file.c:114-168: from the end of the list on. -/
def flush {α : Type} (print : α → Bytes) (cache : List α) : Bytes := header ++ cache.reverse.flatMap fun r => print r ++ [nl]

end Verif.LocalFile
