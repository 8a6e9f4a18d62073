import Verif.Services.Constraint
import Verif.Avtab.Model

/-!
# Model of the checks of a kernel policy that has been read

libsepol/src/policydb_validate.c and the index functions of libsepol/src/policydb.c:1024-1312 and
conditional.c:540-558, for kernel policies (`policy_type` is POLICY_KERN).

`policydb_read` (policydb.c:4413, 4430, 4483) indexes the tables and then calls `policydb_validate`; `accept` is these
two steps.  A hash table is the list of its entries in the order in which `hashtab_map` meets them; that the
implementation is such a map is property C24.  The result of a check is `some true` for 0, `some false` for -1, and `none`
where the code would use a NULL pointer or shift too far.

Left out: messages; the modules (`avrule_block_t`, scopes), which a kernel policy does not have; the lists `avtrue_list`,
`avfalse_list` and the array `bool_ids` of a conditional, which are empty in one.
-/

namespace Verif.Validate
open Verif.Policy Verif.Services

/-- A check: 0 is `some true`, -1 is `some false`, undefined behaviour is `none`. -/
abbrev V := Option Bool

/-- `if (a) goto bad; b`. -/
def andThen (a b : V) : V :=
  match a with
  | some true => b
  | r => r

/-- A loop that stops at the first failure. -/
def every {α : Type} (f : α → V) : List α → V
  | [] => some true
  | a :: l => andThen (f a) (every f l)

/-! ## The policy -/

/-- `symtab_t`, symtab.h: the table and the number of primary names. -/
structure Symtab (δ : Type) where
  entries : List (Str × δ)
  nprim : Nat

/-- `common_datum_t`, policydb.h:105-108; a permission is its value. -/
structure CommonD where
  value : Nat
  perms : Symtab Nat

/-- `class_datum_t`, policydb.h:111-136. -/
structure ClassD where
  value : Nat
  common : Option CommonD
  perms : Symtab Nat
  constraints : List Constraint
  validatetrans : List Constraint
  defaultUser : Nat
  defaultRole : Nat
  defaultType : Nat
  defaultRange : Nat

/-- `role_datum_t`, policydb.h:138-148. -/
structure RoleD where
  value : Nat
  dominates : Ebitmap.Ebitmap
  types : TypeSet
  bounds : Nat
  roles : Ebitmap.Ebitmap
  flavor : Nat

/-- `type_datum_t`, policydb.h:178-193. -/
structure TypeD where
  value : Nat
  primary : Nat
  flavor : Nat
  types : Ebitmap.Ebitmap
  flags : Nat
  bounds : Nat

/-- `mls_semantic_level_t`, mls_types.h; the categories are pairs of ends. -/
structure SemLevel where
  sens : Nat
  cats : List (Nat × Nat)

/-- `role_set_t`, policydb.h:92-97. -/
structure RoleSet where
  roles : Ebitmap.Ebitmap
  flags : Nat

/-- `user_datum_t`, policydb.h:205-214. -/
structure UserD where
  value : Nat
  roles : RoleSet
  low : SemLevel
  high : SemLevel
  dfltlevel : SemLevel
  expRange : Range
  expDfltlevel : Level
  bounds : Nat

/-- `cond_bool_datum_t`, policydb.h. -/
structure BoolD where
  value : Nat
  state : Int
  flags : Nat

/-- `level_datum_t`, policydb.h:217-221. -/
structure LevelD where
  level : Level
  isalias : Bool
  notdefined : Nat

/-- `cat_datum_t`, policydb.h:224-227. -/
structure CatD where
  value : Nat
  isalias : Bool

/-- `cond_expr_t`, conditional.h:47-61. -/
structure CondTok where
  exprType : Nat
  boolean : Nat

/-- `cond_node_t`, conditional.h:80-97. -/
structure CondD where
  curState : Int
  expr : List CondTok
  trueList : List Avtab.Node
  falseList : List Avtab.Node
  flags : Nat

/-- `role_trans_t`, policydb.h. -/
structure RoleTrans where
  role : Nat
  type : Nat
  tclass : Nat
  newRole : Nat

/-- An entry of `filename_trans`: the key and the list of data. -/
structure FileTrans where
  ttype : Nat
  tclass : Nat
  data : List (Ebitmap.Ebitmap × Nat)

/-- An entry of `range_tr`. -/
structure RangeTr where
  source : Nat
  target : Nat
  tclass : Nat
  range : Range

/-- `ocontext_t`, policydb.h:270-315: the members of the union that are looked at, each with its own name. -/
structure Ocon where
  context0 : Context
  context1 : Context
  sid : Nat
  hasName : Bool
  lowPort : Nat
  highPort : Nat
  behavior : Nat
  lowPkey : Nat
  highPkey : Nat
  ibPort : Nat
  hasDevName : Bool
  lowIoport : Nat
  highIoport : Nat
  lowIomem : Nat
  highIomem : Nat

/-- `genfs_t`, policydb.h:317-321: contexts and classes. -/
structure Genfs where
  hasFstype : Bool
  head : List (Context × Nat)

/-- `policydb_t` of a kernel policy. -/
structure VPolicy where
  version : Nat
  target : Nat
  mls : Nat
  handleUnknown : Nat
  policycaps : Ebitmap.Ebitmap
  permissive : Ebitmap.Ebitmap
  commons : Symtab CommonD
  classes : Symtab ClassD
  roles : Symtab RoleD
  types : Symtab TypeD
  users : Symtab UserD
  bools : Symtab BoolD
  levels : Symtab LevelD
  cats : Symtab CatD
  avtab : List Avtab.Node
  conds : List CondD
  roleTrans : List RoleTrans
  roleAllow : List (Nat × Nat)
  filenameTrans : List FileTrans
  ocontexts : Nat → List Ocon
  genfs : List Genfs
  rangeTrans : List RangeTr
  typeAttr : Nat → Ebitmap.Ebitmap
  attrType : Nat → Ebitmap.Ebitmap

/-! ## Indexing -/

/-- `value_isvalid`, policydb_validate.c:98-104. -/
def valueIsValid (v nprim : Nat) : Bool := !(v == 0 || decide (v > nprim))

/-- The arrays `val_to_name` and `val_to_struct`, which are filled together. -/
abbrev Index (δ : Type) := Nat → Option (Str × δ)

/-- The `*_index` functions, policydb.c:1024-1148 and conditional.c:540-558, under `hashtab_map`: `skip` are the entries
that are not indexed, `none` is -EINVAL. -/
def indexLoop {δ : Type} (val : δ → Nat) (skip : δ → Bool) (nprim : Nat) : List (Str × δ) → Index δ → Option (Index δ)
  | [], a => some a
  | e :: l, a =>
    if skip e.2 then indexLoop val skip nprim l a
    else if !valueIsValid (val e.2) nprim then none
    else if (a (val e.2 - 1)).isSome then none
    else indexLoop val skip nprim l (fun i => if i = val e.2 - 1 then some e else a i)

/-- `policydb_index_others`, policydb.c:1291-1302: a table without primary names is not indexed. -/
def indexOther {δ : Type} (val : δ → Nat) (skip : δ → Bool) (t : Symtab δ) : Option (Index δ) :=
  if t.nprim ≠ 0 then indexLoop val skip t.nprim t.entries (fun _ => none) else some (fun _ => none)

/-- The arrays of the policy. -/
structure Indexes where
  commons : Index CommonD
  classes : Index ClassD
  roles : Index RoleD
  types : Index TypeD
  users : Index UserD
  bools : Index BoolD
  levels : Index LevelD
  cats : Index CatD

/-- `policydb_index_classes`, policydb.c:1160-1187, and `policydb_index_others`, 1246-1302. -/
def index (p : VPolicy) : Option Indexes :=
  (indexLoop CommonD.value (fun _ => false) p.commons.nprim p.commons.entries (fun _ => none)).bind fun commons =>
  (indexLoop ClassD.value (fun _ => false) p.classes.nprim p.classes.entries (fun _ => none)).bind fun classes =>
  (indexOther RoleD.value (fun _ => false) p.roles).bind fun roles =>
  (indexOther TypeD.value (fun d => d.primary == 0) p.types).bind fun types =>
  (indexOther UserD.value (fun _ => false) p.users).bind fun users =>
  (indexOther BoolD.value (fun _ => false) p.bools).bind fun bools =>
  (indexOther (fun d => d.level.sens) LevelD.isalias p.levels).bind fun levels =>
  (indexOther CatD.value CatD.isalias p.cats).bind fun cats =>
  some ⟨commons, classes, roles, types, users, bools, levels, cats⟩

/-! ## Gaps -/

/-- `create_gap_ebitmap`, policydb_validate.c:34-48, the first `n` rounds. -/
def createGaps {δ : Type} (a : Index δ) : Nat → Option Ebitmap.Ebitmap
  | 0 => some Ebitmap.init
  | n+1 => (createGaps a n).bind fun g => if (a n).isNone then Ebitmap.setBit g n true else some g

/-- `validate_init`, policydb_validate.c:50-57. -/
def validateInit {δ : Type} (a : Index δ) (nprim : Nat) : Option Flavor := (createGaps a nprim).map (⟨nprim, ·⟩)

/-- The `validate_t` of the policy. -/
structure AllFlavors where
  commons : Flavor
  classes : Flavor
  roles : Flavor
  types : Flavor
  users : Flavor
  bools : Flavor
  levels : Flavor
  cats : Flavor

/-- Versions in which attributes have a number and no entry, policydb_validate.c:67, 807 (20 to 23). -/
def oldTypes (p : VPolicy) : Bool := decide (20 ≤ p.version ∧ p.version ≤ 23)

/-- `validate_array_init`, policydb_validate.c:59-92. -/
def arrayInit (p : VPolicy) (a : Indexes) : Option AllFlavors :=
  (validateInit a.commons p.commons.nprim).bind fun commons =>
  (validateInit a.classes p.classes.nprim).bind fun classes =>
  (validateInit a.roles p.roles.nprim).bind fun roles =>
  (if oldTypes p then some ⟨p.types.nprim, Ebitmap.init⟩ else validateInit a.types p.types.nprim).bind fun types =>
  (validateInit a.users p.users.nprim).bind fun users =>
  (validateInit a.bools p.bools.nprim).bind fun bools =>
  (validateInit a.levels p.levels.nprim).bind fun levels =>
  (validateInit a.cats p.cats.nprim).bind fun cats =>
  some ⟨commons, classes, roles, types, users, bools, levels, cats⟩

/-- `validate_value`, policydb_validate.c:106-117. -/
def validateValue (v : Nat) (f : Flavor) : Bool :=
  if v == 0 || decide (v > f.nprim) then false
  else !Ebitmap.getBit f.gaps (v - 1)

/-- `validate_role_set`, policydb_validate.c:169-187; ROLE_STAR 1, ROLE_COMP 2. -/
def validateRoleSet (s : RoleSet) (f : Flavor) : Bool :=
  validateEbitmap s.roles f && (s.flags == 0 || s.flags == 1 || s.flags == 2)

/-! ## Symbols -/

/-- `perm_visit`, policydb_validate.c:381-397, under `hashtab_map`. -/
def permVisit (nprim inherited : Nat) : List (Str × Nat) → BitVec 32 → Bool
  | [], _ => true
  | (_, v) :: l, visited =>
    if !valueIsValid v nprim then false
    else if inherited != 0 && valueIsValid v inherited then false
    else if (1#32 <<< (v - 1)) &&& visited != 0#32 then false
    else permVisit nprim inherited l (visited ||| (1#32 <<< (v - 1)))

/-- `validate_permission_symtab`, policydb_validate.c:399-413. -/
def validatePermissionSymtab (t : Symtab Nat) (inherited : Nat) : Bool := permVisit t.nprim inherited t.entries 0#32

/-- `validate_common_datum`, policydb_validate.c:415-431; PERM_SYMTAB_SIZE is 32. -/
def validateCommon (fl : AllFlavors) (d : CommonD) : Bool :=
  if !validateValue d.value fl.commons then false
  else if d.perms.nprim == 0 || decide (d.perms.nprim > 32) then false
  else if d.perms.nprim != d.perms.entries.length then false
  else validatePermissionSymtab d.perms 0

/-- The flavors for constraints. -/
def AllFlavors.con (fl : AllFlavors) : Flavors := ⟨fl.users, fl.roles, fl.types⟩

/-- `validate_class_datum`, policydb_validate.c:440-505. -/
def validateClass (fl : AllFlavors) (d : ClassD) : Bool :=
  if decide (d.value > 65535) || !validateValue d.value fl.classes then false
  else if !(match d.common with | none => true | some c => validateCommon fl c) then false
  else if decide (d.perms.nprim > 32) || decide (d.perms.entries.length > 32) then false
  else if d.perms.nprim != d.perms.entries.length + (match d.common with | none => 0 | some c => c.perms.entries.length) then false
  else if !validatePermissionSymtab d.perms (match d.common with | none => 0 | some c => c.perms.nprim) then false
  else if !validateConstraints fl.con d.perms.nprim d.constraints then false
  else if !validateConstraints fl.con (2 ^ 32 - 1) d.validatetrans then false
  else if !(d.defaultUser == 0 || d.defaultUser == 1 || d.defaultUser == 2) then false
  else if !(d.defaultRole == 0 || d.defaultRole == 1 || d.defaultRole == 2) then false
  else if !(d.defaultType == 0 || d.defaultType == 1 || d.defaultType == 2) then false
  else d.defaultRange == 0 || d.defaultRange == 1 || d.defaultRange == 2 || d.defaultRange == 3 || d.defaultRange == 4 ||
    d.defaultRange == 5 || d.defaultRange == 6 || d.defaultRange == 7

/-- `validate_role_datum`, policydb_validate.c:514-540; ROLE_ROLE 0, ROLE_ATTRIB 1. -/
def validateRole (fl : AllFlavors) (d : RoleD) : Bool :=
  if !validateValue d.value fl.roles then false
  else if !validateEbitmap d.dominates fl.roles then false
  else if !validateTypeSet d.types fl.types then false
  else if d.bounds != 0 && !validateValue d.bounds fl.roles then false
  else if !validateEbitmap d.roles fl.roles then false
  else d.flavor == 0 || d.flavor == 1

/-- `validate_simpletype`, policydb_validate.c:549-567; TYPE_ATTRIB is 1. -/
def validateSimpleType (a : Indexes) (fl : AllFlavors) (v : Nat) : Bool :=
  if !validateValue v fl.types then false
  else match a.types (v - 1) with
    | none => false
    | some t => t.2.flavor != 1

/-- `validate_type_datum`, policydb_validate.c:569-610; TYPE_TYPE 0, TYPE_ALIAS 2; the flags are TYPE_FLAGS_PERMISSIVE 1
and TYPE_FLAGS_EXPAND_ATTR 6. -/
def validateType (a : Indexes) (fl : AllFlavors) (d : TypeD) : Bool :=
  if !validateValue d.value fl.types then false
  else if d.primary != 0 && !validateValue d.primary fl.types then false
  else if !(if d.flavor == 0 || d.flavor == 2 then isEmpty d.types && !(d.bounds != 0 && !validateSimpleType a fl d.bounds)
    else if d.flavor == 1 then validateEbitmap d.types fl.types && d.bounds == 0
    else false) then false
  else d.flags == 0 || d.flags == 1 || d.flags == 2 || d.flags == 4 || d.flags == 6

/-- `validate_mls_semantic_cat`, policydb_validate.c:619-634. -/
def validateSemCats (cats : Flavor) (l : List (Nat × Nat)) : Bool :=
  l.all fun c => validateValue c.1 cats && validateValue c.2 cats && !decide (c.1 > c.2)

/-- `validate_mls_semantic_level`, policydb_validate.c:636-649. -/
def validateSemLevel (fl : AllFlavors) (l : SemLevel) : Bool :=
  if l.sens == 0 then true
  else validateValue l.sens fl.levels && validateSemCats fl.cats l.cats

/-- `validate_mls_level`, policydb_validate.c:664-675. -/
def validateLevel (fl : AllFlavors) (l : Level) : Bool := validateValue l.sens fl.levels && validateEbitmap l.cat fl.cats

/-- `validate_mls_range`, policydb_validate.c:710-721. -/
def validateRange (fl : AllFlavors) (r : Range) : Bool := validateLevel fl r.low && validateLevel fl r.high

/-- `hashtab_search` of the table of levels. -/
def searchLevel (p : VPolicy) (name : Str) : Option LevelD := (p.levels.entries.find? (·.1 == name)).map (·.2)

/-- `validate_level_datum`, policydb_validate.c:677-701. -/
def validateLevelDatum (p : VPolicy) (a : Indexes) (fl : AllFlavors) (d : LevelD) : V :=
  if d.notdefined != 0 then some false
  else if !validateLevel fl d.level then some false
  else if d.isalias then
    match a.levels (d.level.sens - 1) with
    | none => none
    | some e =>
      match searchLevel p e.1 with
      | none => some false
      | some actual => some (Ebitmap.cmp d.level.cat actual.level.cat)
  else some true

/-- `validate_user_datum`, policydb_validate.c:723-745. -/
def validateUser (p : VPolicy) (fl : AllFlavors) (d : UserD) : Bool :=
  if !validateValue d.value fl.users then false
  else if !validateRoleSet d.roles fl.roles then false
  else if !(validateSemLevel fl d.low && validateSemLevel fl d.high) then false
  else if !validateSemLevel fl d.dfltlevel then false
  else if p.mls != 0 && !validateRange fl d.expRange then false
  else if p.mls != 0 && !validateLevel fl d.expDfltlevel then false
  else !(d.bounds != 0 && !validateValue d.bounds fl.users)

/-- `validate_bool_datum`, policydb_validate.c:754-780; COND_BOOL_FLAGS_TUNABLE is 1. -/
def validateBool (fl : AllFlavors) (d : BoolD) : Bool :=
  if !validateValue d.value fl.bools then false
  else if !(d.state == 0 || d.state == 1) then false
  else d.flags == 0 || d.flags == 1

/-- A loop of `validate_datum_array_gaps`: an entry is there or the number is a gap. -/
def gapsOk {δ : Type} (a : Index δ) (f : Flavor) (n : Nat) : Bool :=
  (List.range n).all fun i => ((a i).isSome == !Ebitmap.getBit f.gaps i)

/-- `validate_datum_array_gaps`, policydb_validate.c:789-829. -/
def validateArrayGaps (p : VPolicy) (a : Indexes) (fl : AllFlavors) : Bool :=
  gapsOk a.classes fl.classes p.classes.nprim && gapsOk a.roles fl.roles p.roles.nprim &&
  (oldTypes p || gapsOk a.types fl.types p.types.nprim) && gapsOk a.users fl.users p.users.nprim &&
  gapsOk a.bools fl.bools p.bools.nprim

/-- `validate_datum`, policydb_validate.c:831-837, which sees only the number of primary names. -/
def validateDatum (fl : Flavor) (v : Nat) : Bool := valueIsValid v fl.nprim

/-- `validate_datum_array_entries`, policydb_validate.c:839-872. -/
def validateEntries (p : VPolicy) (a : Indexes) (fl : AllFlavors) : V :=
  andThen (every (fun e => some (validateCommon fl e.2)) p.commons.entries) <|
  andThen (every (fun e => some (validateClass fl e.2)) p.classes.entries) <|
  andThen (every (fun e => some (validateRole fl e.2)) p.roles.entries) <|
  andThen (every (fun e => some (validateType a fl e.2)) p.types.entries) <|
  andThen (every (fun e => some (validateUser p fl e.2)) p.users.entries) <|
  andThen (if p.mls != 0 then every (fun e => validateLevelDatum p a fl e.2) p.levels.entries else some true) <|
  andThen (every (fun e => some (validateDatum fl.cats e.2.value)) p.cats.entries) <|
  every (fun e => some (validateBool fl e.2)) p.bools.entries

/-! ## Rules -/

/-- `policydb_has_cond_xperms_feature`, policydb.h:806-811. -/
def condXperms (p : VPolicy) : Bool := decide (p.version ≥ 34)

/-- `validate_avtab_key`, policydb_validate.c:878-918; SEPOL_TARGET_SELINUX is 0. -/
def validateKey (p : VPolicy) (a : Indexes) (fl : AllFlavors) (conditional : Bool) (k : Avtab.Key) : Bool :=
  if !(if k.specified &&& Avtab.TYPE != 0 then validateSimpleType a fl k.source && validateSimpleType a fl k.target
    else validateValue k.source fl.types && validateValue k.target fl.types) then false
  else if !validateValue k.cls fl.classes then false
  else
    let kind := 0xFFF#16 &&& k.specified
    if kind = Avtab.ALLOWED ∨ kind = Avtab.AUDITALLOW ∨ kind = Avtab.AUDITDENY ∨ kind = Avtab.TRANSITION ∨ kind = Avtab.MEMBER ∨
        kind = Avtab.CHANGE then true
    else if kind = Avtab.XPERMS_ALLOWED ∨ kind = Avtab.XPERMS_AUDITALLOW ∨ kind = Avtab.XPERMS_DONTAUDIT then
      if p.target != 0 then false
      else !(conditional && !condXperms p)
    else false

/-- `validate_xperms`, policydb_validate.c:920-935: AVTAB_XPERMS_IOCTLFUNCTION 1, IOCTLDRIVER 2, NLMSG 3. -/
def validateXperms (x : Avtab.XPerms) : Bool := x.specified == 1#8 || x.specified == 2#8 || x.specified == 3#8

/-- PERMISSION_MASK, policydb_validate.c:14: the shift is by less than 32. -/
def permissionMask (nprim : Nat) : Option (BitVec 32) :=
  if nprim = 32 then some (~~~ 0#32)
  else if nprim > 32 then none
  else some ((1#32 <<< nprim) - 1#32)

/-- `validate_access_vector`, policydb_validate.c:937-954. -/
def validateAccessVector (a : Indexes) (cls : Nat) (av : BitVec 32) : V :=
  match a.classes (cls - 1) with
  | none => none
  | some c =>
    match permissionMask c.2.perms.nprim with
    | none => none
    | some mask => some (av &&& mask != 0#32)

/-- `validate_avtab_key_and_datum`, policydb_validate.c:956-988. -/
def validateNode (p : VPolicy) (a : Indexes) (fl : AllFlavors) (conditional : Bool) (n : Avtab.Node) : V :=
  if !validateKey p a fl conditional n.key then some false
  else
    andThen
      (if n.key.specified &&& Avtab.AV != 0 then
        validateAccessVector a n.key.cls (if 0xFFF#16 &&& n.key.specified = Avtab.AUDITDENY then ~~~ n.datum.data else n.datum.data)
      else some true) <|
    if n.key.specified &&& Avtab.TYPE != 0 && !validateSimpleType a fl n.datum.data.toNat then some false
    else if n.key.specified &&& Avtab.XPERMS != 0 then
      andThen (if n.datum.data != 0 then validateAccessVector a n.key.cls n.datum.data else some true) <|
        match n.datum.xperms with
        | none => none
        | some x => some (validateXperms x)
    else some true

/-- The loop of `validate_cond_expr`, policydb_validate.c:1129-1158; COND_BOOL 1, COND_NOT 2, COND_OR 3, COND_AND 4,
COND_XOR 5, COND_EQ 6, COND_NEQ 7; COND_EXPR_MAXDEPTH is 10. -/
def validateCondLoop (bools : Flavor) : List CondTok → Int → Bool
  | [], depth => depth == 0
  | e :: l, depth =>
    if e.exprType = 1 then
      if !validateValue e.boolean bools then false
      else if depth ≥ 10 - 1 then false
      else validateCondLoop bools l (depth + 1)
    else if e.exprType = 2 then
      if depth < 0 then false
      else if e.boolean != 0 then false
      else validateCondLoop bools l depth
    else if e.exprType = 3 ∨ e.exprType = 4 ∨ e.exprType = 5 ∨ e.exprType = 6 ∨ e.exprType = 7 then
      if depth < 1 then false
      else if e.boolean != 0 then false
      else validateCondLoop bools l (depth - 1)
    else false

/-- `validate_cond_expr`, policydb_validate.c:1122-1168. -/
def validateCondExpr (bools : Flavor) (e : List CondTok) : Bool :=
  if e.isEmpty then false else validateCondLoop bools e (-1)

/-- A round of `validate_cond_list`, policydb_validate.c:1170-1208; COND_NODE_FLAGS_TUNABLE is 1. -/
def validateCond (p : VPolicy) (a : Indexes) (fl : AllFlavors) (c : CondD) : V :=
  if !validateCondExpr fl.bools c.expr then some false
  else
    andThen (every (validateNode p a fl true) c.trueList) <|
    andThen (every (validateNode p a fl true) c.falseList) <|
    if !(c.curState == 0 || c.curState == 1) then some false
    else some (c.flags == 0 || c.flags == 1)

/-- `validate_role_transes`, policydb_validate.c:1210-1228. -/
def validateRoleTrans (fl : AllFlavors) (t : RoleTrans) : Bool :=
  validateValue t.role fl.roles && validateValue t.type fl.types && validateValue t.tclass fl.classes && validateValue t.newRole fl.roles

/-- `validate_role_allows`, policydb_validate.c:1230-1244. -/
def validateRoleAllow (fl : AllFlavors) (t : Nat × Nat) : Bool := validateValue t.1 fl.roles && validateValue t.2 fl.roles

/-- `validate_filename_trans`, policydb_validate.c:1246-1271. -/
def validateFileTrans (a : Indexes) (fl : AllFlavors) (t : FileTrans) : Bool :=
  if !validateValue t.ttype fl.types then false
  else if !validateValue t.tclass fl.classes then false
  else if t.data.isEmpty then false
  else t.data.all fun d => validateEbitmap d.1 fl.types && validateSimpleType a fl d.2

/-- `validate_context`, policydb_validate.c:1285-1297. -/
def validateContext (p : VPolicy) (fl : AllFlavors) (c : Context) : Bool :=
  validateValue c.user fl.users && validateValue c.role fl.roles && validateValue c.type fl.types &&
  !(p.mls != 0 && !validateRange fl c.range)

/-- SELINUX_SID_SZ, kernel_to_common.h:15-46. -/
def selinuxSids : Nat := 28
/-- XEN_SID_SZ, kernel_to_common.h:48-64. -/
def xenSids : Nat := 13

/-- A round of `validate_ocontexts`, policydb_validate.c:1299-1379, for list number `i`. -/
def validateOcon (p : VPolicy) (fl : AllFlavors) (i : Nat) (o : Ocon) : Bool :=
  if !validateContext p fl o.context0 then false
  else if p.target = 0 then
    match i with
    | 0 => !(o.sid == 0 || decide (o.sid ≥ selinuxSids))
    | 1 => validateContext p fl o.context1 && o.hasName
    | 3 => validateContext p fl o.context1 && o.hasName
    | 2 => !decide (o.lowPort > o.highPort)
    | 5 => (o.behavior == 1 || o.behavior == 2 || o.behavior == 3) && o.hasName
    | 7 => !decide (o.lowPkey > o.highPkey)
    | 8 => !(o.ibPort == 0) && o.hasDevName
    | _ => true
  else if p.target = 1 then
    match i with
    | 0 => !(o.sid == 0 || decide (o.sid ≥ xenSids))
    | 2 => !decide (o.lowIoport > o.highIoport)
    | 3 => !decide (o.lowIomem > o.highIomem) && !(decide (p.version < 30) && decide (o.highIomem > 0xFFFFFFFF))
    | 5 => o.hasName
    | _ => true
  else true

/-- `validate_ocontexts`, policydb_validate.c:1299-1379; OCON_NUM is 9. -/
def validateOcons (p : VPolicy) (fl : AllFlavors) : Bool :=
  (List.range 9).all fun i => (p.ocontexts i).all (validateOcon p fl i)

/-- A round of `validate_genfs`, policydb_validate.c:1381-1403. -/
def validateGenfs (p : VPolicy) (fl : AllFlavors) (g : Genfs) : Bool :=
  (g.head.all fun o => validateContext p fl o.1 && !(o.2 != 0 && !validateValue o.2 fl.classes)) && g.hasFstype

/-- The bits that `ebitmap_for_each_positive_bit` meets, as in property C04. -/
def bitsAll (m : Ebitmap.Ebitmap) (f : Nat → Bool) : Bool := ((Ebitmap.forEachPositiveBit (m.highbit + 1) m).getD []).all f

/-- `validate_permissives`, policydb_validate.c:1586-1601. -/
def validatePermissives (p : VPolicy) (a : Indexes) (fl : AllFlavors) : Bool := bitsAll p.permissive (validateSimpleType a fl)

/-- `validate_range_transition`, policydb_validate.c:1603-1624. -/
def validateRangeTr (fl : AllFlavors) (t : RangeTr) : Bool :=
  validateValue t.source fl.types && validateValue t.target fl.types && validateValue t.tclass fl.classes && validateRange fl t.range

/-- `validate_typeattr_map` and `validate_attrtype_map`, policydb_validate.c:1638-1676. -/
def validateMap (p : VPolicy) (fl : AllFlavors) (m : Nat → Ebitmap.Ebitmap) : Bool :=
  (List.range p.types.nprim).all fun i => validateEbitmap (m i) fl.types

/-- `validate_properties`, policydb_validate.c:1678-1728; versions 15 to 34, MLS from 19. -/
def validateProperties (p : VPolicy) : Bool :=
  if decide (p.version < 15) || decide (p.version > 34) then false
  else if p.mls != 0 && decide (p.version < 19) then false
  else if !(p.target == 0 || p.target == 1) then false
  else if !(p.mls == 0 || p.mls == 1) then false
  else p.handleUnknown == 0 || p.handleUnknown == 2 || p.handleUnknown == 4

/-- `sepol_polcap_getname`, polcaps.c:35-41, is not NULL: POLICYDB_CAP_MAX is 9 and every entry has a name. -/
def polcapHasName (n : Nat) : Bool := !decide (n > 9)

/-- `validate_policycaps`, policydb_validate.c:1730-1745. -/
def validatePolicycaps (p : VPolicy) : Bool := bitsAll p.policycaps polcapHasName

/-- `policydb_validate`, policydb_validate.c:1759-1825. -/
def validate (p : VPolicy) (a : Indexes) : V :=
  match arrayInit p a with
  | none => some false
  | some fl =>
    andThen (some (validateProperties p)) <|
    andThen (some (validatePolicycaps p)) <|
    andThen (every (validateNode p a fl false) p.avtab) <|
    andThen (if p.version ≥ 16 then every (validateCond p a fl) p.conds else some true) <|
    andThen (some (p.roleTrans.all (validateRoleTrans fl))) <|
    andThen (some (p.roleAllow.all (validateRoleAllow fl))) <|
    andThen (if p.version ≥ 25 then some (p.filenameTrans.all (validateFileTrans a fl)) else some true) <|
    andThen (some (validateOcons p fl)) <|
    andThen (some (p.genfs.all (validateGenfs p fl))) <|
    andThen (some (validateArrayGaps p a fl)) <|
    andThen (validateEntries p a fl) <|
    andThen (some (validatePermissives p a fl)) <|
    andThen (some (p.rangeTrans.all (validateRangeTr fl))) <|
    andThen (some (validateMap p fl p.typeAttr)) <|
    some (validateMap p fl p.attrType)

/-- Indexing and validation in `policydb_read`, policydb.c:4413, 4430, 4483. -/
def accept (p : VPolicy) : V :=
  match index p with
  | none => some false
  | some a => validate p a

end Verif.Validate
