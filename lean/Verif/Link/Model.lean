import Verif.Assertion.Model

/-!
# Model of the last steps of linking, libsepol/src/link.c

Which declarations of the linked policy are enabled (`enable_avrules`) and the
expansion of the role attributes (`populate_roleattributes`,
`expand_role_attributes`).

A declaration is one branch of a block of rules: the global block of the base
policy, the global block of a module, the body of an `optional` statement, or the
body of its `else`.

Outcomes of the C code that are not results are faults: `ub` is undefined
behaviour (an index out of bounds, a read of an indeterminate value, a read of
freed memory), `abort` a failed assertion.

Simplifications: allocation succeeds; `state->verbose` is 0; hash tables are lists
of their entries in the order in which `hashtab_map` meets them, searched for the
first entry with the key; of the messages only the subject is kept; a node of
`scope` is either a requirement or a declaration.
-/

namespace Verif.Link
open Verif.Assertion (bitsOf)

/-- What the program does instead of returning. -/
inductive Fault
  | ub | abort
deriving DecidableEq, Repr

/-- The symbol tables of a policy, policydb.h:395-403. -/
inductive Kind
  | commons | classes | roles | types | users | bools | levels | cats
deriving DecidableEq, Repr

/-- The order of the loops over the symbol tables, policydb.h:395-403. -/
def kinds : List Kind := [.commons, .classes, .roles, .types, .users, .bools, .levels, .cats]

/-- `scope_datum_t`, policydb.h:493-507: `decl` is `scope == SCOPE_DECL`. -/
structure ScopeDatum where
  decl : Bool
  declIds : List Nat
deriving DecidableEq, Repr

/-- `avrule_decl_t` with its `required` index (policydb.h:432-479): for every symbol
table the positive bits of `required.scope[i]`, and for every class the positive bits
of `required.class_perms_map[i]`. -/
structure Decl where
  id : Nat
  enabled : Bool
  required : Kind → List Nat
  classPerms : List (List Nat)

/-- `avrule_block_t`, policydb.h:481-488: `enabled` is the position of the branch that
the pointer of that name points to. -/
structure Block where
  optional : Bool
  branches : List Decl
  enabled : Option Nat

/-- `class_datum_t`, policydb.h:120-146: the permissions of the class and those of its
common (a symbol table each). -/
structure Class where
  perms : List (String × Nat)
  common : Option (List (String × Nat))

/-- The parts of a `policydb_t` that the last steps of linking read:
the scope tables, the names of the values (`sym_val_to_name`), the classes
(`class_val_to_struct`), the length of `decl_val_to_struct`. -/
structure Pol where
  scope : Kind → List (String × ScopeDatum)
  names : Kind → List String
  classes : List Class
  declLen : Nat

/-- `hashtab_search`, hashtab.c:123-147 (see Verif/Hashtab for the table itself). -/
def search {α : Type} (t : List (String × α)) (key : String) : Option α :=
  (t.find? fun e => e.1 == key).map (·.2)

/-- The entry of `decl_val_to_struct` for a declaration number: the last declaration
with this number that `prepare_base` (link.c:2329-2340) and `copy_avrule_block`
(link.c:1748-1749) met. -/
def findDecl (bs : List Block) (id : Nat) : Option Decl :=
  (bs.flatMap (·.branches)).reverse.find? fun d => d.id == id

/-- `p->decl_val_to_struct[id - 1]`, and whether the declaration there is enabled:
`decl != NULL && decl->enabled`, avrule_block.c:173-176, 180-183. -/
def declEnabled (p : Pol) (bs : List Block) (id : Nat) : Except Fault Bool :=
  if id = 0 ∨ p.declLen ≤ id - 1 then .error .ub
  else .ok (match findDecl bs id with
    | none => false
    | some d => d.enabled)

/-- The loop for roles and users, avrule_block.c:171-177. -/
def anyEnabled (p : Pol) (bs : List Block) : List Nat → Except Fault Bool
  | [] => .ok false
  | id :: ids =>
    match declEnabled p bs id with
    | .error f => .error f
    | .ok true => .ok true
    | .ok false => anyEnabled p bs ids

/-- `is_id_enabled`, avrule_block.c:149-188. -/
def isIdEnabled (p : Pol) (bs : List Block) (id : String) (k : Kind) : Except Fault Bool :=
  match search (p.scope k) id with
  | none => .ok false
  | some s =>
    if !s.decl then .ok false
    else match s.declIds.getLast? with
      | none => .ok false
      | some last =>
        if k = .roles ∨ k = .users then anyEnabled p bs s.declIds
        else declEnabled p bs last

/-- `missing_requirement_t`, link.c:77-81. -/
structure Missing where
  kind : Kind
  value : Nat
  perm : Option Nat
deriving DecidableEq, Repr

/-- What `is_decl_requires_met` returns: 1, 0 or -1. -/
inductive Met
  | yes | no | err
deriving DecidableEq, Repr

/-- The loop over the bits of `required.scope[i]`, link.c:1949-1960. -/
def symbolsMet (p : Pol) (bs : List Block) (k : Kind) (req : Option Missing) :
    List Nat → Except Fault (Met × Option Missing)
  | [] => .ok (.yes, req)
  | j :: js =>
    match (p.names k)[j]? with
    | none => .error .ub
    | some id =>
      match isIdEnabled p bs id k with
      | .error f => .error f
      | .ok false => .ok (.no, some ⟨k, j + 1, req.bind (·.perm)⟩)
      | .ok true => symbolsMet p bs k req js

/-- The loop over the symbol tables, link.c:1942-1961. -/
def tablesMet (p : Pol) (bs : List Block) (d : Decl) (req : Option Missing) :
    List Kind → Except Fault (Met × Option Missing)
  | [] => .ok (.yes, req)
  | k :: ks =>
    if k = .classes then tablesMet p bs d req ks
    else
      match symbolsMet p bs k req (d.required k) with
      | .ok (.yes, req) => tablesMet p bs d req ks
      | r => r

/-- `find_perm` mapped over a table, link.c:1906-1918. -/
def findPerm (t : List (String × Nat)) (v : Nat) : Option String :=
  (t.find? fun e => e.2 == v).map (·.1)

/-- `is_perm_existent`, avrule_block.c:193-212. -/
def isPermExistent (c : Class) (perm : String) : Bool :=
  match search c.perms perm with
  | some _ => true
  | none =>
    match c.common with
    | none => false
    | some t => (search t perm).isSome

/-- The loop over the bits of `class_perms_map[i]`, link.c:1983-2008. -/
def permsMet (c : Class) (i : Nat) (req : Option Missing) : List Nat → Except Fault (Met × Option Missing)
  | [] => .ok (.yes, req)
  | j :: js =>
    let name := match findPerm c.perms (j + 1) with
      | some n => some n
      | none => c.common.bind fun t => findPerm t (j + 1)
    match name with
    | none => .error .abort
    | some n =>
      if isPermExistent c n then permsMet c i req js
      else .ok (.no, some ⟨.classes, i + 1, some (j + 1)⟩)

/-- The loop over the classes, link.c:1963-2009; `i` is the number of the class at the
head of the list.  Note that the class is checked even if no permission of it is
required, and that nothing is written to `req` if it is not enabled. -/
def classesMet (p : Pol) (bs : List Block) (req : Option Missing) :
    Nat → List (List Nat) → Except Fault (Met × Option Missing)
  | _, [] => .ok (.yes, req)
  | i, js :: rest =>
    match p.classes[i]?, (p.names .classes)[i]? with
    | some c, some id =>
      match isIdEnabled p bs id .classes with
      | .error f => .error f
      | .ok false => .ok (.no, req)
      | .ok true =>
        match search (p.scope .classes) id with
        | none => .ok (.err, req)
        | some _ =>
          match permsMet c i req js with
          | .ok (.yes, req) => classesMet p bs req (i + 1) rest
          | r => r
    | _, _ => .error .ub

/-- `is_decl_requires_met`, link.c:1927-2014. -/
def requiresMet (p : Pol) (bs : List Block) (d : Decl) (req : Option Missing) :
    Except Fault (Met × Option Missing) :=
  match tablesMet p bs d req kinds with
  | .ok (.yes, req) => classesMet p bs req 0 d.classPerms
  | r => r

/-- What `link_modules` returns for the step. -/
inductive Status
  | ok | ereq | err
deriving DecidableEq, Repr

/-- The subject of a message: a symbol, and for a class a permission. -/
structure Report where
  kind : Kind
  name : String
  perm : Option String
deriving DecidableEq, Repr

/-- `print_missing_requirements`, link.c:2085-2114.  The fields of `req` are
indeterminate unless something was written to them. -/
def printMissing (p : Pol) (req : Option Missing) : Except Fault Report :=
  match req with
  | none => .error .ub
  | some r =>
    if r.kind = .classes then
      match p.classes[r.value - 1]?, (p.names .classes)[r.value - 1]?, r.perm with
      | some c, some n, some v => .ok ⟨.classes, n, findPerm c.perms v⟩
      | _, _, _ => .error .ub
    else
      match (p.names r.kind)[r.value - 1]? with
      | some n => .ok ⟨r.kind, n, none⟩
      | none => .error .ub

/-- Step 1 on one block, link.c:2146-2155. -/
def startBlock (b : Block) : Option Block :=
  match b.branches with
  | [] => none
  | d :: ds => some { b with
      branches := { d with enabled := true } :: ds.map fun d => { d with enabled := false }
      enabled := some 0 }

/-- Step 1, link.c:2145-2156. -/
def start : List Block → Option (List Block)
  | [] => some []
  | b :: bs => (startBlock b).bind fun b => (start bs).map (b :: ·)

/-- `decl->enabled = 0; block->enabled = NULL;`, link.c:2177-2178. -/
def disable (b : Block) : Block :=
  match b.branches with
  | [] => b
  | d :: ds => { b with branches := { d with enabled := false } :: ds, enabled := none }

/-- State of the loop: the blocks, what was written to `req`, `changed`. -/
structure Loop where
  blocks : List Block
  req : Option Missing
  changed : Bool

/-- How the pass over the blocks ends. -/
inductive PassRes
  | goOn (s : Loop)
  | stop (st : Status) (report : Option Report)

/-- The pass over the blocks from block `i` on, `n` of which are left,
link.c:2161-2188. -/
def pass (p : Pol) : Nat → Nat → Loop → Except Fault PassRes
  | 0, _, s => .ok (.goOn s)
  | n + 1, i, s =>
    match s.blocks[i]? with
    | none => .ok (.goOn s)
    | some b =>
      match b.enabled, b.branches with
      | none, _ => pass p n (i + 1) s
      | some _, [] => .error .ub
      | some _, d :: _ =>
        match requiresMet p s.blocks d s.req with
        | .error f => .error f
        | .ok (.err, _) => .ok (.stop .err none)
        | .ok (.yes, req) => pass p n (i + 1) { s with req := req }
        | .ok (.no, req) =>
          if b.optional then
            pass p n (i + 1) ⟨s.blocks.set i (disable b), req, true⟩
          else
            match printMissing p req with
            | .error f => .error f
            | .ok r => .ok (.stop .ereq (some r))

/-- The `while (changed)` loop, link.c:2159-2189; `fuel` bounds the number of passes and
`none` says that it was not enough. -/
def loop (p : Pol) : Nat → List Block → Option Missing → Option (Except Fault (Status × Option Report × List Block))
  | 0, _, _ => none
  | fuel + 1, bs, req =>
    match pass p bs.length 0 ⟨bs, req, false⟩ with
    | .error f => some (.error f)
    | .ok (.stop st r) => some (.ok (st, r, bs))
    | .ok (.goOn s) => if s.changed then loop p fuel s.blocks s.req else some (.ok (.ok, none, s.blocks))

/-- Step 4 on one block, link.c:2200-2205. -/
def elseBlock (b : Block) : Block :=
  match b.enabled, b.branches with
  | none, d :: e :: ds => { b with branches := d :: { e with enabled := true } :: ds, enabled := some 1 }
  | _, _ => b

/-- Step 4, link.c:2199-2206: not on the first block. -/
def elses : List Block → List Block
  | [] => []
  | b :: bs => b :: bs.map elseBlock

/-- `enable_avrules`, link.c:2132-2210.  On failure the blocks are not looked at any
more. -/
def enableAvrules (p : Pol) (fuel : Nat) (bs : List Block) :
    Option (Except Fault (Status × Option Report × List Block)) :=
  match start bs with
  | none => some (.ok (.err, none, bs))
  | some bs =>
    match loop p fuel bs none with
    | some (.ok (.ok, r, bs)) => some (.ok (.ok, r, elses bs))
    | r => r

/-! ### Role attributes -/

/-- `role_datum_t`, policydb.h:149-158; `value` is the position in the list of roles plus
one.  `attr` is `flavor == ROLE_ATTRIB`. -/
structure Role where
  name : String
  attr : Bool
  roles : Ebitmap.Ebitmap
deriving DecidableEq

/-- The entries of the role table of a declaration, as far as
`populate_decl_roleattributes` reads them. -/
structure DeclRole where
  name : String
  attr : Bool
  roles : Ebitmap.Ebitmap

/-- `OBJECT_R`, policydb.h. -/
def objectR : String := "object_r"

/-- `populate_decl_roleattributes` for one entry, link.c:2408-2436. -/
def populateRole (rs : List Role) (d : DeclRole) : Except Fault (List Role) :=
  if d.name = objectR then .ok rs
  else if !d.attr then .ok rs
  else match rs.findIdx? fun r => r.name == d.name with
    | none => .error .abort
    | some i =>
      match rs[i]? with
      | none => .error .abort
      | some r =>
        if !r.attr then .error .abort
        else .ok (rs.set i { r with roles := Ebitmap.union r.roles d.roles })

/-- `populate_roleattributes`, link.c:2438-2463, over the role tables of the enabled
declarations of the blocks behind the first. -/
def populate (rs : List Role) : List DeclRole → Except Fault (List Role)
  | [] => .ok rs
  | d :: ds =>
    match populateRole rs d with
    | .error f => .error f
    | .ok rs => populate rs ds

/-- Has clearing bit `i` freed the node that held it (ebitmap.c:398-424)? -/
def nodeFreed (e : Ebitmap.Ebitmap) (i : Nat) : Bool :=
  !(e.node.any fun n => decide (n.startbit ≤ i) && decide (i < n.startbit + 64))

/-- How a scan of the bitmap ends: it gets to its end, or starts again. -/
inductive Scan
  | done (e : Ebitmap.Ebitmap)
  | again (e : Ebitmap.Ebitmap)
deriving DecidableEq

/-- The scan over the bits of the attribute with number `self`, link.c:2376-2403.  The
loop reads the node of the bit after its body, so if clearing the bit freed the node it
reads freed memory. -/
def scan (rs : List Role) (self : Nat) : Ebitmap.Ebitmap → List Nat → Except Fault Scan
  | e, [] => .ok (.done e)
  | e, i :: is =>
    match rs[i]? with
    | none => .error .ub
    | some sub =>
      if !sub.attr then scan rs self e is
      else match Ebitmap.setBit e i false with
        | none => .error .ub
        | some e' =>
          if i = self then
            if nodeFreed e' i then .error .ub else scan rs self e' is
          else .ok (.again (Ebitmap.union e' sub.roles))

/-- `expand_role_attributes` for the attribute with number `self`, link.c:2351-2406;
`fuel` bounds the number of scans. -/
def expandLoop (rs : List Role) (self : Nat) : Nat → Ebitmap.Ebitmap → Option (Except Fault Ebitmap.Ebitmap)
  | 0, _ => none
  | fuel + 1, e =>
    match bitsOf e with
    | none => some (.error .ub)
    | some is =>
      match scan rs self e is with
      | .error f => some (.error f)
      | .ok (.done e) => some (.ok e)
      | .ok (.again e) => expandLoop rs self fuel e

/-- `expand_role_attributes`, link.c:2351-2406, for the role with number `i`. -/
def expandRole (fuel : Nat) (rs : List Role) (i : Nat) : Option (Except Fault (List Role)) :=
  match rs[i]? with
  | none => some (.error .ub)
  | some r =>
    if r.name = objectR then some (.ok rs)
    else if !r.attr then some (.ok rs)
    else match expandLoop rs i fuel r.roles with
      | none => none
      | some (.error f) => some (.error f)
      | some (.ok e) => some (.ok (rs.set i { r with roles := e }))

/-- `hashtab_map(state.base->p_roles.table, expand_role_attributes, &state)`,
link.c:2573-2575: the roles in the order `order` of the table. -/
def expandAll (fuel : Nat) : List Role → List Nat → Option (Except Fault (List Role))
  | rs, [] => some (.ok rs)
  | rs, i :: is =>
    match expandRole fuel rs i with
    | none => none
    | some (.error f) => some (.error f)
    | some (.ok rs) => expandAll fuel rs is

/-- The two steps on the role attributes, link.c:2559-2575. -/
def linkRoles (fuel : Nat) (rs : List Role) (ds : List DeclRole) (order : List Nat) :
    Option (Except Fault (List Role)) :=
  match populate rs ds with
  | .error f => some (.error f)
  | .ok rs => expandAll fuel rs order

end Verif.Link
