import Verif.KernelCil.Model
import Verif.Optimize.Model

/-!
# Model of the writing of rules

libsepol/src/kernel_to_cil.c:1640-1905 and 2094-2226; util.c:85-133.  Buffers that are too small are enlarged until the
text fits (`retry`), so that only the text is modelled.
-/

namespace Verif.KernelCil
open Avtab (Key Datum XPerms Node)

/-- The tables that are read, all indexed from 0: names of types and classes, whether a type is an attribute, the number of
permissions of a class and their names (of the class or of its common class; `perm_name`, util.c:70-83). -/
structure RNames where
  type : Nat → Str
  cls : Nat → Str
  isAttr : Nat → Bool
  nprim : Nat → Nat
  perm : Nat → Nat → Option Str

/-- `sepol_av_to_string`, util.c:85-133. -/
def avToString (nm : RNames) (cls : Nat) (av : BitVec 32) : Str :=
  (List.range (nm.nprim (cls - 1))).flatMap fun i =>
    if av.getLsbD i then (match nm.perm (cls - 1) i with | some s => ' ' :: s | none => []) else []

/-- A hexadecimal digit. -/
def hexDigit (n : Nat) : Char := "0123456789abcdef".toList.getD n '0'

/-- `%hx` of a 16-bit number. -/
def hexDigits (n : Nat) : Str := if n < 16 then [hexDigit n] else hexDigits (n / 16) ++ [hexDigit (n % 16)]
termination_by n

def hex (n : Nat) : Str := '0' :: 'x' :: hexDigits n

/-- `next_bit_in_range`, kernel_to_cil.c:1640. -/
def nextBitInRange (i : Nat) (p : List (BitVec 32)) : Bool := decide (i + 1 < 256) && Optimize.xpermTest (i + 1) p

/-- The loop of `xperms_to_str`, kernel_to_cil.c:1669-1713: what is printed, as whether it is a range, its lowest and its
highest bit. -/
def xLoop (p : List (BitVec 32)) : List Nat → Bool → Nat → List (Bool × Nat × Nat)
  | [], _, _ => []
  | bit :: l, inRange, low =>
    if !Optimize.xpermTest bit p then xLoop p l inRange low
    else if inRange && nextBitInRange bit p then xLoop p l inRange low
    else if nextBitInRange bit p then xLoop p l true bit
    else (inRange, low, bit) :: xLoop p l false low

/-- What is printed for the bits, kernel_to_cil.c:1686-1706. -/
def xText (x : XPerms) : Bool × Nat × Nat → Str
  | (inRange, low, bit) =>
    if x.specified = Optimize.FUNCTION ∨ x.specified = Optimize.NLMSG then
      let value := x.driver.toNat <<< 8 ||| bit
      if inRange then
        let lowValue := x.driver.toNat <<< 8 ||| low
        " (range ".toList ++ (hex lowValue ++ ' ' :: (hex value ++ [')']))
      else ' ' :: hex value
    else if x.specified = Optimize.DRIVER then
      let value := bit <<< 8
      if inRange then
        let lowValue := low <<< 8
        " (range ".toList ++ (hex lowValue ++ ' ' :: (hex (value ||| 0xff) ++ [')']))
      else " (range ".toList ++ (hex value ++ ' ' :: (hex (value ||| 0xff) ++ [')']))
    else []

/-- `xperms_to_str`, kernel_to_cil.c:1642-1726.  The first character is written over; if there is nothing, the closing
parenthesis is written over the opening one. -/
def xpermsToStr (x : XPerms) : Option Str :=
  if x.specified ≠ Optimize.FUNCTION ∧ x.specified ≠ Optimize.DRIVER ∧ x.specified ≠ Optimize.NLMSG then none
  else
    match (xLoop x.perms (List.range 256) false 0).flatMap (xText x) with
    | [] => some [')']
    | _ :: rest => some ('(' :: (rest ++ [')']))

/-- The word of a kind of rule, kernel_to_cil.c:1736-1769. -/
def flavorWord (kind : BitVec 16) : Option Str :=
  if kind = Avtab.ALLOWED then some "allow".toList
  else if kind = Avtab.AUDITALLOW then some "auditallow".toList
  else if kind = Avtab.AUDITDENY then some "dontaudit".toList
  else if kind = Avtab.XPERMS_ALLOWED then some "allowx".toList
  else if kind = Avtab.XPERMS_AUDITALLOW then some "auditallowx".toList
  else if kind = Avtab.XPERMS_DONTAUDIT then some "dontauditx".toList
  else if kind = Avtab.TRANSITION then some "typetransition".toList
  else if kind = Avtab.MEMBER then some "typemember".toList
  else if kind = Avtab.CHANGE then some "typechange".toList
  else none

/-- Strings in parentheses with a space in between. -/
def parens (l : List Str) : Str := '(' :: (join l ++ [')'])

/-- `AVTAB_AV`, avtab.h:58; `AVTAB_TYPE`, avtab.h:62. -/
def AV : BitVec 16 := 7#16
def TYPE : BitVec 16 := 0x70#16

/-- `avtab_node_to_str`, kernel_to_cil.c:1728-1824. -/
def nodeToStr (nm : RNames) (n : Node) : Option Str :=
  let k := n.key
  match flavorWord (0xFFF#16 &&& k.specified) with
  | none => none
  | some flavor =>
    let data := if 0xFFF#16 &&& k.specified = Avtab.AUDITDENY then ~~~ n.datum.data else n.datum.data
    let src := nm.type (k.source - 1)
    let tgt := if k.source = k.target ∧ k.specified &&& TYPE = 0#16 ∧ nm.isAttr (k.source - 1) = false then "self".toList else nm.type (k.target - 1)
    let cls := nm.cls (k.cls - 1)
    if k.specified &&& AV ≠ 0#16 then
      match avToString nm k.cls data with
      | [] => none
      | _ :: perms => some (parens [flavor, src, tgt, parens [cls, parens [perms]]])
    else if k.specified &&& Avtab.XPERMS ≠ 0#16 then
      match n.datum.xperms with
      | none => none
      | some x =>
        match xpermsToStr x with
        | none => none
        | some perms =>
          if x.specified = Optimize.FUNCTION ∨ x.specified = Optimize.DRIVER then
            some (parens [flavor, src, tgt, parens ["ioctl".toList, cls, parens [perms]]])
          else if x.specified = Optimize.NLMSG then some (parens [flavor, src, tgt, parens ["nlmsg".toList, cls, parens [perms]]])
          else none
    else some (parens [flavor, src, tgt, cls, nm.type (data.toNat - 1)])

/-- `avtab_flavors`, kernel_to_common.h:66-76. -/
def flavors : List (BitVec 16) :=
  [Avtab.ALLOWED, Avtab.AUDITALLOW, Avtab.AUDITDENY, Avtab.XPERMS_ALLOWED, Avtab.XPERMS_AUDITALLOW, Avtab.XPERMS_DONTAUDIT,
    Avtab.TRANSITION, Avtab.MEMBER, Avtab.CHANGE]

/-- A line of `strs_write_each_indented`, kernel_to_common.c:292-303. -/
def line (indent : Nat) (s : Str) : Str := List.replicate (indent * 4) ' ' ++ (s ++ ['\n'])

/-- The texts of the nodes, if all can be written. -/
def nodesToStrs (nm : RNames) : List Node → Option (List Str)
  | [] => some []
  | n :: l => (nodeToStr nm n).bind fun s => (nodesToStrs nm l).map (s :: ·)

/-- `write_avtab_flavor_to_cil`, kernel_to_cil.c:1859-1886, with `map_avtab_write_helper`, and a round of the loop of
`write_cond_av_list_to_cil`, 2105-2139. -/
def writeFlavor (nm : RNames) (nodes : List Node) (indent : Nat) (flavor : BitVec 16) : Option Str :=
  (nodesToStrs nm (nodes.filter fun n => decide (n.key.specified &&& flavor ≠ 0#16))).map fun l => (strsSort l).flatMap (line indent)

def writeFlavors (nm : RNames) (nodes : List Node) (indent : Nat) : List (BitVec 16) → Option Str
  | [] => some []
  | f :: fs => (writeFlavor nm nodes indent f).bind fun s => (writeFlavors nm nodes indent fs).map (s ++ ·)

/-- `write_avtab_to_cil`, kernel_to_cil.c:1888-1906, and `write_cond_av_list_to_cil`, 2093-2146: `nodes` are the entries
of the table or of the list. -/
def rulesToCil (nm : RNames) (nodes : List Node) (indent : Nat) : Option Str := writeFlavors nm nodes indent flavors

/-- `cond_node_t`: the expression and the two lists. -/
structure CondNode where
  expr : List Cond.Tok
  trueList : List Node
  falseList : List Node

/-- A block of a conditional, kernel_to_cil.c:2191-2200. -/
def writeBlock (nm : RNames) (word : Str) (nodes : List Node) : Option Str :=
  if nodes.isEmpty then some []
  else (rulesToCil nm nodes 2).map fun rules => List.replicate 4 ' ' ++ ('(' :: (word ++ '\n' :: (rules ++ (List.replicate 4 ' ' ++ [')', '\n']))))

/-- A round of the loop, kernel_to_cil.c:2185-2213. -/
def writeCond (nm : RNames) (expr : Str) (c : CondNode) : Option Str :=
  (writeBlock nm "true".toList c.trueList).bind fun t => (writeBlock nm "false".toList c.falseList).map fun f =>
    "(booleanif ".toList ++ (expr ++ '\n' :: (t ++ (f ++ [')', '\n'])))

def writeConds (nm : RNames) : List (Str × CondNode) → Option Str
  | [] => some []
  | (e, c) :: l => (writeCond nm e c).bind fun s => (writeConds nm l).map (s ++ ·)

/-- The expressions of the conditionals. -/
def condExprs (bool : Nat → Str) : List CondNode → Option (List (Str × CondNode))
  | [] => some []
  | c :: l => (condExprToStr bool c.expr).bind fun e => (condExprs bool l).map ((e, c) :: ·)

/-- `write_cond_nodes_to_cil`, kernel_to_cil.c:2160-2226.  `sort` is qsort, which leaves conditionals with the same text in
any order.  If an expression cannot be written nothing is, and there is no error. -/
def condsToCil (nm : RNames) (bool : Nat → Str) (sort : List (Str × CondNode) → List (Str × CondNode)) (conds : List CondNode) : Option Str :=
  match condExprs bool conds with
  | none => some []
  | some l => writeConds nm (sort l)

end Verif.KernelCil
