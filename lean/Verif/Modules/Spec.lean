import Verif.Modules.Model

/-!
# What is meant by the modules of a store

An abstract store of modules, apart from the directories that hold them.
-/

namespace Verif.Modules
open Verif

/-- A letter, a digit, `_` or `-`. -/
inductive NameChar : UInt8 → Prop
  | upper {c : UInt8} : 'A'.toNat ≤ c.toNat → c.toNat ≤ 'Z'.toNat → NameChar c
  | lower {c : UInt8} : 'a'.toNat ≤ c.toNat → c.toNat ≤ 'z'.toNat → NameChar c
  | digit {c : UInt8} : '0'.toNat ≤ c.toNat → c.toNat ≤ '9'.toNat → NameChar c
  | underscore {c : UInt8} : c.toNat = '_'.toNat → NameChar c
  | dash {c : UInt8} : c.toNat = '-'.toNat → NameChar c

/-- A letter. -/
def Letter (c : UInt8) : Prop := ('A'.toNat ≤ c.toNat ∧ c.toNat ≤ 'Z'.toNat) ∨ ('a'.toNat ≤ c.toNat ∧ c.toNat ≤ 'z'.toNat)

/-- A digit. -/
def Digit (c : UInt8) : Prop := '0'.toNat ≤ c.toNat ∧ c.toNat ≤ '9'.toNat

/-- `(\.?[a-zA-Z0-9_-])*` -/
inductive NameTail : Bytes → Prop
  | nil : NameTail []
  | char {c : UInt8} {s : Bytes} : NameChar c → NameTail s → NameTail (c :: s)
  | dot {c d : UInt8} {s : Bytes} : c.toNat = '.'.toNat → NameChar d → NameTail s → NameTail (c :: d :: s)

/-- `^[a-zA-Z](\.?[a-zA-Z0-9_-])*$`, the names that the comment in modules.c allows. -/
def ModuleName (s : Bytes) : Prop := ∃ c cs, s = c :: cs ∧ Letter c ∧ NameTail cs

/-- `^[a-zA-Z0-9][a-zA-Z0-9_-]*$` -/
def Extension (s : Bytes) : Prop := ∃ c cs, s = c :: cs ∧ (Letter c ∨ Digit c) ∧ ∀ d ∈ cs, NameChar d

/-- A priority. -/
def Priority (p : Nat) : Prop := 1 ≤ p ∧ p ≤ 999

/-- The modules: the language and the text of each name and priority, and the names that are switched off. -/
structure Abs where
  mods : Nat → Bytes → Option (Bytes × Bytes)
  off : Bytes → Prop

/-- No modules at all. -/
def Abs.empty : Abs := ⟨fun _ _ => none, fun _ => False⟩

/-- What can be done to modules. -/
inductive Op
  /-- install a text; 1 switches on, 0 switches off, -1 leaves it as it is -/
  | install (p : Nat) (n ext : Bytes) (enabled : Int) (data : Bytes)
  | remove (p : Nat) (n : Bytes)
  /-- switch on (1), off (0) or leave (-1); priority 0 stands for any -/
  | enable (p : Nat) (n : Bytes) (enabled : Int)

/-- 1, 0 or -1. -/
def Switch (e : Int) : Prop := e = 1 ∨ e = 0 ∨ e = -1

/-- When an operation succeeds. -/
def Abs.ok (a : Abs) : Op → Prop
  | .install p n ext e _ => Priority p ∧ ModuleName n ∧ Extension ext ∧ Switch e
  | .remove p n => a.mods p n ≠ none
  | .enable p n e => Switch e ∧ (if p = 0 then ∃ q, a.mods q n ≠ none else a.mods p n ≠ none)

/-- What a successful operation does. -/
def Abs.next (a : Abs) : Op → Abs
  | .install p n ext e data =>
    ⟨fun q m => if q = p ∧ m = n then some (ext, data) else a.mods q m,
     fun m => if m = n then e = 0 ∨ (e = -1 ∧ a.off n) else a.off m⟩
  | .remove p n =>
    ⟨fun q m => if q = p ∧ m = n then none else a.mods q m,
     fun m => if m = n then a.off n ∧ ∃ q, q ≠ p ∧ a.mods q n ≠ none else a.off m⟩
  | .enable _ n e => ⟨a.mods, fun m => if m = n then e = 0 ∨ (e = -1 ∧ a.off n) else a.off m⟩

open Classical in
/-- A sequence of operations; those that fail do nothing. -/
noncomputable def Abs.run (a : Abs) : List Op → Abs
  | [] => a
  | o :: os => (if a.ok o then a.next o else a).run os

/-- Operations and what else is done meanwhile: a build of the policy, the extraction of a text. -/
inductive Cmd
  | op (o : Op)
  | build (ignoreCache : Bool)
  | extract (p : Nat) (n : Bytes) (wantCil : Bool)

/-- The operations among these. -/
def opsOf (cs : List Cmd) : List Op := cs.filterMap fun
  | .op o => some o
  | _ => none

/-- An operation on directories. -/
def stepOp (vs : Cmp) (t : Tree) : Op → Bool × Tree
  | .install p n ext e data => install vs t ⟨p, n, ext, e⟩ data
  | .remove p n => remove vs t p n
  | .enable p n e => setEnabled vs t p n e

/-- Directories after an operation or something else. -/
def step (vs : Cmp) (compile : Compiler) (t : Tree) : Cmd → Tree
  | .op o => (stepOp vs t o).2
  | .build i => (build vs compile i t).2
  | .extract p n c => (extract vs compile t p n c).2

/-- A sequence of these, from an empty store on. -/
def history (vs : Cmp) (compile : Compiler) (cs : List Cmd) : Tree := cs.foldl (step vs compile) ⟨[], []⟩

/-- The module that counts: of a name that is not switched off, the one with the greatest priority. -/
def Abs.Active (a : Abs) (p : Nat) (n : Bytes) : Prop := ¬ a.off n ∧ a.mods p n ≠ none ∧ ∀ q, p < q → a.mods q n = none

/-- A record tells of a module: its priority, its name, its language, and whether its name is switched on. -/
def Abs.Tells (a : Abs) (i : Info) : Prop :=
  (∃ data, a.mods i.priority i.name = some (i.ext, data)) ∧ ((i.enabled = 1 ∧ ¬ a.off i.name) ∨ (i.enabled = 0 ∧ a.off i.name))

/-- What is to be known of the comparison of the C library: it orders the names of the directories of priorities, three digits, by
their numbers. -/
def OrdersPriorities (vs : Cmp) : Prop := ∀ p q, p ≤ 999 → q ≤ 999 → vs (fmt3 p) (fmt3 q) = decide (p ≤ q)

/-- What a text in a language stands for in CIL. -/
def inCil (compile : Compiler) (isCil : Bytes → Prop) (ext data cil : Bytes) : Prop :=
  (isCil ext ∧ cil = data) ∨ (¬ isCil ext ∧ compile ext data = some cil)

/-- The name of the language CIL, in small or capital letters. -/
def IsCil (ext : Bytes) : Prop := ∃ a b c : Char, (a = 'c' ∨ a = 'C') ∧ (b = 'i' ∨ b = 'I') ∧ (c = 'l' ∨ c = 'L') ∧
  ext.map (·.toNat) = [a.toNat, b.toNat, c.toNat]

/-- An order on names, that of `strcmp`. -/
def Before (a b : Bytes) : Prop := List.Lex (fun x y : UInt8 => x < y) a b

end Verif.Modules
