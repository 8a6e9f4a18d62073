import Verif.KernelCil.RuleLemmas3
import Verif.CilParse.Props

/-!
# C83: rules are written in CIL with the same meaning
-/

namespace Verif.KernelCil
open CilParse (Writes)
open CilCond (Tree)
open Avtab (Node)

/-- C83: the numbers that are written are the ones that are meant. -/
theorem C83_number (n : Nat) : readHex (hex n) = some n := readHex_hex n

/-- C83: the rules of the table (or of a list of a conditional) are written as rules of CIL that say the same. -/
theorem C83_rules_partial {nm : RNames} {nodes : List Node} (h : ∀ n ∈ nodes, NodeOk nm n) (indent : Nat) :
    ∃ (text : Str) (rules : List Rule), rulesToCil nm nodes indent = some text ∧ Writes (rules.map (Rule.tree nm hex)) text ∧
      SameRules nm nodes rules := by
  obtain ⟨text, rules, h1, h2, -, h3⟩ := rules_writes h indent
  have := h3 [] [] .nil
  rw [List.append_nil, List.append_nil] at this
  exact ⟨text, rules, h1, this, h2⟩

/-- C83: as a whole, the rules that are written say what the rules of the policy say, about all types, classes and
permissions. -/
theorem C83_says_partial {nm : RNames} {nodes : List Node} (h : ∀ n ∈ nodes, NodeOk nm n) (indent : Nat) {members : Nat → Nat → Prop}
    (hm : MembersOk nm members) :
    ∃ (text : Str) (rules : List Rule), rulesToCil nm nodes indent = some text ∧ Writes (rules.map (Rule.tree nm hex)) text ∧
      rules.length = nodes.length ∧
      ∀ s t c f, Nameable nm c f → ((∃ r ∈ rules, r.Says members s t c f) ↔ ∃ n ∈ nodes, NodeSays members n s t c f) := by
  obtain ⟨text, rules, h1, h2, ps, h3, rfl, h4⟩ := C83_rules_partial h indent
  refine ⟨text, _, h1, h2, by rw [← h3.length_eq]; simp, ?_⟩
  intro s t c f hf
  constructor
  · rintro ⟨r, hr, hs⟩
    obtain ⟨p, hp, rfl⟩ := List.mem_map.1 hr
    exact ⟨p.1, h3.mem_iff.1 (List.mem_map_of_mem hp), (h4 p hp members hm s t c f hf).2 hs⟩
  · rintro ⟨n, hn, hs⟩
    obtain ⟨p, hp, rfl⟩ := List.mem_map.1 (h3.mem_iff.2 hn)
    exact ⟨p.2, List.mem_map_of_mem hp, (h4 p hp members hm s t c f hf).1 hs⟩

/-- C83: each conditional is written as one of CIL that says the same, in whatever order qsort leaves them. -/
theorem C83_conditionals_partial {nm : RNames} {bool : Nat → Str} {conds : List CondNode} (h : ∀ c ∈ conds, CondOk nm bool c)
    {sort : List (Str × CondNode) → List (Str × CondNode)} (hs : ∀ l, (sort l).Perm l) :
    ∃ (text : Str) (ps : List (CondNode × CilIf)), condsToCil nm bool sort conds = some text ∧ (ps.map Prod.fst).Perm conds ∧
      (∀ p ∈ ps, SameCond nm bool p.1 p.2) ∧ Writes (ps.map fun p => p.2.tree nm hex) text := by
  obtain ⟨es, h1, h2, h3⟩ := condExprs_eq h
  obtain ⟨text, ps, h4, h5, h6, h7⟩ := conds_writes (nm := nm) (bool := bool) (es := sort es) fun e he =>
    ⟨h _ (h2 ▸ List.mem_map_of_mem ((hs es).mem_iff.1 he)), h3 e ((hs es).mem_iff.1 he)⟩
  refine ⟨text, ps, by unfold condsToCil; rw [h1]; exact h4, ?_, h6, h7⟩
  rw [h5, ← h2]
  exact (hs es).map _

/-- C83: the blocks of a conditional with some rule are as CIL wants them. -/
theorem C83_blocks (nm : RNames) (c : CilIf) (h : c.thenRules ≠ [] ∨ c.elseRules ≠ []) :
    ∃ blocks : List (String × List Rule),
      c.tree nm hex = .list (.atom "booleanif" :: c.expr.tree :: blocks.map fun b => .list (.atom b.1 :: b.2.map (Rule.tree nm hex))) ∧
      CilCond.BlocksOk ⟨c.expr.tree, blocks.map fun b => (b.1, [])⟩ ∧
      (∀ b ∈ blocks, b.2 = if b.1 = "true" then c.thenRules else c.elseRules) := by
  obtain ⟨e, a, b⟩ := c
  cases a with
  | nil =>
    cases b with
    | nil => simp at h
    | cons y b => exact ⟨[("false", y :: b)], by simp [CilIf.tree, blockTree], ⟨[], [], by simp⟩, by simp⟩
  | cons x a =>
    cases b with
    | nil => exact ⟨[("true", x :: a)], by simp [CilIf.tree, blockTree], ⟨[], [], by simp⟩, by simp⟩
    | cons y b => exact ⟨[("true", x :: a), ("false", y :: b)], by simp [CilIf.tree, blockTree], ⟨[], [], by simp⟩, by simp⟩

/-! ### An example -/

/-- Two types and an attribute, a class with two permissions. -/
def exR : RNames where
  type i := if i = 0 then "a_t".toList else if i = 1 then "b_t".toList else "domain".toList
  cls _ := "file".toList
  isAttr i := decide (i ≥ 2)
  nprim _ := 2
  perm _ i := if i = 0 then some "read".toList else if i = 1 then some "write".toList else none

theorem exGood (s : Str) (h : (s ≠ [] ∧ s.all CilParse.symbolChar = true)) : GoodName s := ⟨h.1, fun c hc => List.all_eq_true.1 h.2 c hc⟩

theorem exTypeGood (i : Nat) : GoodName (exR.type i) := by
  simp only [exR]; split
  · exact exGood _ (by decide)
  split
  · exact exGood _ (by decide)
  · exact exGood _ (by decide)

theorem exPermGood (c i : Nat) (s : Str) (h : exR.perm c i = some s) : GoodName s := by
  simp only [exR] at h
  split at h
  · cases h; exact exGood _ (by decide)
  split at h
  · cases h; exact exGood _ (by decide)
  · cases h

/-- `allow a_t self:file { read write }`, `dontaudit domain b_t:file write`, `allowx`, and a transition. -/
def exNodes : List Node :=
  [⟨⟨1, 1, 1, 1#16⟩, ⟨3#32, none⟩⟩, ⟨⟨3, 2, 1, 4#16⟩, ⟨0xFFFFFFFD#32, none⟩⟩,
   ⟨⟨1, 2, 1, 0x100#16⟩, ⟨0#32, some ⟨1#8, 0x54#8, [0xE#32, 0#32, 0x80000000#32, 1#32, 0#32, 0#32, 0#32, 0x80000000#32]⟩⟩⟩,
   ⟨⟨1, 2, 1, 0x8010#16⟩, ⟨2#32, none⟩⟩]

theorem exNodesOk : ∀ n ∈ exNodes, NodeOk exR n := by
  intro n hn
  simp only [exNodes, List.mem_cons, List.not_mem_nil, or_false] at hn
  rcases hn with rfl | rfl | rfl | rfl
  · exact ⟨by decide, exTypeGood _, exTypeGood _, exGood _ (by decide), fun _ => ⟨by decide, exPermGood _, 0, by decide⟩,
      fun h => absurd h (by decide), fun _ => exTypeGood _⟩
  · exact ⟨by decide, exTypeGood _, exTypeGood _, exGood _ (by decide), fun _ => ⟨by decide, exPermGood _, 1, by decide⟩,
      fun h => absurd h (by decide), fun _ => exTypeGood _⟩
  · exact ⟨by decide, exTypeGood _, exTypeGood _, exGood _ (by decide), fun h => absurd h (by decide),
      fun _ => ⟨_, rfl, .inl rfl, 1, by decide, by unfold Optimize.xbit; decide⟩, fun _ => exTypeGood _⟩
  · exact ⟨by decide, exTypeGood _, exTypeGood _, exGood _ (by decide), fun h => absurd h (by decide),
      fun h => absurd h (by decide), fun _ => exTypeGood _⟩

example : rulesToCil exR exNodes 0 = some
    ("(allow a_t self (file (read write)))\n(dontaudit domain b_t (file (write)))\n" ++
     "(allowx a_t b_t (ioctl file (((range 0x5401 0x5403) (range 0x545f 0x5460) 0x54ff))))\n(typetransition a_t b_t file b_t)\n").toList := by
  decide +kernel

/-- The types of the attribute are both. -/
example : MembersOk exR fun t s => if t = 3 then s = 1 ∨ s = 2 else s = t := by
  intro t ht s
  have : t ≠ 3 := by rintro rfl; cases ht
  simp [this]

/-- The rules, in a conditional. -/
def exConds : List CondNode := [⟨exCond.postfix, [exNodes[0]], []⟩, ⟨(Cond.BExpr.var 2).postfix, [exNodes[2]], [exNodes[3], exNodes[1]]⟩]

example : ∀ c ∈ exConds, CondOk exR exName c := by
  have hv : ∀ n, GoodName (exName n) ∧ String.ofList (exName n) ∉ CilCond.reserved := by
    intro n
    simp only [exName]
    split
    · exact ⟨exGood _ (by decide), by decide⟩
    split
    · exact ⟨exGood _ (by decide), by decide⟩
    · exact ⟨exGood _ (by decide), by decide⟩
  intro c hc
  simp only [exConds, List.mem_cons, List.not_mem_nil, or_false] at hc
  rcases hc with rfl | rfl
  · exact ⟨⟨_, rfl, fun n _ => hv n⟩, fun n hn => exNodesOk n (by simp [exNodes] at hn ⊢; tauto), nofun⟩
  · exact ⟨⟨_, rfl, fun n _ => hv n⟩, fun n hn => exNodesOk n (by simp [exNodes] at hn ⊢; tauto), fun n hn => exNodesOk n (by simp [exNodes] at hn ⊢; tauto)⟩

example : condsToCil exR exName id exConds = some
    ("(booleanif (or (not ssh_sysadm) (xor b2 b3))\n    (true\n        (allow a_t self (file (read write)))\n    )\n)\n" ++
     "(booleanif b2\n    (true\n        (allowx a_t b_t (ioctl file (((range 0x5401 0x5403) (range 0x545f 0x5460) 0x54ff))))\n    )\n" ++
     "    (false\n        (dontaudit domain b_t (file (write)))\n        (typetransition a_t b_t file b_t)\n    )\n)\n").toList := by
  decide +kernel

/-! ### What is left out -/

/-- Why extended permissions must not be empty: `policydb_validate` lets a rule without any pass, and what is written for it
is not a statement of CIL. -/
theorem C83_no_xperms_refuted :
    let n : Node := ⟨⟨1, 2, 1, 0x100#16⟩, ⟨0#32, some ⟨1#8, 0x54#8, List.replicate 8 0#32⟩⟩⟩
    ∃ text, rulesToCil exR [n] 0 = some text ∧ text = "(allowx a_t b_t (ioctl file ())))\n".toList ∧
      CilParse.parser text = .err :=
  ⟨"(allowx a_t b_t (ioctl file ())))\n".toList, by decide +kernel, rfl, by decide +kernel⟩

/-- Why a conditional must have rules: without any, it is written without blocks, which CIL does not accept. -/
theorem C83_no_rules_refuted :
    ∃ text, condsToCil exR exName id [⟨(Cond.BExpr.var 2).postfix, [], []⟩] = some text ∧
      CilParse.parser text = .ok [.list [.atom "booleanif", .atom "b2"]] ∧ CilCond.genIf ⟨.atom "b2", []⟩ = none :=
  ⟨"(booleanif b2\n)\n".toList, by decide +kernel, by decide +kernel, by decide +kernel⟩

/-- An expression that cannot be written takes all conditionals with it, without an error. -/
theorem C83_bad_expression_refuted :
    condsToCil exR exName id [⟨(Cond.BExpr.var 2).postfix, [exNodes[0]], []⟩, ⟨[], [exNodes[0]], []⟩] = some [] := by
  decide +kernel

end Verif.KernelCil
