import Verif.Cond.Lemmas2

/-!
# Conditional policy: properties C12-C15, C46, C47
-/

namespace Verif.Cond

/-! ## C12: evaluation -/

/-- C12 (first half). The evaluator run on the postfix form of any expression returns its
value if the expression fits the stack, and the undefined value -1 if it does not. -/
theorem C12_value (σ : State) (t : BExpr) :
    toInt (evaluate σ t.postfix) =
      if t.need ≤ 10 then (if t.val σ then 1 else 0) else -1 := by
  rw [evaluate_postfix]
  show toInt (if t.need ≤ 10 then _ else _) = _
  split
  · cases t.val σ <;> rfl
  · rfl

/-- C12 (second half), as far as it holds: if the evaluator returns a truth value, the
input is the postfix form of one *or more* expressions, and the result is the value of
the first one.  In particular unknown operators, missing operands, an empty
expression and a stack overflow all yield -1. -/
theorem C12_malformed_partial (σ : State) (e : List Tok) (h : toInt (evaluate σ e) ≠ -1) :
    ∃ (t : BExpr) (ts : List BExpr), e = t.postfix ++ ts.flatMap BExpr.postfix ∧
      toInt (evaluate σ e) = if t.val σ then 1 else 0 := by
  cases hv : evaluate σ e with
  | none => rw [hv] at h; exact absurd rfl h
  | some b =>
    obtain ⟨t, ts, h1, h2⟩ := evaluate_some hv
    exact ⟨t, ts, h1, by subst h2; cases t.val σ <;> rfl⟩

/-- C12 does not hold in full: surplus operands are not noticed.  Two expressions in a row
(which is not the postfix form of any expression) evaluate to the first one. -/
theorem C12_surplus_operands (σ : State) (a b : BExpr) (ha : a.need ≤ 10) (hb : b.need ≤ 9) :
    toInt (evaluate σ (a.postfix ++ b.postfix)) = (if a.val σ then 1 else 0) ∧
    ∀ t : BExpr, t.need ≤ 10 → t.postfix ≠ a.postfix ++ b.postfix := by
  constructor
  · have h1 := run_postfix σ a b.postfix [] (by simp)
    have h2 := run_postfix σ b [] [a.val σ] (by simp [maxDepth])
    have na : ([] : List Bool).length + a.need ≤ maxDepth := by simpa [maxDepth] using ha
    have nb : [a.val σ].length + b.need ≤ maxDepth := by
      simp only [List.length_singleton, maxDepth]; omega
    rw [if_pos na] at h1
    rw [List.append_nil, if_pos nb] at h2
    rw [evaluate, h1, h2]
    simp only [run, List.getLast?_cons_cons, List.getLast?_singleton]
    cases a.val σ <;> rfl
  · intro t ht h
    exact postfix_two_ne (a := a) (ts := [b]) (by simp) t ht (by simpa using h)

example : (BExpr.and (.var 1) (.not (.or (.var 2) (.var 1)))).need ≤ 10 ∧
    (BExpr.and (.var 1) (.not (.or (.var 2) (.var 1)))).postfix =
      [.bool 1, .bool 2, .bool 1, .or, .not, .and] := by decide

example : toInt (evaluate (fun _ => true) [.bool 1, .and]) = -1 ∧
    toInt (evaluate (fun _ => true) []) = -1 ∧ toInt (evaluate (fun _ => true) [.bool 1, .bad]) = -1 ∧
    toInt (evaluate (fun n => n == 1) [.bool 1, .bool 2]) = 1 := by decide

/-! ## C13: enabling rules -/

theorem boolSet_runs {p : CondPolicy} (ho : OwnRules p.nodes) (hc : Consistent p.bools p.nodes p.enabled)
    (c : SetCall) :
    let q := (boolSet p c.bool c.value).getD p
    q.bools = finalBools p.bools [c] ∧
    q.nodes = p.nodes.map (fun n => { n with curState := toInt (evaluate q.bools n.expr) }) ∧
    Consistent q.bools q.nodes q.enabled ∧
    ∀ r, (∀ n ∈ p.nodes, r ∉ n.trueList ∧ r ∉ n.falseList) → q.enabled r = p.enabled r := by
  unfold boolSet
  by_cases hv : c.value ≠ 0 ∧ c.value ≠ 1
  · rw [if_pos hv]
    refine ⟨?_, ?_, hc, fun _ _ => rfl⟩
    · funext n
      simp only [Option.getD_none, finalBools]
      rw [if_neg]; rintro ⟨_, h⟩; omega
    · simp only [Option.getD_none]
      have : p.nodes.map (fun n => { n with curState := toInt (evaluate p.bools n.expr) }) = p.nodes.map id :=
        List.map_congr_left (fun n hn => by rw [← (hc n hn).1]; rfl)
      rw [this, List.map_id]
  · rw [if_neg hv]
    have hv' : c.value = 0 ∨ c.value = 1 := by omega
    obtain ⟨e1, e2, e3⟩ := evaluateConds_spec (fun n => if n = c.bool then decide (c.value = 1) else p.bools n)
      p.nodes p.enabled ho hc
    refine ⟨?_, e1, e2, e3⟩
    funext n
    simp only [Option.getD_some, finalBools]
    by_cases hn : n = c.bool <;> simp [hn, hv']

/-- C13. Start from a policy whose conditional rules are switched according to its
booleans.  After every history of boolean assignments the booleans hold the last
accepted values, the conditionals are the same ones, each rule of a true (false) list is
enabled exactly when the expression of its conditional is true (false) for the new
booleans, and no other rule has been touched. -/
theorem C13_enabled_iff (p : CondPolicy) (ho : OwnRules p.nodes) (hc : Consistent p.bools p.nodes p.enabled)
    (cs : List SetCall) :
    let q := runCalls p cs
    q.bools = finalBools p.bools cs ∧
    q.nodes.map (fun n => { n with curState := 0 }) = p.nodes.map (fun n => { n with curState := 0 }) ∧
    (∀ n ∈ q.nodes, ∀ r ∈ n.trueList, q.enabled r = true ↔ evaluate q.bools n.expr = some true) ∧
    (∀ n ∈ q.nodes, ∀ r ∈ n.falseList, q.enabled r = true ↔ evaluate q.bools n.expr = some false) ∧
    (∀ n ∈ q.nodes, n.curState = toInt (evaluate q.bools n.expr)) ∧
    ∀ r, (∀ n ∈ p.nodes, r ∉ n.trueList ∧ r ∉ n.falseList) → q.enabled r = p.enabled r := by
  induction cs generalizing p with
  | nil => exact ⟨rfl, rfl, fun n hn => (hc n hn).2.1, fun n hn => (hc n hn).2.2, fun n hn => (hc n hn).1, fun _ _ => rfl⟩
  | cons c cs ih =>
    obtain ⟨h1, h2, h3, h4⟩ := boolSet_runs ho hc c
    dsimp only [runCalls]
    generalize hq : (boolSet p c.bool c.value).getD p = q at h1 h2 h3 h4 ⊢
    have ho' : OwnRules q.nodes := by rw [h2, ownRules_map]; exact ho
    obtain ⟨i1, i2, i3, i4, i5, i6⟩ := ih q ho' h3
    refine ⟨?_, ?_, i3, i4, i5, ?_⟩
    · rw [i1, h1]; rfl
    · rw [i2, h2, List.map_map]; rfl
    · intro r hr
      rw [i6 r (by rw [h2]; intro n hn; obtain ⟨m, hm, rfl⟩ := List.mem_map.mp hn; exact hr m hm)]
      exact h4 r hr

/-- Node used in the examples: `if (1 && !2) {10, 11} else {12}`. -/
def exNode : Node :=
  { curState := 0, expr := [.bool 1, .bool 2, .not, .and], trueList := [10, 11], falseList := [12],
    avTrue := [], avFalse := [], nbools := 0, boolIds := [], preComp := 0, flags := 0 }

example : OwnRules [exNode] ∧ Consistent (fun _ => false) [exNode] (fun r => r == 12) ∧
    (runCalls ⟨fun _ => false, fun r => r == 12, [exNode]⟩ [⟨1, 1⟩]).enabled 10 = true ∧
    (runCalls ⟨fun _ => false, fun r => r == 12, [exNode]⟩ [⟨1, 1⟩]).enabled 12 = false ∧
    (runCalls ⟨fun _ => false, fun r => r == 12, [exNode]⟩ [⟨1, 1⟩, ⟨2, 1⟩, ⟨2, 7⟩]).enabled 12 = true := by
  unfold OwnRules Consistent
  decide

/-- The hypothesis of C13 is needed: the recorded state and the ENABLED bits of the rules
come from the policy file, and a conditional whose recorded state is right is never
switched.  Whatever the wrong initial setting is, an assignment that does not change the
value of the expression leaves it in place. -/
theorem C13_stale_flags_kept (σ : State) (n : Node) (en : Nat → Bool) (b : Nat) (v : Bool)
    (h : n.curState = toInt (evaluate (fun m => if m = b then v else σ m) n.expr)) :
    ∃ q, boolSet ⟨σ, en, [n]⟩ b (if v then 1 else 0) = some q ∧ q.enabled = en ∧ q.nodes = [n] := by
  have hv : decide ((if v = true then (1:Int) else 0) = 1) = v := by cases v <;> decide
  unfold boolSet
  rw [if_neg (by cases v <;> simp)]
  refine ⟨_, rfl, ?_, ?_⟩
  all_goals
    simp only [evaluateConds, hv]
    rw [evaluateNode]
    rw [if_neg (by rw [← h]; simp)]

/-- So a policy file can have every rule of the false list enabled although the expression
is true, before and after a boolean assignment. -/
example : ∃ q, boolSet ⟨fun n => n == 1, fun r => r == 12, [{ exNode with curState := 1 }]⟩ 1 1 = some q ∧
    q.enabled 12 = true ∧ evaluate q.bools exNode.expr = some true := ⟨_, rfl, by decide, by decide⟩

/-! ## C14: normalisation -/

theorem selected_not (τ : State) (a : BExpr) (x y : List Nat) : selected τ a y x = selected τ (.not a) x y := by
  show (if a.val τ = true then y else x) = if (!a.val τ) = true then x else y
  cases a.val τ <;> rfl

/-- C14. Normalising a conditional with any expression `t` that fits the stack succeeds and
leaves the booleans as they were; under every assignment the normalised conditional
selects the same rules (expanded and unexpanded) as the original one; it only differs by at
most one negation; and if it has no more than five booleans (each listed once), every row
of the precomputed table holds the value of the expression. -/
theorem C14_normalize (σ : State) (n : Node) (t : BExpr) (h : n.expr = t.postfix) (hn : t.need ≤ 10) :
    ∃ r t', normalize σ n = some r ∧ r.ok = true ∧ r.bools = σ ∧
      r.node.expr = t'.postfix ∧ t'.need ≤ 10 ∧ (t = t' ∨ t = .not t') ∧
      (∀ τ, selected τ t' r.node.trueList r.node.falseList = selected τ t n.trueList n.falseList) ∧
      (∀ τ, selected τ t' r.node.avTrue r.node.avFalse = selected τ t n.avTrue n.avFalse) ∧
      (t'.vars.dedup.length ≤ 5 ↔ r.node.nbools ≤ 5) ∧
      (r.node.nbools ≤ 5 → r.node.boolIds.Nodup ∧ (∀ b, b ∈ r.node.boolIds ↔ b ∈ t.vars) ∧
        r.node.nbools = r.node.boolIds.length ∧
        ∀ τ, r.node.preComp.getLsbD (row τ r.node.boolIds) = t'.val τ) := by
  rcases normalize_postfix (σ := σ) h with ⟨a, rfl, hr⟩ | ⟨hnot, hr⟩
  · have hn' : a.need ≤ maxDepth := hn
    obtain ⟨s1, s2, s3, s4, _⟩ := normalizeTail_spec σ { n with
      expr := a.postfix, trueList := n.falseList, falseList := n.trueList,
      avTrue := n.avFalse, avFalse := n.avTrue } a rfl hn'
    obtain ⟨p1, p2, p3, p4, p5, p6, _⟩ := normalizeTail_prepared σ { n with
      expr := a.postfix, trueList := n.falseList, falseList := n.trueList,
      avTrue := n.avFalse, avFalse := n.avTrue } a rfl hn'
    refine ⟨_, a, hr, s1, s2, p1, p2, Or.inr rfl, ?_, ?_, ?_, fun hb => ⟨p3, p5 hb, ?_, p6 hb⟩⟩
    · intro τ; rw [s3]; exact selected_not τ a _ _
    · intro τ; rw [s3]; exact selected_not τ a _ _
    · rw [s3]; exact (collect_le_iff a).symm
    · rw [p4]; simp only [maxBools]; omega
  · obtain ⟨s1, s2, s3, s4, _⟩ := normalizeTail_spec σ n t h hn
    obtain ⟨p1, p2, p3, p4, p5, p6, _⟩ := normalizeTail_prepared σ n t h hn
    refine ⟨_, t, hr, s1, s2, p1, p2, Or.inl rfl, ?_, ?_, ?_, fun hb => ⟨p3, p5 hb, ?_, p6 hb⟩⟩
    · intro τ; rw [s3]
    · intro τ; rw [s3]
    · rw [s3, h]; exact (collect_le_iff t).symm
    · rw [p4]; simp only [maxBools]; omega

example : exNode.expr = (BExpr.and (.var 1) (.not (.var 2))).postfix ∧
    (BExpr.and (.var 1) (.not (.var 2))).need ≤ 10 ∧
    (normalize (fun _ => false) exNode).map (fun r => (r.node.boolIds, r.node.preComp)) = some ([1, 2], 2#32) ∧
    (normalize (fun _ => false) { exNode with expr := [.bool 3, .not] }).map
      (fun r => (r.node.expr, r.node.trueList, r.node.boolIds, r.node.preComp)) =
      some ([.bool 3], [12], [3], 2#32) := by decide +kernel

/-- C14, the part that fails: when normalisation reports an error, the booleans have been
overwritten.  For every malformed expression with one boolean that is currently true, the
error return leaves it false. -/
theorem C14_error_clobbers (σ : State) (n : Node) (b : Nat) (h : n.expr = [.bool b, .and]) (hb : σ b = true) :
    ∃ r, normalize σ n = some r ∧ r.ok = false ∧ r.bools b = false := by
  refine ⟨_, by unfold normalize; rw [h]; rfl, ?_, ?_⟩
  all_goals
    simp [normalizeTail, h, collect, boolPresent, precompute, maxBools, setBits, evaluate, run, maxDepth]

example : ∃ n : Node, n.expr = [.bool 1, .and] ∧ (fun _ => true : State) 1 = true :=
  ⟨{ exNode with expr := [.bool 1, .and] }, rfl, rfl⟩

/-! ## C15: comparison -/

/-- C15, as far as it holds.  Two normalised conditionals that are judged equal have the
same booleans and, if those are listed in the same order or if there are more than five,
their expressions have the same value under every assignment. -/
theorem C15_equal_sound_partial {a b : Node} {s t : BExpr} (ha : Prepared a s) (hb : Prepared b t)
    (h : exprEqual a b = true) (hord : a.boolIds = b.boolIds ∨ 5 < a.nbools) (τ : State) :
    s.val τ = t.val τ := by
  obtain ⟨_, h2, h3⟩ := exprEqual_sound ha hb h
  by_cases hle : a.nbools ≤ maxBools
  · rcases hord with ho | ho
    · exact (h2 hle).2 τ τ (by rw [ho])
    · have : 5 < maxBools := by omega
      simp [maxBools] at this
  · exact h3 (by omega) τ

/-- What a positive answer guarantees in any case: the same booleans, and the same truth
table up to the order in which the booleans first occur. -/
theorem C15_equal_up_to_order {a b : Node} {s t : BExpr} (ha : Prepared a s) (hb : Prepared b t)
    (h : exprEqual a b = true) (hle : a.nbools ≤ 5) :
    (∀ x, x ∈ s.vars ↔ x ∈ t.vars) ∧ ∀ τ τ', row τ a.boolIds = row τ' b.boolIds → s.val τ = t.val τ' :=
  (exprEqual_sound ha hb h).2.1 hle

/-- One boolean: no order to get wrong, equality is sound. -/
theorem C15_one_bool {a b : Node} {s t : BExpr} (ha : Prepared a s) (hb : Prepared b t)
    (h : exprEqual a b = true) (hle : a.nbools ≤ 1) (τ : State) : s.val τ = t.val τ := by
  refine C15_equal_sound_partial ha hb h (Or.inl ?_) τ
  obtain ⟨h1, h2, _⟩ := exprEqual_sound ha hb h
  have hv := (h2 (by simp [maxBools]; omega)).1
  have la := ha.2.2.2.1
  have lb := hb.2.2.2.1
  have ma := ha.2.2.2.2.1 (by simp [maxBools]; omega)
  have mb := hb.2.2.2.2.1 (by simp [maxBools]; omega)
  match hx : a.boolIds, hy : b.boolIds with
  | [], [] => rfl
  | [x], [y] =>
    rw [hx] at ma; rw [hy] at mb
    have := (mb x).mpr ((hv x).mp ((ma x).mp (by simp)))
    simp at this; rw [this]
  | [], [y] => rw [hx] at la; rw [hy] at lb; simp [maxBools] at la lb; omega
  | [x], [] => rw [hx] at la; rw [hy] at lb; simp [maxBools] at la lb; omega
  | _ :: _ :: _, _ => rw [hx] at la; simp at la; omega
  | _, _ :: _ :: _ => rw [hy] at lb; simp at lb; omega

/-- The converse of C15: equivalent conditionals over the same booleans in the same order
(at most five) are recognised, so they are merged. -/
theorem C15_equal_complete {a b : Node} {s t : BExpr} (ha : Prepared a s) (hb : Prepared b t)
    (hn : a.nbools = b.nbools) (hle : a.nbools ≤ 5) (hord : a.boolIds = b.boolIds)
    (h : ∀ τ, s.val τ = t.val τ) : exprEqual a b = true := by
  obtain ⟨a1, a2, a3, a4, a5, a6, a7⟩ := ha
  obtain ⟨b1, b2, b3, b4, b5, b6, b7⟩ := hb
  have hle' : a.nbools ≤ maxBools := hle
  have hs : sameBools a b = true := by
    unfold sameBools
    rw [if_neg (by simpa using hn), List.all_eq_true]
    intro x hx
    unfold boolPresent
    rw [if_neg (by omega), List.take_of_length_le (by omega)]
    rw [hord] at hx; simpa using hx
  unfold exprEqual
  rw [if_neg (by simpa using hn), if_pos ⟨hle', by omega⟩, hs]
  simp only [Bool.not_true, Bool.false_eq_true, if_false, beq_iff_eq]
  apply BitVec.eq_of_getLsbD_eq
  intro i _
  by_cases hi : 2 ^ a.nbools ≤ i
  · rw [a7 hle' i hi, b7 (by omega) i (by rw [← hn]; exact hi)]
  · have hlen : a.boolIds.length = a.nbools := by omega
    have key : ∀ (ids : List Nat) (i : Nat), ids.Nodup → i < 2 ^ ids.length → ∃ τ : State, row τ ids = i := by
      intro ids
      induction ids with
      | nil => intro i _ h; exact ⟨fun _ => false, by simp [row] at h ⊢; omega⟩
      | cons x l ih =>
        intro i hd hi
        rw [List.nodup_cons] at hd
        obtain ⟨τ, hτ⟩ := ih (i / 2) hd.2 (by simp only [List.length_cons, Nat.pow_succ] at hi; omega)
        refine ⟨fun b => if b = x then decide (i % 2 = 1) else τ b, ?_⟩
        have hcongr : ∀ (l : List Nat) (f g : State), (∀ b ∈ l, f b = g b) → row f l = row g l := by
          intro l f g h
          induction l with
          | nil => rfl
          | cons y l ih => simp only [row]; rw [h y (by simp), ih (fun b hb => h b (by simp [hb]))]
        simp only [row, if_true]
        rw [hcongr l _ τ (fun b hb => by rw [if_neg]; rintro rfl; exact hd.1 hb), hτ]
        by_cases h2 : i % 2 = 1 <;> simp [h2] <;> omega
    obtain ⟨τ, hτ⟩ := key a.boolIds i a3 (by rw [hlen]; omega)
    have e1 := a6 hle' τ
    have e2 := b6 (by omega) τ
    rw [← hord] at e2
    rw [hτ] at e1 e2
    rw [e1, e2, h]

/-- `1 && !2` after normalisation. -/
def exA : Node := { exNode with boolIds := [1, 2], nbools := 2, preComp := 2#32 }
/-- `2 && !1` after normalisation. -/
def exB : Node := { exNode with expr := [.bool 2, .bool 1, .not, .and], boolIds := [2, 1], nbools := 2, preComp := 2#32 }

theorem exA_prepared : Prepared exA (.and (.var 1) (.not (.var 2))) := by
  refine ⟨rfl, by decide, by decide, by decide, ?_, ?_, ?_⟩
  · intro _ b; simp [exA, BExpr.vars]
  · intro _ τ
    simp only [exA, row, BExpr.val]
    cases τ 1 <;> cases τ 2 <;> decide
  · intro _ i hi
    have hi : 4 ≤ i := hi
    by_cases h : i < 32
    · have : ∀ i : Fin 32, 4 ≤ i.val → (2#32).getLsbD i.val = false := by decide
      exact this ⟨i, h⟩ hi
    · exact BitVec.getLsbD_of_ge _ _ (by omega)

theorem exB_prepared : Prepared exB (.and (.var 2) (.not (.var 1))) := by
  refine ⟨rfl, by decide, by decide, by decide, ?_, ?_, ?_⟩
  · intro _ b; simp [exB, BExpr.vars]
  · intro _ τ
    simp only [exB, row, BExpr.val]
    cases τ 1 <;> cases τ 2 <;> decide
  · intro _ i hi
    have hi : 4 ≤ i := hi
    by_cases h : i < 32
    · have : ∀ i : Fin 32, 4 ≤ i.val → (2#32).getLsbD i.val = false := by decide
      exact this ⟨i, h⟩ hi
    · exact BitVec.getLsbD_of_ge _ _ (by omega)

/-- C15 does not hold in full: `1 && !2` and `2 && !1` are normalised to conditionals that
are judged equal although they have different values. -/
theorem C15_not_equivalent (σ : State) :
    (normalize σ { exA with boolIds := [], nbools := 0, preComp := 0 }).map (·.node) = some exA ∧
    (normalize σ { exB with boolIds := [], nbools := 0, preComp := 0 }).map (·.node) = some exB ∧
    exprEqual exA exB = true ∧
    ∃ τ, evaluate τ exA.expr = some true ∧ evaluate τ exB.expr = some false := by
  refine ⟨?_, ?_, by decide, fun n => n == 1, by decide, by decide⟩
  · simp [normalize, normalizeTail, exA, exNode, collect, boolPresent, maxBools, precompute, setBits, evaluate, run, maxDepth, binop]
    decide
  · simp [normalize, normalizeTail, exB, exNode, collect, boolPresent, maxBools, precompute, setBits, evaluate, run, maxDepth, binop]
    decide

/-! ## C46: reordering of the rule lists -/

/-- C46. Optimising the conditionals changes no expression and no recorded state, keeps
every rule list a permutation of itself, puts the type rules first and keeps the order of
the other ones; so the same rules are selected under every assignment. -/
theorem C46_optimize (ty : Nat → Bool) (nodes : List Node) :
    (optimizeLists ty nodes).map (fun n => { n with trueList := [], falseList := [] }) =
      nodes.map (fun n => { n with trueList := [], falseList := [] }) ∧
    (∀ l, (optimizeList ty l).Perm l ∧
      ∃ pre post, optimizeList ty l = pre ++ post ∧ (∀ r ∈ pre, ty r = true) ∧ (∀ r ∈ post, ty r = false) ∧
        post.Sublist l) ∧
    ∀ τ r, SelectedBy τ (optimizeLists ty nodes) r ↔ SelectedBy τ nodes r := by
  have hperm : ∀ l, (optimizeList ty l).Perm l := by
    intro l
    rw [optimizeList_eq]
    exact ((List.reverse_perm _).append_right _).trans (List.filter_append_perm ty l)
  refine ⟨?_, fun l => ⟨hperm l, (l.filter ty).reverse, l.filter (fun r => !ty r), optimizeList_eq ty l, ?_, ?_, List.filter_sublist⟩, ?_⟩
  · unfold optimizeLists; rw [List.map_map]; rfl
  · intro r hr; simp at hr; exact hr.2
  · intro r hr; simp at hr; exact hr.2
  · intro τ r
    unfold SelectedBy optimizeLists
    constructor
    · rintro ⟨n, hn, h⟩
      obtain ⟨m, hm, rfl⟩ := List.mem_map.mp hn
      simp only [(hperm _).mem_iff] at h
      exact ⟨m, hm, h⟩
    · rintro ⟨n, hn, h⟩
      refine ⟨_, List.mem_map.mpr ⟨n, hn, rfl⟩, ?_⟩
      simp only [(hperm _).mem_iff]
      exact h

example : optimizeList (fun r => r % 2 == 0) [1, 2, 3, 4] = [4, 2, 1, 3] := by decide

/-! ## C47: expansion of conditionals -/

theorem selectedBy_cons {τ : State} {n : Node} {l : List Node} {r : Nat} :
    SelectedBy τ (n :: l) r ↔ ((evaluate τ n.expr = some true ∧ r ∈ n.trueList) ∨
      (evaluate τ n.expr = some false ∧ r ∈ n.falseList)) ∨ SelectedBy τ l r := by
  unfold SelectedBy
  simp only [List.mem_cons, exists_eq_or_imp]

theorem selectedBy_addRules {τ : State} (T F : List Nat) (r : Nat) (v : Bool) : ∀ (out : List Node) (i : Nat)
    (hi : i < out.length), evaluate τ out[i].expr = some v →
    (SelectedBy τ (out.modify i (addRules T F)) r ↔
      SelectedBy τ out r ∨ (v = true ∧ r ∈ T ∨ v = false ∧ r ∈ F)) := by
  intro out
  induction out with
  | nil => intro i hi; simp at hi
  | cons n l ih =>
    intro i hi hev
    cases i with
    | zero =>
      have hev : evaluate τ n.expr = some v := hev
      rw [List.modify_zero_cons, selectedBy_cons, selectedBy_cons]
      show ((evaluate τ n.expr = some true ∧ r ∈ n.trueList ++ T) ∨
        (evaluate τ n.expr = some false ∧ r ∈ n.falseList ++ F)) ∨ _ ↔ _
      rw [hev]
      cases v <;> simp [or_assoc, or_comm, or_left_comm]
    | succ i =>
      rw [List.modify_succ_cons, selectedBy_cons, selectedBy_cons, ih i (by simpa using hi) hev]
      exact or_assoc.symm

/-- C47, as far as it holds.  Copy the conditional `if (t) avTrue else avFalse` into the
output of the expansion.  Provided that `t` does not begin with two negations and that
the booleans of an equally looking conditional already in the output occur in the same
order, exactly the rules of the branch `t` selects are added to those selected, under
every assignment of the output's booleans. -/
theorem C47_expand_partial (σb σo : State) (f : Nat → Nat) (n : Node) (t : BExpr) (out out' : List Node)
    (h : n.expr = t.postfix) (hn : t.need ≤ 10) (hpos : ∀ b ∈ t.vars, b ≠ 0)
    (hneg : ∀ a, t ≠ .not (.not a))
    (hprep : ∀ m ∈ out, ∃ s, Prepared m s)
    (hord : ∀ m ∈ out, ∀ k, Prepared k (t.rename f) ∨ (∃ a, t = .not a ∧ Prepared k (a.rename f)) →
      exprEqual k m = true → k.boolIds = m.boolIds ∨ 5 < m.nbools)
    (hc : nodeCopy σb σo f n out = some out') (τ : State) (r : Nat) :
    SelectedBy τ out' r ↔ SelectedBy τ out r ∨ r ∈ selected (fun b => τ (f b)) t n.avTrue n.avFalse := by
  -- first normalisation
  obtain ⟨r1, t1, e1, k1, _, x1, n1, or1, _, sel1, _, _⟩ := C14_normalize σb n t h hn
  have hsel := sel1 (fun b => τ (f b))
  have hvars : ∀ b ∈ t1.vars, b ≠ 0 := by
    rcases or1 with h | h
    · rw [← h]; exact hpos
    · rw [h] at hpos; exact hpos
  have hnot1 : ¬ ∃ a, t1 = .not a := by
    rintro ⟨a, ha⟩
    rcases normalize_postfix (σ := σb) h with ⟨b, hb, hr⟩ | ⟨hno, hr⟩
    · rw [hr] at e1
      have hpr := normalizeTail_prepared σb { n with
        expr := b.postfix, trueList := n.falseList, falseList := n.trueList,
        avTrue := n.avFalse, avFalse := n.avTrue } b rfl (by rw [hb] at hn; exact hn)
      rw [Option.some.inj e1] at hpr
      have hx := x1.symm.trans hpr.1
      have : b.postfix.getLast? = some .not := by rw [← hx, ha]; exact getLast?_postfix_not.mpr ⟨a, rfl⟩
      obtain ⟨c, hc⟩ := getLast?_postfix_not.mp this
      exact hneg c (by rw [hb, hc])
    · rw [hr] at e1
      have hpr := normalizeTail_prepared σb n t h hn
      rw [Option.some.inj e1] at hpr
      have hx := x1.symm.trans hpr.1
      have : t.postfix.getLast? = some .not := by rw [← hx, ha]; exact getLast?_postfix_not.mpr ⟨a, rfl⟩
      exact hno (getLast?_postfix_not.mp this)
  -- second normalisation
  have hmap : (nodeCreate σb r1.node).expr.map
      (fun t => match t with | .bool b => Tok.bool (if b = 0 then 0 else f b) | t => t) = (t1.rename f).postfix := by
    rw [rename_postfix]
    show r1.node.expr.map _ = _
    rw [x1]
    apply List.map_congr_left
    intro k hk
    cases k with
    | bool b => simp only [if_neg (hvars b (mem_vars.mp hk))]
    | _ => rfl
  have hnot2 : ¬ ∃ a, t1.rename f = .not a := by
    rintro ⟨a, ha⟩
    cases t1 with
    | not c => exact hnot1 ⟨c, rfl⟩
    | _ => simp [BExpr.rename] at ha
  have n2 : (t1.rename f).need ≤ maxDepth := by rw [rename_need]; exact n1
  have e2 : ∃ r2, mapBools σo f (nodeCreate σb r1.node) = some r2 ∧ r2.ok = true ∧ Prepared r2.node (t1.rename f) := by
    unfold mapBools
    rcases normalize_postfix (σ := σo) (n := { nodeCreate σb r1.node with
        expr := (nodeCreate σb r1.node).expr.map
          (fun t => match t with | .bool b => Tok.bool (if b = 0 then 0 else f b) | t => t),
        boolIds := (nodeCreate σb r1.node).boolIds.map f }) (t := t1.rename f) hmap with ⟨a, ha, _⟩ | ⟨_, hr⟩
    · exact absurd ⟨a, ha⟩ hnot2
    · exact ⟨_, hr, (normalizeTail_spec σo _ _ hmap n2).1, normalizeTail_prepared σo _ _ hmap n2⟩
  obtain ⟨r2, e2, k2, p2⟩ := e2
  unfold nodeCopy at hc
  rw [e1] at hc
  simp only [k1, if_true] at hc
  rw [e2] at hc
  simp only [k2, if_true] at hc
  have hbr : (r ∈ selected (fun b => τ (f b)) t n.avTrue n.avFalse) ↔
      ((t1.rename f).val τ = true ∧ r ∈ r1.node.avTrue) ∨ ((t1.rename f).val τ = false ∧ r ∈ r1.node.avFalse) := by
    rw [← hsel, rename_val]
    unfold selected
    cases t1.val (fun b => τ (f b)) <;> simp
  rw [hbr]
  cases hf : nodeFind r2.node out with
  | none =>
    rw [hf] at hc
    simp only [Option.some.injEq] at hc
    subst hc
    have hev : evaluate τ (nodeCreate σo r2.node).expr = some ((t1.rename f).val τ) :=
      prepared_eval (nodeCreate_prepared p2) τ
    unfold SelectedBy
    simp only [List.mem_cons, exists_eq_or_imp]
    have : ∀ v, (evaluate τ (addRules r1.node.avTrue r1.node.avFalse (nodeCreate σo r2.node)).expr = some v) ↔
        (t1.rename f).val τ = v := by
      intro v
      show evaluate τ (nodeCreate σo r2.node).expr = some v ↔ _
      rw [hev]; simp
    rw [this, this]
    simp only [addRules, nodeCreate, List.nil_append]
    exact or_comm
  | some i =>
    rw [hf] at hc
    simp only [Option.some.injEq] at hc
    subst hc
    unfold nodeFind at hf
    rw [List.findIdx?_eq_some_iff_getElem] at hf
    obtain ⟨hi, heq, _⟩ := hf
    have hmem : out[i] ∈ out := List.getElem_mem hi
    obtain ⟨s, hs⟩ := hprep _ hmem
    have hval : (t1.rename f).val τ = s.val τ := by
      refine C15_equal_sound_partial p2 hs heq ?_ τ
      rcases hord _ hmem r2.node (by
        rcases or1 with h | h
        · exact Or.inl (by rw [h]; exact p2)
        · exact Or.inr ⟨t1, h, p2⟩) heq with h | h
      · exact Or.inl h
      · exact Or.inr (by rw [(exprEqual_sound p2 hs heq).1]; exact h)
    have hev : evaluate τ (out[i]).expr = some ((t1.rename f).val τ) := by rw [hval]; exact prepared_eval hs τ
    exact selectedBy_addRules r1.node.avTrue r1.node.avFalse r _ out i hi hev

/-- `if (1) {20} else {21}` before expansion. -/
def exSrc (e : List Tok) : Node :=
  { exNode with expr := e, trueList := [], falseList := [], avTrue := [20], avFalse := [21] }

/-- A run of the expansion meeting the hypotheses of C47: no conditional yet. -/
example : (nodeCopy (fun _ => false) (fun _ => false) id (exSrc [.bool 1, .bool 2, .or, .not]) []).map
    (·.map (fun n => (n.expr, n.trueList, n.falseList))) =
    some [([.bool 1, .bool 2, .or], [21], [20])] := by decide +kernel

/-- C47 fails for a doubly negated condition: the second normalisation strips the second
negation without exchanging the rules, so the rules of `if (!!1) {20} else {21}` are
attached to the wrong branches: with boolean 1 true the output selects 21 and not 20. -/
theorem C47_double_negation :
    ∃ out, nodeCopy (fun _ => false) (fun _ => false) id (exSrc [.bool 1, .not, .not]) [] = some out ∧
      (BExpr.not (.not (.var 1))).postfix = [.bool 1, .not, .not] ∧
      SelectedBy (fun _ => true) out 21 ∧ ¬ SelectedBy (fun _ => true) out 20 ∧
      SelectedBy (fun _ => false) out 20 := by
  refine ⟨[{ exSrc [.bool 1] with trueList := [21], falseList := [20], avTrue := [], avFalse := [], nbools := 1, boolIds := [1], preComp := 2#32 }], ?_, rfl, ?_, ?_, ?_⟩
  · decide +kernel
  all_goals
    unfold SelectedBy
    decide

/-- C47 fails through the wrong merge of C15: `if (1 && !2) {20} else {21}` followed by
`if (2 && !1) {30} else {31}`.  With boolean 1 true and 2 false the output selects the rule
30 of the second conditional, whose condition is false. -/
theorem C47_wrong_merge :
    ∃ o1 o2, nodeCopy (fun _ => false) (fun _ => false) id (exSrc [.bool 1, .bool 2, .not, .and]) [] = some o1 ∧
      nodeCopy (fun _ => false) (fun _ => false) id
        { exSrc [.bool 2, .bool 1, .not, .and] with avTrue := [30], avFalse := [31] } o1 = some o2 ∧
      (BExpr.and (.var 2) (.not (.var 1))).val (fun n => n == 1) = false ∧
      SelectedBy (fun n => n == 1) o2 30 ∧ ¬ SelectedBy (fun n => n == 1) o2 31 := by
  refine ⟨[{ exSrc [.bool 1, .bool 2, .not, .and] with trueList := [20], falseList := [21], avTrue := [], avFalse := [], nbools := 2, boolIds := [1, 2], preComp := 2#32 }],
    [{ exSrc [.bool 1, .bool 2, .not, .and] with trueList := [20, 30], falseList := [21, 31], avTrue := [], avFalse := [], nbools := 2, boolIds := [1, 2], preComp := 2#32 }], ?_, ?_, rfl, ?_, ?_⟩
  · decide +kernel
  · decide +kernel
  all_goals
    unfold SelectedBy
    decide

end Verif.Cond
