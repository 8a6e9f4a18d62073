import Verif.Cond.Spec

namespace Verif.Cond

/-! ## Evaluation -/

theorem run_bin (σ : State) {t : Tok} (ht : t = .or ∨ t = .and ∨ t = .xor ∨ t = .eq ∨ t = .neq)
    (l : List Tok) (a b : Bool) (s : List Bool) :
    run σ (t :: l) (b :: a :: s) = run σ l (binop t a b :: s) := by
  rcases ht with h | h | h | h | h <;> subst h <;> simp [run]

theorem run_bin_append (σ : State) {t : Tok} (ht : t = .or ∨ t = .and ∨ t = .xor ∨ t = .eq ∨ t = .neq)
    (pa pb : List Tok) (na nb : Nat) (va vb : Bool)
    (ha : ∀ l s, s.length ≤ maxDepth → run σ (pa ++ l) s = if s.length + na ≤ maxDepth then run σ l (va :: s) else none)
    (hb : ∀ l s, s.length ≤ maxDepth → run σ (pb ++ l) s = if s.length + nb ≤ maxDepth then run σ l (vb :: s) else none)
    (hna : 1 ≤ na)
    (l : List Tok) (s : List Bool) (hs : s.length ≤ maxDepth) :
    run σ (pa ++ pb ++ [t] ++ l) s =
      if s.length + max na (1 + nb) ≤ maxDepth then run σ l (binop t va vb :: s) else none := by
  rw [List.append_assoc, List.append_assoc, ha _ _ hs]
  by_cases h1 : s.length + na ≤ maxDepth
  · rw [if_pos h1, hb _ _ (by simp only [List.length_cons]; omega)]
    simp only [List.length_cons]
    by_cases h2 : s.length + 1 + nb ≤ maxDepth
    · rw [if_pos h2, if_pos (by omega)]
      exact run_bin σ ht l va vb s
    · rw [if_neg h2, if_neg (by omega)]
  · rw [if_neg h1, if_neg (by omega)]

theorem need_pos (t : BExpr) : 1 ≤ t.need := by
  induction t <;> simp only [BExpr.need] <;> omega

theorem run_postfix (σ : State) (t : BExpr) : ∀ (l : List Tok) (s : List Bool), s.length ≤ maxDepth →
    run σ (t.postfix ++ l) s = if s.length + t.need ≤ maxDepth then run σ l (t.val σ :: s) else none := by
  induction t with
  | var n =>
    intro l s hs
    show (if s.length = maxDepth then none else run σ l (σ n :: s)) =
      if s.length + 1 ≤ maxDepth then run σ l (σ n :: s) else none
    by_cases h : s.length = maxDepth
    · rw [if_pos h, if_neg (by omega)]
    · rw [if_neg h, if_pos (by omega)]
  | not a ih =>
    intro l s hs
    show run σ (a.postfix ++ [.not] ++ l) s = if s.length + a.need ≤ maxDepth then run σ l ((!a.val σ) :: s) else none
    rw [List.append_assoc, ih _ _ hs]
    rfl
  | or a b iha ihb =>
    intro l s hs
    exact run_bin_append σ (by simp) _ _ _ _ _ _ iha ihb (need_pos a) l s hs
  | and a b iha ihb =>
    intro l s hs
    exact run_bin_append σ (by simp) _ _ _ _ _ _ iha ihb (need_pos a) l s hs
  | xor a b iha ihb =>
    intro l s hs
    exact run_bin_append σ (by simp) _ _ _ _ _ _ iha ihb (need_pos a) l s hs
  | eq a b iha ihb =>
    intro l s hs
    have := run_bin_append σ (t := .eq) (by simp) _ _ _ _ _ _ iha ihb (need_pos a) l s hs
    show run σ (a.postfix ++ b.postfix ++ [.eq] ++ l) s =
      if s.length + max a.need (1 + b.need) ≤ maxDepth then run σ l (decide (a.val σ = b.val σ) :: s) else none
    rw [this]
    cases a.val σ <;> cases b.val σ <;> rfl
  | neq a b iha ihb =>
    intro l s hs
    have := run_bin_append σ (t := .neq) (by simp) _ _ _ _ _ _ iha ihb (need_pos a) l s hs
    show run σ (a.postfix ++ b.postfix ++ [.neq] ++ l) s =
      if s.length + max a.need (1 + b.need) ≤ maxDepth then run σ l (decide (a.val σ ≠ b.val σ) :: s) else none
    rw [this]
    cases a.val σ <;> cases b.val σ <;> rfl

theorem evaluate_postfix (σ : State) (t : BExpr) :
    evaluate σ t.postfix = if t.need ≤ maxDepth then some (t.val σ) else none := by
  have h := run_postfix σ t [] [] (by simp)
  rw [List.append_nil] at h
  rw [evaluate, h]
  by_cases hn : t.need ≤ maxDepth
  · simp [hn, run]
  · simp [hn]

/-- Two-operand constructors. -/
def mkBin : Tok → BExpr → BExpr → Option BExpr
  | .or, a, b => some (.or a b)
  | .and, a, b => some (.and a b)
  | .xor, a, b => some (.xor a b)
  | .eq, a, b => some (.eq a b)
  | .neq, a, b => some (.neq a b)
  | _, _, _ => none

/-- Symbolic execution of the evaluator on a stack of expressions. -/
def runT : List Tok → List BExpr → Option (List BExpr)
  | [], s => some s
  | .bool n :: l, s => if s.length = maxDepth then none else runT l (.var n :: s)
  | .not :: l, s => match s with
    | [] => none
    | a :: s => runT l (.not a :: s)
  | .bad :: _, _ => none
  | t :: l, s => match s with
    | b :: a :: s => match mkBin t a b with
      | none => none
      | some c => runT l (c :: s)
    | _ => none

theorem mkBin_val (σ : State) {t : Tok} {a b c : BExpr} (h : mkBin t a b = some c) :
    binop t (a.val σ) (b.val σ) = c.val σ := by
  cases t <;> simp only [mkBin, Option.some.injEq, reduceCtorEq] at h <;> subst h <;>
    simp only [binop, BExpr.val] <;> cases a.val σ <;> cases b.val σ <;> rfl

theorem mkBin_postfix {t : Tok} {a b c : BExpr} (h : mkBin t a b = some c) :
    c.postfix = a.postfix ++ b.postfix ++ [t] := by
  cases t <;> simp only [mkBin, Option.some.injEq, reduceCtorEq] at h <;> subst h <;> rfl

theorem run_runT (σ : State) (e : List Tok) : ∀ ts : List BExpr,
    run σ e (ts.map (BExpr.val σ)) = (runT e ts).map (List.map (BExpr.val σ)) := by
  induction e with
  | nil => intro ts; rfl
  | cons t l ih =>
    intro ts
    have bin : ∀ t : Tok, (t = .or ∨ t = .and ∨ t = .xor ∨ t = .eq ∨ t = .neq) →
        run σ (t :: l) (ts.map (BExpr.val σ)) = (runT (t :: l) ts).map (List.map (BExpr.val σ)) := by
      intro t ht
      match ts with
      | [] => rcases ht with h | h | h | h | h <;> subst h <;> simp [run, runT]
      | [a] => rcases ht with h | h | h | h | h <;> subst h <;> simp [run, runT]
      | b :: a :: s =>
        obtain ⟨c, hc⟩ : ∃ c, mkBin t a b = some c := by
          rcases ht with h | h | h | h | h <;> subst h <;> simp [mkBin]
        rw [List.map_cons, List.map_cons, run_bin σ ht, mkBin_val σ hc]
        have : runT (t :: l) (b :: a :: s) = runT l (c :: s) := by
          rcases ht with h | h | h | h | h <;> subst h <;> simp [runT, hc]
        rw [this, ← ih, List.map_cons]
    cases t with
    | bool n =>
      simp only [run, runT, List.length_map]
      split
      · rfl
      · rw [← ih]; rfl
    | not =>
      cases ts with
      | nil => rfl
      | cons a s =>
        simp only [run, runT, List.map_cons]
        rw [← ih]; rfl
    | bad => rfl
    | or => exact bin _ (by simp)
    | and => exact bin _ (by simp)
    | xor => exact bin _ (by simp)
    | eq => exact bin _ (by simp)
    | neq => exact bin _ (by simp)

theorem runT_postfix (e : List Tok) : ∀ ts ts' : List BExpr, runT e ts = some ts' →
    ts'.reverse.flatMap BExpr.postfix = ts.reverse.flatMap BExpr.postfix ++ e := by
  induction e with
  | nil => intro ts ts' h; simp only [runT, Option.some.injEq] at h; subst h; simp
  | cons t l ih =>
    intro ts ts' h
    have bin : ∀ t : Tok, (t = .or ∨ t = .and ∨ t = .xor ∨ t = .eq ∨ t = .neq) →
        runT (t :: l) ts = some ts' →
        ts'.reverse.flatMap BExpr.postfix = ts.reverse.flatMap BExpr.postfix ++ t :: l := by
      intro t ht h
      match ts with
      | [] => rcases ht with h' | h' | h' | h' | h' <;> subst h' <;> simp [runT] at h
      | [a] => rcases ht with h' | h' | h' | h' | h' <;> subst h' <;> simp [runT] at h
      | b :: a :: s =>
        obtain ⟨c, hc⟩ : ∃ c, mkBin t a b = some c := by
          rcases ht with h | h | h | h | h <;> subst h <;> simp [mkBin]
        have h2 : runT (t :: l) (b :: a :: s) = runT l (c :: s) := by
          rcases ht with h | h | h | h | h <;> subst h <;> simp [runT, hc]
        rw [h2] at h
        have := ih _ _ h
        rw [this]
        simp [mkBin_postfix hc]
    cases t with
    | bool n =>
      simp only [runT] at h
      split at h
      · simp at h
      · rw [ih _ _ h]; simp [BExpr.postfix]
    | not =>
      cases ts with
      | nil => simp [runT] at h
      | cons a s =>
        simp only [runT] at h
        rw [ih _ _ h]; simp [BExpr.postfix]
    | bad => simp [runT] at h
    | or => exact bin _ (by simp) h
    | and => exact bin _ (by simp) h
    | xor => exact bin _ (by simp) h
    | eq => exact bin _ (by simp) h
    | neq => exact bin _ (by simp) h

theorem evaluate_some {σ : State} {e : List Tok} {b : Bool} (h : evaluate σ e = some b) :
    ∃ (t : BExpr) (ts : List BExpr), e = t.postfix ++ ts.flatMap BExpr.postfix ∧ b = t.val σ := by
  have h1 := run_runT σ e []
  simp only [List.map_nil] at h1
  unfold evaluate at h
  rw [h1] at h
  cases hr : runT e [] with
  | none => rw [hr] at h; simp at h
  | some ts =>
    rw [hr] at h
    have h2 := runT_postfix e [] ts hr
    simp only [List.reverse_nil, List.flatMap_nil, List.nil_append] at h2
    simp only [Option.map_some, List.getLast?_map] at h
    rcases List.eq_nil_or_concat ts with h3 | ⟨l, t, h3⟩
    · subst h3; simp at h
    · subst h3
      simp at h h2
      exact ⟨t, l.reverse, h2.symm, h.symm⟩

/-- Whether an expression is defined does not depend on the booleans, and its value only
depends on the booleans in it. -/
theorem run_congr {σ τ : State} (e : List Tok) (h : ∀ b, Tok.bool b ∈ e → σ b = τ b) :
    ∀ s, run σ e s = run τ e s := by
  induction e with
  | nil => intro s; rfl
  | cons t l ih =>
    intro s
    have ih := ih (fun b hb => h b (List.mem_cons_of_mem _ hb))
    cases t with
    | bool n => simp only [run]; rw [h n List.mem_cons_self, ih]
    | not => cases s with
      | nil => rfl
      | cons a s => simp only [run]; rw [ih]
    | bad => rfl
    | or => match s with
      | [] => rfl
      | [_] => rfl
      | b :: a :: s => simp only [run]; rw [ih]
    | and => match s with
      | [] => rfl
      | [_] => rfl
      | b :: a :: s => simp only [run]; rw [ih]
    | xor => match s with
      | [] => rfl
      | [_] => rfl
      | b :: a :: s => simp only [run]; rw [ih]
    | eq => match s with
      | [] => rfl
      | [_] => rfl
      | b :: a :: s => simp only [run]; rw [ih]
    | neq => match s with
      | [] => rfl
      | [_] => rfl
      | b :: a :: s => simp only [run]; rw [ih]

theorem evaluate_congr {σ τ : State} {e : List Tok} (h : ∀ b, Tok.bool b ∈ e → σ b = τ b) :
    evaluate σ e = evaluate τ e := by
  unfold evaluate; rw [run_congr e h]

theorem mem_vars {t : BExpr} {b : Nat} : Tok.bool b ∈ t.postfix ↔ b ∈ t.vars := by
  induction t with
  | var n => simp [BExpr.postfix, BExpr.vars]
  | not a ih => simp [BExpr.postfix, BExpr.vars, ih]
  | or a b iha ihb => simp [BExpr.postfix, BExpr.vars, iha, ihb]
  | and a b iha ihb => simp [BExpr.postfix, BExpr.vars, iha, ihb]
  | xor a b iha ihb => simp [BExpr.postfix, BExpr.vars, iha, ihb]
  | eq a b iha ihb => simp [BExpr.postfix, BExpr.vars, iha, ihb]
  | neq a b iha ihb => simp [BExpr.postfix, BExpr.vars, iha, ihb]

/-- Unique readability: no proper sequence of expressions reads as one expression. -/
theorem postfix_two_ne {a : BExpr} {ts : List BExpr} (hts : ts ≠ []) (t : BExpr)
    (ht : t.need ≤ maxDepth) (h : t.postfix = a.postfix ++ ts.flatMap BExpr.postfix) : False := by
  have e1 : ∀ (t : BExpr) (l : List Tok) (s : List Bool), s.length ≤ maxDepth → ∀ σ,
    run σ (t.postfix ++ l) s = if s.length + t.need ≤ maxDepth then run σ l (t.val σ :: s) else none :=
    fun t l s hs σ => run_postfix σ t l s hs
  have e2 : ∀ (ts : List BExpr) (s s' : List Bool), s.length ≤ maxDepth →
      run (fun _ => false) (ts.flatMap BExpr.postfix) s = some s' → s'.length = s.length + ts.length := by
    intro ts
    induction ts with
    | nil => intro s s' _ h; simp [run] at h; subst h; simp
    | cons t ts ih =>
      intro s s' hs h
      rw [List.flatMap_cons, e1 t _ s hs] at h
      split at h
      · rename_i hlt
        have := ih _ _ (by have := need_pos t; simp only [List.length_cons]; omega) h
        simp only [List.length_cons] at this ⊢; omega
      · simp at h
  have h1 := e1 t [] [] (by simp) (fun _ => false)
  rw [List.append_nil] at h1
  simp only [List.length_nil, Nat.zero_add, ht, if_true, run] at h1
  have h2 : (a :: ts).flatMap BExpr.postfix = t.postfix := by rw [h]; simp
  rw [← h2] at h1
  have := e2 _ _ _ (by simp) h1
  simp only [List.length_cons, List.length_nil] at this
  cases ts with
  | nil => exact hts rfl
  | cons _ _ => simp at this

/-! ## Enabling rules -/

theorem switch_mem {l : List Nat} {on en r} (h : r ∈ l) : switch l on en r = on := by simp [switch, h]
theorem switch_not_mem {l : List Nat} {on en r} (h : r ∉ l) : switch l on en r = en r := by simp [switch, h]

/-- Consistency of one node. -/
def NodeCons (σ : State) (n : Node) (en : Nat → Bool) : Prop :=
  n.curState = toInt (evaluate σ n.expr) ∧
    (∀ r ∈ n.trueList, en r = true ↔ evaluate σ n.expr = some true) ∧
    (∀ r ∈ n.falseList, en r = true ↔ evaluate σ n.expr = some false)

theorem toInt_inj {a b : Option Bool} (h : toInt a = toInt b) : a = b := by
  rcases a with _ | _ | _ <;> rcases b with _ | _ | _ <;> simp_all [toInt]

theorem evaluateNode_spec (σ' : State) {σ : State} {n : Node} {en : Nat → Bool} (h : NodeCons σ n en)
    (hd : (n.trueList ++ n.falseList).Nodup) :
    (evaluateNode σ' n en).1 = { n with curState := toInt (evaluate σ' n.expr) } ∧
    NodeCons σ' (evaluateNode σ' n en).1 (evaluateNode σ' n en).2 ∧
    ∀ r, r ∉ n.trueList → r ∉ n.falseList → (evaluateNode σ' n en).2 r = en r := by
  obtain ⟨h1, h2, h3⟩ := h
  unfold evaluateNode
  dsimp only
  by_cases hne : toInt (evaluate σ' n.expr) ≠ n.curState
  · rw [if_pos hne]
    refine ⟨rfl, ⟨rfl, ?_, ?_⟩, ?_⟩
    · intro r hr
      have hr' : r ∉ n.falseList := fun h => (List.nodup_append.mp hd).2.2 r hr r h rfl
      show switch _ _ _ r = true ↔ _
      rw [switch_not_mem hr', switch_mem hr, decide_eq_true_eq]
      rcases evaluate σ' n.expr with _ | _ | _ <;> simp [toInt]
    · intro r hr
      show switch _ _ _ r = true ↔ _
      rw [switch_mem hr, decide_eq_true_eq]
      rcases evaluate σ' n.expr with _ | _ | _ <;> simp [toInt]
    · intro r hr hr'
      show switch _ _ _ r = _
      rw [switch_not_mem hr', switch_not_mem hr]
  · rw [if_neg hne]
    have hne : toInt (evaluate σ' n.expr) = n.curState := by simpa using hne
    have he := toInt_inj (hne.trans h1)
    refine ⟨?_, ⟨hne.symm, ?_, ?_⟩, fun _ _ _ => rfl⟩
    · rw [hne]
    · rw [he]; exact h2
    · rw [he]; exact h3

theorem evaluateConds_spec (σ' : State) {σ : State} (nodes : List Node) : ∀ (en : Nat → Bool),
    OwnRules nodes → (∀ n ∈ nodes, NodeCons σ n en) →
    (evaluateConds σ' nodes en).1 = nodes.map (fun n => { n with curState := toInt (evaluate σ' n.expr) }) ∧
    (∀ n ∈ (evaluateConds σ' nodes en).1, NodeCons σ' n (evaluateConds σ' nodes en).2) ∧
    ∀ r, (∀ n ∈ nodes, r ∉ n.trueList ∧ r ∉ n.falseList) → (evaluateConds σ' nodes en).2 r = en r := by
  induction nodes with
  | nil => intro en _ _; simp [evaluateConds]
  | cons n l ih =>
    intro en ho hc
    unfold OwnRules at ho
    rw [List.flatMap_cons, List.nodup_append] at ho
    obtain ⟨ho1, ho2, ho3⟩ := ho
    obtain ⟨e1, e2, e3⟩ := evaluateNode_spec σ' (hc n List.mem_cons_self) ho1
    have disj : ∀ m ∈ l, ∀ r, (r ∈ m.trueList ∨ r ∈ m.falseList) → r ∉ n.trueList ∧ r ∉ n.falseList := by
      intro m hm r hr
      have hmem : r ∈ l.flatMap (fun n => n.trueList ++ n.falseList) :=
        List.mem_flatMap.mpr ⟨m, hm, by simpa using hr⟩
      exact ⟨fun h => ho3 r (by simp [h]) r hmem rfl, fun h => ho3 r (by simp [h]) r hmem rfl⟩
    obtain ⟨i1, i2, i3⟩ := ih (evaluateNode σ' n en).2 ho2 (by
      intro m hm
      obtain ⟨c1, c2, c3⟩ := hc m (List.mem_cons_of_mem _ hm)
      refine ⟨c1, fun r hr => ?_, fun r hr => ?_⟩
      · have := disj m hm r (Or.inl hr); rw [e3 r this.1 this.2]; exact c2 r hr
      · have := disj m hm r (Or.inr hr); rw [e3 r this.1 this.2]; exact c3 r hr)
    simp only [evaluateConds]
    refine ⟨?_, ?_, ?_⟩
    · rw [i1, e1, List.map_cons]
    · intro m hm
      rcases List.mem_cons.mp hm with hm | hm
      · subst hm
        obtain ⟨c1, c2, c3⟩ := e2
        have hsame : ∀ r, (r ∈ n.trueList ∨ r ∈ n.falseList) →
            (evaluateConds σ' l (evaluateNode σ' n en).2).2 r = (evaluateNode σ' n en).2 r := by
          intro r hr
          refine i3 r (fun m hm => ⟨fun h => ?_, fun h => ?_⟩)
          · have := disj m hm r (Or.inl h); rcases hr with hr | hr <;> simp_all
          · have := disj m hm r (Or.inr h); rcases hr with hr | hr <;> simp_all
        refine ⟨c1, fun r hr => ?_, fun r hr => ?_⟩
        · have hr' : r ∈ n.trueList := by rw [e1] at hr; exact hr
          rw [hsame r (Or.inl hr')]; exact c2 r hr
        · have hr' : r ∈ n.falseList := by rw [e1] at hr; exact hr
          rw [hsame r (Or.inr hr')]; exact c3 r hr
      · exact i2 m hm
    · intro r hr
      rw [i3 r (fun m hm => hr m (List.mem_cons_of_mem _ hm))]
      exact e3 r (hr n List.mem_cons_self).1 (hr n List.mem_cons_self).2

theorem ownRules_map (nodes : List Node) (f : Node → Int) :
    OwnRules (nodes.map (fun n => { n with curState := f n })) ↔ OwnRules nodes := by
  unfold OwnRules
  rw [List.flatMap_map]

end Verif.Cond
