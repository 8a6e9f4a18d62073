import Verif.Cond.Lemmas
import Mathlib.Data.List.Perm.Basic
import Mathlib.Data.List.Dedup

namespace Verif.Cond

/-! ## Collecting the booleans -/

theorem collect_spec (e : List Tok) : ∀ (ids : List Nat) (n : Nat), ids.Nodup → ids.length = min n maxBools →
    n ≤ (collect e ids n).2 ∧ (collect e ids n).1.Nodup ∧
    (collect e ids n).1.length = min (collect e ids n).2 maxBools ∧
    ((collect e ids n).2 ≤ maxBools → ∀ b, b ∈ (collect e ids n).1 ↔ b ∈ ids ∨ Tok.bool b ∈ e) := by
  induction e with
  | nil => intro ids n h1 h2; simp [collect, h1, h2]
  | cons t l ih =>
    intro ids n h1 h2
    have other : (∀ b, t ≠ .bool b) → collect (t :: l) ids n = collect l ids n →
        n ≤ (collect (t :: l) ids n).2 ∧ (collect (t :: l) ids n).1.Nodup ∧
        (collect (t :: l) ids n).1.length = min (collect (t :: l) ids n).2 maxBools ∧
        ((collect (t :: l) ids n).2 ≤ maxBools → ∀ b, b ∈ (collect (t :: l) ids n).1 ↔ b ∈ ids ∨ Tok.bool b ∈ t :: l) := by
      intro ht hc
      rw [hc]
      obtain ⟨i1, i2, i3, i4⟩ := ih ids n h1 h2
      refine ⟨i1, i2, i3, fun h b => ?_⟩
      rw [i4 h b, List.mem_cons]
      have := ht b
      constructor
      · rintro (h | h)
        · exact Or.inl h
        · exact Or.inr (Or.inr h)
      · rintro (h | h | h)
        · exact Or.inl h
        · exact absurd h.symm this
        · exact Or.inr h
    cases t with
    | bool x =>
      by_cases hp : boolPresent x ids n = true
      · have hc : collect (.bool x :: l) ids n = collect l ids n := by simp [collect, hp]
        rw [hc]
        obtain ⟨i1, i2, i3, i4⟩ := ih ids n h1 h2
        refine ⟨i1, i2, i3, fun h b => ?_⟩
        have hx : x ∈ ids := by
          unfold boolPresent at hp
          split at hp
          · simp at hp
          · exact List.mem_of_mem_take (by simpa using hp)
        rw [i4 h b, List.mem_cons]
        constructor
        · rintro (h | h)
          · exact Or.inl h
          · exact Or.inr (Or.inr h)
        · rintro (h | h | h)
          · exact Or.inl h
          · cases h; exact Or.inl hx
          · exact Or.inr h
      · by_cases hn : n < maxBools
        · have hc : collect (.bool x :: l) ids n = collect l (ids ++ [x]) (n+1) := by simp [collect, hp, hn]
          rw [hc]
          have hx : x ∉ ids := by
            intro hx
            apply hp
            unfold boolPresent
            rw [if_neg (by omega), List.take_of_length_le (by omega)]
            simpa using hx
          obtain ⟨i1, i2, i3, i4⟩ := ih (ids ++ [x]) (n+1) (by
            rw [List.nodup_append]
            refine ⟨h1, by simp, ?_⟩
            intro a ha b hb
            simp only [List.mem_singleton] at hb
            subst hb; intro h; subst h; exact hx ha) (by simp only [List.length_append, List.length_singleton]; omega)
          refine ⟨by omega, i2, i3, fun h b => ?_⟩
          rw [i4 h b]
          simp only [List.mem_append, List.mem_singleton, List.mem_cons, Tok.bool.injEq]
          tauto
        · have hc : collect (.bool x :: l) ids n = collect l ids (n+1) := by simp [collect, hp, hn]
          rw [hc]
          obtain ⟨i1, i2, i3, i4⟩ := ih ids (n+1) h1 (by omega)
          refine ⟨by omega, i2, i3, fun h => ?_⟩
          omega
    | not => exact other (by simp) rfl
    | or => exact other (by simp) rfl
    | and => exact other (by simp) rfl
    | xor => exact other (by simp) rfl
    | eq => exact other (by simp) rfl
    | neq => exact other (by simp) rfl
    | bad => exact other (by simp) rfl

theorem collect_many (e : List Tok) : ∀ (ids : List Nat) (n : Nat), ids.Nodup → ids.length = n → n ≤ maxBools →
    maxBools < (collect e ids n).2 →
    ∃ L : List Nat, L.Nodup ∧ L.length = maxBools + 1 ∧ ∀ x ∈ L, x ∈ ids ∨ Tok.bool x ∈ e := by
  induction e with
  | nil => intro ids n h1 h2 h3 h4; simp only [collect] at h4; omega
  | cons t l ih =>
    intro ids n h1 h2 h3 h4
    have lift : (∃ L : List Nat, L.Nodup ∧ L.length = maxBools + 1 ∧ ∀ x ∈ L, x ∈ ids ∨ Tok.bool x ∈ l) →
        ∃ L : List Nat, L.Nodup ∧ L.length = maxBools + 1 ∧ ∀ x ∈ L, x ∈ ids ∨ Tok.bool x ∈ t :: l := by
      rintro ⟨L, a, b, c⟩
      exact ⟨L, a, b, fun x hx => (c x hx).imp id (List.mem_cons_of_mem _)⟩
    cases t with
    | bool x =>
      by_cases hp : boolPresent x ids n = true
      · have hc : collect (.bool x :: l) ids n = collect l ids n := by simp [collect, hp]
        rw [hc] at h4
        exact lift (ih ids n h1 h2 h3 h4)
      · have hx : x ∉ ids := by
          intro hx
          apply hp
          unfold boolPresent
          rw [if_neg (by omega), List.take_of_length_le (by omega)]
          simpa using hx
        have hnd : (ids ++ [x]).Nodup := by
          rw [List.nodup_append]
          refine ⟨h1, by simp, ?_⟩
          intro a ha b hb
          simp only [List.mem_singleton] at hb
          subst hb; intro h; subst h; exact hx ha
        by_cases hn : n < maxBools
        · have hc : collect (.bool x :: l) ids n = collect l (ids ++ [x]) (n+1) := by simp [collect, hp, hn]
          rw [hc] at h4
          obtain ⟨L, a, b, c⟩ := ih (ids ++ [x]) (n+1) hnd (by simp [h2]) (by omega) h4
          refine ⟨L, a, b, fun y hy => ?_⟩
          have := c y hy
          simp only [List.mem_append, List.mem_singleton, List.mem_cons, Tok.bool.injEq] at this ⊢
          tauto
        · refine ⟨ids ++ [x], hnd, by simp only [List.length_append, List.length_singleton]; omega, ?_⟩
          intro y hy
          simp only [List.mem_append, List.mem_singleton, List.mem_cons, Tok.bool.injEq] at hy ⊢
          tauto
    | not => exact lift (ih ids n h1 h2 h3 h4)
    | or => exact lift (ih ids n h1 h2 h3 h4)
    | and => exact lift (ih ids n h1 h2 h3 h4)
    | xor => exact lift (ih ids n h1 h2 h3 h4)
    | eq => exact lift (ih ids n h1 h2 h3 h4)
    | neq => exact lift (ih ids n h1 h2 h3 h4)
    | bad => exact lift (ih ids n h1 h2 h3 h4)

theorem collect_le_iff (t : BExpr) : (collect t.postfix [] 0).2 ≤ maxBools ↔ t.vars.dedup.length ≤ maxBools := by
  obtain ⟨c1, c2, c3, c4⟩ := collect_spec t.postfix [] 0 (by simp) (by simp)
  constructor
  · intro h
    have hm := c4 h
    have : t.vars.dedup.Subperm (collect t.postfix [] 0).1 :=
      List.subperm_of_subset (List.nodup_dedup _) (fun x hx => (hm x).mpr (Or.inr (mem_vars.mpr (List.mem_dedup.mp hx))))
    have := this.length_le
    omega
  · intro h
    by_contra hc
    obtain ⟨L, l1, l2, l3⟩ := collect_many t.postfix [] 0 (by simp) rfl (by simp [maxBools]) (by omega)
    have : L.Subperm t.vars.dedup := List.subperm_of_subset l1 (fun x hx => by
      rcases l3 x hx with h | h
      · simp at h
      · exact List.mem_dedup.mpr (mem_vars.mp h))
    have := this.length_le
    omega

/-! ## Renaming -/

theorem rename_postfix (f : Nat → Nat) (t : BExpr) :
    (t.rename f).postfix = t.postfix.map (fun t => match t with | .bool b => .bool (f b) | t => t) := by
  induction t <;> simp_all [BExpr.rename, BExpr.postfix]

theorem rename_val (f : Nat → Nat) (t : BExpr) (τ : State) : (t.rename f).val τ = t.val (fun b => τ (f b)) := by
  induction t <;> simp_all [BExpr.rename, BExpr.val]

theorem rename_need (f : Nat → Nat) (t : BExpr) : (t.rename f).need = t.need := by
  induction t <;> simp_all [BExpr.rename, BExpr.need]

/-! ## Setting the booleans to a row of the table -/

theorem setBits_not_mem (test : Nat) (ids : List Nat) : ∀ (j : Nat) (σ : State) (b : Nat), b ∉ ids →
    setBits test ids j σ b = σ b := by
  induction ids with
  | nil => intro j σ b _; rfl
  | cons a l ih =>
    intro j σ b hb
    rw [setBits, ih _ _ _ (fun h => hb (List.mem_cons_of_mem _ h))]
    rw [if_neg]; rintro rfl; exact hb List.mem_cons_self

theorem setBits_row (τ : State) (ids : List Nat) : ∀ (test j : Nat) (σ : State), ids.Nodup →
    test / 2 ^ j = row τ ids → ∀ b ∈ ids, setBits test ids j σ b = τ b := by
  induction ids with
  | nil => intro _ _ _ _ _ b hb; simp at hb
  | cons a l ih =>
    intro test j σ hd ht b hb
    rw [List.nodup_cons] at hd
    rw [setBits]
    rw [row] at ht
    by_cases hbl : b ∈ l
    · refine ih test (j+1) _ hd.2 ?_ b hbl
      rw [Nat.pow_succ, ← Nat.div_div_eq_div_mul, ht]
      split <;> omega
    · rw [setBits_not_mem _ _ _ _ _ hbl]
      have : b = a := by rcases List.mem_cons.mp hb with h | h; exact h; exact absurd h hbl
      subst this
      rw [if_pos rfl, Nat.testBit_eq_decide_div_mod_eq, ht]
      cases τ b <;> simp <;> omega

theorem row_lt (τ : State) (ids : List Nat) : row τ ids < 2 ^ ids.length := by
  induction ids with
  | nil => simp [row]
  | cons a l ih =>
    simp only [row, List.length_cons, Nat.pow_succ]
    split <;> omega

theorem precompute_spec {e : List Tok} {ids : List Nat} (hd : ids.Nodup)
    (hin : ∀ b, Tok.bool b ∈ e → b ∈ ids) (σ₀ : State) (hdef : ∀ τ, (evaluate τ e).isSome) :
    ∀ (k test : Nat) (σ : State) (pc : BitVec 32), (∀ b, b ∉ ids → σ b = σ₀ b) → test + k ≤ 32 →
    (precompute e ids k test σ pc).2.2 = true ∧
    (∀ b, b ∉ ids → (precompute e ids k test σ pc).1 b = σ₀ b) ∧
    ∀ i, (precompute e ids k test σ pc).2.1.getLsbD i =
      (pc.getLsbD i || decide (test ≤ i ∧ i < test + k ∧ evaluate (setBits i ids 0 σ₀) e = some true)) := by
  intro k
  induction k with
  | zero =>
    intro test σ pc h _
    refine ⟨rfl, h, fun i => ?_⟩
    have : ¬ (test ≤ i ∧ i < test + 0 ∧ evaluate (setBits i ids 0 σ₀) e = some true) := by omega
    rw [decide_eq_false this, Bool.or_false]; rfl
  | succ k ih =>
    intro test σ pc h h32
    have hagree : ∀ b, b ∈ ids → setBits test ids 0 σ b = setBits test ids 0 σ₀ b := by
      intro b hb
      have gen : ∀ (ids : List Nat) (j : Nat) (s s' : State), b ∈ ids → setBits test ids j s b = setBits test ids j s' b := by
        intro ids
        induction ids with
        | nil => intro _ _ _ h; simp at h
        | cons a l ih =>
          intro j s s' hb
          by_cases hbl : b ∈ l
          · exact ih _ _ _ hbl
          · have : b = a := by rcases List.mem_cons.mp hb with h | h; exact h; exact absurd h hbl
            subst this
            simp only [setBits, setBits_not_mem _ _ _ _ _ hbl, if_true]
      exact gen ids 0 σ σ₀ hb
    have hev : evaluate (setBits test ids 0 σ) e = evaluate (setBits test ids 0 σ₀) e :=
      evaluate_congr (fun b hb => hagree b (hin b hb))
    simp only [precompute]
    cases hv : evaluate (setBits test ids 0 σ) e with
    | none => have := hdef (setBits test ids 0 σ); rw [hv] at this; simp at this
    | some v =>
      dsimp only
      obtain ⟨i1, i2, i3⟩ := ih (test+1) (setBits test ids 0 σ) (if v = true then pc ||| (1#32 <<< test) else pc)
        (fun b hb => by rw [setBits_not_mem _ _ _ _ _ hb]; exact h b hb) (by omega)
      refine ⟨i1, i2, fun i => ?_⟩
      rw [i3 i]
      rw [hev] at hv
      by_cases hi : i = test
      · subst hi
        have h1 : ¬ (i + 1 ≤ i ∧ i < i + 1 + k ∧ evaluate (setBits i ids 0 σ₀) e = some true) := by omega
        rw [decide_eq_false h1, Bool.or_false]
        cases v
        · simp [hv]
        · simp [hv]; right; omega
      · have h1 : (test + 1 ≤ i ∧ i < test + 1 + k ∧ evaluate (setBits i ids 0 σ₀) e = some true) ↔
            (test ≤ i ∧ i < test + (k + 1) ∧ evaluate (setBits i ids 0 σ₀) e = some true) := by
          constructor
          · rintro ⟨a, b, c⟩; exact ⟨by omega, by omega, c⟩
          · rintro ⟨a, b, c⟩; exact ⟨by omega, by omega, c⟩
        rw [decide_eq_decide.mpr h1]
        congr 1
        cases v
        · simp
        · simp only [if_true, BitVec.getLsbD_or, BitVec.getLsbD_shiftLeft, BitVec.getLsbD_one]
          have : ¬ (i < 32 ∧ ¬ i < test ∧ i - test = 0) := by omega
          rcases hp : pc.getLsbD i with _ | _
          · simp; omega
          · simp

theorem restore_spec (σ : State) (ids : List Nat) : ∀ (σ' : State), (∀ b, b ∉ ids → σ' b = σ b) →
    restore (ids.map (fun b => (b, σ b))) σ' = σ := by
  induction ids with
  | nil => intro σ' h; simp [restore]; funext b; exact h b (by simp)
  | cons a l ih =>
    intro σ' h
    simp only [List.map_cons, restore]
    apply ih
    intro b hb
    by_cases hba : b = a
    · subst hba; simp
    · rw [if_neg hba]; exact h b (by simp [hba, hb])

theorem normalizeTail_spec (σ : State) (n : Node) (t : BExpr) (h : n.expr = t.postfix) (hn : t.need ≤ maxDepth) :
    (normalizeTail σ n).ok = true ∧ (normalizeTail σ n).bools = σ ∧
    (normalizeTail σ n).node = { n with
      boolIds := (collect n.expr [] 0).1, nbools := (collect n.expr [] 0).2,
      preComp := (normalizeTail σ n).node.preComp } ∧
    ((collect n.expr [] 0).2 ≤ maxBools → ∀ τ,
      (normalizeTail σ n).node.preComp.getLsbD (row τ (collect n.expr [] 0).1) = t.val τ) ∧
    ((collect n.expr [] 0).2 ≤ maxBools → ∀ i, 2 ^ (collect n.expr [] 0).2 ≤ i →
      (normalizeTail σ n).node.preComp.getLsbD i = false) := by
  obtain ⟨c1, c2, c3, c4⟩ := collect_spec n.expr [] 0 (by simp) (by simp)
  unfold normalizeTail
  dsimp only
  by_cases hc : (collect n.expr [] 0).2 ≤ maxBools
  · rw [if_pos hc]
    have hm := c4 hc
    have hev : ∀ τ, evaluate τ n.expr = some (t.val τ) := by
      intro τ; rw [h, evaluate_postfix, if_pos hn]
    have hlen : (collect n.expr [] 0).1.length = (collect n.expr [] 0).2 := by omega
    have h32 : 2 ^ (collect n.expr [] 0).2 ≤ 32 := by
      calc 2 ^ (collect n.expr [] 0).2 ≤ 2 ^ 5 := Nat.pow_le_pow_right (by omega) hc
        _ = 32 := rfl
    obtain ⟨p1, p2, p3⟩ := precompute_spec c2 (fun b hb => (hm b).mpr (Or.inr hb)) σ (fun τ => by rw [hev]; rfl)
      (2 ^ (collect n.expr [] 0).2) 0 σ 0 (fun _ _ => rfl) (by omega)
    rw [if_pos p1]
    refine ⟨rfl, restore_spec σ _ _ p2, rfl, fun _ τ => ?_, fun _ i hi => ?_⟩
    rotate_left
    · show BitVec.getLsbD _ _ = _
      rw [p3, decide_eq_false (by omega)]; simp
    show BitVec.getLsbD _ _ = _
    rw [p3]
    have hlt := row_lt τ (collect n.expr [] 0).1
    rw [hlen] at hlt
    have : evaluate (setBits (row τ (collect n.expr [] 0).1) (collect n.expr [] 0).1 0 σ) n.expr = evaluate τ n.expr := by
      apply evaluate_congr
      intro b hb
      exact setBits_row τ _ _ 0 σ c2 (by simp) b ((hm b).mpr (Or.inr hb))
    rw [this, hev]
    simp [hlt]
  · rw [if_neg hc]
    refine ⟨rfl, rfl, rfl, fun h => absurd h hc, fun h => absurd h hc⟩

theorem getLast?_postfix_not {t : BExpr} : t.postfix.getLast? = some .not ↔ ∃ a, t = .not a := by
  cases t <;> simp [BExpr.postfix]

theorem postfix_ne_nil (t : BExpr) : t.postfix ≠ [] := by
  cases t <;> simp [BExpr.postfix]

theorem normalize_postfix {σ : State} {n : Node} {t : BExpr} (h : n.expr = t.postfix) :
    (∃ a, t = .not a ∧ normalize σ n = some (normalizeTail σ { n with
      expr := a.postfix, trueList := n.falseList, falseList := n.trueList,
      avTrue := n.avFalse, avFalse := n.avTrue })) ∨
    ((¬ ∃ a, t = .not a) ∧ normalize σ n = some (normalizeTail σ n)) := by
  by_cases hnot : ∃ a, t = .not a
  · left
    obtain ⟨a, rfl⟩ := hnot
    refine ⟨a, rfl, ?_⟩
    have h1 : n.expr = a.postfix ++ [.not] := h
    unfold normalize
    rw [h1]
    simp only [List.getLast?_append, List.getLast?_singleton, Option.some_or, List.dropLast_concat]
    rw [if_neg (postfix_ne_nil a)]
  · right
    refine ⟨hnot, ?_⟩
    unfold normalize
    rcases hl : n.expr.getLast? with _ | x
    · rw [h] at hl
      simp only [List.getLast?_eq_none_iff] at hl
      exact absurd hl (postfix_ne_nil t)
    · cases x with
      | not => rw [h, getLast?_postfix_not] at hl; exact absurd hl hnot
      | _ => rfl

/-! ## Prepared nodes -/

theorem normalizeTail_prepared (σ : State) (n : Node) (t : BExpr) (h : n.expr = t.postfix) (hn : t.need ≤ maxDepth) :
    Prepared (normalizeTail σ n).node t := by
  obtain ⟨_, _, h3, h4, h5⟩ := normalizeTail_spec σ n t h hn
  obtain ⟨c1, c2, c3, c4⟩ := collect_spec n.expr [] 0 (by simp) (by simp)
  have e : (normalizeTail σ n).node.expr = n.expr := by rw [h3]
  have e1 : (normalizeTail σ n).node.boolIds = (collect n.expr [] 0).1 := by rw [h3]
  have e2 : (normalizeTail σ n).node.nbools = (collect n.expr [] 0).2 := by rw [h3]
  refine ⟨by rw [e, h], hn, by rw [e1]; exact c2, by rw [e1, e2]; exact c3, ?_, ?_, ?_⟩
  · intro hb b
    rw [e2] at hb
    rw [e1, c4 hb b, h, mem_vars]; simp
  · intro hb τ
    rw [e2] at hb
    rw [e1]; exact h4 hb τ
  · intro hb i hi
    rw [e2] at hb hi
    exact h5 hb i hi

theorem nodeCreate_prepared {σ : State} {n : Node} {t : BExpr} (h : Prepared n t) : Prepared (nodeCreate σ n) t := by
  obtain ⟨h1, h2, h3, h4, h5, h6, h7⟩ := h
  have : (nodeCreate σ n).boolIds = n.boolIds := List.take_of_length_le (by omega)
  exact ⟨h1, h2, by rw [this]; exact h3, by rw [this]; exact h4, by rw [this]; exact h5, by rw [this]; exact h6, h7⟩

theorem prepared_eval {n : Node} {t : BExpr} (h : Prepared n t) (τ : State) : evaluate τ n.expr = some (t.val τ) := by
  rw [h.1, evaluate_postfix, if_pos h.2.1]

/-! ## cond_optimize -/

theorem optimizeLoop_spec (ty : Nat → Bool) : ∀ (l front : List Nat), front ≠ [] →
    optimizeLoop ty front l = (l.filter ty).reverse ++ front ++ l.filter (fun r => !ty r) := by
  intro l
  induction l with
  | nil => intro front _; simp [optimizeLoop]
  | cons r l ih =>
    intro front hf
    rw [optimizeLoop]
    by_cases hr : ty r = true
    · rw [if_pos ⟨hr, hf⟩, ih _ (by simp)]
      simp [hr]
    · rw [if_neg (by simp [hr]), ih _ (by simp)]
      simp [hr]

theorem optimizeList_eq (ty : Nat → Bool) (l : List Nat) :
    optimizeList ty l = (l.filter ty).reverse ++ l.filter (fun r => !ty r) := by
  cases l with
  | nil => rfl
  | cons r l =>
    rw [optimizeList, optimizeLoop, if_neg (by simp), List.nil_append, optimizeLoop_spec _ _ _ (by simp)]
    by_cases hr : ty r = true <;> simp [hr]

/-! ## cond_expr_equal -/

theorem sameExpr_iff (a : List Tok) : ∀ b, sameExpr a b = true ↔ a = b := by
  induction a with
  | nil => intro b; cases b <;> simp [sameExpr]
  | cons x l ih =>
    intro b
    cases b with
    | nil => simp [sameExpr]
    | cons y m =>
      simp only [sameExpr, Bool.and_eq_true, ih, List.cons.injEq]
      have : sameTok x y = true ↔ x = y := by
        cases x <;> cases y <;> simp [sameTok]
      rw [this]

theorem postfix_inj {a b : BExpr} (ha : a.need ≤ maxDepth) (h : a.postfix = b.postfix) (τ : State) : a.val τ = b.val τ := by
  have h1 := evaluate_postfix τ a
  rw [if_pos ha, h, evaluate_postfix] at h1
  split at h1
  · exact (Option.some.inj h1).symm
  · simp at h1

theorem exprEqual_sound {a b : Node} {s t : BExpr} (ha : Prepared a s) (hb : Prepared b t)
    (h : exprEqual a b = true) :
    a.nbools = b.nbools ∧
    (a.nbools ≤ maxBools → (∀ x, x ∈ s.vars ↔ x ∈ t.vars) ∧
      ∀ τ τ', row τ a.boolIds = row τ' b.boolIds → s.val τ = t.val τ') ∧
    (maxBools < a.nbools → ∀ τ, s.val τ = t.val τ) := by
  unfold exprEqual at h
  by_cases hn : a.nbools ≠ b.nbools
  · rw [if_pos hn] at h; simp at h
  · rw [if_neg hn] at h
    have hn : a.nbools = b.nbools := by simpa using hn
    obtain ⟨a1, a2, a3, a4, a5, a6, a7⟩ := ha
    obtain ⟨b1, b2, b3, b4, b5, b6, b7⟩ := hb
    refine ⟨hn, fun hle => ?_, fun hgt => ?_⟩
    · rw [if_pos ⟨hle, by omega⟩] at h
      rcases hs : sameBools a b with _ | _
      · rw [hs] at h; simp at h
      · rw [hs] at h
        simp only [Bool.not_true, Bool.false_eq_true, if_false, beq_iff_eq] at h
        have sub : ∀ x ∈ a.boolIds, x ∈ b.boolIds := by
          intro x hx
          unfold sameBools at hs
          rw [if_neg (by simpa using hn), List.all_eq_true] at hs
          have := hs x hx
          unfold boolPresent at this
          split at this
          · simp at this
          · exact List.mem_of_mem_take (by simpa using this)
        have perm : ∀ x, x ∈ a.boolIds ↔ x ∈ b.boolIds := by
          have hp : a.boolIds.Perm b.boolIds := (List.subperm_of_subset a3 sub).perm_of_length_le (by omega)
          exact fun x => hp.mem_iff
        refine ⟨fun x => ?_, fun τ τ' hr => ?_⟩
        · rw [← a5 hle, ← b5 (by omega)]; exact perm x
        · rw [← a6 hle τ, ← b6 (by omega) τ', h, hr]
    · rw [if_neg (by omega), sameExpr_iff, a1, b1] at h
      exact postfix_inj a2 h

end Verif.Cond
