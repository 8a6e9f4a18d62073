import Verif.CilCond.Lemmas

/-!
# Lemmas about the compilation of `booleanif`
-/

namespace Verif.CilCond
open Cond (State Tok BExpr Node Prepared SelectedBy)

/-! ### The order of the booleans -/

/-- The booleans of a list of tokens. -/
def boolsOf (e : List Tok) : List Nat := e.filterMap (fun t => match t with | .bool b => some b | _ => none)

theorem boolsOf_append (a b : List Tok) : boolsOf (a ++ b) = boolsOf a ++ boolsOf b := List.filterMap_append

theorem boolsOf_postfix (t : BExpr) : boolsOf t.postfix = t.vars := by
  induction t with
  | var n => rfl
  | not a ih => rw [BExpr.postfix, boolsOf_append, ih, BExpr.vars]; exact List.append_nil _
  | or a b iha ihb => rw [BExpr.postfix, boolsOf_append, boolsOf_append, iha, ihb, BExpr.vars]; exact List.append_nil _
  | and a b iha ihb => rw [BExpr.postfix, boolsOf_append, boolsOf_append, iha, ihb, BExpr.vars]; exact List.append_nil _
  | xor a b iha ihb => rw [BExpr.postfix, boolsOf_append, boolsOf_append, iha, ihb, BExpr.vars]; exact List.append_nil _
  | eq a b iha ihb => rw [BExpr.postfix, boolsOf_append, boolsOf_append, iha, ihb, BExpr.vars]; exact List.append_nil _
  | neq a b iha ihb => rw [BExpr.postfix, boolsOf_append, boolsOf_append, iha, ihb, BExpr.vars]; exact List.append_nil _

theorem mem_firsts {l : List Nat} {b : Nat} : b ∈ firsts l ↔ b ∈ l := by
  induction l with
  | nil => simp [firsts]
  | cons a l ih =>
    rw [firsts, List.mem_cons, List.mem_cons, List.mem_filter, ih]
    by_cases h : b = a <;> simp [h]

theorem boolPresent_iff {b : Nat} {ids : List Nat} {n : Nat} (hl : ids.length = n) (hn : n ≤ Cond.maxBools) :
    Cond.boolPresent b ids n = true ↔ b ∈ ids := by
  unfold Cond.boolPresent
  rw [if_neg (by omega), List.take_of_length_le (by omega)]
  simp

theorem collect_mono (e : List Tok) : ∀ (ids : List Nat) (n : Nat), n ≤ (Cond.collect e ids n).2 := by
  induction e with
  | nil => intro ids n; simp [Cond.collect]
  | cons t l ih =>
    intro ids n
    cases t with
    | bool b =>
      rw [Cond.collect]
      split
      · exact ih _ _
      · split
        · exact Nat.le_trans (Nat.le_succ n) (ih _ _)
        · exact Nat.le_trans (Nat.le_succ n) (ih _ _)
    | _ => rw [Cond.collect] <;> first | exact ih _ _ | simp

theorem collect_firsts (e : List Tok) : ∀ (ids : List Nat) (n : Nat), ids.length = n →
    (Cond.collect e ids n).2 ≤ Cond.maxBools →
    (Cond.collect e ids n).1 = ids ++ (firsts (boolsOf e)).filter (fun b => b ∉ ids) := by
  induction e with
  | nil => intro ids n _ _; simp [Cond.collect, boolsOf, firsts]
  | cons t l ih =>
    intro ids n hl hle
    have hn : n ≤ Cond.maxBools := Nat.le_trans (collect_mono _ ids n) hle
    have other : (∀ b, t ≠ .bool b) → Cond.collect (t :: l) ids n = Cond.collect l ids n →
        (Cond.collect (t :: l) ids n).1 = ids ++ (firsts (boolsOf (t :: l))).filter (fun b => b ∉ ids) := by
      intro ht hc
      rw [hc, ih ids n hl (by rw [hc] at hle; exact hle)]
      congr 3
      cases t <;> first | rfl | exact absurd rfl (ht _)
    cases t with
    | bool b =>
      have hb : boolsOf (.bool b :: l) = b :: boolsOf l := rfl
      rw [hb, firsts]
      by_cases hp : Cond.boolPresent b ids n = true
      · have hc : Cond.collect (.bool b :: l) ids n = Cond.collect l ids n := by simp [Cond.collect, hp]
        rw [hc] at hle ⊢
        rw [ih ids n hl hle]
        have hm := (boolPresent_iff hl hn).1 hp
        rw [List.filter_cons, if_neg (by simpa using hm), List.filter_filter]
        congr 1
        apply List.filter_congr
        intro x _
        by_cases hx : x ∈ ids
        · simp [hx]
        · have : x ≠ b := fun h => hx (h ▸ hm)
          simp [hx, this]
      · have hm : b ∉ ids := fun h => hp ((boolPresent_iff hl hn).2 h)
        by_cases hlt : n < Cond.maxBools
        · have hc : Cond.collect (.bool b :: l) ids n = Cond.collect l (ids ++ [b]) (n + 1) := by
            simp [Cond.collect, hp, hlt]
          rw [hc] at hle ⊢
          rw [ih _ _ (by simp [hl]) hle, List.append_assoc, List.filter_cons, if_pos (by simpa using hm)]
          rw [List.singleton_append, List.filter_filter]
          congr 2
          apply List.filter_congr
          intro x _
          by_cases hx : x ∈ ids <;> by_cases hxb : x = b <;> simp [hx, hxb]
        · have hc : Cond.collect (.bool b :: l) ids n = Cond.collect l ids (n + 1) := by
            simp [Cond.collect, hp, hlt]
          rw [hc] at hle
          have := collect_mono l ids (n + 1)
          omega
    | _ => exact other (by simp) (by rw [Cond.collect]; simp)

/-- A node whose booleans are in the order of their first occurrences. -/
def Ordered (m : Node) (t : BExpr) : Prop := m.nbools ≤ Cond.maxBools → m.boolIds = firsts t.vars

theorem normalizeTail_ordered (σ : State) (n : Node) (t : BExpr) (h : n.expr = t.postfix)
    (hn : t.need ≤ Cond.maxDepth) : Ordered (Cond.normalizeTail σ n).node t := by
  obtain ⟨_, _, h3, _, _⟩ := Cond.normalizeTail_spec σ n t h hn
  have e1 : (Cond.normalizeTail σ n).node.boolIds = (Cond.collect n.expr [] 0).1 := by rw [h3]
  have e2 : (Cond.normalizeTail σ n).node.nbools = (Cond.collect n.expr [] 0).2 := by rw [h3]
  intro hle
  rw [e1, collect_firsts n.expr [] 0 rfl (by rw [← e2]; exact hle), h, boolsOf_postfix]
  simp

theorem nodeCreate_ordered {σ : State} {n : Node} {t : BExpr} (hp : Prepared n t) (h : Ordered n t) :
    Ordered (Cond.nodeCreate σ n) t := by
  intro hle
  have : (Cond.nodeCreate σ n).boolIds = n.boolIds := List.take_of_length_le (by have := hp.2.2.2.1; omega)
  rw [this]
  exact h hle

/-! ### Blocks -/

theorem blocksOk_iff (s : Stmt) : BlocksOk s ↔ (s.blocks.length = 1 ∨ s.blocks.length = 2) ∧ verifyBlocks s.blocks = true := by
  unfold BlocksOk
  constructor
  · rintro ⟨t, f, h | h | h | h⟩ <;> rw [h] <;> simp [verifyBlocks]
  · rintro ⟨hl, hv⟩
    match hb : s.blocks with
    | [] => rw [hb] at hl; simp at hl
    | [(a, r)] =>
      rw [hb] at hv
      simp only [verifyBlocks] at hv
      split at hv
      · rename_i h
        rcases h with rfl | rfl
        · exact ⟨r, [], Or.inl rfl⟩
        · exact ⟨[], r, Or.inr (Or.inl rfl)⟩
      · cases hv
    | [(a, r), (b, q)] =>
      rw [hb] at hv
      simp only [verifyBlocks] at hv
      split at hv
      · rename_i h
        split at hv
        · rename_i h1
          split at hv
          · cases hv
          · rename_i h2
            rcases h with h | h
            · exact absurd h h2
            · rw [h1, h]; exact ⟨q, r, Or.inr (Or.inr (Or.inr rfl))⟩
        · split at hv
          · rename_i h1
            split at hv
            · cases hv
            · rename_i h2
              rcases h with h | h
              · rw [h1, h]; exact ⟨r, q, Or.inr (Or.inr (Or.inl rfl))⟩
              · exact absurd h h2
          · cases hv
      · cases hv
    | _ :: _ :: _ :: _ => rw [hb] at hl; simp at hl

theorem lastBlock_iff {s : Stmt} (h : BlocksOk s) (v : Bool) (r : Nat) :
    r ∈ (lastBlock (if v then "true" else "false") s.blocks).getD [] ↔
      ∃ b ∈ s.blocks, b.1 = (if v then "true" else "false") ∧ r ∈ b.2 := by
  obtain ⟨t, f, h | h | h | h⟩ := h <;> rw [h] <;> cases v <;> simp [lastBlock]

theorem take_blocks {s : Stmt} (h : BlocksOk s) : s.blocks.take 2 = s.blocks := by
  obtain ⟨t, f, h | h | h | h⟩ := h <;> rw [h] <;> rfl

theorem genIf_iff (s : Stmt) (l : List (Item String)) : genIf s = some l ↔
    BlocksOk s ∧ ∃ e : Expr, e.Ok ∧ s.expr = e.tree ∧ l = e.top id := by
  unfold genIf
  rw [blocksOk_iff]
  constructor
  · intro h
    split at h
    · rename_i hl
      cases hg : genExpr s.expr with
      | none => simp [hg] at h
      | some m =>
        simp only [hg] at h
        split at h
        · rename_i hv
          obtain ⟨e, he, ht⟩ := genExpr_some hg
          rw [ht, genExpr_tree he] at hg
          exact ⟨⟨hl, hv⟩, e, he, ht, by rw [← Option.some.inj h, ← Option.some.inj hg]⟩
        · cases h
    · cases h
  · rintro ⟨⟨hl, hv⟩, e, he, ht, rfl⟩
    rw [if_pos hl, ht, genExpr_tree he]
    simp [hv]

/-! ### One statement -/

/-- What a name stands for. -/
def found (look : String → Option Nat) (s : String) : Nat := (look s).getD 0

theorem found_eq {look : String → Option Nat} {s : String} (h : (look s).isSome) : look s = some (found look s) := by
  unfold found
  cases hl : look s with
  | none => rw [hl] at h; cases h
  | some b => rfl

theorem filterMap_found {look : String → Option Nat} : ∀ {l : List String}, (∀ s ∈ l, (look s).isSome) →
    l.filterMap look = l.map (found look)
  | [], _ => rfl
  | s :: l, h => by
    rw [List.filterMap_cons, found_eq (h s (by simp)), List.map_cons, filterMap_found (fun x hx => h x (by simp [hx]))]

/-- Where the rules of a statement go. -/
def place (σ : State) (m : Node) (T F : List Nat) (out : List Node) : List Node :=
  match Cond.nodeFind m out with
  | some i => out.modify i (Cond.addRules T F)
  | none => Cond.addRules T F (Cond.nodeCreate σ m) :: out

mutual
theorem val_congr {ρ ρ' : String → Bool} : ∀ (e : Expr), (∀ s ∈ e.names, ρ s = ρ' s) → e.val ρ = e.val ρ'
  | .name s, h => by rw [Expr.val, Expr.val]; exact h s (by simp [Expr.names])
  | .not e, h => by rw [Expr.val, Expr.val, val_congr e (fun s hs => h s (by rw [Expr.names]; exact hs))]
  | .bin o a b, h => by
    rw [Expr.val, Expr.val, val_congr a (fun s hs => h s (by rw [Expr.names]; simp [hs])),
      val_congr b (fun s hs => h s (by rw [Expr.names]; simp [hs]))]
  | .any e es, h => by
    rw [Expr.val, Expr.val, val_congr e (fun s hs => h s (by rw [Expr.names]; simp [hs])),
      valAny_congr es (fun s hs => h s (by rw [Expr.names]; simp [hs]))]
theorem valAny_congr {ρ ρ' : String → Bool} : ∀ (es : List Expr), (∀ s ∈ Expr.namesOf es, ρ s = ρ' s) →
    Expr.valAny ρ es = Expr.valAny ρ' es
  | [], _ => by rw [Expr.valAny, Expr.valAny]
  | e :: es, h => by
    rw [Expr.valAny, Expr.valAny, val_congr e (fun s hs => h s (by rw [Expr.namesOf]; simp [hs])),
      valAny_congr es (fun s hs => h s (by rw [Expr.namesOf]; simp [hs]))]
end

theorem env_found {look : String → Option Nat} {τ : State} {s : String} (h : (look s).isSome) :
    env look τ s = τ (found look s) := by
  unfold env
  rw [found_eq h]

theorem booleanif_ok (σ : State) {look : String → Option Nat} {s : Stmt} {e : Expr} (hb : BlocksOk s) (he : e.Ok)
    (hs : s.expr = e.tree) (hg : ∀ x ∈ e.names, (look x).isSome) (hn : e.need ≤ 10) (out : List Node) :
    ∃ (t : BExpr) (m : Node) (T F : List Nat), Prepared m t ∧ Ordered m t ∧ t.vars = e.names.map (found look) ∧
      (∀ (τ : State) (r : Nat), (t.val τ = true ∧ r ∈ T ∨ t.val τ = false ∧ r ∈ F) ↔
        ∃ b ∈ s.blocks, b.1 = (if e.val (env look τ) then "true" else "false") ∧ r ∈ b.2) ∧
      booleanif σ look s out = some (place σ m T F out) := by
  have h1 : genIf s = some (e.top id) := (genIf_iff s _).2 ⟨hb, e, he, hs, rfl⟩
  have h2 := resolveList_top look (found look) e (fun x hx => found_eq (hg x hx))
  have h3 := convList_top (found look) e
  have hneed : (e.bexpr (found look)).need ≤ 10 := by rw [bexpr_need]; exact hn
  have h4 : validate (e.bexpr (found look)).postfix = true := by rw [validate_postfix]; simpa using hneed
  have hval : ∀ τ : State, (e.bexpr (found look)).val τ = e.val (env look τ) := by
    intro τ
    rw [bexpr_val]
    exact val_congr e (fun x hx => (env_found (hg x hx)).symm)
  have hmem : ∀ (v : Bool) (r : Nat), (v = true ∧ r ∈ (lastBlock "true" s.blocks).getD [] ∨
      v = false ∧ r ∈ (lastBlock "false" s.blocks).getD []) ↔
        ∃ b ∈ s.blocks, b.1 = (if v then "true" else "false") ∧ r ∈ b.2 := by
    intro v r
    rw [← lastBlock_iff hb v r]
    cases v <;> simp
  have hvars := bexpr_vars (found look) e
  rcases Cond.normalize_postfix (σ := σ) (n := tmpCond (e.bexpr (found look)).postfix) rfl with ⟨a, ha, hr⟩ | ⟨_, hr⟩
  · have hna : a.need ≤ Cond.maxDepth := by rw [ha] at hneed; exact hneed
    refine ⟨a, (Cond.normalizeTail σ { tmpCond (e.bexpr (found look)).postfix with
        expr := a.postfix, trueList := (tmpCond (e.bexpr (found look)).postfix).falseList,
        falseList := (tmpCond (e.bexpr (found look)).postfix).trueList,
        avTrue := (tmpCond (e.bexpr (found look)).postfix).avFalse,
        avFalse := (tmpCond (e.bexpr (found look)).postfix).avTrue }).node,
      (lastBlock "false" s.blocks).getD [], (lastBlock "true" s.blocks).getD [],
      Cond.normalizeTail_prepared σ _ a rfl hna, normalizeTail_ordered σ _ a rfl hna, ?_, ?_, ?_⟩
    · rw [← hvars, ha, BExpr.vars]
    · intro τ r
      rw [← hmem, ← hval, ha, BExpr.val]
      cases a.val τ <;> simp
    · unfold booleanif
      rw [h1]
      simp only [h2, h3, h4, if_true, hr]
      have hsp := Cond.normalizeTail_spec σ { tmpCond (e.bexpr (found look)).postfix with
        expr := a.postfix, trueList := (tmpCond (e.bexpr (found look)).postfix).falseList,
        falseList := (tmpCond (e.bexpr (found look)).postfix).trueList,
        avTrue := (tmpCond (e.bexpr (found look)).postfix).avFalse,
        avFalse := (tmpCond (e.bexpr (found look)).postfix).avTrue } a rfl hna
      rw [if_pos hsp.1]
      have hf : (Cond.normalizeTail σ { tmpCond (e.bexpr (found look)).postfix with
        expr := a.postfix, trueList := (tmpCond (e.bexpr (found look)).postfix).falseList,
        falseList := (tmpCond (e.bexpr (found look)).postfix).trueList,
        avTrue := (tmpCond (e.bexpr (found look)).postfix).avFalse,
        avFalse := (tmpCond (e.bexpr (found look)).postfix).avTrue }).node.falseList ≠ [] := by
        rw [hsp.2.2.1]; simp [tmpCond]
      rw [if_pos hf]
      unfold place
      split <;> rename_i heq <;> simp only [heq]
  · refine ⟨e.bexpr (found look), (Cond.normalizeTail σ (tmpCond (e.bexpr (found look)).postfix)).node,
      (lastBlock "true" s.blocks).getD [], (lastBlock "false" s.blocks).getD [],
      Cond.normalizeTail_prepared σ _ _ rfl hneed, normalizeTail_ordered σ _ _ rfl hneed, hvars, ?_, ?_⟩
    · intro τ r
      rw [← hmem, ← hval]
    · unfold booleanif
      rw [h1]
      simp only [h2, h3, h4, if_true, hr]
      have hsp := Cond.normalizeTail_spec σ (tmpCond (e.bexpr (found look)).postfix) (e.bexpr (found look)) rfl hneed
      rw [if_pos hsp.1]
      have hf : ¬ (Cond.normalizeTail σ (tmpCond (e.bexpr (found look)).postfix)).node.falseList ≠ [] := by
        rw [hsp.2.2.1]; simp [tmpCond]
      rw [if_neg hf]
      unfold place
      split <;> rename_i heq <;> simp only [heq]

theorem booleanif_some {σ : State} {look : String → Option Nat} {s : Stmt} {out out' : List Node}
    (h : booleanif σ look s out = some out') :
    BlocksOk s ∧ ∃ e : Expr, e.Ok ∧ s.expr = e.tree ∧ (∀ x ∈ e.names, (look x).isSome) ∧ e.need ≤ 10 := by
  unfold booleanif at h
  cases h1 : genIf s with
  | none => simp [h1] at h
  | some l =>
    obtain ⟨hb, e, he, ht, rfl⟩ := (genIf_iff s l).1 h1
    simp only [h1] at h
    cases h2 : resolveList look (e.top id) with
    | none => simp [h2] at h
    | some l =>
      have hg := resolveList_top_some look e (by rw [h2]; rfl)
      rw [resolveList_top look (found look) e (fun x hx => found_eq (hg x hx))] at h2
      refine ⟨hb, e, he, ht, hg, ?_⟩
      rw [resolveList_top look (found look) e (fun x hx => found_eq (hg x hx))] at h
      simp only [convList_top, validate_postfix, bexpr_need] at h
      split at h
      · rename_i hd; simpa using hd
      · cases h

/-! ### All statements -/

/-- The nodes come from statements. -/
def Inv (look : String → Option Nat) (done : List Stmt) (out : List Node) : Prop :=
  ∀ m ∈ out, ∃ s ∈ done, ∃ e : Expr, e.Ok ∧ s.expr = e.tree ∧
    ∃ t : BExpr, Prepared m t ∧ Ordered m t ∧ t.vars = e.names.filterMap look

theorem inv_addRules {m : Node} {t : BExpr} {T F : List Nat} (h : Prepared m t) : Prepared (Cond.addRules T F m) t := h

theorem place_ok {σ : State} {look : String → Option Nat} {done : List Stmt} {out : List Node} (hi : Inv look done out)
    {s : Stmt} (hsd : s ∈ done) (hso : SameOrder look done) {e : Expr} (he : e.Ok) (hs : s.expr = e.tree)
    {m : Node} {t : BExpr} (hp : Prepared m t) (ho : Ordered m t) (hv : t.vars = e.names.filterMap look)
    (T F : List Nat) :
    Inv look done (place σ m T F out) ∧
    ∀ τ r, SelectedBy τ (place σ m T F out) r ↔ SelectedBy τ out r ∨ (t.val τ = true ∧ r ∈ T ∨ t.val τ = false ∧ r ∈ F) := by
  unfold place
  cases hf : Cond.nodeFind m out with
  | none =>
    constructor
    · intro n hn
      rcases List.mem_cons.1 hn with rfl | hn
      · exact ⟨s, hsd, e, he, hs, t, Cond.nodeCreate_prepared (σ := σ) hp,
          nodeCreate_ordered (σ := σ) hp ho, hv⟩
      · exact hi n hn
    · intro τ r
      have hev : Cond.evaluate τ (Cond.nodeCreate σ m).expr = some (t.val τ) :=
        Cond.prepared_eval (Cond.nodeCreate_prepared hp) τ
      unfold SelectedBy
      simp only [List.mem_cons, exists_eq_or_imp]
      have : ∀ v, (Cond.evaluate τ (Cond.addRules T F (Cond.nodeCreate σ m)).expr = some v) ↔ t.val τ = v := by
        intro v
        show Cond.evaluate τ (Cond.nodeCreate σ m).expr = some v ↔ _
        rw [hev]; simp
      rw [this, this]
      simp only [Cond.addRules, Cond.nodeCreate, List.nil_append]
      exact or_comm
  | some i =>
    unfold Cond.nodeFind at hf
    rw [List.findIdx?_eq_some_iff_getElem] at hf
    obtain ⟨hlt, heq, _⟩ := hf
    have hmem : out[i] ∈ out := List.getElem_mem hlt
    obtain ⟨s', hs', e', he', ht', t', hp', ho', hv'⟩ := hi _ hmem
    constructor
    · intro n hn
      rw [List.mem_iff_getElem] at hn
      obtain ⟨j, hj, rfl⟩ := hn
      rw [List.getElem_modify]
      have hjl : j < out.length := by simpa using hj
      split
      · obtain ⟨s1, a1, e1, a2, a3, t1, a4, a5, a6⟩ := hi _ (List.getElem_mem hjl)
        exact ⟨s1, a1, e1, a2, a3, t1, inv_addRules a4, a5, a6⟩
      · exact hi _ (List.getElem_mem hjl)
    · intro τ r
      obtain ⟨q1, q2, _⟩ := Cond.exprEqual_sound hp hp' heq
      have hval : t.val τ = t'.val τ := by
        refine Cond.C15_equal_sound_partial hp hp' heq ?_ τ
        by_cases hle : m.nbools ≤ Cond.maxBools
        · left
          have hle' : out[i].nbools ≤ Cond.maxBools := by rw [← q1]; exact hle
          rw [ho hle, ho' hle']
          have hlen : (firsts t.vars).length ≤ 5 := by
            rw [← ho hle]
            have := hp.2.2.2.1
            have h5 : Cond.maxBools = 5 := rfl
            omega
          refine hso s hsd s' hs' _ _ ⟨e, he, hs, by rw [hv]⟩ ⟨e', he', ht', by rw [hv']⟩ hlen ?_
          intro b
          rw [mem_firsts, mem_firsts]
          exact (q2 hle).1 b
        · right
          have h5 : Cond.maxBools = 5 := rfl
          omega
      have hev : Cond.evaluate τ (out[i]).expr = some (t.val τ) := by rw [hval]; exact Cond.prepared_eval hp' τ
      exact Cond.selectedBy_addRules T F r _ out i hlt hev

/-! ### Expressions are determined by how they are written -/

theorem word_ne_not (o : Bin) : o.word ≠ "not" := by cases o <;> decide

theorem word_reserved (o : Bin) : o.word ∈ reserved := by cases o <;> decide

theorem word_inj {o o' : Bin} (h : o.word = o'.word) : o = o' := by
  revert h; cases o <;> cases o' <;> decide

theorem not_name {e : Expr} (he : e.Ok) {a : String} (h : Tree.atom a = e.tree) : a ∉ reserved := by
  cases e with
  | name s =>
    simp only [Expr.tree, Tree.atom.injEq] at h
    rw [h]
    exact he s (by simp [Expr.names])
  | _ => simp [Expr.tree] at h

mutual
theorem tree_inj : ∀ (e e' : Expr), e.Ok → e'.Ok → e.tree = e'.tree → e = e'
  | .name s, e', _, _, h => by
    cases e' with
    | name s' => simp only [Expr.tree, Tree.atom.injEq] at h; rw [h]
    | _ => simp [Expr.tree] at h
  | .not a, e', he, he', h => by
    cases e' with
    | name s' => simp [Expr.tree] at h
    | not a' =>
      simp only [Expr.tree, Tree.list.injEq, List.cons.injEq, and_true, true_and] at h
      rw [tree_inj a a' (fun s hs => he s (by rw [Expr.names]; exact hs)) (fun s hs => he' s (by rw [Expr.names]; exact hs)) h]
    | bin o x y =>
      simp only [Expr.tree, Tree.list.injEq, List.cons.injEq] at h
      exact absurd h.2.2 (by simp)
    | any x xs =>
      simp only [Expr.tree, Tree.list.injEq, List.cons.injEq] at h
      exact absurd (by simp [reserved]) (not_name (e := x) (fun s hs => he' s (by rw [Expr.names]; simp [hs])) h.1)
  | .bin o a b, e', he, he', h => by
    cases e' with
    | name s' => simp [Expr.tree] at h
    | not a' =>
      simp only [Expr.tree, Tree.list.injEq, List.cons.injEq] at h
      exact absurd h.2.2 (by simp)
    | bin o' a' b' =>
      simp only [Expr.tree, Tree.list.injEq, List.cons.injEq, and_true, Tree.atom.injEq] at h
      rw [word_inj h.1,
        tree_inj a a' (fun s hs => he s (by rw [Expr.names]; simp [hs])) (fun s hs => he' s (by rw [Expr.names]; simp [hs])) h.2.1,
        tree_inj b b' (fun s hs => he s (by rw [Expr.names]; simp [hs])) (fun s hs => he' s (by rw [Expr.names]; simp [hs])) h.2.2]
    | any x xs =>
      simp only [Expr.tree, Tree.list.injEq, List.cons.injEq] at h
      exact absurd (word_reserved o) (not_name (e := x) (fun s hs => he' s (by rw [Expr.names]; simp [hs])) h.1)
  | .any a as, e', he, he', h => by
    have hea : a.Ok := fun s hs => he s (by rw [Expr.names]; simp [hs])
    cases e' with
    | name s' => simp [Expr.tree] at h
    | not a' =>
      simp only [Expr.tree, Tree.list.injEq, List.cons.injEq] at h
      exact absurd (by simp [reserved]) (not_name hea h.1.symm)
    | bin o' a' b' =>
      simp only [Expr.tree, Tree.list.injEq, List.cons.injEq] at h
      exact absurd (word_reserved o') (not_name hea h.1.symm)
    | any x xs =>
      simp only [Expr.tree, Tree.list.injEq, List.cons.injEq] at h
      rw [tree_inj a x hea (fun s hs => he' s (by rw [Expr.names]; simp [hs])) h.1,
        trees_inj as xs (fun s hs => he s (by rw [Expr.names]; simp [hs])) (fun s hs => he' s (by rw [Expr.names]; simp [hs])) h.2]
theorem trees_inj : ∀ (es es' : List Expr), (∀ s ∈ Expr.namesOf es, s ∉ reserved) →
    (∀ s ∈ Expr.namesOf es', s ∉ reserved) → Expr.trees es = Expr.trees es' → es = es'
  | [], es', _, _, h => by
    cases es' with
    | nil => rfl
    | cons _ _ => simp [Expr.trees] at h
  | e :: es, es', he, he', h => by
    cases es' with
    | nil => simp [Expr.trees] at h
    | cons x xs =>
      simp only [Expr.trees, List.cons.injEq] at h
      rw [tree_inj e x (fun s hs => he s (by rw [Expr.namesOf]; simp [hs])) (fun s hs => he' s (by rw [Expr.namesOf]; simp [hs])) h.1,
        trees_inj es xs (fun s hs => he s (by rw [Expr.namesOf]; simp [hs])) (fun s hs => he' s (by rw [Expr.namesOf]; simp [hs])) h.2]
end

theorem chooses_iff {ρ : String → Bool} {s : Stmt} {e : Expr} (he : e.Ok) (hs : s.expr = e.tree) (r : Nat) :
    Chooses ρ s r ↔ ∃ b ∈ s.blocks, b.1 = (if e.val ρ then "true" else "false") ∧ r ∈ b.2 := by
  constructor
  · rintro ⟨e', he', hs', h⟩
    rw [tree_inj e e' he he' (by rw [← hs, hs'])]
    exact h
  · intro h
    exact ⟨e, he, hs, h⟩

theorem compile_ok {σ : State} {look : String → Option Nat} {all : List Stmt} (hso : SameOrder look all) :
    ∀ (l : List Stmt) (out out' : List Node), (∀ s ∈ l, s ∈ all) → Inv look all out → compile σ look l out = some out' →
      ∀ τ r, SelectedBy τ out' r ↔ SelectedBy τ out r ∨ ∃ s ∈ l, Chooses (env look τ) s r
  | [], out, out', _, _, h => by
    simp only [compile, Option.some.injEq] at h
    subst h
    simp
  | s :: l, out, out', hl, hi, h => by
    rw [compile] at h
    cases h1 : booleanif σ look s out with
    | none => simp [h1] at h
    | some o =>
      simp only [h1] at h
      obtain ⟨hb, e, he, hs, hg, hn⟩ := booleanif_some h1
      obtain ⟨t, m, T, F, hp, ho, hv, hsel, heq⟩ := booleanif_ok σ hb he hs hg hn out
      rw [heq] at h1
      obtain ⟨i1, i2⟩ := place_ok (σ := σ) hi (hl s (by simp)) hso he hs hp ho (by rw [hv, filterMap_found hg]) T F
      rw [Option.some.inj h1] at i1 i2
      intro τ r
      rw [compile_ok hso l o out' (fun x hx => hl x (by simp [hx])) i1 h τ r, i2 τ r, hsel, ← chooses_iff he hs]
      simp only [List.mem_cons, exists_eq_or_imp]
      rw [or_assoc]

theorem compile_some {σ : State} {look : String → Option Nat} : ∀ (l : List Stmt) (out : List Node),
    (compile σ look l out).isSome ↔ ∀ s ∈ l, BlocksOk s ∧ ∃ e : Expr, e.Ok ∧ s.expr = e.tree ∧
      (∀ x ∈ e.names, (look x).isSome) ∧ e.need ≤ 10
  | [], out => by simp [compile]
  | s :: l, out => by
    rw [compile]
    cases h1 : booleanif σ look s out with
    | none =>
      simp only [Option.isSome_none, Bool.false_eq_true, false_iff]
      intro h
      obtain ⟨hb, e, he, hs, hg, hn⟩ := h s (by simp)
      obtain ⟨_, _, _, _, _, _, _, _, heq⟩ := booleanif_ok σ hb he hs hg hn out
      rw [heq] at h1
      cases h1
    | some o =>
      have := compile_some (σ := σ) (look := look) l o
      simp only [List.mem_cons, forall_eq_or_imp]
      rw [this]
      exact ⟨fun h => ⟨booleanif_some h1, h⟩, fun h => h.2⟩

end Verif.CilCond
