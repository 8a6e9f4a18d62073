import Verif.CilCond.Spec
import Verif.Cond.Props

/-!
# Lemmas about the conditionals of CIL
-/

namespace Verif.CilCond
open Cond (State Tok BExpr)

theorem opOf_none {s : String} : opOf s = none ↔ s ∉ reserved := by
  unfold opOf reserved
  constructor
  · intro h
    repeat' split at h
    all_goals simp_all
  · intro h
    simp only [List.mem_cons, List.not_mem_nil, or_false, not_or] at h
    simp [h]

theorem opOf_word (o : Bin) : opOf o.word = some (match o with
    | .and => .and | .or => .or | .xor => .xor | .eq => .eq | .neq => .neq) := by
  cases o <;> decide

/-- The operator of two operands in the model. -/
def Bin.op : Bin → Op
  | .and => .and
  | .or => .or
  | .xor => .xor
  | .eq => .eq
  | .neq => .neq

theorem opOf_word' (o : Bin) : opOf o.word = some o.op := by cases o <;> decide

theorem opOf_some {s : String} {o : Op} (h : opOf s = some o) :
    (s = "not" ∧ o = .not) ∨ (∃ b : Bin, s = b.word ∧ o = b.op) ∨ o = .all ∨ o = .range := by
  unfold opOf at h
  split at h
  · exact Or.inr (Or.inl ⟨.and, by assumption, (Option.some.inj h).symm⟩)
  split at h
  · exact Or.inr (Or.inl ⟨.or, by assumption, (Option.some.inj h).symm⟩)
  split at h
  · exact Or.inl ⟨by assumption, (Option.some.inj h).symm⟩
  split at h
  · exact Or.inr (Or.inl ⟨.eq, by assumption, (Option.some.inj h).symm⟩)
  split at h
  · exact Or.inr (Or.inl ⟨.neq, by assumption, (Option.some.inj h).symm⟩)
  split at h
  · exact Or.inr (Or.inl ⟨.xor, by assumption, (Option.some.inj h).symm⟩)
  split at h
  · exact Or.inr (Or.inr (Or.inl (Option.some.inj h).symm))
  split at h
  · exact Or.inr (Or.inr (Or.inr (Option.some.inj h).symm))
  · cases h

mutual
/-- The item of an expression, with its names replaced. -/
def Expr.item {α : Type} (g : String → α) : Expr → Item α
  | .name s => .leaf (g s)
  | .not e => .list [.op .not, e.item g]
  | .bin o a b => .list [.op o.op, a.item g, b.item g]
  | .any e es => .list (e.item g :: Expr.items g es)
/-- The items of a list of expressions. -/
def Expr.items {α : Type} (g : String → α) : List Expr → List (Item α)
  | [] => []
  | e :: es => e.item g :: Expr.items g es
end

/-- The syntax of an operand: a string or a list that is not empty. -/
def Full : Tree → Prop
  | .list [] => False
  | _ => True

theorem tree_full (e : Expr) : Full e.tree := by
  cases e <;> simp [Expr.tree, Full]

theorem verifyRest_full {l : List Tree} : verifyRest { nStrings := true, nLists := true } l = true ↔ ∀ t ∈ l, Full t := by
  induction l with
  | nil => simp [verifyRest]
  | cons t l ih =>
    match t with
    | .atom a => simp [verifyRest, ih, Full]
    | .list [] => simp [verifyRest, Full]
    | .list (x :: xs) => simp [verifyRest, ih, Full]

theorem trees_full (es : List Expr) : ∀ t ∈ Expr.trees es, Full t := by
  induction es with
  | nil => simp [Expr.trees]
  | cons e es ih =>
    intro t ht
    rcases List.mem_cons.1 (by rw [Expr.trees] at ht; exact ht) with h | h
    · rw [h]; exact tree_full e
    · exact ih t h

theorem syn_not {t u : Tree} (h : verifyExprSyntax [t, u] (some .not) = true) : Full u := by
  match u with
  | .list [] =>
    cases t with
    | atom a => simp [verifyExprSyntax, verifySyntax] at h
    | list m => cases m <;> simp [verifyExprSyntax, verifySyntax] at h
  | .atom a => trivial
  | .list (x :: xs) => trivial

theorem syntax_not {l : List Tree} {a : String} : verifyExprSyntax (.atom a :: l) (some .not) = true ↔ ∃ u, l = [u] ∧ Full u := by
  match l with
  | [] => simp [verifyExprSyntax, verifySyntax]
  | .atom b :: [] => simp [verifyExprSyntax, verifySyntax, Full]
  | .list [] :: [] => simp [verifyExprSyntax, verifySyntax, Full]
  | .list (x :: xs) :: [] => simp [verifyExprSyntax, verifySyntax, Full]
  | .atom b :: u :: us =>
    cases u with
    | atom => simp [verifyExprSyntax, verifySyntax]
    | list m => cases m <;> simp [verifyExprSyntax, verifySyntax]
  | .list [] :: u :: us => simp [verifyExprSyntax, verifySyntax]
  | .list (x :: xs) :: u :: us =>
    cases u with
    | atom => simp [verifyExprSyntax, verifySyntax]
    | list m => cases m <;> simp [verifyExprSyntax, verifySyntax]

theorem verify_operand {t : Tree} {l : List Tree} {ss : List Syn} :
    verifySyntax (t :: l) ({ string := true, list := true } :: ss) = true ↔ Full t ∧ verifySyntax l ss = true := by
  match t with
  | .atom a => simp [verifySyntax, Full]
  | .list [] => simp [verifySyntax, Full]
  | .list (x :: xs) => simp [verifySyntax, Full]

theorem verify_end {l : List Tree} : verifySyntax l [{ stop := true }] = true ↔ l = [] := by
  match l with
  | [] => simp [verifySyntax]
  | .atom a :: _ => simp [verifySyntax]
  | .list [] :: _ => simp [verifySyntax]
  | .list (x :: xs) :: _ => simp [verifySyntax]

theorem syntax_bin {l : List Tree} {a : String} (o : Bin) : verifyExprSyntax (.atom a :: l) (some o.op) = true ↔
    ∃ u v, l = [u, v] ∧ Full u ∧ Full v := by
  have h : verifyExprSyntax (.atom a :: l) (some o.op) = verifySyntax l
      [{ string := true, list := true }, { string := true, list := true }, { stop := true }] := by
    cases o <;> simp [verifyExprSyntax, Bin.op, verifySyntax]
  rw [h]
  match l with
  | [] => simp [verifySyntax]
  | [u] => rw [verify_operand]; simp [verifySyntax]
  | [u, v] => rw [verify_operand, verify_operand, verify_end]; simp
  | u :: v :: w :: l => rw [verify_operand, verify_operand, verify_end]; simp

theorem syntax_none {t : Tree} {l : List Tree} : verifyExprSyntax (t :: l) none = true ↔ ∀ u ∈ t :: l, Full u := by
  rw [← verifyRest_full]
  match t with
  | .atom a => simp [verifyExprSyntax, verifySyntax]
  | .list [] => simp [verifyExprSyntax, verifySyntax, verifyRest]
  | .list (x :: xs) => simp [verifyExprSyntax, verifySyntax]

theorem headOp_tree {e : Expr} (he : e.Ok) (l : List Tree) : headOp (e.tree :: l) = none := by
  cases e with
  | name s => exact opOf_none.2 (he s (by simp [Expr.names]))
  | _ => simp [Expr.tree, headOp]

mutual
theorem fill_tree : ∀ (e : Expr), e.Ok → fill e.tree = some (e.item id)
  | .name s, he => by
    have : opOf s = none := opOf_none.2 (he s (by simp [Expr.names]))
    simp [Expr.tree, fill, Expr.item, this]
  | .not e, he => by
    have h1 := fill_tree e (fun s hs => he s (by rw [Expr.names]; exact hs))
    have h2 : verifyExprSyntax [.atom "not", e.tree] (some .not) = true := syntax_not.2 ⟨_, rfl, tree_full e⟩
    have h3 : headOp [.atom "not", e.tree] = some .not := by show opOf "not" = some .not; decide
    rw [Expr.tree, fill, h3, h2, if_pos rfl, Expr.item]
    simp [fillList, h1]
  | .bin o a b, he => by
    have h1 := fill_tree a (fun s hs => he s (by rw [Expr.names]; simp [hs]))
    have h1' := fill_tree b (fun s hs => he s (by rw [Expr.names]; simp [hs]))
    have h2 : verifyExprSyntax [.atom o.word, a.tree, b.tree] (some o.op) = true :=
      (syntax_bin o).2 ⟨_, _, rfl, tree_full a, tree_full b⟩
    have h3 : headOp [.atom o.word, a.tree, b.tree] = some o.op := opOf_word' o
    rw [Expr.tree, fill, h3, h2, if_pos rfl, Expr.item]
    simp [fillList, h1, h1']
  | .any e es, he => by
    have he1 : e.Ok := fun s hs => he s (by rw [Expr.names]; simp [hs])
    have h1 := fill_tree e he1
    have h1' := fill_trees es (fun s hs => he s (by rw [Expr.names]; simp [hs]))
    have h3 := headOp_tree he1 (Expr.trees es)
    have h2 : verifyExprSyntax (e.tree :: Expr.trees es) none = true := syntax_none.2 (by
      intro u hu
      rcases List.mem_cons.1 hu with h | h
      · rw [h]; exact tree_full e
      · exact trees_full es u h)
    rw [Expr.tree, fill, h3, h2, if_pos rfl, Expr.item]
    simp [h1, h1']
theorem fill_trees : ∀ (es : List Expr), (∀ s ∈ Expr.namesOf es, s ∉ reserved) →
    fillList (Expr.trees es) = some (Expr.items id es)
  | [], _ => by simp [Expr.trees, fillList, Expr.items]
  | e :: es, he => by
    have h1 := fill_tree e (fun s hs => he s (by rw [Expr.namesOf]; simp [hs]))
    have h2 := fill_trees es (fun s hs => he s (by rw [Expr.namesOf]; simp [hs]))
    simp [Expr.trees, fillList, Expr.items, h1, h2]
end

mutual
theorem fill_some : ∀ (t : Tree) (i : Item String), fill t = some i → ∃ e : Expr, e.Ok ∧ t = e.tree
  | .atom s, i, h => by
    rw [fill] at h
    cases ho : opOf s with
    | some o => simp [ho] at h
    | none =>
      refine ⟨.name s, fun x hx => ?_, by simp [Expr.tree]⟩
      simp [Expr.names] at hx
      subst hx
      exact opOf_none.1 ho
  | .list [], i, h => by simp [fill] at h
  | .list (t :: ts), i, h => by
    rw [fill] at h
    split at h
    · rename_i hs
      cases ho : headOp (t :: ts) with
      | none =>
        simp only [ho] at h
        cases h1 : fill t with
        | none => simp [h1] at h
        | some x =>
          cases h2 : fillList ts with
          | none => simp [h1, h2] at h
          | some l =>
            obtain ⟨e, he, rfl⟩ := fill_some t x h1
            obtain ⟨es, hes, rfl⟩ := fillList_some ts l h2
            refine ⟨.any e es, fun s hs => ?_, by simp [Expr.tree]⟩
            rw [Expr.names] at hs
            rcases List.mem_append.1 hs with hs | hs
            · exact he s hs
            · exact hes s hs
      | some o =>
        simp only [ho] at h
        cases h2 : fillList ts with
        | none => simp [h2] at h
        | some l =>
          obtain ⟨es, hes, rfl⟩ := fillList_some ts l h2
          rw [ho] at hs
          match t with
          | .list m => simp [headOp] at ho
          | .atom a =>
            have ho' : opOf a = some o := ho
            rcases opOf_some ho' with ⟨rfl, rfl⟩ | ⟨b, rfl, rfl⟩ | rfl | rfl
            · obtain ⟨u, hu, _⟩ := syntax_not.1 hs
              match es with
              | [] => simp [Expr.trees] at hu
              | [e] =>
                refine ⟨.not e, fun s hs => hes s ?_, by simp [Expr.tree, Expr.trees]⟩
                rw [Expr.names] at hs
                simp [Expr.namesOf, hs]
              | _ :: _ :: _ => simp [Expr.trees] at hu
            · obtain ⟨u, v, hu, _⟩ := (syntax_bin b).1 hs
              match es with
              | [] => simp [Expr.trees] at hu
              | [_] => simp [Expr.trees] at hu
              | [e, e'] =>
                refine ⟨.bin b e e', fun s hs => hes s ?_, by simp [Expr.tree, Expr.trees]⟩
                rw [Expr.names] at hs
                simpa [Expr.namesOf] using hs
              | _ :: _ :: _ :: _ => simp [Expr.trees] at hu
            · simp [verifyExprSyntax] at hs
            · simp [verifyExprSyntax] at hs
    · cases h
theorem fillList_some : ∀ (ts : List Tree) (l : List (Item String)), fillList ts = some l →
    ∃ es : List Expr, (∀ s ∈ Expr.namesOf es, s ∉ reserved) ∧ ts = Expr.trees es
  | [], _, _ => ⟨[], by simp [Expr.namesOf], by simp [Expr.trees]⟩
  | t :: ts, l, h => by
    rw [fillList] at h
    cases h1 : fill t with
    | none => simp [h1] at h
    | some x =>
      cases h2 : fillList ts with
      | none => simp [h1, h2] at h
      | some m =>
        obtain ⟨e, he, rfl⟩ := fill_some t x h1
        obtain ⟨es, hes, rfl⟩ := fillList_some ts m h2
        refine ⟨e :: es, fun s hs => ?_, by simp [Expr.trees]⟩
        rw [Expr.namesOf] at hs
        rcases List.mem_append.1 hs with hs | hs
        · exact he s hs
        · exact hes s hs
end

/-- The list of an expression that stands alone. -/
def Expr.top {α : Type} (g : String → α) (e : Expr) : List (Item α) :=
  match e.item g with
  | .list l => l
  | x => [x]

theorem genExpr_tree {e : Expr} (he : e.Ok) : genExpr e.tree = some (e.top id) := by
  unfold genExpr Expr.top
  rw [fill_tree e he]
  cases e <;> rfl

theorem genExpr_some {t : Tree} {l} (h : genExpr t = some l) : ∃ e : Expr, e.Ok ∧ t = e.tree := by
  unfold genExpr at h
  cases hf : fill t with
  | none => simp [hf] at h
  | some i => exact fill_some t i hf

/-! ### Names -/

mutual
theorem resolveItem_item {α : Type} (look : String → Option α) (g : String → α) :
    ∀ (e : Expr), (∀ s ∈ e.names, look s = some (g s)) → resolveItem look (e.item id) = some (e.item g)
  | .name s, h => by
    have := h s (by simp [Expr.names])
    simp [Expr.item, resolveItem, this]
  | .not e, h => by
    have h1 := resolveItem_item look g e (fun s hs => h s (by rw [Expr.names]; exact hs))
    simp [Expr.item, resolveItem, resolveList, h1]
  | .bin o a b, h => by
    have h1 := resolveItem_item look g a (fun s hs => h s (by rw [Expr.names]; simp [hs]))
    have h2 := resolveItem_item look g b (fun s hs => h s (by rw [Expr.names]; simp [hs]))
    simp [Expr.item, resolveItem, resolveList, h1, h2]
  | .any e es, h => by
    have h1 := resolveItem_item look g e (fun s hs => h s (by rw [Expr.names]; simp [hs]))
    have h2 := resolveItem_items look g es (fun s hs => h s (by rw [Expr.names]; simp [hs]))
    simp [Expr.item, resolveItem, resolveList, h1, h2]
theorem resolveItem_items {α : Type} (look : String → Option α) (g : String → α) :
    ∀ (es : List Expr), (∀ s ∈ Expr.namesOf es, look s = some (g s)) →
      resolveList look (Expr.items id es) = some (Expr.items g es)
  | [], _ => by simp [Expr.items, resolveList]
  | e :: es, h => by
    have h1 := resolveItem_item look g e (fun s hs => h s (by rw [Expr.namesOf]; simp [hs]))
    have h2 := resolveItem_items look g es (fun s hs => h s (by rw [Expr.namesOf]; simp [hs]))
    simp [Expr.items, resolveList, h1, h2]
end

theorem resolveList_cons {α : Type} {look : String → Option α} {x : Item String} {l : List (Item String)}
    (h : (resolveList look (x :: l)).isSome) : (resolveItem look x).isSome ∧ (resolveList look l).isSome := by
  rw [resolveList] at h
  cases h1 : resolveItem look x with
  | none => simp [h1] at h
  | some y =>
    cases h2 : resolveList look l with
    | none => simp [h1, h2] at h
    | some m => exact ⟨rfl, rfl⟩

theorem resolveItem_list {α : Type} {look : String → Option α} {l : List (Item String)}
    (h : (resolveItem look (.list l)).isSome) : (resolveList look l).isSome := by
  rw [resolveItem] at h
  cases h2 : resolveList look l with
  | none => simp [h2] at h
  | some m => rfl

mutual
theorem resolveItem_some {α : Type} (look : String → Option α) :
    ∀ (e : Expr), (resolveItem look (e.item id)).isSome → ∀ s ∈ e.names, (look s).isSome
  | .name s, h => by
    intro x hx
    simp [Expr.names] at hx
    subst hx
    rw [Expr.item, resolveItem] at h
    cases hl : look x with
    | none => simp [hl] at h
    | some a => rfl
  | .not e, h => by
    have h1 := resolveItem_list (by rw [Expr.item] at h; exact h)
    have h2 := (resolveList_cons (resolveList_cons h1).2).1
    intro s hs
    exact resolveItem_some look e h2 s (by rw [Expr.names] at hs; exact hs)
  | .bin o a b, h => by
    have h1 := resolveItem_list (by rw [Expr.item] at h; exact h)
    have h2 := resolveList_cons (resolveList_cons h1).2
    intro s hs
    rw [Expr.names] at hs
    rcases List.mem_append.1 hs with hs | hs
    · exact resolveItem_some look a h2.1 s hs
    · exact resolveItem_some look b (resolveList_cons h2.2).1 s hs
  | .any e es, h => by
    have h1 := resolveItem_list (by rw [Expr.item] at h; exact h)
    have h2 := resolveList_cons h1
    intro s hs
    rw [Expr.names] at hs
    rcases List.mem_append.1 hs with hs | hs
    · exact resolveItem_some look e h2.1 s hs
    · exact resolveItems_some look es h2.2 s hs
theorem resolveItems_some {α : Type} (look : String → Option α) :
    ∀ (es : List Expr), (resolveList look (Expr.items id es)).isSome → ∀ s ∈ Expr.namesOf es, (look s).isSome
  | [], _ => by simp [Expr.namesOf]
  | e :: es, h => by
    have h2 := resolveList_cons (by rw [Expr.items] at h; exact h)
    intro s hs
    rw [Expr.namesOf] at hs
    rcases List.mem_append.1 hs with hs | hs
    · exact resolveItem_some look e h2.1 s hs
    · exact resolveItems_some look es h2.2 s hs
end

theorem resolveList_top {α : Type} (look : String → Option α) (g : String → α) (e : Expr)
    (h : ∀ s ∈ e.names, look s = some (g s)) : resolveList look (e.top id) = some (e.top g) := by
  have h1 := resolveItem_item look g e h
  unfold Expr.top
  cases e with
  | name s => simp only [Expr.item, id] at h1 ⊢; simp [resolveList, h1]
  | _ =>
    simp only [Expr.item] at h1 ⊢
    rw [resolveItem] at h1
    split at h1
    · cases h1
    · rename_i heq
      rw [heq]
      simp only [Option.some.injEq, Item.list.injEq] at h1
      rw [h1]

theorem resolveList_top_some {α : Type} (look : String → Option α) (e : Expr)
    (h : (resolveList look (e.top id)).isSome) : ∀ s ∈ e.names, (look s).isSome := by
  apply resolveItem_some
  unfold Expr.top at h
  cases e with
  | name s => simp only [Expr.item] at h ⊢; exact (resolveList_cons h).1
  | _ =>
    simp only [Expr.item] at h ⊢
    rw [resolveItem]
    split
    · rename_i heq; rw [heq] at h; cases h
    · rfl

/-! ### Tunables -/

theorem tunOp_sem (o : Bin) (a b : Bool) : tunOp o.op a b = o.sem a b := by
  cases o <;> cases a <;> cases b <;> rfl

theorem tunList_cons (e : Expr) (g : String → Bool) (l : List (Item Bool)) :
    tunList (e.item g :: l) = match tunItem (e.item g) with
      | none => none
      | some v => if v then some true else tunRest l := by
  cases e with
  | name s => simp [Expr.item, tunList, tunItem]
  | _ => rw [Expr.item, tunList, tunItem]; rfl

mutual
theorem tunItem_item (g : String → Bool) : ∀ (e : Expr), tunItem (e.item g) = some (e.val g)
  | .name s => by simp [Expr.item, tunItem, Expr.val]
  | .not e => by
    have := tunItem_item g e
    simp [Expr.item, tunItem, tunList, this, Expr.val]
  | .bin o a b => by
    have h1 := tunItem_item g a
    have h2 := tunItem_item g b
    have h3 := tunOp_sem o (a.val g) (b.val g)
    rw [Expr.item, tunItem, Expr.val, ← h3]
    cases o <;> simp [Bin.op, tunList, h1, h2]
  | .any e es => by
    have h1 := tunItem_item g e
    have h2 := tunRest_items g es
    rw [Expr.item, tunItem, tunList_cons, h1, h2, Expr.val]
    cases e.val g <;> simp
theorem tunRest_items (g : String → Bool) : ∀ (es : List Expr), tunRest (Expr.items g es) = some (Expr.valAny g es)
  | [] => by simp [Expr.items, tunRest, Expr.valAny]
  | e :: es => by
    have h1 := tunItem_item g e
    have h2 := tunRest_items g es
    rw [Expr.items, tunRest, h1, h2, Expr.valAny]
    cases e.val g <;> simp
end

theorem tunList_top (g : String → Bool) (e : Expr) : tunList (e.top g) = some (e.val g) := by
  have h := tunItem_item g e
  unfold Expr.top
  cases e with
  | name s =>
    simp only [Expr.item, Expr.val]
    cases hg : g s <;> simp [tunList, tunRest]
  | _ =>
    simp only [Expr.item, tunItem] at h ⊢
    exact h

/-! ### Booleans -/

mutual
/-- The expression of `Cond.Spec` that an expression becomes. -/
def Expr.bexpr (g : String → Nat) : Expr → BExpr
  | .name s => .var (g s)
  | .not e => .not (e.bexpr g)
  | .bin .and a b => .and (a.bexpr g) (b.bexpr g)
  | .bin .or a b => .or (a.bexpr g) (b.bexpr g)
  | .bin .xor a b => .xor (a.bexpr g) (b.bexpr g)
  | .bin .eq a b => .eq (a.bexpr g) (b.bexpr g)
  | .bin .neq a b => .neq (a.bexpr g) (b.bexpr g)
  | .any e es => Expr.bexprOr g es (e.bexpr g)
/-- The rest of a list. -/
def Expr.bexprOr (g : String → Nat) : List Expr → BExpr → BExpr
  | [], t => t
  | e :: es, t => Expr.bexprOr g es (.or t (e.bexpr g))
end

theorem convList_cons (e : Expr) (g : String → Nat) (l : List (Item Nat)) :
    convList (e.item g :: l) = match convItem (e.item g) with
      | none => none
      | some h => convRest l h := by
  cases e with
  | name s => simp [Expr.item, convList, convItem]
  | _ => rw [Expr.item, convList, convItem]; rfl

mutual
theorem convItem_item (g : String → Nat) : ∀ (e : Expr), convItem (e.item g) = some (e.bexpr g).postfix
  | .name s => by simp [Expr.item, convItem, Expr.bexpr, BExpr.postfix]
  | .not e => by
    have := convItem_item g e
    simp [Expr.item, convItem, convList, this, Expr.bexpr, Op.tok, BExpr.postfix]
  | .bin o a b => by
    have h1 := convItem_item g a
    have h2 := convItem_item g b
    cases o <;> simp [Expr.item, convItem, convList, h1, h2, Expr.bexpr, Op.tok, Bin.op, BExpr.postfix]
  | .any e es => by
    have h1 := convItem_item g e
    have h2 := convRest_items g es (e.bexpr g)
    rw [Expr.item, convItem, convList_cons, h1, Expr.bexpr]
    exact h2
theorem convRest_items (g : String → Nat) : ∀ (es : List Expr) (t : BExpr),
    convRest (Expr.items g es) t.postfix = some (Expr.bexprOr g es t).postfix
  | [], t => by simp [Expr.items, convRest, Expr.bexprOr]
  | e :: es, t => by
    have h1 := convItem_item g e
    have h2 := convRest_items g es (.or t (e.bexpr g))
    rw [Expr.items, convRest, h1, Expr.bexprOr]
    exact h2
end

theorem convList_top (g : String → Nat) (e : Expr) : convList (e.top g) = some (e.bexpr g).postfix := by
  have h := convItem_item g e
  unfold Expr.top
  cases e with
  | name s =>
    simp only [Expr.item]
    simp [convList, convRest, Expr.bexpr, BExpr.postfix]
  | _ =>
    simp only [Expr.item, convItem] at h ⊢
    exact h

mutual
theorem bexpr_val (g : String → Nat) (τ : State) : ∀ (e : Expr), (e.bexpr g).val τ = e.val (fun s => τ (g s))
  | .name s => by simp [Expr.bexpr, BExpr.val, Expr.val]
  | .not e => by simp [Expr.bexpr, BExpr.val, Expr.val, bexpr_val g τ e]
  | .bin o a b => by
    have h1 := bexpr_val g τ a
    have h2 := bexpr_val g τ b
    cases o <;> simp only [Expr.bexpr, BExpr.val, Expr.val, h1, h2, Bin.sem]
    cases a.val _ <;> cases b.val _ <;> rfl
  | .any e es => by
    rw [Expr.bexpr, bexprOr_val g τ es, bexpr_val g τ e, Expr.val]
theorem bexprOr_val (g : String → Nat) (τ : State) : ∀ (es : List Expr) (t : BExpr),
    (Expr.bexprOr g es t).val τ = (t.val τ || Expr.valAny (fun s => τ (g s)) es)
  | [], t => by simp [Expr.bexprOr, Expr.valAny]
  | e :: es, t => by
    rw [Expr.bexprOr, bexprOr_val g τ es, BExpr.val, bexpr_val g τ e, Expr.valAny, Bool.or_assoc]
end

mutual
theorem bexpr_need (g : String → Nat) : ∀ (e : Expr), (e.bexpr g).need = e.need
  | .name s => by simp [Expr.bexpr, BExpr.need, Expr.need]
  | .not e => by simp [Expr.bexpr, BExpr.need, Expr.need, bexpr_need g e]
  | .bin o a b => by
    have h1 := bexpr_need g a
    have h2 := bexpr_need g b
    cases o <;> simp only [Expr.bexpr, BExpr.need, Expr.need, h1, h2]
  | .any e es => by
    rw [Expr.bexpr, bexprOr_need g es, bexpr_need g e, Expr.need]
theorem bexprOr_need (g : String → Nat) : ∀ (es : List Expr) (t : BExpr),
    (Expr.bexprOr g es t).need = max t.need (Expr.needRest es)
  | [], t => by simp [Expr.bexprOr, Expr.needRest]
  | e :: es, t => by
    rw [Expr.bexprOr, bexprOr_need g es, BExpr.need, bexpr_need g e, Expr.needRest, Nat.max_assoc]
end

mutual
theorem bexpr_vars (g : String → Nat) : ∀ (e : Expr), (e.bexpr g).vars = e.names.map g
  | .name s => by simp [Expr.bexpr, BExpr.vars, Expr.names]
  | .not e => by simp [Expr.bexpr, BExpr.vars, Expr.names, bexpr_vars g e]
  | .bin o a b => by
    have h1 := bexpr_vars g a
    have h2 := bexpr_vars g b
    cases o <;> simp only [Expr.bexpr, BExpr.vars, Expr.names, h1, h2, List.map_append]
  | .any e es => by
    rw [Expr.bexpr, bexprOr_vars g es, bexpr_vars g e, Expr.names, List.map_append]
theorem bexprOr_vars (g : String → Nat) : ∀ (es : List Expr) (t : BExpr),
    (Expr.bexprOr g es t).vars = t.vars ++ (Expr.namesOf es).map g
  | [], t => by simp [Expr.bexprOr, Expr.namesOf]
  | e :: es, t => by
    rw [Expr.bexprOr, bexprOr_vars g es, BExpr.vars, bexpr_vars g e, Expr.namesOf, List.map_append, List.append_assoc]
end

theorem validateLoop_bin {t : Tok} (ht : t = .or ∨ t = .and ∨ t = .xor ∨ t = .eq ∨ t = .neq) (l : List Tok) (d : Int) :
    validateLoop (t :: l) d = if d < 1 then false else validateLoop l (d - 1) := by
  rcases ht with rfl | rfl | rfl | rfl | rfl <;> simp [validateLoop]

theorem validateLoop_bin_append {t : Tok} (ht : t = .or ∨ t = .and ∨ t = .xor ∨ t = .eq ∨ t = .neq) (a b : BExpr)
    (iha : ∀ (l : List Tok) (d : Int), -1 ≤ d → d ≤ 9 →
      validateLoop (a.postfix ++ l) d = if d + a.need ≤ 9 then validateLoop l (d + 1) else false)
    (ihb : ∀ (l : List Tok) (d : Int), -1 ≤ d → d ≤ 9 →
      validateLoop (b.postfix ++ l) d = if d + b.need ≤ 9 then validateLoop l (d + 1) else false)
    (l : List Tok) (d : Int) (h1 : -1 ≤ d) (h2 : d ≤ 9) :
    validateLoop (a.postfix ++ b.postfix ++ [t] ++ l) d =
      if d + ((max a.need (1 + b.need) : Nat) : Int) ≤ 9 then validateLoop l (d + 1) else false := by
  have hp := Cond.need_pos a
  have hq := Cond.need_pos b
  rw [List.append_assoc, List.append_assoc, iha _ _ h1 h2]
  by_cases ha : d + (a.need : Int) ≤ 9
  · rw [if_pos ha, ihb _ _ (by omega) (by omega)]
    by_cases hb : d + 1 + (b.need : Int) ≤ 9
    · rw [if_pos hb, List.singleton_append, validateLoop_bin ht, if_neg (by omega), if_pos (by omega)]
      congr 1
      omega
    · rw [if_neg hb, if_neg (by omega)]
  · rw [if_neg ha, if_neg (by omega)]

theorem validateLoop_postfix (t : BExpr) : ∀ (l : List Tok) (d : Int), -1 ≤ d → d ≤ 9 →
    validateLoop (t.postfix ++ l) d = if d + t.need ≤ 9 then validateLoop l (d + 1) else false := by
  induction t with
  | var n =>
    intro l d h1 h2
    simp only [BExpr.postfix, List.singleton_append, validateLoop]
    have hn : ((BExpr.var n).need : Int) = 1 := rfl
    have hm : (Cond.maxDepth : Int) - 1 = 9 := rfl
    by_cases h : d = 9
    · rw [if_pos (by omega), if_neg (by omega)]
    · rw [if_neg (by omega), if_pos (by omega)]
  | not a ih =>
    intro l d h1 h2
    have hp := Cond.need_pos a
    rw [BExpr.postfix, List.append_assoc, ih _ _ h1 h2, BExpr.need]
    by_cases h : d + (a.need : Int) ≤ 9
    · rw [if_pos h, if_pos h, List.singleton_append, validateLoop, if_neg (by omega)]
    · rw [if_neg h, if_neg h]
  | or a b iha ihb => exact validateLoop_bin_append (by simp) a b iha ihb
  | and a b iha ihb => exact validateLoop_bin_append (by simp) a b iha ihb
  | xor a b iha ihb => exact validateLoop_bin_append (by simp) a b iha ihb
  | eq a b iha ihb => exact validateLoop_bin_append (by simp) a b iha ihb
  | neq a b iha ihb => exact validateLoop_bin_append (by simp) a b iha ihb

theorem validate_postfix (t : BExpr) : validate t.postfix = decide (t.need ≤ 10) := by
  have h := validateLoop_postfix t [] (-1) (by omega) (by omega)
  rw [List.append_nil] at h
  unfold validate
  rw [h]
  by_cases hn : t.need ≤ 10
  · rw [if_pos (by omega)]; simp [validateLoop, hn]
  · rw [if_neg (by omega)]; simp [hn]

end Verif.CilCond
