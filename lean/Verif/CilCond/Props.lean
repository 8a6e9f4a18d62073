import Verif.CilCond.Lemmas2

/-!
# C78: the conditionals of CIL choose the block that their expression means
-/

namespace Verif.CilCond
open Cond (State Node SelectedBy)

/-- C78, reading: an expression is accepted exactly when it is the writing of an expression of the
language, and of one only. -/
theorem C78_syntax (t : Tree) :
    ((genExpr t).isSome ↔ ∃ e : Expr, e.Ok ∧ t = e.tree) ∧
    ∀ e e' : Expr, e.Ok → e'.Ok → t = e.tree → t = e'.tree → e = e' := by
  constructor
  · constructor
    · intro h
      obtain ⟨l, hl⟩ := Option.isSome_iff_exists.1 h
      exact genExpr_some hl
    · rintro ⟨e, he, rfl⟩
      rw [genExpr_tree he]
      rfl
  · intro e e' he he' h h'
    exact tree_inj e e' he he' (by rw [← h, h'])

/-- C78, tunables: the statement is accepted exactly when its blocks are well-formed, and its
expression is one of the language whose names are tunables; and its place is taken by the rules of
the block that the expression chooses. -/
theorem C78_tunableif (look : String → Option Bool) (s : Stmt) :
    ((tunableif look s).isSome ↔ BlocksOk s ∧ ∃ e : Expr, e.Ok ∧ s.expr = e.tree ∧ ∀ x ∈ e.names, (look x).isSome) ∧
    ∀ rs, tunableif look s = some rs → ∀ r, r ∈ rs ↔ Chooses (tunEnv look) s r := by
  have key : ∀ e : Expr, BlocksOk s → e.Ok → s.expr = e.tree → (∀ x ∈ e.names, (look x).isSome) →
      tunableif look s = some ((lastBlock (if e.val (tunEnv look) then "true" else "false") s.blocks).getD []) := by
    intro e hb he hs hg
    have h1 : genIf s = some (e.top id) := (genIf_iff s _).2 ⟨hb, e, he, hs, rfl⟩
    have h2 := resolveList_top look (tunEnv look) e (fun x hx => by
      have := hg x hx
      unfold tunEnv
      cases hl : look x with
      | none => rw [hl] at this; cases this
      | some v => rfl)
    unfold tunableif
    rw [h1]
    simp only [h2, tunList_top, take_blocks hb]
    cases e.val (tunEnv look) <;> rfl
  have back : ∀ rs, tunableif look s = some rs → BlocksOk s ∧ ∃ e : Expr, e.Ok ∧ s.expr = e.tree ∧
      ∀ x ∈ e.names, (look x).isSome := by
    intro rs h
    unfold tunableif at h
    cases h1 : genIf s with
    | none => simp [h1] at h
    | some l =>
      obtain ⟨hb, e, he, ht, rfl⟩ := (genIf_iff s l).1 h1
      simp only [h1] at h
      cases h2 : resolveList look (e.top id) with
      | none => simp [h2] at h
      | some l => exact ⟨hb, e, he, ht, resolveList_top_some look e (by rw [h2]; rfl)⟩
  constructor
  · constructor
    · intro h
      obtain ⟨rs, hrs⟩ := Option.isSome_iff_exists.1 h
      exact back rs hrs
    · rintro ⟨hb, e, he, hs, hg⟩
      rw [key e hb he hs hg]
      rfl
  · intro rs h r
    obtain ⟨hb, e, he, hs, hg⟩ := back rs h
    rw [key e hb he hs hg] at h
    rw [← Option.some.inj h, lastBlock_iff hb, chooses_iff he hs]

/-- C78, booleans, acceptance: the statements are compiled exactly when the blocks of each are
well-formed, its expression is one of the language whose names are booleans, and evaluating it takes
no more than ten values at a time. -/
theorem C78_accepts (σ : State) (look : String → Option Nat) (l : List Stmt) :
    (compile σ look l []).isSome ↔ ∀ s ∈ l, BlocksOk s ∧ ∃ e : Expr, e.Ok ∧ s.expr = e.tree ∧
      (∀ x ∈ e.names, (look x).isSome) ∧ e.need ≤ 10 := compile_some l []

/-- C78, booleans, as far as it holds: if statements with the same booleans mention them in the same
order, then a rule is selected in the compiled policy exactly when it is in the block that one of the
statements chooses, whatever the values of the booleans. -/
theorem C78_booleanif_partial (σ : State) (look : String → Option Nat) (l : List Stmt) (nodes : List Node)
    (hso : SameOrder look l) (h : compile σ look l [] = some nodes) (τ : State) (r : Nat) :
    SelectedBy τ nodes r ↔ ∃ s ∈ l, Chooses (env look τ) s r := by
  rw [compile_ok hso l [] nodes (fun _ h => h) (by intro m hm; cases hm) h τ r]
  simp [SelectedBy]

/-- C78, one statement: no assumption is needed. -/
theorem C78_single (σ : State) (look : String → Option Nat) (s : Stmt) (nodes : List Node)
    (h : compile σ look [s] [] = some nodes) (τ : State) (r : Nat) :
    SelectedBy τ nodes r ↔ Chooses (env look τ) s r := by
  rw [C78_booleanif_partial σ look [s] nodes ?_ h τ r]
  · simp
  · intro a ha b hb bs bs' ⟨e, he, h1, h2⟩ ⟨e', he', h1', h2'⟩ _ _
    simp only [List.mem_singleton] at ha hb
    subst ha hb
    rw [h2, h2', tree_inj e e' he he' (by rw [← h1, h1'])]

/-- C78, agreement: when the values of the booleans are those of the tunables of the same names, the
rules a `booleanif` selects are those a `tunableif` with the same text leaves. -/
theorem C78_agree (σ : State) (look : String → Option Nat) (tun : String → Option Bool) (s : Stmt) (nodes : List Node)
    (rs : List Nat) (h : compile σ look [s] [] = some nodes) (ht : tunableif tun s = some rs) (τ : State)
    (hv : ∀ x, env look τ x = tunEnv tun x) (r : Nat) : SelectedBy τ nodes r ↔ r ∈ rs := by
  rw [C78_single σ look s nodes h τ r, (C78_tunableif tun s).2 rs ht r]
  rw [show env look τ = tunEnv tun from funext hv]

/-! ### Examples -/

/-- `a` is boolean 1, `b` boolean 2, `c` boolean 3. -/
def exLook : String → Option Nat := fun s => if s = "a" then some 1 else if s = "b" then some 2 else if s = "c" then some 3 else none

/-- `(booleanif (not (or a (b c))) (false 21) (true 20))`. -/
def exStmt : Stmt :=
  ⟨(Expr.not (.bin .or (.name "a") (.any (.name "b") [.name "c"]))).tree, [("false", [21]), ("true", [20])]⟩

/-- `(booleanif (or a (b c)) (true 22))`. -/
def exStmt' : Stmt := ⟨(Expr.bin .or (.name "a") (.any (.name "b") [.name "c"])).tree, [("true", [22])]⟩

/-- The two statements share a conditional. -/
example : (compile (fun _ => false) exLook [exStmt, exStmt'] []).map
    (·.map (fun n => (n.expr, n.trueList, n.falseList))) =
    some [([.bool 1, .bool 2, .bool 3, .or, .or], [21, 22], [20])] := by decide +kernel

theorem ok_of {e : Expr} (h : e.names.all (fun s => !reserved.contains s) = true) : e.Ok := by
  intro s hs hr
  have := List.all_eq_true.1 h s hs
  simp [hr] at this

/-- The hypothesis of `C78_booleanif_partial` is met. -/
example : SameOrder exLook [exStmt, exStmt'] := by
  have h : ∀ s ∈ [exStmt, exStmt'], ∀ bs, Mentions exLook s bs → bs = [1, 2, 3] := by
    rintro s hs bs ⟨e, he, h1, h2⟩
    simp only [List.mem_cons, List.not_mem_nil, or_false] at hs
    rcases hs with rfl | rfl
    · rw [h2, tree_inj e _ he (ok_of (e := Expr.not (.bin .or (.name "a") (.any (.name "b") [.name "c"]))) (by decide +kernel))
        h1.symm]
      decide +kernel
    · rw [h2, tree_inj e _ he (ok_of (e := Expr.bin .or (.name "a") (.any (.name "b") [.name "c"])) (by decide +kernel))
        h1.symm]
      decide +kernel
  intro s hs s' hs' bs bs' hm hm' _ _
  rw [h s hs bs hm, h s' hs' bs' hm']

example : tunableif (fun s => if s = "a" then some false else some false) exStmt = some [20] := by decide +kernel
example : tunableif (fun s => if s = "c" then some true else some false) exStmt = some [21] := by decide +kernel

/-- Rejected: a third operand, an operator that is not an expression's, an operator as a name, an empty
list. -/
example : (genExpr (.list [.atom "and", .atom "a", .atom "b", .atom "c"])).isSome = false ∧
    (genExpr (.list [.atom "all"])).isSome = false ∧ (genExpr (.list [.atom "a", .atom "not"])).isSome = false ∧
    (genExpr (.list [.atom "a", .list []])).isSome = false := by decide +kernel

/-- Ten nested disjunctions to the right need eleven values. -/
def deep : Nat → Expr
  | 0 => .name "a"
  | n + 1 => .bin .or (.name "b") (deep n)

example : (deep 9).need = 10 ∧ (deep 10).need = 11 ∧
    (compile (fun _ => false) exLook [⟨(deep 9).tree, [("true", [1])]⟩] []).isSome = true ∧
    (compile (fun _ => false) exLook [⟨(deep 10).tree, [("true", [1])]⟩] []).isSome = false := by decide +kernel

/-- C78 does not hold in full: `(booleanif (and a (not b)) (true 20))` and
`(booleanif (and b (not a)) (true 30))` are merged, because their tables are the same when the booleans
are listed in different orders, so that with `a` true and `b` false rule 30 is selected although no
statement chooses it. -/
theorem C78_wrong_merge :
    let s1 : Stmt := ⟨(Expr.bin .and (.name "a") (.not (.name "b"))).tree, [("true", [20])]⟩
    let s2 : Stmt := ⟨(Expr.bin .and (.name "b") (.not (.name "a"))).tree, [("true", [30])]⟩
    ∃ nodes τ, compile (fun _ => false) exLook [s1, s2] [] = some nodes ∧ τ 1 = true ∧ τ 2 = false ∧
      SelectedBy τ nodes 30 ∧ ¬ ∃ s ∈ [s1, s2], Chooses (env exLook τ) s 30 := by
  refine ⟨[{ curState := 0, expr := [.bool 1, .bool 2, .not, .and], trueList := [20, 30], falseList := [], avTrue := [], avFalse := [], nbools := 2, boolIds := [1, 2], preComp := 2#32, flags := 0 }], fun n => n == 1, ?_, rfl, rfl, ?_, ?_⟩
  · decide +kernel
  · unfold SelectedBy
    decide
  · rintro ⟨s, hs, e, he, h1, b, hb, h2, h3⟩
    simp only [List.mem_cons, List.not_mem_nil, or_false] at hs
    rcases hs with rfl | rfl
    · simp only [List.mem_singleton] at hb
      subst hb
      simp at h3
    · have := tree_inj e (Expr.bin .and (.name "b") (.not (.name "a"))) he (ok_of (by decide +kernel)) h1.symm
      rw [this] at h2
      simp only [List.mem_singleton] at hb
      subst hb
      revert h2
      decide +kernel

end Verif.CilCond
