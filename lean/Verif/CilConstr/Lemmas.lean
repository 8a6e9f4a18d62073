import Verif.CilConstr.Spec
import Verif.CilCond.Lemmas
import Verif.CilBin.Lemmas3
import Verif.CilBin.Lemmas4
import Verif.Services.AvLemmas2

/-! Lemmas: the reading of expressions. -/

namespace Verif.CilConstr
open CilCond (Tree Syn verifySyntax verify_end)
open Services (Field Who Levels Rel)

/-! ### Syntax -/

theorem verify_string {t : Tree} {l : List Tree} {ss : List Syn} :
    verifySyntax (t :: l) ({ string := true } :: ss) = true ↔ (∃ s, t = .atom s) ∧ verifySyntax l ss = true := by
  match t with
  | .atom s => simp [verifySyntax]
  | .list [] => simp [verifySyntax]
  | .list (x :: xs) => simp [verifySyntax]

theorem verify_list {t : Tree} {l : List Tree} {ss : List Syn} :
    verifySyntax (t :: l) ({ list := true } :: ss) = true ↔ (∃ a as, t = .list (a :: as)) ∧ verifySyntax l ss = true := by
  match t with
  | .atom s => simp [verifySyntax]
  | .list [] => simp [verifySyntax]
  | .list (x :: xs) => simp [verifySyntax]

theorem verify_nil {s : Syn} {ss : List Syn} (h : s.stop = false) : verifySyntax [] (s :: ss) = false := by
  rw [verifySyntax]; exact h

theorem syntax_not {s : String} {l : List Tree} : verifyExpr (.atom s :: l) .not = true ↔ ∃ a as, l = [.list (a :: as)] := by
  unfold verifyExpr
  rw [verify_string]
  constructor
  · rintro ⟨-, h⟩
    cases l with
    | nil => rw [verify_nil rfl] at h; cases h
    | cons b l =>
      rw [verify_list, verify_end] at h
      obtain ⟨⟨a, as, rfl⟩, rfl⟩ := h
      exact ⟨a, as, rfl⟩
  · rintro ⟨a, as, rfl⟩
    exact ⟨⟨s, rfl⟩, verify_list.2 ⟨⟨a, as, rfl⟩, verify_end.2 rfl⟩⟩

theorem syntax_and {s : String} {l : List Tree} {op : Op} (ho : op = .and ∨ op = .or) :
    verifyExpr (.atom s :: l) op = true ↔ ∃ a as b bs, l = [.list (a :: as), .list (b :: bs)] := by
  have : verifyExpr (.atom s :: l) op =
      verifySyntax (.atom s :: l) [{ string := true }, { list := true }, { list := true }, { stop := true }] := by
    rcases ho with rfl | rfl <;> rfl
  rw [this, verify_string]
  constructor
  · rintro ⟨-, h⟩
    cases l with
    | nil => rw [verify_nil rfl] at h; cases h
    | cons x l =>
      rw [verify_list] at h
      obtain ⟨⟨a, as, rfl⟩, h⟩ := h
      cases l with
      | nil => rw [verify_nil rfl] at h; cases h
      | cons y l =>
        rw [verify_list, verify_end] at h
        obtain ⟨⟨b, bs, rfl⟩, rfl⟩ := h
        exact ⟨a, as, b, bs, rfl⟩
  · rintro ⟨a, as, b, bs, rfl⟩
    exact ⟨⟨s, rfl⟩, verify_list.2 ⟨⟨a, as, rfl⟩, verify_list.2 ⟨⟨b, bs, rfl⟩, verify_end.2 rfl⟩⟩⟩

theorem syntax_eq {s : String} {l : List Tree} {op : Op} (ho : op = .eq ∨ op = .neq) :
    verifyExpr (.atom s :: l) op = true ↔ ∃ a b, l = [.atom a, b] ∧ CilCond.Full b := by
  have : verifyExpr (.atom s :: l) op = verifySyntax (.atom s :: l)
      [{ string := true }, { string := true }, { string := true, list := true }, { stop := true }] := by
    rcases ho with rfl | rfl <;> rfl
  rw [this, verify_string]
  constructor
  · rintro ⟨-, h⟩
    cases l with
    | nil => rw [verify_nil rfl] at h; cases h
    | cons x l =>
      rw [verify_string] at h
      obtain ⟨⟨a, rfl⟩, h⟩ := h
      cases l with
      | nil => rw [verify_nil rfl] at h; cases h
      | cons y l =>
        rw [CilCond.verify_operand, verify_end] at h
        obtain ⟨hb, rfl⟩ := h
        exact ⟨a, y, rfl, hb⟩
  · rintro ⟨a, b, rfl, hb⟩
    exact ⟨⟨s, rfl⟩, verify_string.2 ⟨⟨a, rfl⟩, CilCond.verify_operand.2 ⟨hb, verify_end.2 rfl⟩⟩⟩

theorem syntax_dom {s : String} {l : List Tree} {op : Op} (ho : op = .dom ∨ op = .domby ∨ op = .incomp) :
    verifyExpr (.atom s :: l) op = true ↔ ∃ a b, l = [.atom a, .atom b] := by
  have : verifyExpr (.atom s :: l) op = verifySyntax (.atom s :: l)
      [{ string := true }, { string := true }, { string := true }, { stop := true }] := by
    rcases ho with rfl | rfl | rfl <;> rfl
  rw [this, verify_string]
  constructor
  · rintro ⟨-, h⟩
    cases l with
    | nil => rw [verify_nil rfl] at h; cases h
    | cons x l =>
      rw [verify_string] at h
      obtain ⟨⟨a, rfl⟩, h⟩ := h
      cases l with
      | nil => rw [verify_nil rfl] at h; cases h
      | cons y l =>
        rw [verify_string, verify_end] at h
        obtain ⟨⟨b, rfl⟩, rfl⟩ := h
        exact ⟨a, b, rfl⟩
  · rintro ⟨a, b, rfl⟩
    exact ⟨⟨s, rfl⟩, verify_string.2 ⟨⟨a, rfl⟩, verify_string.2 ⟨⟨b, rfl⟩, verify_end.2 rfl⟩⟩⟩

theorem verifyRest_strings {l : List Tree} : CilCond.verifyRest { nStrings := true } l = true ↔ ∃ ss : List String, l = ss.map .atom := by
  induction l with
  | nil => simp [CilCond.verifyRest]
  | cons t l ih =>
    cases t with
    | atom s =>
      rw [CilCond.verifyRest]
      simp only [if_true, ih]
      constructor
      · rintro ⟨ss, rfl⟩; exact ⟨s :: ss, rfl⟩
      · rintro ⟨ss, h⟩
        cases ss with
        | nil => cases h
        | cons x ss => exact ⟨ss, by simpa using (List.cons.inj h).2⟩
    | list l' =>
      have h1 : CilCond.verifyRest { nStrings := true } (.list l' :: l) = false := by
        cases l' <;> · rw [CilCond.verifyRest]; try simp
      rw [h1]
      constructor
      · intro h; cases h
      · rintro ⟨ss, h⟩
        cases ss <;> simp at h

theorem map_str (ss : List String) : (ss.map Tree.atom).map str = ss := by
  induction ss with
  | nil => rfl
  | cons s ss ih => simpa [str] using ih

theorem fillList_iff {t : Tree} {l : List Tree} {ns : List String} :
    fillList (t :: l) = some ns ↔ t :: l = ns.map .atom := by
  unfold fillList
  have hv : verifySyntax (t :: l) [{ nStrings := true }, { stop := true }] = true ↔ ∃ ss : List String, t :: l = ss.map .atom := by
    rw [← verifyRest_strings]
    cases t with
    | atom s => rw [verifySyntax]; simp
    | list l' =>
      cases l' with
      | nil => rw [verifySyntax, CilCond.verifyRest]; simp
      | cons a as => rw [verifySyntax]; simp
  by_cases h : verifySyntax (t :: l) [{ nStrings := true }, { stop := true }] = true
  · rw [if_pos h]
    obtain ⟨ss, hs⟩ := hv.1 h
    rw [hs, map_str]
    constructor
    · intro h; cases h; rfl
    · intro h
      have := congrArg (List.map str) h
      rw [map_str, map_str] at this
      rw [this]
  · rw [if_neg h]
    constructor
    · intro h; cases h
    · intro he; exact absurd (hv.2 ⟨ns, he⟩) h

/-! ### Words -/

theorem keyword_word (o : Operand) : keyword o.word = some o := by cases o <;> decide

theorem ite_cases {α : Type} {P : Prop} [Decidable P] {a b c : α} (h : (if P then a else b) = c) : P ∧ a = c ∨ ¬ P ∧ b = c := by
  by_cases hp : P
  · rw [if_pos hp] at h; exact .inl ⟨hp, h⟩
  · rw [if_neg hp] at h; exact .inr ⟨hp, h⟩

theorem keyword_some {s : String} {o : Operand} (h : keyword s = some o) : s = o.word := by
  unfold keyword at h
  rcases ite_cases h with ⟨hs, hc⟩ | ⟨-, h⟩
  · cases hc; exact hs
  rcases ite_cases h with ⟨hs, hc⟩ | ⟨-, h⟩
  · cases hc; exact hs
  rcases ite_cases h with ⟨hs, hc⟩ | ⟨-, h⟩
  · cases hc; exact hs
  rcases ite_cases h with ⟨hs, hc⟩ | ⟨-, h⟩
  · cases hc; exact hs
  rcases ite_cases h with ⟨hs, hc⟩ | ⟨-, h⟩
  · cases hc; exact hs
  rcases ite_cases h with ⟨hs, hc⟩ | ⟨-, h⟩
  · cases hc; exact hs
  rcases ite_cases h with ⟨hs, hc⟩ | ⟨-, h⟩
  · cases hc; exact hs
  rcases ite_cases h with ⟨hs, hc⟩ | ⟨-, h⟩
  · cases hc; exact hs
  rcases ite_cases h with ⟨hs, hc⟩ | ⟨-, h⟩
  · cases hc; exact hs
  rcases ite_cases h with ⟨hs, hc⟩ | ⟨-, h⟩
  · cases hc; exact hs
  rcases ite_cases h with ⟨hs, hc⟩ | ⟨-, h⟩
  · cases hc; exact hs
  rcases ite_cases h with ⟨hs, hc⟩ | ⟨-, h⟩
  · cases hc; exact hs
  rcases ite_cases h with ⟨hs, hc⟩ | ⟨-, h⟩
  · cases hc; exact hs
  cases h

theorem keyword_none {s : String} : keyword s = none ↔ s ∉ reserved := by
  constructor
  · intro h hm
    have : ∀ o : Operand, s ≠ o.word := by
      rintro o rfl
      have := keyword_word o
      rw [h] at this
      cases this
    simp only [reserved, List.mem_cons, List.not_mem_nil, or_false] at hm
    rcases hm with h | h | h | h | h | h | h | h | h | h | h | h | h
    · exact this .t1 h
    · exact this .t2 h
    · exact this .t3 h
    · exact this .r1 h
    · exact this .r2 h
    · exact this .r3 h
    · exact this .u1 h
    · exact this .u2 h
    · exact this .u3 h
    · exact this .l1 h
    · exact this .l2 h
    · exact this .h1 h
    · exact this .h2 h
  · intro h
    cases hk : keyword s with
    | none => rfl
    | some o =>
      rw [keyword_some hk] at h
      exact absurd (by cases o <;> decide) h

def Op.word : Op → String
  | .and => "and"
  | .or => "or"
  | .not => "not"
  | .eq => "eq"
  | .neq => "neq"
  | .dom => "dom"
  | .domby => "domby"
  | .incomp => "incomp"

theorem opOf_word (o : Op) : opOf o.word = some o := by cases o <;> decide

theorem opOf_some {s : String} {o : Op} (h : opOf s = some o) : s = o.word := by
  unfold opOf at h
  rcases ite_cases h with ⟨hs, hc⟩ | ⟨-, h⟩
  · cases hc; exact hs
  rcases ite_cases h with ⟨hs, hc⟩ | ⟨-, h⟩
  · cases hc; exact hs
  rcases ite_cases h with ⟨hs, hc⟩ | ⟨-, h⟩
  · cases hc; exact hs
  rcases ite_cases h with ⟨hs, hc⟩ | ⟨-, h⟩
  · cases hc; exact hs
  rcases ite_cases h with ⟨hs, hc⟩ | ⟨-, h⟩
  · cases hc; exact hs
  rcases ite_cases h with ⟨hs, hc⟩ | ⟨-, h⟩
  · cases hc; exact hs
  rcases ite_cases h with ⟨hs, hc⟩ | ⟨-, h⟩
  · cases hc; exact hs
  rcases ite_cases h with ⟨hs, hc⟩ | ⟨-, h⟩
  · cases hc; exact hs
  cases h

def relOp : Rel → Op
  | .eq => .eq
  | .neq => .neq
  | .dom => .dom
  | .domby => .domby
  | .incomp => .incomp

def eqOp (n : Bool) : Op := if n then .neq else .eq

def operand : Who → Field → Operand
  | .src, .user => .u1
  | .tgt, .user => .u2
  | .third, .user => .u3
  | .src, .role => .r1
  | .tgt, .role => .r2
  | .third, .role => .r3
  | .src, .type => .t1
  | .tgt, .type => .t2
  | .third, .type => .t3

def Levels.ops : Levels → Operand × Operand
  | .l1l2 => (.l1, .l2)
  | .l1h2 => (.l1, .h2)
  | .h1l2 => (.h1, .l2)
  | .h1h2 => (.h1, .h2)
  | .l1h1 => (.l1, .h1)
  | .l2h2 => (.l2, .h2)

theorem rel_word (r : Rel) : Rel.word r = (relOp r).word := by cases r <;> rfl

theorem eq_word (n : Bool) : eqWord n = (eqOp n).word := by cases n <;> rfl

theorem part_word (w : Who) (f : Field) : part w f = (operand w f).word := by cases w <;> cases f <;> rfl

theorem levels_word (ls : Levels) : Levels.words ls = ((Levels.ops ls).1.word, (Levels.ops ls).2.word) := by cases ls <;> rfl

theorem flavor_word (o : Operand) : operandFlavor (.atom o.word) = .key o := by
  unfold operandFlavor; simp only [keyword_word]

theorem flavor_name {s : String} (h : s ∉ reserved) : operandFlavor (.atom s) = .string := by
  unfold operandFlavor; simp only [keyword_none.2 h]

theorem operand_flavor (w : Who) (f : Field) : (operand w f).flavor = fieldFlavor f := by cases w <;> cases f <;> rfl

/-! ### Leaves -/

/-- The right operand of names. -/
def Names.right : Names → Right String
  | .one s => .one s
  | .many s l => .list (s :: l)

/-- The lists made of an expression. -/
def Expr.cons : Expr → Cons String
  | .same f n => .leaf (fieldFlavor f) (eqOp n) (operand .src f) (.key (operand .tgt f))
  | .roles r => .leaf .role (relOp r) .r1 (.key .r2)
  | .levels ls r => .leaf .level (relOp r) (Levels.ops ls).1 (.key (Levels.ops ls).2)
  | .is w f n ns => .leaf (fieldFlavor f) (eqOp n) (operand w f) ns.right
  | .not e => .not e.cons
  | .and a b => .and a.cons b.cons
  | .or a b => .or a.cons b.cons
  | .looseL1 r l => .leaf l.flavor (relOp r) l (.key .l1)
  | .looseName r w f s => .leaf (fieldFlavor f) (relOp r) (operand w f) (.one s)

theorem fillLeaf_key {vt : Bool} {op : Op} {a b : Operand} (h : verifyLeaf vt a (.key b) op = true) :
    fillLeaf vt op (.atom a.word) (.atom b.word) = some (.leaf a.flavor op a (.key b)) := by
  unfold fillLeaf
  simp only [flavor_word, h, Bool.not_true, Bool.false_eq_true, if_false]

theorem fillLeaf_name {vt : Bool} {op : Op} {a : Operand} {s : String} (hs : s ∉ reserved) (h : verifyLeaf vt a .string op = true) :
    fillLeaf vt op (.atom a.word) (.atom s) = some (.leaf a.flavor op a (.one s)) := by
  unfold fillLeaf
  simp only [flavor_word, flavor_name hs, h, Bool.not_true, Bool.false_eq_true, if_false, str]

theorem fillLeaf_names {vt : Bool} {op : Op} {a : Operand} {s : String} {l : List String} (h : verifyLeaf vt a .list op = true) :
    fillLeaf vt op (.atom a.word) (.list (.atom s :: l.map .atom)) = some (.leaf a.flavor op a (.list (s :: l))) := by
  unfold fillLeaf
  have h1 : fillList (.atom s :: l.map .atom) = some (s :: l) := fillList_iff.2 rfl
  have h2 : operandFlavor (.list (.atom s :: l.map .atom)) = .list := rfl
  simp only [flavor_word, h2, h, Bool.not_true, Bool.false_eq_true, if_false, h1, Option.map_some]

theorem fill_leaf {vt : Bool} {op : Op} (ho : op ≠ .not ∧ op ≠ .and ∧ op ≠ .or) {a b : Tree} {s : String} (hs : s = op.word)
    (h : verifyExpr [.atom s, a, b] op = true) : fill vt (.list [.atom s, a, b]) = fillLeaf vt op a b := by
  subst hs
  unfold fill
  simp only [opOf_word, h, Bool.not_true, Bool.false_eq_true, if_false]
  cases op <;> first | rfl | (simp at ho)

theorem verifyLeaf_part {vt : Bool} {w : Who} {f : Field} {op : Op} {r : OperandFlavor} (hr : r = .string ∨ r = .list)
    (h : w = .third → vt = true) : verifyLeaf vt (operand w f) r op = true := by
  rcases hr with rfl | rfl <;> cases w <;> cases f <;> simp_all [verifyLeaf, operand]

theorem relOp_leaf (r : Rel) : relOp r ≠ .not ∧ relOp r ≠ .and ∧ relOp r ≠ .or := by cases r <;> simp [relOp]

theorem eqOp_leaf (n : Bool) : eqOp n ≠ .not ∧ eqOp n ≠ .and ∧ eqOp n ≠ .or := by cases n <;> simp [eqOp]

theorem eqOp_cases (n : Bool) : eqOp n = .eq ∨ eqOp n = .neq := by cases n <;> simp [eqOp]

theorem syntax_rel (r : Rel) (s a b : String) : verifyExpr [.atom s, .atom a, .atom b] (relOp r) = true := by
  cases r
  · exact (syntax_eq (.inl rfl)).2 ⟨a, .atom b, rfl, by simp [CilCond.Full]⟩
  · exact (syntax_eq (.inr rfl)).2 ⟨a, .atom b, rfl, by simp [CilCond.Full]⟩
  · exact (syntax_dom (.inl rfl)).2 ⟨a, b, rfl⟩
  · exact (syntax_dom (.inr (.inl rfl))).2 ⟨a, b, rfl⟩
  · exact (syntax_dom (.inr (.inr rfl))).2 ⟨a, b, rfl⟩

theorem tree_list (e : Expr) : ∃ a as, e.tree = .list (a :: as) := by
  cases e <;> exact ⟨_, _, rfl⟩

theorem fill_tree {vt : Bool} : ∀ {e : Expr}, e.Ok vt → fill vt e.tree = some e.cons
  | .same f n, _ => by
    rw [Expr.tree, fill_leaf (eqOp_leaf n) (eq_word n), part_word, part_word, fillLeaf_key, operand_flavor]
    · rfl
    · cases f <;> cases n <;> cases vt <;> decide
    · exact (syntax_eq (eqOp_cases n)).2 ⟨_, _, rfl, by simp [CilCond.Full]⟩
  | .roles r, _ => by
    rw [Expr.tree, fill_leaf (relOp_leaf r) (rel_word r) (syntax_rel r _ _ _)]
    exact fillLeaf_key (a := .r1) (b := .r2) (by cases r <;> cases vt <;> decide)
  | .levels ls r, _ => by
    rw [Expr.tree, fill_leaf (relOp_leaf r) (rel_word r) (syntax_rel r _ _ _), levels_word, fillLeaf_key]
    · have : (Levels.ops ls).1.flavor = .level := by cases ls <;> rfl
      rw [this]; rfl
    · cases r <;> cases ls <;> cases vt <;> decide
  | .is w f n (.one s), h => by
    rw [Expr.tree, fill_leaf (eqOp_leaf n) (eq_word n), part_word, Names.tree, fillLeaf_name h.1 (verifyLeaf_part (.inl rfl) h.2),
      operand_flavor]
    · rfl
    · exact (syntax_eq (eqOp_cases n)).2 ⟨_, _, rfl, by simp [CilCond.Full, Names.tree]⟩
  | .is w f n (.many s l), h => by
    rw [Expr.tree, fill_leaf (eqOp_leaf n) (eq_word n), part_word, Names.tree, fillLeaf_names (verifyLeaf_part (.inr rfl) h.2),
      operand_flavor]
    · rfl
    · exact (syntax_eq (eqOp_cases n)).2 ⟨_, _, rfl, by simp [CilCond.Full, Names.tree]⟩
  | .not e, h => by
    have ih := fill_tree (e := e) h
    obtain ⟨a, as, ha⟩ := tree_list e
    have hs : verifyExpr [.atom "not", e.tree] .not = true := syntax_not.2 ⟨a, as, by rw [ha]⟩
    have ho : opOf "not" = some .not := by decide
    rw [Expr.tree, fill]
    simp only [ho, hs, Bool.not_true, Bool.false_eq_true, if_false, ih, Option.map_some]
    rfl
  | .and x y, h => by
    have ih1 := fill_tree (e := x) h.1
    have ih2 := fill_tree (e := y) h.2
    obtain ⟨a, as, ha⟩ := tree_list x
    obtain ⟨b, bs, hb⟩ := tree_list y
    have hs : verifyExpr [.atom "and", x.tree, y.tree] .and = true := (syntax_and (.inl rfl)).2 ⟨a, as, b, bs, by rw [ha, hb]⟩
    have ho : opOf "and" = some .and := by decide
    rw [Expr.tree, fill]
    simp only [ho, hs, Bool.not_true, Bool.false_eq_true, if_false, ih1, ih2, Option.map_some, Option.bind_some]
    rfl
  | .or x y, h => by
    have ih1 := fill_tree (e := x) h.1
    have ih2 := fill_tree (e := y) h.2
    obtain ⟨a, as, ha⟩ := tree_list x
    obtain ⟨b, bs, hb⟩ := tree_list y
    have hs : verifyExpr [.atom "or", x.tree, y.tree] .or = true := (syntax_and (.inr rfl)).2 ⟨a, as, b, bs, by rw [ha, hb]⟩
    have ho : opOf "or" = some .or := by decide
    rw [Expr.tree, fill]
    simp only [ho, hs, Bool.not_true, Bool.false_eq_true, if_false, ih1, ih2, Option.map_some, Option.bind_some]
    rfl
  | .looseL1 r l, _ => by
    rw [Expr.tree, fill_leaf (relOp_leaf r) (rel_word r) (syntax_rel r _ _ _)]
    exact fillLeaf_key (a := l) (b := .l1) (by simp [verifyLeaf])
  | .looseName r w f s, h => by
    rw [Expr.tree, fill_leaf (relOp_leaf r) (rel_word r) (syntax_rel r _ _ _), part_word,
      fillLeaf_name h.2.2.1 (verifyLeaf_part (.inl rfl) h.2.2.2), operand_flavor]
    rfl

/-! ### The other direction -/

theorem rel_of_op {op : Op} (h : op ≠ .not ∧ op ≠ .and ∧ op ≠ .or) : ∃ r, op = relOp r := by
  cases op with
  | eq => exact ⟨.eq, rfl⟩
  | neq => exact ⟨.neq, rfl⟩
  | dom => exact ⟨.dom, rfl⟩
  | domby => exact ⟨.domby, rfl⟩
  | incomp => exact ⟨.incomp, rfl⟩
  | _ => simp at h

theorem operand_cases (o : Operand) : (∃ w f, o = operand w f) ∨ o = .l1 ∨ o = .l2 ∨ o = .h1 ∨ o = .h2 := by
  cases o
  · exact .inl ⟨.src, .type, rfl⟩
  · exact .inl ⟨.tgt, .type, rfl⟩
  · exact .inl ⟨.third, .type, rfl⟩
  · exact .inl ⟨.src, .role, rfl⟩
  · exact .inl ⟨.tgt, .role, rfl⟩
  · exact .inl ⟨.third, .role, rfl⟩
  · exact .inl ⟨.src, .user, rfl⟩
  · exact .inl ⟨.tgt, .user, rfl⟩
  · exact .inl ⟨.third, .user, rfl⟩
  · simp
  · simp
  · simp
  · simp

theorem verifyLeaf_string {vt : Bool} {o : Operand} {op : Op} {r : OperandFlavor} (hr : r = .string ∨ r = .list)
    (h : verifyLeaf vt o r op = true) : ∃ w f, o = operand w f ∧ (w = .third → vt = true) := by
  rcases operand_cases o with ⟨w, f, rfl⟩ | ho
  · refine ⟨w, f, rfl, ?_⟩
    rintro rfl
    rcases hr with rfl | rfl <;> cases f <;> simpa [verifyLeaf, operand] using h
  · rcases hr with rfl | rfl <;> rcases ho with rfl | rfl | rfl | rfl <;> simp [verifyLeaf] at h

/-- Every comparison of two keywords that is accepted. -/
theorem verifyLeaf_key {vt : Bool} {o k : Operand} {r : Rel} (h : verifyLeaf vt o (.key k) (relOp r) = true) :
    ∃ e : Expr, e.Ok vt ∧ Tree.list [.atom (Rel.word r), .atom o.word, .atom k.word] = e.tree := by
  have hl : ∀ ls : Levels, o = (Levels.ops ls).1 → k = (Levels.ops ls).2 →
      ∃ e : Expr, e.Ok vt ∧ Tree.list [.atom (Rel.word r), .atom o.word, .atom k.word] = e.tree := by
    rintro ls rfl rfl
    exact ⟨.levels ls r, trivial, by rw [Expr.tree, levels_word]⟩
  cases k with
  | u1 => simp [verifyLeaf] at h
  | r1 => simp [verifyLeaf] at h
  | t1 => simp [verifyLeaf] at h
  | u3 => simp [verifyLeaf] at h
  | r3 => simp [verifyLeaf] at h
  | t3 => simp [verifyLeaf] at h
  | l1 => exact ⟨.looseL1 r o, trivial, rfl⟩
  | u2 =>
    cases r <;> simp [verifyLeaf, relOp] at h <;> subst h
    · exact ⟨.same .user false, trivial, rfl⟩
    · exact ⟨.same .user true, trivial, rfl⟩
  | t2 =>
    cases r <;> simp [verifyLeaf, relOp] at h <;> subst h
    · exact ⟨.same .type false, trivial, rfl⟩
    · exact ⟨.same .type true, trivial, rfl⟩
  | r2 =>
    simp [verifyLeaf] at h
    subst h
    exact ⟨.roles r, trivial, rfl⟩
  | l2 =>
    simp [verifyLeaf] at h
    rcases h with rfl | rfl
    · exact hl .l1l2 rfl rfl
    · exact hl .h1l2 rfl rfl
  | h2 =>
    simp [verifyLeaf] at h
    rcases h with rfl | rfl | rfl
    · exact hl .l1h2 rfl rfl
    · exact hl .l2h2 rfl rfl
    · exact hl .h1h2 rfl rfl
  | h1 =>
    simp [verifyLeaf] at h
    subst h
    exact hl .l1h1 rfl rfl

theorem fillLeaf_some {vt : Bool} {r : Rel} {a b : Tree} {c : Cons String} (ha : ∃ s, a = .atom s)
    (hb : (r = .eq ∨ r = .neq) ∧ CilCond.Full b ∨ ∃ s, b = .atom s)
    (h : fillLeaf vt (relOp r) a b = some c) : ∃ e : Expr, e.Ok vt ∧ Tree.list [.atom (Rel.word r), a, b] = e.tree := by
  obtain ⟨s, rfl⟩ := ha
  unfold fillLeaf at h
  cases hs : operandFlavor (.atom s) with
  | string => simp [hs] at h
  | list => simp [hs] at h
  | key o =>
    simp only [hs] at h
    have hso : s = o.word := by
      unfold operandFlavor at hs
      cases hk : keyword s with
      | none => simp [hk] at hs
      | some o' => simp [hk] at hs; subst hs; exact keyword_some hk
    subst hso
    by_cases hv : verifyLeaf vt o (operandFlavor b) (relOp r) = true
    · simp only [hv, Bool.not_true, Bool.false_eq_true, if_false] at h
      cases hf : operandFlavor b with
      | key k =>
        rw [hf] at hv
        have hbk : b = .atom k.word := by
          cases b with
          | list l => simp [operandFlavor] at hf
          | atom s =>
            unfold operandFlavor at hf
            cases hk : keyword s with
            | none => simp [hk] at hf
            | some o' => simp [hk] at hf; subst hf; rw [keyword_some hk]
        subst hbk
        exact verifyLeaf_key hv
      | string =>
        rw [hf] at hv
        cases b with
        | list l => simp [operandFlavor] at hf
        | atom s' =>
          have hs' : s' ∉ reserved := by
            rw [← keyword_none]
            unfold operandFlavor at hf
            cases hk : keyword s' with
            | none => rfl
            | some o' => simp [hk] at hf
          obtain ⟨w, f, rfl, hw⟩ := verifyLeaf_string (.inl rfl) hv
          by_cases hr : r = .eq
          · subst hr; exact ⟨.is w f false (.one s'), ⟨hs', hw⟩, by rw [Expr.tree, part_word]; rfl⟩
          · by_cases hr' : r = .neq
            · subst hr'; exact ⟨.is w f true (.one s'), ⟨hs', hw⟩, by rw [Expr.tree, part_word]; rfl⟩
            · exact ⟨.looseName r w f s', ⟨hr, hr', hs', hw⟩, by rw [Expr.tree, part_word]⟩
      | list =>
        rw [hf] at hv
        obtain ⟨w, f, rfl, hw⟩ := verifyLeaf_string (.inr rfl) hv
        cases b with
        | atom s' =>
          unfold operandFlavor at hf
          cases hk : keyword s' <;> simp [hk] at hf
        | list ts =>
          rcases hb with ⟨hr, hfull⟩ | ⟨s', hb⟩
          · cases ts with
            | nil => simp [CilCond.Full] at hfull
            | cons t ts =>
              simp only [hf] at h
              cases hl : fillList (t :: ts) with
              | none => rw [hl] at h; cases h
              | some ns =>
                have hl := fillList_iff.1 hl
                cases ns with
                | nil => cases hl
                | cons n ns =>
                  have h1 : Tree.list (t :: ts) = (Names.many n ns).tree := by rw [hl]; rfl
                  rw [h1]
                  rcases hr with rfl | rfl
                  · exact ⟨.is w f false (.many n ns), ⟨trivial, hw⟩, by rw [Expr.tree, part_word]; rfl⟩
                  · exact ⟨.is w f true (.many n ns), ⟨trivial, hw⟩, by rw [Expr.tree, part_word]; rfl⟩
          · cases hb
    · simp [hv] at h

theorem fill_some {vt : Bool} : ∀ (t : Tree) (c : Cons String), fill vt t = some c → ∃ e : Expr, e.Ok vt ∧ t = e.tree
  | .atom _, c, h => by rw [fill] at h; cases h
  | .list [], c, h => by rw [fill] at h; cases h
  | .list (.list _ :: _), c, h => by rw [fill] at h; cases h
  | .list [.atom s], c, h => by
    rw [fill] at h
    cases ho : opOf s with
    | none => simp [ho] at h
    | some op =>
      simp only [ho] at h
      split at h <;> cases h
  | .list [.atom s, a], c, h => by
    rw [fill] at h
    cases ho : opOf s with
    | none => simp [ho] at h
    | some op =>
      have hs := opOf_some ho
      simp only [ho] at h
      split at h
      · cases h
      · cases op with
        | not =>
          simp only at h
          cases ha : fill vt a with
          | none => rw [ha] at h; cases h
          | some x =>
            obtain ⟨e, he, hte⟩ := fill_some a x ha
            exact ⟨.not e, he, by rw [hs, Expr.tree, ← hte]; rfl⟩
        | _ => cases h
  | .list (.atom s :: a :: b :: l), c, h => by
    rw [fill] at h
    cases ho : opOf s with
    | none => simp [ho] at h
    | some op =>
      have hs := opOf_some ho
      simp only [ho] at h
      split at h
      · cases h
      · rename_i hv
        simp only [Bool.not_eq_true', Bool.not_eq_false] at hv
        have hrel : ∀ r : Rel, op = relOp r → fillLeaf vt op a b = some c → ∃ e : Expr, e.Ok vt ∧ Tree.list (.atom s :: a :: b :: l) = e.tree := by
          rintro r rfl hc
          have : l = [] ∧ (∃ s, a = .atom s) ∧ ((r = .eq ∨ r = .neq) ∧ CilCond.Full b ∨ ∃ s, b = .atom s) := by
            cases r with
            | eq =>
              obtain ⟨x, y, h1, h2⟩ := (syntax_eq (.inl rfl)).1 hv
              cases h1; exact ⟨rfl, ⟨x, rfl⟩, .inl ⟨.inl rfl, h2⟩⟩
            | neq =>
              obtain ⟨x, y, h1, h2⟩ := (syntax_eq (.inr rfl)).1 hv
              cases h1; exact ⟨rfl, ⟨x, rfl⟩, .inl ⟨.inr rfl, h2⟩⟩
            | dom =>
              obtain ⟨x, y, h1⟩ := (syntax_dom (.inl rfl)).1 hv
              cases h1; exact ⟨rfl, ⟨x, rfl⟩, .inr ⟨y, rfl⟩⟩
            | domby =>
              obtain ⟨x, y, h1⟩ := (syntax_dom (.inr (.inl rfl))).1 hv
              cases h1; exact ⟨rfl, ⟨x, rfl⟩, .inr ⟨y, rfl⟩⟩
            | incomp =>
              obtain ⟨x, y, h1⟩ := (syntax_dom (.inr (.inr rfl))).1 hv
              cases h1; exact ⟨rfl, ⟨x, rfl⟩, .inr ⟨y, rfl⟩⟩
          obtain ⟨rfl, h1, h2⟩ := this
          rw [hs, ← rel_word]
          exact fillLeaf_some h1 h2 hc
        cases op with
        | not =>
          obtain ⟨x, y, h1⟩ := syntax_not.1 hv
          cases h1
        | and =>
          obtain ⟨x, xs, y, ys, h1⟩ := (syntax_and (.inl rfl)).1 hv
          cases h1
          simp only at h
          cases ha : fill vt (.list (x :: xs)) with
          | none => rw [ha] at h; cases h
          | some u =>
            cases hb : fill vt (.list (y :: ys)) with
            | none => rw [ha, hb] at h; cases h
            | some v =>
              obtain ⟨e, he, hte⟩ := fill_some _ u ha
              obtain ⟨e', he', hte'⟩ := fill_some _ v hb
              exact ⟨.and e e', ⟨he, he'⟩, by rw [hs, Expr.tree, ← hte, ← hte']; rfl⟩
        | or =>
          obtain ⟨x, xs, y, ys, h1⟩ := (syntax_and (.inr rfl)).1 hv
          cases h1
          simp only at h
          cases ha : fill vt (.list (x :: xs)) with
          | none => rw [ha] at h; cases h
          | some u =>
            cases hb : fill vt (.list (y :: ys)) with
            | none => rw [ha, hb] at h; cases h
            | some v =>
              obtain ⟨e, he, hte⟩ := fill_some _ u ha
              obtain ⟨e', he', hte'⟩ := fill_some _ v hb
              exact ⟨.or e e', ⟨he, he'⟩, by rw [hs, Expr.tree, ← hte, ← hte']; rfl⟩
        | eq => exact hrel .eq rfl h
        | neq => exact hrel .neq rfl h
        | dom => exact hrel .dom rfl h
        | domby => exact hrel .domby rfl h
        | incomp => exact hrel .incomp rfl h

end Verif.CilConstr
