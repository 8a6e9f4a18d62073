import Verif.CilConstr.Lemmas2

/-! Lemmas: the meaning of the expressions of the policy. -/

namespace Verif.CilConstr
open Ebitmap (Ebitmap)
open CilDeny (BOk)
open Policy
open Services (Field Who Levels Rel CExpr Postfix Denotes Atom CtxOk)

/-- The list is the expression in the notation of the policy. -/
structure Meaning (db : Db) (look : Flavor → String → Option Datum) (e : Expr) (l : List CExpr) (tr : Services.Tree) : Prop where
  postfix' : Postfix l tr
  cells : tr.cells = e.need
  third : e.Ok false → tr.usesThird = false
  holds : ∀ p s t x, CtxOk p s → CtxOk p t → (∀ c, x = some c → CtxOk p c) →
    (tr.Holds p s t x ↔ e.Holds (Named db look) p s t x)

theorem get_pos {p : Policy} {c : Context} (h : CtxOk p c) (f : Field) : 1 ≤ f.get c := by
  cases f
  · exact h.user.1
  · exact h.role.1
  · exact h.type.1

theorem eqs_iff {P : Prop} {n : Bool} : (P ↔ n = false) ↔ Eqs P n := by cases n <;> simp [Eqs]

theorem attr_part (w : Who) (f : Field) (r : Option Operand) : attrOf (operand w f) r = some (f.code + w.code) := by
  cases w <;> cases f <;> rfl

theorem attr_levels (ls : Levels) : attrOf (Levels.ops ls).1 (some (Levels.ops ls).2) = some ls.code := by
  cases ls <;> rfl

theorem opCode_rel (r : Rel) : opCode (relOp r) = r.code := by cases r <;> rfl

theorem opCode_eq (n : Bool) : opCode (eqOp n) = if n then 2 else 1 := by cases n <;> rfl

/-- What the names stand for. -/
theorem named_iff {db : Db} {look : Flavor → String → Option Datum} {f : Field} {l : List String} {ds : List Datum}
    (h : ∀ d, d ∈ ds ↔ ∃ s ∈ l, look (fieldFlavor f) s = some d) (v : Nat) :
    (∃ d ∈ ds, ∃ i, d.Mem i ∧ db.value (fieldFlavor f) i = some v) ↔ ∃ a ∈ l, Named db look f a v := by
  constructor
  · rintro ⟨d, hd, i, h1, h2⟩
    obtain ⟨s, hs, h3⟩ := (h d).1 hd
    exact ⟨s, hs, d, i, h3, h1, h2⟩
  · rintro ⟨s, hs, d, i, h3, h1, h2⟩
    exact ⟨d, (h d).2 ⟨s, hs, h3⟩, i, h1, h2⟩

/-- The comparison with names. -/
theorem names_meaning {db : Db} {look : Flavor → String → Option Datum} {w : Who} {f : Field} {n : Bool} {ns : Names} {ds : List Datum}
    (h : ∀ d, d ∈ ds ↔ ∃ s ∈ ns.all, look (fieldFlavor f) s = some d) {e : CExpr} {T : Nat → Prop}
    (h1 : e.exprType = 5) (h2 : e.attr = f.code + w.code) (h3 : e.op = if n then 2 else 1)
    (h4 : HasNames e (fun k => False ∨ ∃ d ∈ ds, ∃ i, d.Mem i ∧ db.value (fieldFlavor f) i = some (k + 1)) T) :
    Meaning db look (.is w f n ns) [e] (.atom (.names w f n e.names)) where
  postfix' := .atom ⟨h1, h2, h3, rfl⟩
  cells := rfl
  third := by
    intro h
    cases w with
    | third => exact absurd (h.2 rfl) (by simp)
    | _ => rfl
  holds := by
    intro p s t x hs ht hx
    simp only [Services.Tree.Holds, Atom.Holds, Expr.Holds]
    constructor
    · rintro ⟨c, hc, hh⟩
      refine ⟨c, hc, ?_⟩
      have hpos : 1 ≤ f.get c := by
        cases w with
        | src => cases hc; exact get_pos hs f
        | tgt => cases hc; exact get_pos ht f
        | third => exact get_pos (hx c hc) f
      rw [h4.names.2] at hh
      simp only [false_or] at hh
      rw [Nat.sub_add_cancel hpos, named_iff h, eqs_iff] at hh
      exact hh
    · rintro ⟨c, hc, hh⟩
      refine ⟨c, hc, ?_⟩
      have hpos : 1 ≤ f.get c := by
        cases w with
        | src => cases hc; exact get_pos hs f
        | tgt => cases hc; exact get_pos ht f
        | third => exact get_pos (hx c hc) f
      rw [h4.names.2]
      simp only [false_or]
      rw [Nat.sub_add_cancel hpos, named_iff h, eqs_iff]
      exact hh

theorem init_names (a b c : Nat) : HasNames { exprInit with op := a, attr := b, exprType := c } (fun _ => False) (fun _ => False) :=
  ⟨CilDeny.init_ok, CilDeny.init_ok, rfl, rfl⟩

theorem known_datum {db : Db} {look : Flavor → String → Option Datum} {f : Field} {s : String} (h : Known db look f s) {d : Datum}
    (hd : look (fieldFlavor f) s = some d) : d.Known db f := by
  obtain ⟨d', h1, h2, h3⟩ := h
  rw [hd] at h1
  cases h1
  exact ⟨h2, h3⟩

theorem is_ok {db : Db} {look : Flavor → String → Option Datum} (ok : DbOk db look) (w : Who) (f : Field) (n : Bool) (ns : Names)
    (hk : ∀ s ∈ ns.all, Known db look f s) :
    ∃ c e T, resolve look (Expr.is w f n ns).cons = some c ∧ toSepol db c = some [e] ∧
      Meaning db look (.is w f n ns) [e] (.atom (.names w f n e.names)) ∧ HasNames e T
      (fun k => False ∨ f = .type ∧ db.withNames = true ∧ ∃ s ∈ ns.all, ∃ d, look .type s = some d ∧ d.IsType db (k + 1)) := by
  cases ns with
  | one s =>
    have hkn := hk s (by simp [Names.all])
    obtain ⟨d, h1, h2⟩ := hkn
    obtain ⟨e, e1, e2, e3, e4, e5⟩ := datumToSepol_ok ok.value (ok.datum _ _ _ h1) (known_datum ⟨d, h1, h2⟩ h1)
      (init_names (opCode (eqOp n)) (f.code + w.code) Services.NAMES)
    refine ⟨.leaf (fieldFlavor f) (eqOp n) (operand w f) (.one d), e, _, ?_, ?_, ?_,
      ⟨e5.names, e5.types.congr fun k => ?_, e5.negset, e5.flags⟩⟩
    · simp only [Expr.cons, Names.right, resolve, h1, Option.map_some]
    · simp only [toSepol, leafToSepol, attr_part, e1, Option.map_some]
    · refine names_meaning (ds := [d]) (T := fun n => False ∨ f = .type ∧ db.withNames = true ∧ d.IsType db (n + 1))
        (fun x => by simp [Names.all, h1, eq_comm]) e4 e2 (e3.trans (opCode_eq n))
        ⟨e5.names.congr fun k => by simp, e5.types, e5.negset, e5.flags⟩
    · constructor
      · rintro (h | ⟨rfl, hw, h⟩)
        · exact .inl h
        · exact .inr ⟨rfl, hw, s, by simp [Names.all], d, h1, h⟩
      · rintro (h | ⟨rfl, hw, s', hs', d', h3, h⟩)
        · exact .inl h
        · simp only [Names.all, List.mem_singleton] at hs'
          subst hs'
          simp only [fieldFlavor] at h1
          rw [h1] at h3
          cases h3
          exact .inr ⟨rfl, hw, h⟩
  | many s l =>
    obtain ⟨ds, h1⟩ := resolveNames_total (look := look (fieldFlavor f)) (l := s :: l) fun x hx => by
      obtain ⟨d, hd, _⟩ := hk x hx
      exact ⟨d, hd⟩
    have hmem := resolveNames_mem h1
    obtain ⟨e, e1, e2, e3, e4, e5⟩ := datumsToSepol_ok ok.value (f := f) ds
      (fun d hd => by obtain ⟨x, _, hx⟩ := (hmem d).1 hd; exact ok.datum _ _ _ hx)
      (fun d hd => by obtain ⟨x, hxl, hx⟩ := (hmem d).1 hd; exact known_datum (hk x hxl) hx)
      (init_names (opCode (eqOp n)) (f.code + w.code) Services.NAMES)
    refine ⟨.leaf (fieldFlavor f) (eqOp n) (operand w f) (.list ds), e, _, ?_, ?_, ?_,
      ⟨e5.names, e5.types.congr fun k => ?_, e5.negset, e5.flags⟩⟩
    · simp only [Expr.cons, Names.right, resolve, h1, Option.map_some]
    · simp only [toSepol, leafToSepol, attr_part, e1, Option.map_some]
    · exact names_meaning (ds := ds) (fun x => by rw [hmem]; rfl) e4 e2 (e3.trans (opCode_eq n)) e5
    · constructor
      · rintro (h | ⟨rfl, hw, d, hd, h⟩)
        · exact .inl h
        · obtain ⟨x, hxl, hx⟩ := (hmem d).1 hd
          exact .inr ⟨rfl, hw, x, hxl, d, hx, h⟩
      · rintro (h | ⟨rfl, hw, s', hs', d', h3, h⟩)
        · exact .inl h
        · exact .inr ⟨rfl, hw, d', (hmem d').2 ⟨s', hs', h3⟩, h⟩

theorem levelOf_ops (s t : Context) (ls : Levels) :
    levelOf s t (Levels.words ls).1 = ls.fst s t ∧ levelOf s t (Levels.words ls).2 = ls.snd s t := by
  cases ls <;> exact ⟨rfl, rfl⟩

theorem sepol_ok {db : Db} {look : Flavor → String → Option Datum} (ok : DbOk db look) : ∀ (e : Expr), e.Doc →
    (∀ q ∈ e.names, Known db look q.1 q.2) →
    ∃ c l tr, resolve look e.cons = some c ∧ toSepol db c = some l ∧ Meaning db look e l tr
  | .same f n, _, _ => by
    refine ⟨_, [{ exprInit with op := opCode (eqOp n), attr := f.code + 0, exprType := Services.ATTR }], .atom (.same f n), rfl, ?_, ?_⟩
    · have := attr_part .src f (some (operand .tgt f))
      simp only [toSepol, leafToSepol, Right.operand, this, Option.map_some]
      rfl
    · refine ⟨.atom ⟨rfl, rfl, opCode_eq n⟩, rfl, fun _ => rfl, fun p s t x _ _ _ => ?_⟩
      simp only [Services.Tree.Holds, Atom.Holds, Expr.Holds]
      exact eqs_iff
  | .roles r, _, _ => by
    refine ⟨_, [{ exprInit with op := opCode (relOp r), attr := 2, exprType := Services.ATTR }], .atom (.roles r), rfl, rfl, ?_⟩
    refine ⟨.atom ⟨rfl, rfl, opCode_rel r⟩, rfl, fun _ => rfl, fun p s t x _ _ _ => ?_⟩
    cases r <;> exact Iff.rfl
  | .levels ls r, _, _ => by
    refine ⟨_, [{ exprInit with op := opCode (relOp r), attr := ls.code, exprType := Services.ATTR }], .atom (.levels ls r), rfl, ?_, ?_⟩
    · simp only [toSepol, leafToSepol, Right.operand, attr_levels, Option.map_some]
    · refine ⟨.atom ⟨rfl, rfl, opCode_rel r⟩, rfl, fun _ => rfl, fun p s t x _ _ _ => ?_⟩
      simp only [Expr.Holds, levelOf_ops]
      cases r <;> exact Iff.rfl
  | .is w f n ns, _, hk => by
    obtain ⟨c, e, T, h1, h2, h3, -⟩ := is_ok ok w f n ns fun s hs => hk (f, s) (by simpa [Expr.names] using hs)
    exact ⟨c, [e], _, h1, h2, h3⟩
  | .not e, hd, hk => by
    obtain ⟨c, l, tr, h1, h2, h3⟩ := sepol_ok ok e hd hk
    refine ⟨.not c, l ++ [{ exprInit with exprType := Services.NOT }], .not tr, by simp only [Expr.cons, resolve, h1, Option.map_some], by simp only [toSepol, h2, Option.map_some], ?_⟩
    exact ⟨.not h3.postfix' rfl, h3.cells, h3.third, fun p s t x hs ht hx => not_congr (h3.holds p s t x hs ht hx)⟩
  | .and a b, hd, hk => by
    obtain ⟨c1, l1, tr1, a1, a2, a3⟩ := sepol_ok ok a hd.1 fun q hq => hk q (List.mem_append_left _ hq)
    obtain ⟨c2, l2, tr2, b1, b2, b3⟩ := sepol_ok ok b hd.2 fun q hq => hk q (List.mem_append_right _ hq)
    refine ⟨.and c1 c2, l1 ++ (l2 ++ [{ exprInit with exprType := Services.AND }]), .and tr1 tr2, by simp only [Expr.cons, resolve, a1, b1, Option.map_some, Option.bind_some],
      by simp only [toSepol, a2, b2, Option.map_some, Option.bind_some], ?_⟩
    refine ⟨.and a3.postfix' b3.postfix' rfl, by simp only [Services.Tree.cells, Expr.need, a3.cells, b3.cells], ?_,
      fun p s t x hs ht hx => and_congr (a3.holds p s t x hs ht hx) (b3.holds p s t x hs ht hx)⟩
    intro h
    simp only [Services.Tree.usesThird, a3.third h.1, b3.third h.2, Bool.or_false]
  | .or a b, hd, hk => by
    obtain ⟨c1, l1, tr1, a1, a2, a3⟩ := sepol_ok ok a hd.1 fun q hq => hk q (List.mem_append_left _ hq)
    obtain ⟨c2, l2, tr2, b1, b2, b3⟩ := sepol_ok ok b hd.2 fun q hq => hk q (List.mem_append_right _ hq)
    refine ⟨.or c1 c2, l1 ++ (l2 ++ [{ exprInit with exprType := Services.OR }]), .or tr1 tr2, by simp only [Expr.cons, resolve, a1, b1, Option.map_some, Option.bind_some],
      by simp only [toSepol, a2, b2, Option.map_some, Option.bind_some], ?_⟩
    refine ⟨.or a3.postfix' b3.postfix' rfl, by simp only [Services.Tree.cells, Expr.need, a3.cells, b3.cells], ?_,
      fun p s t x hs ht hx => or_congr (a3.holds p s t x hs ht hx) (b3.holds p s t x hs ht hx)⟩
    intro h
    simp only [Services.Tree.usesThird, a3.third h.1, b3.third h.2, Bool.or_false]

/-! ### Names of an expression that compiles -/

theorem datum_known {db : Db} {look : Flavor → String → Option Datum} {f : Field} {s : String} {d : Datum}
    (hd : look (fieldFlavor f) s = some d) (hk : d.Known db f) : Known db look f s := ⟨d, hd, hk.1, hk.2⟩

theorem leafToSepol_one {db : Db} {f : Flavor} {w : Who} {g : Field} {d : Datum} {e e' : CExpr}
    (h : leafToSepol db f (operand w g) (.one d) e = some e') : ∃ e1, datumToSepol db f d e1 = some e' := by
  unfold leafToSepol at h
  rw [attr_part] at h
  exact ⟨_, h⟩

theorem leafToSepol_list {db : Db} {f : Flavor} {w : Who} {g : Field} {ds : List Datum} {e e' : CExpr}
    (h : leafToSepol db f (operand w g) (.list ds) e = some e') : ∃ e1, datumsToSepol db f ds e1 = some e' := by
  unfold leafToSepol at h
  rw [attr_part] at h
  exact ⟨_, h⟩

theorem one_known {db : Db} {look : Flavor → String → Option Datum} (ok : DbOk db look) {w : Who} {f : Field} {op : Op} {s : String}
    {c : Cons Datum} {l : List CExpr} (h1 : resolve look (.leaf (fieldFlavor f) op (operand w f) (.one s)) = some c)
    (h2 : toSepol db c = some l) : Known db look f s := by
  rw [resolve] at h1
  cases hs : look (fieldFlavor f) s with
  | none => rw [hs] at h1; cases h1
  | some d =>
    rw [hs] at h1
    cases h1
    rw [toSepol] at h2
    cases hl : leafToSepol db (fieldFlavor f) (operand w f) (.one d) { exprInit with op := opCode op } with
    | none => rw [hl] at h2; cases h2
    | some e =>
      obtain ⟨e1, he⟩ := leafToSepol_one hl
      exact datum_known hs (datumToSepol_known (ok.datum _ _ _ hs) he)

theorem names_known {db : Db} {look : Flavor → String → Option Datum} (ok : DbOk db look) : ∀ (e : Expr) {c : Cons Datum} {l : List CExpr},
    resolve look e.cons = some c → toSepol db c = some l → ∀ q ∈ e.names, Known db look q.1 q.2
  | .same _ _, _, _, _, _, q, hq => by simp [Expr.names] at hq
  | .roles _, _, _, _, _, q, hq => by simp [Expr.names] at hq
  | .levels _ _, _, _, _, _, q, hq => by simp [Expr.names] at hq
  | .looseL1 _ _, _, _, _, _, q, hq => by simp [Expr.names] at hq
  | .looseName r w f s, c, l, h1, h2, q, hq => by
    simp only [Expr.names, List.mem_singleton] at hq
    subst hq
    exact one_known ok h1 h2
  | .is w f n (.one s), c, l, h1, h2, q, hq => by
    simp only [Expr.names, Names.all, List.map_cons, List.map_nil, List.mem_singleton] at hq
    subst hq
    exact one_known ok h1 h2
  | .is w f n (.many s ss), c, l, h1, h2, q, hq => by
    simp only [Expr.names, Names.all, List.mem_map] at hq
    obtain ⟨x, hx, rfl⟩ := hq
    simp only [Expr.cons, Names.right] at h1
    rw [resolve] at h1
    cases hs : resolveNames (look (fieldFlavor f)) (s :: ss) with
    | none => rw [hs] at h1; cases h1
    | some ds =>
      rw [hs] at h1
      cases h1
      rw [toSepol] at h2
      cases hl : leafToSepol db (fieldFlavor f) (operand w f) (.list ds) { exprInit with op := opCode (eqOp n) } with
      | none => rw [hl] at h2; cases h2
      | some e =>
        obtain ⟨e1, he⟩ := leafToSepol_list hl
        obtain ⟨d, hd, hxd⟩ := resolveNames_found hs hx
        have hok : ∀ d ∈ ds, d.Ok := fun d hd => by
          obtain ⟨y, _, hy⟩ := (resolveNames_mem hs d).1 hd
          exact ok.datum _ _ _ hy
        exact datum_known hxd (datumsToSepol_known hok he d hd)
  | .not e, c, l, h1, h2, q, hq => by
    rw [Expr.cons, resolve] at h1
    cases he : resolve look e.cons with
    | none => rw [he] at h1; cases h1
    | some c' =>
      rw [he] at h1
      cases h1
      rw [toSepol] at h2
      cases hl : toSepol db c' with
      | none => rw [hl] at h2; cases h2
      | some l' => exact names_known ok e he hl q hq
  | .and a b, c, l, h1, h2, q, hq => by
    rw [Expr.cons, resolve] at h1
    cases ha : resolve look a.cons with
    | none => rw [ha] at h1; cases h1
    | some c1 =>
      cases hb : resolve look b.cons with
      | none => rw [ha, hb] at h1; cases h1
      | some c2 =>
        rw [ha, hb] at h1
        cases h1
        rw [toSepol] at h2
        cases hl1 : toSepol db c1 with
        | none => rw [hl1] at h2; cases h2
        | some l1 =>
          cases hl2 : toSepol db c2 with
          | none => rw [hl1, hl2] at h2; cases h2
          | some l2 =>
            rcases List.mem_append.1 hq with hq | hq
            · exact names_known ok a ha hl1 q hq
            · exact names_known ok b hb hl2 q hq
  | .or a b, c, l, h1, h2, q, hq => by
    rw [Expr.cons, resolve] at h1
    cases ha : resolve look a.cons with
    | none => rw [ha] at h1; cases h1
    | some c1 =>
      cases hb : resolve look b.cons with
      | none => rw [ha, hb] at h1; cases h1
      | some c2 =>
        rw [ha, hb] at h1
        cases h1
        rw [toSepol] at h2
        cases hl1 : toSepol db c1 with
        | none => rw [hl1] at h2; cases h2
        | some l1 =>
          cases hl2 : toSepol db c2 with
          | none => rw [hl1, hl2] at h2; cases h2
          | some l2 =>
            rcases List.mem_append.1 hq with hq | hq
            · exact names_known ok a ha hl1 q hq
            · exact names_known ok b hb hl2 q hq

/-- The expression of the policy for an expression that compiles. -/
theorem sepol_some {db : Db} {look : Flavor → String → Option Datum} (ok : DbOk db look) {e : Expr} (hd : e.Doc) {c : Cons Datum}
    {l : List CExpr} (h1 : resolve look e.cons = some c) (h2 : toSepol db c = some l) : ∃ tr, Meaning db look e l tr := by
  obtain ⟨c', l', tr, a1, a2, a3⟩ := sepol_ok ok e hd (names_known ok e h1 h2)
  rw [h1] at a1
  cases a1
  rw [h2] at a2
  cases a2
  exact ⟨tr, a3⟩

/-! ### Validation -/

theorem validate_postfix {l : List CExpr} {tr : Services.Tree} (h : Postfix l tr) : ∀ (rest : List CExpr) (d : Int), -1 ≤ d → d ≤ 4 →
    validate (l ++ rest) d = (decide (d + tr.cells ≤ 4) && validate rest (d + 1)) := by
  have hm : ((Services.MAXDEPTH : Nat) : Int) - 1 = 4 := rfl
  have nine : Services.NOT = 1 ∧ Services.AND = 2 ∧ Services.OR = 3 ∧ Services.ATTR = 4 ∧ Services.NAMES = 5 := ⟨rfl, rfl, rfl, rfl, rfl⟩
  obtain ⟨n1, n2, n3, n4, n5⟩ := nine
  have pos : ∀ t : Services.Tree, 1 ≤ t.cells := by
    intro t
    induction t <;> simp only [Services.Tree.cells] <;> omega
  induction h with
  | @atom e a ha =>
    intro rest d h1 h2
    have ht := Services.denotes_type ha
    rw [List.singleton_append, validate, n1, n2, n3, n4, n5, hm]
    rw [if_neg (by omega), if_neg (by omega), if_pos (by omega)]
    have hc : (Services.Tree.atom a).cells = 1 := rfl
    by_cases h : d = 4
    · rw [if_pos h]
      have : ¬ d + (((Services.Tree.atom a).cells : Nat) : Int) ≤ 4 := by rw [hc]; omega
      rw [decide_eq_false this, Bool.false_and]
    · rw [if_neg h]
      have : d + (((Services.Tree.atom a).cells : Nat) : Int) ≤ 4 := by rw [hc]; omega
      rw [decide_eq_true this, Bool.true_and]
  | @not l t e _ he ih =>
    intro rest d h1 h2
    rw [List.append_assoc, ih _ d h1 h2, List.singleton_append, validate, n1, if_pos he, if_neg (by omega)]
    rfl
  | @and l1 t1 l2 t2 e _ _ he ih1 ih2 =>
    intro rest d h1 h2
    rw [List.append_assoc, ih1 _ d h1 h2]
    by_cases hc : d + (t1.cells : Int) ≤ 4
    · have hp := pos t1
      rw [List.append_assoc, ih2 _ (d + 1) (by omega) (by omega), List.singleton_append]
      rw [validate, n1, n2, n3, if_neg (by omega), if_pos (by omega), if_neg (by omega)]
      rw [← Bool.and_assoc, show d + 1 + 1 - 1 = d + 1 by omega]
      congr 1
      rw [← Bool.decide_and]
      apply decide_eq_decide.2
      simp only [Services.Tree.cells]
      omega
    · have : ¬ d + (((t1.and t2).cells : Nat) : Int) ≤ 4 := by
        simp only [Services.Tree.cells]; omega
      simp [hc, this]
  | @or l1 t1 l2 t2 e _ _ he ih1 ih2 =>
    intro rest d h1 h2
    rw [List.append_assoc, ih1 _ d h1 h2]
    by_cases hc : d + (t1.cells : Int) ≤ 4
    · have hp := pos t1
      rw [List.append_assoc, ih2 _ (d + 1) (by omega) (by omega), List.singleton_append]
      rw [validate, n1, n2, n3, if_neg (by omega), if_pos (by omega), if_neg (by omega)]
      rw [← Bool.and_assoc, show d + 1 + 1 - 1 = d + 1 by omega]
      congr 1
      rw [← Bool.decide_and]
      apply decide_eq_decide.2
      simp only [Services.Tree.cells]
      omega
    · have : ¬ d + (((t1.or t2).cells : Nat) : Int) ≤ 4 := by
        simp only [Services.Tree.cells]; omega
      simp [hc, this]

theorem validate_iff {l : List CExpr} {tr : Services.Tree} (h : Postfix l tr) : validate l (-1) = true ↔ tr.cells ≤ 5 := by
  have := validate_postfix h [] (-1) (by omega) (by omega)
  rw [List.append_nil] at this
  rw [this, validate]
  simp
  omega

end Verif.CilConstr
