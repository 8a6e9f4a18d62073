import Verif.CilSet.Lemmas6

/-!
# C71: the sets of CIL are what the expressions say

`cil_post.c` replaces the expressions of attributes, category sets and permissions by bitmaps.
Every database whose expressions are well-formed and do not refer to themselves has exactly one
meaning (`Meaning`: every symbol has the set its declaration asks for).  What is computed is this
meaning, in whatever order the symbols are visited.
-/

namespace Verif.CilSet
open Ebitmap (Ebitmap)

/-- C71: a well-formed database without self-reference has exactly one meaning. -/
theorem C71_meaning {db : Db} (ac : Acyclic db) : ∃ ρ, Meaning db ρ ∧ ∀ σ, Meaning db σ → σ = ρ := by
  obtain ⟨ρ, h⟩ := meaning_exists ac
  exact ⟨ρ, h, fun σ hs => meaning_unique ac hs h⟩

/-- C71: the check for self-reference ends on every database, and passes for all symbols exactly
if none refers to itself, directly or through others. -/
theorem C71_self_reference (db : Db) (d : Nat) :
    (∃ N, ∀ fuel, N ≤ fuel → noSelf db fuel [] d ≠ none) ∧
    ((∀ d, ∃ N, ∀ fuel, N ≤ fuel → noSelf db fuel [] d = some true) ↔ Acyclic db) ∧
    (Acyclic db ↔ ∀ d, ¬ Relation.TransGen (fun a b => b ∈ db.refs a) d d) :=
  ⟨noSelf_ends d, ⟨fun h => acyclic_of_noSelf fun d => by
    obtain ⟨N, hN⟩ := h d
    exact ⟨N, hN N (Nat.le_refl _)⟩, fun h d => noSelf_true_of_acyclic h d⟩, acyclic_iff⟩

/-- Non-vacuity: two attributes that refer to each other are caught. -/
example : noSelf ⟨[.typeattribute [⟨.type, [.datum 1]⟩],
    .typeattribute [⟨.type, [.op .not, .list .type [.datum 0]]⟩]], 0, 0, 0, 0, []⟩ 20 [] 0 = some false := by
  decide +kernel

/-- C71: the visits to the attributes, in any order, end without undefined behaviour.  They
succeed unless a range is the wrong way round or `all` is applied to no symbols at all.  When they
succeed every attribute visited has the bitmap of its set. -/
theorem C71_attributes {db : Db} (ok : DbOk db) (ac : Acyclic db) {ρ} (hρ : Meaning db ρ) (ds : List Nat) :
    ∃ N, ∀ fuel, N ≤ fuel →
      (evalAttrs db fuel Memo.empty ds = some (.error .err) ∧ ¬ Tame db) ∨
      ∃ m, evalAttrs db fuel Memo.empty ds = some (.ok m) ∧ Good db ρ m ∧
        ∀ d ∈ ds, db.attribute d ≠ none → ∃ e, m.bits d = some e ∧ Ebitmap.WF e ∧
          ∀ n, Ebitmap.getBit e n = true ↔ ρ d n := by
  obtain ⟨N, hN⟩ := evalAttrs_ok ok ac hρ ds
  refine ⟨N, fun fuel hf => ?_⟩
  rcases hN fuel hf Memo.empty ⟨(by intro _ _ h; cases h), (by intro _ _ h; cases h)⟩ with ⟨m, h1, h2, -, h3⟩ | ⟨h1, h2⟩
  · refine .inr ⟨m, h1, h2, fun d hd ha => ?_⟩
    obtain ⟨e, he⟩ := h3 d hd ha
    exact ⟨e, he, (h2.bits d e he).1, (h2.bits d e he).2⟩
  · exact .inl ⟨h2, h1⟩

/-- C71: the same for category sets, with anything already evaluated.  Afterwards the list of
every set visited, evaluated or not, has exactly the categories of its set. -/
theorem C71_category_sets {db : Db} (ok : DbOk db) (ac : Acyclic db) {ρ} (hρ : Meaning db ρ) (ds : List Nat) :
    ∃ N, ∀ fuel, N ≤ fuel → ∀ m, Good db ρ m →
      (evalCats db fuel m ds = some (.error .err) ∧ ¬ Tame db) ∨
      ∃ m', evalCats db fuel m ds = some (.ok m') ∧ Good db ρ m' ∧
        ∀ d ∈ ds, ∀ x, db.datums[d]? = some (.catset x) → ∃ l : List Nat,
          (m'.cats d = some l ∨ m'.cats d = none ∧ x.items = l.map Item.datum) ∧
          ∀ n, ρ d n ↔ ∃ c ∈ l, db.datums[c]? = some (.cat n) := by
  obtain ⟨N, hN⟩ := evalCats_ok ok ac hρ ds
  refine ⟨N, fun fuel hf m hg => ?_⟩
  rcases hN fuel hf m hg with ⟨m', h1, h2, -, h3⟩ | ⟨h1, h2⟩
  · refine .inr ⟨m', h1, h2, fun d hd x hx => ?_⟩
    obtain ⟨l, h4, h5⟩ := h3 d hd x hx
    refine ⟨l, ?_, h5⟩
    rcases h4 with h4 | ⟨h4, h6⟩
    · exact .inl h4
    · refine .inr ⟨?_, h6⟩
      rcases h7 : m'.cats d with _ | l'
      · rfl
      · exact (h4 l' h7).elim
  · exact .inl ⟨h2, h1⟩

/-- C71: any well-formed expression evaluates to the bitmap of its set over `{0, ..., max - 1}`,
whatever has been evaluated before: permissions of a class with `max` permissions, extended
permissions, categories, types, roles and users. -/
theorem C71_expression {db : Db} (ok : DbOk db) (ac : Acyclic db) {ρ} (hρ : Meaning db ρ) {f : Flavor}
    {max : Nat} (hm : max < 2 ^ 31) {l : List Item} (hl : exprOk db f l) :
    ∃ N, ∀ fuel, N ≤ fuel → ∀ m, Good db ρ m →
      (exprBits db fuel m max ⟨f, l⟩ = some (.error .err) ∧ ¬ (Tame db ∧ exprTame db f max l)) ∨
      ∃ m' e, exprBits db fuel m max ⟨f, l⟩ = some (.ok (m', e)) ∧ Good db ρ m' ∧ Ebitmap.WF e ∧
        ∀ n, Ebitmap.getBit e n = true ↔ exprSet ρ max l n := by
  obtain ⟨N, hN⟩ := expr_claim ok hρ hm l hl fun d _ => datum_claim ok ac hρ d
  refine ⟨N, fun fuel hf m hg => ?_⟩
  rcases hN fuel hf m hg with ⟨m', e, h1, h2, -, h3⟩ | ⟨h1, h2⟩
  · exact .inr ⟨m', e, h1, h2, h3.1, h3.2⟩
  · exact .inl ⟨h2, h1⟩

/-- C71: an expression that has a range the wrong way round at its top is rejected, whatever the
rest of the policy. -/
theorem C71_reversed_range (db : Db) {f : Flavor} {max lo hi fuel : Nat} {m : Memo} {a b : Item} {l : List Item}
    (ha : endOf db f a = some lo) (hb : endOf db f b = some hi) (hlt : hi < lo) (hlo : lo < 2 ^ 31) :
    exprBits db (fuel + 1) m max ⟨f, .op .range :: a :: b :: l⟩ = some (.error .err) := by
  rw [exprBits.eq_def]
  simp only
  rcases endOf_flavor ha with hf | hf
  · subst hf
    simp only [if_pos, catRange, catEnd_ok ha, catEnd_ok hb]
    rw [if_pos hlt]
  · subst hf
    rw [if_neg (by decide), if_pos rfl]
    simp only [permxRange, permxValue_ok ha, permxValue_ok hb]
    rw [range_none hlt hlo]

/-- C71: roles get the types of the `roletype` statements and nothing else, through attributes on
either side. -/
theorem C71_roletypes {db : Db} (ok : DbOk db) (ac : Acyclic db) {ρ} (hρ : Meaning db ρ) {m : Memo}
    (hg : Good db ρ m) (l : List (Nat × Nat))
    (hl : ∀ p ∈ l, Named db m .role p.1 ∧ Named db m .type p.2) :
    ∃ a, roleTypes db m (fun _ => none) l = .ok a ∧ ∀ r,
      (∀ e, a r = some e → Ebitmap.WF e) ∧
      ∀ t, (∃ e, a r = some e ∧ Ebitmap.getBit e t = true) ↔ ∃ p ∈ l, ρ p.1 r ∧ ρ p.2 t := by
  obtain ⟨a, h1, h2⟩ := roleTypes_ok ok ac hρ hg l hl (fun _ => none) (fun _ _ => False) fun _ => init_ok
  refine ⟨a, h1, fun r => ⟨fun e he => ?_, fun t => ?_⟩⟩
  · have := (h2 r).1; rw [he] at this; exact this
  · have := (h2 r).2 t
    simp only [false_or] at this
    rw [← this]
    rcases a r with _ | e
    · simp [Ebitmap.getBit, Ebitmap.init, Ebitmap.getBitNodes]
    · simp

/-- C71: users get the roles of the `userrole` statements and nothing else. -/
theorem C71_userroles {db : Db} (ok : DbOk db) (ac : Acyclic db) {ρ} (hρ : Meaning db ρ) {m : Memo}
    (hg : Good db ρ m) (l : List (Nat × Nat))
    (hl : ∀ p ∈ l, Named db m .user p.1 ∧ Named db m .role p.2) :
    ∃ a, userRoles db m (fun _ => none) l = .ok a ∧ ∀ r,
      (∀ e, a r = some e → Ebitmap.WF e) ∧
      ∀ t, (∃ e, a r = some e ∧ Ebitmap.getBit e t = true) ↔ ∃ p ∈ l, ρ p.1 r ∧ ρ p.2 t := by
  obtain ⟨a, h1, h2⟩ := userRoles_ok ok ac hρ hg l hl (fun _ => none) (fun _ _ => False) fun _ => init_ok
  refine ⟨a, h1, fun r => ⟨fun e he => ?_, fun t => ?_⟩⟩
  · have := (h2 r).1; rw [he] at this; exact this
  · have := (h2 r).2 t
    simp only [false_or] at this
    rw [← this]
    rcases a r with _ | e
    · simp [Ebitmap.getBit, Ebitmap.init, Ebitmap.getBitNodes]
    · simp

/-- C71 does not hold for `all` over nothing: for a class without permissions, or a policy without
categories or users, `(all)` means the empty set, but its evaluation fails and with it the
compilation. -/
theorem C71_all_refuted : ∃ (db : Db) (ρ : Nat → Nat → Prop) (f : Flavor) (l : List Item),
    DbOk db ∧ Acyclic db ∧ Meaning db ρ ∧ exprOk db f l ∧ (∀ n, ¬ exprSet ρ 0 l n) ∧
    ∀ fuel m, exprBits db (fuel + 1) m 0 ⟨f, l⟩ = some (.error .err) := by
  refine ⟨⟨[], 0, 0, 0, 0, []⟩, fun _ _ => False, .perm, [.op .all], ?_, ⟨fun _ => 0, ?_⟩, ?_, ?_, ?_, ?_⟩
  · constructor <;> simp
  · simp [Db.refs]
  · simp [Meaning]
  · simp [exprOk]
  · simp [exprSet]
  · intro fuel m
    rw [exprBits.eq_def]
    simp only [everything_zero]

/-! ### An example -/

/-- Three types `t0 t1 t2`, an attribute `(not (t0 t1))`-like through another attribute, a role,
three categories and two category sets, one of them an expression. -/
def exampleDb : Db where
  datums := [.type 0, .type 1, .type 2,
    .typeattribute [⟨.type, [.datum 0, .datum 1]⟩],
    .typeattribute [⟨.type, [.op .not, .list .type [.datum 3]]⟩, ⟨.type, [.op .and, .datum 3, .datum 1]⟩],
    .role 0, .roleattribute [⟨.role, [.op .all]⟩],
    .cat 0, .cat 1, .cat 2,
    .catset ⟨.cat, [.datum 7, .datum 9]⟩,
    .catset ⟨.cat, [.op .xor, .list .cat [.op .range, .datum 7, .datum 8], .datum 10]⟩]
  numTypes := 3
  numRoles := 1
  numUsers := 0
  numCats := 3
  catorder := [7, 8, 9]

set_option linter.unusedSimpArgs false in
set_option linter.unusedTactic false in
set_option linter.unreachableTactic false in
theorem example_ok : DbOk exampleDb where
  typeExpr d exprs h := by
    obtain ⟨hlt, h⟩ := List.getElem?_eq_some_iff.1 h
    have : d < 12 := hlt
    iterate 12 (rcases d with _ | d; · (cases h <;> simp [exprOk, itemOk, itemsOk, exampleDb, Datum.flavor]))
    omega
  roleExpr d exprs h := by
    obtain ⟨hlt, h⟩ := List.getElem?_eq_some_iff.1 h
    have : d < 12 := hlt
    iterate 12 (rcases d with _ | d; · (cases h <;> simp [exprOk, itemOk, itemsOk, exampleDb, Datum.flavor]))
    omega
  userExpr d exprs h := by
    obtain ⟨hlt, h⟩ := List.getElem?_eq_some_iff.1 h
    have : d < 12 := hlt
    iterate 12 (rcases d with _ | d; · (cases h <;> simp [exprOk, itemOk, itemsOk, exampleDb, Datum.flavor]))
    omega
  catExpr d x h := by
    obtain ⟨hlt, h⟩ := List.getElem?_eq_some_iff.1 h
    have : d < 12 := hlt
    iterate 12 (rcases d with _ | d; · (cases h <;> simp [exprOk, itemOk, itemsOk, endOf, exampleDb, Datum.flavor]))
    omega
  noAlias d x c v _ _ hc := by
    obtain ⟨hlt, h⟩ := List.getElem?_eq_some_iff.1 hc
    have : c < 12 := hlt
    iterate 12 (rcases c with _ | c; · cases h)
    omega
  value d v := by
    refine ⟨?_, ?_, ?_, ?_, ?_⟩ <;> intro h
    · rcases h with h | h <;>
      · obtain ⟨hlt, h⟩ := List.getElem?_eq_some_iff.1 h
        have : d < 12 := hlt
        iterate 12 (rcases d with _ | d; · (cases h <;> decide))
        omega
    all_goals first
      | (rcases h with h | h <;>
        · obtain ⟨hlt, h⟩ := List.getElem?_eq_some_iff.1 h
          have : d < 12 := hlt
          iterate 12 (rcases d with _ | d; · (cases h <;> decide))
          omega)
      | (obtain ⟨hlt, h⟩ := List.getElem?_eq_some_iff.1 h
         have : d < 12 := hlt
         iterate 12 (rcases d with _ | d; · (cases h <;> decide))
         omega)
  int := by decide
  catorder := by simp [exampleDb]
  complete v hv := by
    have : v < 3 := hv
    rcases v with _ | _ | _ | v
    · simp [exampleDb]
    · simp [exampleDb]
    · simp [exampleDb]
    · omega

theorem example_acyclic : Acyclic exampleDb := by
  refine ⟨id, fun d c hc => ?_⟩
  have hlt : d < 12 := by
    by_contra h
    have : exampleDb.datums[d]? = none := List.getElem?_eq_none (by simp [exampleDb]; omega)
    simp [Db.refs, this] at hc
  iterate 12 (rcases d with _ | d; · (simp [Db.refs, exampleDb, itemsRefs, itemRefs] at hc <;> simp only [id] <;> omega))
  omega

/-- Non-vacuity: the example is well-formed, its second attribute has `t1` and `t2`, the second
category set has the second and third categories, and the role gets the types of the attribute. -/
example : (match evalAttrs exampleDb 20 Memo.empty [6, 4, 3] with
      | some (.ok m) => (m.bits 4).map fun e => (List.range 4).map (Ebitmap.getBit e)
      | _ => none) = some [false, true, true, false] := by decide +kernel

example : (match evalCats exampleDb 20 Memo.empty [11, 10] with
      | some (.ok m) => some (m.cats 11, m.cats 10)
      | _ => none) = some (some [8, 9], none) := by decide +kernel

example : (match evalAttrs exampleDb 20 Memo.empty [6, 4, 3] with
      | some (.ok m) =>
        match roleTypes exampleDb m (fun _ => none) [(5, 0), (6, 4)] with
        | .ok a => (a 0).map fun e => (List.range 4).map (Ebitmap.getBit e)
        | _ => none
      | _ => none) = some [true, true, true, false] := by decide +kernel

end Verif.CilSet
