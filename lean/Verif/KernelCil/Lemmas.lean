import Verif.KernelCil.Spec
import Verif.CilParse.Lemmas2
import Verif.Ebitmap.Props
import Verif.Prelude

/-! Lemmas: what the texts write. -/

namespace Verif.KernelCil
open CilParse (Writes NoSymbolNext symbolChar)
open CilCond (Tree)
open Services (CExpr Field Who)

theorem noSymbol_space (l : Str) : NoSymbolNext (' ' :: l) := by intro c x h; cases h; decide
theorem noSymbol_close (l : Str) : NoSymbolNext (')' :: l) := by intro c x h; cases h; decide
theorem noSymbol_nil : NoSymbolNext [] := by intro c x h; cases h

theorem writes_append {ts us : List Tree} {a b : Str} (h : Writes ts a) (hb : Writes us b) (hn : NoSymbolNext b) : Writes (ts ++ us) (a ++ b) := by
  induction h with
  | nil => exact hb
  | white hc _ ih => exact .white hc ih
  | @comment body ts l hc _ ih => have := Writes.comment hc ih; simpa using this
  | @symbol s ts l hs hc hl _ ih =>
    have := Writes.symbol hs hc (CilParse.noSymbolNext_append hl hn) ih
    simpa using this
  | @string s ts l hs _ ih => have := Writes.string hs ih; simpa using this
  | @list sub ts inner l h1 _ _ ih => have := Writes.list h1 ih; simpa using this

theorem writes_name {s : Str} (h : GoodName s) : Writes [.atom (String.ofList s)] s := by
  have := Writes.symbol h.1 h.2 noSymbol_nil Writes.nil
  simpa using this

/-- A word and something else. -/
theorem writes_space {ts us : List Tree} {a b : Str} (h : Writes ts a) (hb : Writes us b) : Writes (ts ++ us) (a ++ ' ' :: b) :=
  writes_append h (.white (.inl rfl) hb) (noSymbol_space _)

theorem writes_paren {ts : List Tree} {a : Str} (h : Writes ts a) : Writes [.list ts] ('(' :: (a ++ [')'])) := by
  have := Writes.list h .nil
  simpa using this

theorem writes_paren2 {t u : Tree} {a b : Str} (h : Writes [t] a) (hb : Writes [u] b) : Writes [.list [t, u]] (paren2 a b) := by
  have := writes_paren (writes_space h hb)
  simpa [paren2] using this

theorem writes_paren3 {t u v : Tree} {a b c : Str} (h : Writes [t] a) (hb : Writes [u] b) (hc : Writes [v] c) :
    Writes [.list [t, u, v]] (paren3 a b c) := by
  have := writes_paren (writes_space h (writes_space hb hc))
  simpa [paren3] using this

/-- A word of the language. -/
theorem writes_word (w : String) (h : w.toList ≠ [] ∧ w.toList.all symbolChar = true) : Writes [.atom w] w.toList := by
  have := writes_name (s := w.toList) ⟨h.1, fun c hc => List.all_eq_true.1 h.2 c hc⟩
  simpa using this

/-! ### Conditional expressions -/

open CilCond (Bin) in
/-- The expression of CIL for an expression of the policy. -/
def condTree (name : Nat → Str) : Cond.BExpr → CilCond.Expr
  | .var n => .name (String.ofList (name n))
  | .not a => .not (condTree name a)
  | .or a b => .bin .or (condTree name a) (condTree name b)
  | .and a b => .bin .and (condTree name a) (condTree name b)
  | .xor a b => .bin .xor (condTree name a) (condTree name b)
  | .eq a b => .bin .eq (condTree name a) (condTree name b)
  | .neq a b => .bin .neq (condTree name a) (condTree name b)

def condText (name : Nat → Str) : Cond.BExpr → Str
  | .var n => name n
  | .not a => paren2 "not".toList (condText name a)
  | .or a b => paren3 "or".toList (condText name a) (condText name b)
  | .and a b => paren3 "and".toList (condText name a) (condText name b)
  | .xor a b => paren3 "xor".toList (condText name a) (condText name b)
  | .eq a b => paren3 "eq".toList (condText name a) (condText name b)
  | .neq a b => paren3 "neq".toList (condText name a) (condText name b)

theorem condLoop_append (name : Nat → Str) (a : List Cond.Tok) : ∀ (b : List Cond.Tok) (st : List Str),
    condLoop name (a ++ b) st = (condLoop name a st).bind (condLoop name b) := by
  induction a with
  | nil => intro b st; rfl
  | cons t a ih =>
    intro b st
    simp only [List.cons_append, condLoop]
    cases condStep name t st with
    | none => rfl
    | some st' => exact ih b st'

theorem condLoop_postfix (name : Nat → Str) (t : Cond.BExpr) : ∀ st, condLoop name t.postfix st = some (condText name t :: st) := by
  induction t with
  | var n => intro st; rfl
  | not a ih => intro st; rw [Cond.BExpr.postfix, condLoop_append, ih]; rfl
  | or a b iha ihb | and a b iha ihb | xor a b iha ihb | eq a b iha ihb | neq a b iha ihb =>
    intro st
    rw [Cond.BExpr.postfix, condLoop_append, condLoop_append, iha]
    simp only [Option.bind_some]
    rw [ihb]; rfl

theorem condText_writes {name : Nat → Str} (t : Cond.BExpr) (h : ∀ n ∈ t.vars, GoodName (name n)) :
    Writes [(condTree name t).tree] (condText name t) := by
  induction t with
  | var n => exact writes_name (h n (by simp [Cond.BExpr.vars]))
  | not a ih => exact writes_paren2 (writes_word "not" (by decide)) (ih h)
  | or a b iha ihb | and a b iha ihb | xor a b iha ihb | eq a b iha ihb | neq a b iha ihb =>
    refine writes_paren3 ?_ (iha fun n hn => h n ?_) (ihb fun n hn => h n ?_)
    · exact writes_word _ (by decide)
    · simp [Cond.BExpr.vars, hn]
    · simp [Cond.BExpr.vars, hn]

theorem condTree_names (name : Nat → Str) (t : Cond.BExpr) : (condTree name t).names = t.vars.map fun n => String.ofList (name n) := by
  induction t with
  | var n => rfl
  | not a ih => exact ih
  | or a b iha ihb | and a b iha ihb | xor a b iha ihb | eq a b iha ihb | neq a b iha ihb =>
    simp only [condTree, CilCond.Expr.names, Cond.BExpr.vars, iha, ihb, List.map_append]

theorem condTree_val (name : Nat → Str) (ρ : String → Bool) (t : Cond.BExpr) :
    (condTree name t).val ρ = t.val fun n => ρ (String.ofList (name n)) := by
  induction t with
  | var n => rfl
  | not a ih => simp only [condTree, CilCond.Expr.val, Cond.BExpr.val, ih]
  | or a b iha ihb | and a b iha ihb | eq a b iha ihb | neq a b iha ihb =>
    simp only [condTree, CilCond.Expr.val, CilCond.Bin.sem, Cond.BExpr.val, iha, ihb]
  | xor a b iha ihb =>
    simp only [condTree, CilCond.Expr.val, CilCond.Bin.sem, Cond.BExpr.val, iha, ihb]
    cases a.val _ <;> cases b.val _ <;> rfl

theorem condTree_need (name : Nat → Str) (t : Cond.BExpr) : (condTree name t).need = t.need := by
  induction t with
  | var n => rfl
  | not a ih => exact ih
  | or a b iha ihb | and a b iha ihb | xor a b iha ihb | eq a b iha ihb | neq a b iha ihb =>
    simp only [condTree, CilCond.Expr.need, Cond.BExpr.need, iha, ihb]

/-- What the loop accepts is the postfix form of some expressions. -/
theorem condLoop_some (name : Nat → Str) : ∀ (l : List Cond.Tok) (ts : List Cond.BExpr) (st : List Str),
    condLoop name l (ts.map (condText name)) = some st →
    ∃ ts' : List Cond.BExpr, st = ts'.map (condText name) ∧ ts.reverse.flatMap Cond.BExpr.postfix ++ l = ts'.reverse.flatMap Cond.BExpr.postfix
  | [], ts, st, h => by
    rw [condLoop, Option.some.injEq] at h
    exact ⟨ts, h.symm, by simp⟩
  | t :: l, ts, st, h => by
    rw [condLoop] at h
    have two : ∀ (mk : Cond.BExpr → Cond.BExpr → Cond.BExpr) (op : Str), condOp t = some (op, true) →
        (∀ a b, condText name (mk a b) = paren3 op (condText name a) (condText name b)) →
        (∀ a b, (mk a b).postfix = a.postfix ++ b.postfix ++ [t]) → (∀ n, t ≠ .bool n) →
        ∃ ts' : List Cond.BExpr, st = ts'.map (condText name) ∧ ts.reverse.flatMap Cond.BExpr.postfix ++ t :: l = ts'.reverse.flatMap Cond.BExpr.postfix := by
      intro mk op ho h1 h2 hb
      match ts, h with
      | [], h => unfold condStep at h; split at h; · exact absurd rfl (hb _)
                 · simp [ho] at h
      | [a], h => unfold condStep at h; split at h; · exact absurd rfl (hb _)
                  · simp [ho] at h
      | b :: a :: ts, h =>
        have : condStep name t ((b :: a :: ts).map (condText name)) = some ((mk a b :: ts).map (condText name)) := by
          unfold condStep; split
          · exact absurd rfl (hb _)
          · simp [ho, h1]
        rw [this] at h
        obtain ⟨ts', e1, e2⟩ := condLoop_some name l (mk a b :: ts) st h
        refine ⟨ts', e1, ?_⟩
        rw [← e2]
        simp [h2]
    cases t with
    | bool n =>
      obtain ⟨ts', h1, h2⟩ := condLoop_some name l (.var n :: ts) st h
      exact ⟨ts', h1, by rw [← h2]; simp [Cond.BExpr.postfix]⟩
    | not =>
      match ts, h with
      | [], h => cases h
      | a :: ts, h =>
        obtain ⟨ts', h1, h2⟩ := condLoop_some name l (.not a :: ts) st h
        exact ⟨ts', h1, by rw [← h2]; simp [Cond.BExpr.postfix]⟩
    | bad => cases h
    | or => exact two .or _ rfl (fun _ _ => rfl) (fun _ _ => rfl) nofun
    | and => exact two .and _ rfl (fun _ _ => rfl) (fun _ _ => rfl) nofun
    | xor => exact two .xor _ rfl (fun _ _ => rfl) (fun _ _ => rfl) nofun
    | eq => exact two .eq _ rfl (fun _ _ => rfl) (fun _ _ => rfl) nofun
    | neq => exact two .neq _ rfl (fun _ _ => rfl) (fun _ _ => rfl) nofun

theorem condExprToStr_some {name : Nat → Str} {l : List Cond.Tok} {v : Str} (h : condExprToStr name l = some v) :
    ∃ t : Cond.BExpr, l = t.postfix ∧ v = condText name t := by
  unfold condExprToStr at h
  split at h
  · rename_i w hw
    cases h
    obtain ⟨ts', h1, h2⟩ := condLoop_some name l [] [v] hw
    match ts', h1 with
    | [t], h1 =>
      simp only [List.map_cons, List.map_nil, List.cons.injEq, and_true] at h1
      exact ⟨t, by simpa using h2, h1⟩
    | [], h1 => simp at h1
    | _ :: _ :: _, h1 => simp at h1
  · cases h

/-! ### Names -/

theorem insertStr_perm (s : Str) (l : List Str) : (insertStr s l).Perm (s :: l) := by
  induction l with
  | nil => exact .refl _
  | cons t l ih =>
    rw [insertStr]
    split
    · exact .refl _
    · exact (ih.cons t).trans (.swap s t l)

theorem strsSort_perm (l : List Str) : (strsSort l).Perm l := by
  induction l with
  | nil => exact .refl _
  | cons s l ih => exact (insertStr_perm s _).trans (ih.cons s)

theorem join_writes : ∀ (l : List Str), (∀ s ∈ l, GoodName s) → Writes (l.map fun s => Tree.atom (String.ofList s)) (join l)
  | [], _ => .nil
  | [s], h => writes_name (h s List.mem_cons_self)
  | s :: t :: l, h => by
    have := writes_space (writes_name (h s List.mem_cons_self)) (join_writes (t :: l) fun x hx => h x (List.mem_cons_of_mem _ hx))
    simpa [join] using this

/-- Only a list of one has no space. -/
theorem join_space : ∀ (l : List Str), (∀ s ∈ l, GoodName s) → ((join l).contains ' ' = true ↔ 2 ≤ l.length)
  | [], _ => by simp [join]
  | [s], h => by
    simp only [join, List.contains_iff_mem, List.length_cons, List.length_nil]
    constructor
    · intro hs
      have := (h s List.mem_cons_self).2 _ hs
      revert this; decide
    · omega
  | s :: t :: l, h => by simp [join, List.contains_iff_mem]

theorem bits_spec {e : Ebitmap.Ebitmap} (h : Ebitmap.WF e) :
    ∃ l, Ebitmap.forEachPositiveBit (e.highbit + 1) e = some l ∧ ∀ b, b ∈ l ↔ Ebitmap.getBit e b = true := by
  refine ⟨_, Ebitmap.C04_for_each_positive_bit h (Nat.le_refl _), fun b => ?_⟩
  have i := (Ebitmap.wf_iff_inv e).1 h
  simp only [List.mem_filter, List.mem_range]
  constructor
  · exact fun h => h.2
  · exact fun h => ⟨Nat.lt_trans (Ebitmap.getBit_lt_high i h) i.small, h⟩

/-- The names of a set: those of its members in some order. -/
theorem ebitmapToStr_some {e : Ebitmap.Ebitmap} {name : Nat → Option Str} (hw : Ebitmap.WF e) (hne : ∃ i, Ebitmap.getBit e i = true)
    (hn : ∀ i, Ebitmap.getBit e i = true → ∃ s, name i = some s) :
    ∃ l, l ≠ [] ∧ ebitmapToStr e name = some (join l) ∧ ∀ s, s ∈ l ↔ ∃ i, Ebitmap.getBit e i = true ∧ name i = some s := by
  obtain ⟨L, h4, hL⟩ := bits_spec hw
  have hmem : ∀ s, s ∈ strsSort (L.filterMap name) ↔ ∃ i, Ebitmap.getBit e i = true ∧ name i = some s := by
    intro s
    rw [(strsSort_perm _).mem_iff, List.mem_filterMap]
    constructor
    · rintro ⟨i, h1, h2⟩; exact ⟨i, (hL i).1 h1, h2⟩
    · rintro ⟨i, h1, h2⟩; exact ⟨i, (hL i).2 h1, h2⟩
  have hne' : strsSort (L.filterMap name) ≠ [] := by
    obtain ⟨i, h⟩ := hne
    obtain ⟨s, hs⟩ := hn i h
    intro h0
    have := (hmem s).2 ⟨i, h, hs⟩
    rw [h0] at this
    cases this
  refine ⟨_, hne', ?_, hmem⟩
  unfold ebitmapToStr ebitmapToStrs
  rw [h4]
  simp only [Option.map_some, Option.bind_some, strsToStr]
  rw [if_neg (by simpa using hne')]

/-! ### Constraints -/

theorem consOp_rel (r : Services.Rel) : consOp r.code = some (CilConstr.Rel.word r).toList := by cases r <;> rfl

theorem consOp_eq (n : Bool) : consOp (if n then 2 else 1) = some (CilConstr.eqWord n).toList := by cases n <;> rfl

theorem consAttr_levels (ls : Services.Levels) :
    consAttr ls.code = some ((CilConstr.Levels.words ls).1.toList, (CilConstr.Levels.words ls).2.toList) := by cases ls <;> rfl

theorem consAttr_field (f : Field) :
    consAttr f.code = some ((CilConstr.part .src f).toList, (CilConstr.part .tgt f).toList) := by cases f <;> rfl

theorem consAttr_names (w : Who) (f : Field) : ∃ b, consAttr (f.code + w.code) = some ((CilConstr.part w f).toList, b) := by
  cases f <;> cases w <;> exact ⟨_, rfl⟩

theorem word_rel (r : Services.Rel) : Writes [.atom (CilConstr.Rel.word r)] (CilConstr.Rel.word r).toList := by
  cases r <;> exact writes_word _ (by decide)

theorem word_eq (n : Bool) : Writes [.atom (CilConstr.eqWord n)] (CilConstr.eqWord n).toList := by
  cases n <;> exact writes_word _ (by decide)

theorem word_part (w : Who) (f : Field) : Writes [.atom (CilConstr.part w f)] (CilConstr.part w f).toList := by
  cases w <;> cases f <;> exact writes_word _ (by decide)

theorem word_levels (ls : Services.Levels) : Writes [.atom (CilConstr.Levels.words ls).1] (CilConstr.Levels.words ls).1.toList ∧
    Writes [.atom (CilConstr.Levels.words ls).2] (CilConstr.Levels.words ls).2.toList := by
  cases ls <;> exact ⟨writes_word _ (by decide), writes_word _ (by decide)⟩

/-- The contexts have values of users, roles and types, which start from 1. -/
def Vals (c : Policy.Context) : Prop := ∀ f : Field, 1 ≤ f.get c

/-- What is shown of a text for an expression. -/
structure Says (pn : Names) (members : Nat → Ebitmap.Ebitmap) (tr : Services.Tree) (text : Str) (ex : CilConstr.Expr) : Prop where
  writes : Writes [ex.tree] text
  doc : ex.Doc
  ok : ∀ vt : Bool, (tr.usesThird = true → vt = true) → ex.Ok vt
  holds : ∀ (p : Policy.Policy) (s t : Policy.Context) (x : Option Policy.Context), Vals s → Vals t → (∀ c, x = some c → Vals c) →
    (ex.Holds (meaning pn members) p s t x ↔ tr.Holds p s t x)
  need : ex.need = tr.cells

theorem code_type (w : Who) (f : Field) : Services.band (f.code + w.code) Services.TYPE = decide (f = .type) ∧
    Services.band (f.code + w.code) Services.USER = decide (f = .user) ∧ Services.band (f.code + w.code) Services.ROLE = decide (f = .role) := by
  cases w <;> cases f <;> decide

theorem consNames_eq (pn : Names) {e : CExpr} {w : Who} {f : Field} (h : e.attr = f.code + w.code) :
    consNames pn e = (ebitmapToStr (kept e f) (pn.of f)).getD "NO_IDENTIFIER".toList := by
  obtain ⟨h1, h2, h3⟩ := code_type w f
  unfold consNames
  rw [h, h1, h2, h3]
  cases f <;> rfl

theorem names_says {pn : Names} (hn : NamesOk pn) {members : Nat → Ebitmap.Ebitmap} {e : CExpr} {w : Who} {f : Field} {neg : Bool} {set : Ebitmap.Ebitmap}
    (hd : Services.Denotes e (.names w f neg set)) (hl : LeafOk pn members e) :
    ∃ text ex, consLeaf pn e = some text ∧ Says pn members (.atom (.names w f neg set)) text ex := by
  obtain ⟨h1, h2, h3, h4⟩ := hl w f neg set hd
  obtain ⟨d1, d2, d3, d4⟩ := hd
  obtain ⟨l, l1, l2, l3⟩ := ebitmapToStr_some h1 h2 fun i hi => let ⟨s, hs, _⟩ := h3 i hi; ⟨s, hs⟩
  have hg : ∀ s ∈ l, GoodName s := fun s hs => let ⟨i, _, h⟩ := (l3 s).1 hs; hn.good f i s h
  have hres : ∀ s ∈ l, String.ofList s ∉ CilConstr.reserved := fun s hs => by
    obtain ⟨i, hi, h⟩ := (l3 s).1 hs
    obtain ⟨s', e1, e2⟩ := h3 i hi
    rw [h] at e1; cases e1; exact e2
  obtain ⟨b, hb⟩ := consAttr_names w f
  -- the names of the expression
  have hns : ∃ ns : CilConstr.Names, (∀ a, a ∈ ns.all ↔ ∃ s ∈ l, a = String.ofList s) ∧ ns.Ok ∧
      Writes [ns.tree] (if (join l).contains ' ' = true then '(' :: (join l ++ [')']) else join l) := by
    match l, l1 with
    | [s], _ =>
      refine ⟨.one (String.ofList s), by simp [CilConstr.Names.all], hres s List.mem_cons_self, ?_⟩
      have := (join_space [s] hg)
      rw [if_neg (by rw [this]; simp)]
      exact writes_name (hg s List.mem_cons_self)
    | s :: t :: l, _ =>
      refine ⟨.many (String.ofList s) ((t :: l).map String.ofList), ?_, trivial, ?_⟩
      · intro a
        simp only [CilConstr.Names.all, List.mem_cons, List.mem_map]
        constructor
        · rintro (h | ⟨x, h, rfl⟩)
          · exact ⟨s, .inl rfl, h⟩
          · exact ⟨x, .inr h, rfl⟩
        · rintro ⟨x, (rfl | h), rfl⟩
          · exact .inl rfl
          · exact .inr ⟨x, h, rfl⟩
      · rw [if_pos ((join_space (s :: t :: l) hg).2 (by simp))]
        have := writes_paren (join_writes (s :: t :: l) hg)
        simpa [CilConstr.Names.tree, Function.comp_def] using this
  obtain ⟨ns, n1, n2, n3⟩ := hns
  refine ⟨paren3 (CilConstr.eqWord neg).toList (CilConstr.part w f).toList (if (join l).contains ' ' = true then '(' :: (join l ++ [')']) else join l),
    .is w f neg ns, ?_, ?_, trivial, ?_, ?_, rfl⟩
  · unfold consLeaf
    rw [d3, consOp_eq, d2, hb, consNames_eq pn d2, l2, d1]
    simp only [Option.bind_some, Option.map_some, Option.getD_some]
    rw [if_neg (by decide)]
    split <;> rfl
  · exact writes_paren3 (word_eq neg) (word_part w f) n3
  · intro vt hvt
    refine ⟨n2, fun hw => hvt ?_⟩
    rw [hw]; rfl
  · intro p s t x hs ht hx
    simp only [CilConstr.Expr.Holds, Services.Tree.Holds, Services.Atom.Holds]
    have key : ∀ c, Vals c → ((∃ a ∈ ns.all, meaning pn members f a (f.get c)) ↔ Ebitmap.getBit set (f.get c - 1) = true) := by
      intro c hc
      have hv := hc f
      constructor
      · rintro ⟨a, ha, i, hi, hm⟩
        obtain ⟨s', hs', rfl⟩ := (n1 a).1 ha
        obtain ⟨j, hj, hj'⟩ := (l3 s').1 hs'
        rw [String.toList_ofList] at hi
        have := hn.inj f i j s' hi hj'
        subst this
        cases f with
        | type =>
          rw [← d4]
          exact (h4 rfl _).2 ⟨i, hj, hm⟩
        | user => simp only [standsFor] at hm; rw [← d4, hm, Nat.add_sub_cancel]; exact hj
        | role => simp only [standsFor] at hm; rw [← d4, hm, Nat.add_sub_cancel]; exact hj
      · intro hb
        have : ∃ i, Ebitmap.getBit (kept e f) i = true ∧ standsFor members f i (f.get c) := by
          cases f with
          | type => rw [← d4] at hb; exact (h4 rfl _).1 hb
          | user => rw [← d4] at hb; exact ⟨_, hb, by simp only [standsFor]; omega⟩
          | role => rw [← d4] at hb; exact ⟨_, hb, by simp only [standsFor]; omega⟩
        obtain ⟨i, hi, hm⟩ := this
        obtain ⟨s', hs', -⟩ := h3 i hi
        refine ⟨String.ofList s', (n1 _).2 ⟨s', (l3 s').2 ⟨i, hi, hs'⟩, rfl⟩, i, by rw [String.toList_ofList]; exact hs', hm⟩
    have hpick : ∀ c, w.pick s t x = some c → Vals c := by
      intro c hc
      cases w <;> simp only [Services.Who.pick, Option.some.injEq] at hc
      · subst hc; exact hs
      · subst hc; exact ht
      · exact hx c hc
    refine exists_congr fun c => and_congr_right fun hc => ?_
    rw [CilConstr.Eqs]
    cases neg with
    | true => simp [key c (hpick c hc)]
    | false => simp [key c (hpick c hc)]

theorem leaf_says {pn : Names} (hn : NamesOk pn) {members : Nat → Ebitmap.Ebitmap} {e : CExpr} {a : Services.Atom} (hd : Services.Denotes e a)
    (hl : LeafOk pn members e) :
    ∃ text ex, consStep pn e [] = some [text] ∧ (e.exprType = 4 ∨ e.exprType = 5) ∧ consLeaf pn e = some text ∧ Says pn members (.atom a) text ex ∧
      (decide (Services.L1L2 ≤ e.attr) = mls (.atom a)) := by
  have step : ∀ text, (e.exprType = 4 ∨ e.exprType = 5) → consLeaf pn e = some text → consStep pn e [] = some [text] := by
    intro text h1 h2
    unfold consStep
    rw [if_pos (show e.exprType = Services.ATTR ∨ e.exprType = Services.NAMES from h1), h2]; rfl
  cases a with
  | same f neg =>
    obtain ⟨d1, d2, d3⟩ := hd
    have hc : consLeaf pn e = some (paren3 (CilConstr.eqWord neg).toList (CilConstr.part .src f).toList (CilConstr.part .tgt f).toList) := by
      unfold consLeaf
      rw [d3, consOp_eq, d2, consAttr_field, d1]
      rfl
    refine ⟨_, .same f neg, step _ (.inl d1) hc, .inl d1, hc, ⟨writes_paren3 (word_eq neg) (word_part _ _) (word_part _ _), trivial, fun _ _ => trivial, ?_, rfl⟩, ?_⟩
    · intro p s t x _ _ _
      simp only [CilConstr.Expr.Holds, Services.Tree.Holds, Services.Atom.Holds, CilConstr.Eqs]
      cases neg <;> simp
    · rw [d2]; cases f <;> rfl
  | roles r =>
    obtain ⟨d1, d2, d3⟩ := hd
    have hc : consLeaf pn e = some (paren3 (CilConstr.Rel.word r).toList (CilConstr.part .src .role).toList (CilConstr.part .tgt .role).toList) := by
      unfold consLeaf
      rw [d3, consOp_rel, d2, d1]
      rfl
    refine ⟨_, .roles r, step _ (.inl d1) hc, .inl d1, hc, ⟨writes_paren3 (word_rel r) (word_part .src .role) (word_part .tgt .role), trivial, fun _ _ => trivial, ?_, rfl⟩, ?_⟩
    · intro p s t x _ _ _
      cases r <;> exact Iff.rfl
    · rw [d2]; rfl
  | levels ls r =>
    obtain ⟨d1, d2, d3⟩ := hd
    have hc : consLeaf pn e = some (paren3 (CilConstr.Rel.word r).toList (CilConstr.Levels.words ls).1.toList (CilConstr.Levels.words ls).2.toList) := by
      unfold consLeaf
      rw [d3, consOp_rel, d2, consAttr_levels, d1]
      rfl
    refine ⟨_, .levels ls r, step _ (.inl d1) hc, .inl d1, hc, ⟨writes_paren3 (word_rel r) (word_levels ls).1 (word_levels ls).2, trivial, fun _ _ => trivial, ?_, rfl⟩, ?_⟩
    · intro p s t x _ _ _
      cases ls <;> cases r <;> exact Iff.rfl
    · rw [d2]; cases ls <;> rfl
  | names w f neg set =>
    obtain ⟨text, ex, h1, h2⟩ := names_says hn hd hl
    obtain ⟨d1, d2, -⟩ := hd
    refine ⟨text, ex, step _ (.inr d1) h1, .inr d1, h1, h2, ?_⟩
    rw [d2]; cases w <;> cases f <;> rfl

theorem consLoop_append (pn : Names) (a : List CExpr) : ∀ (b : List CExpr) (st : List Str),
    consLoop pn (a ++ b) st = (consLoop pn a st).bind (consLoop pn b) := by
  induction a with
  | nil => intro b st; rfl
  | cons t a ih =>
    intro b st
    simp only [List.cons_append, consLoop]
    cases consStep pn t st with
    | none => rfl
    | some st' => exact ih b st'

theorem cons_says {pn : Names} (hn : NamesOk pn) {members : Nat → Ebitmap.Ebitmap} {l : List CExpr} {tr : Services.Tree}
    (hp : Services.Postfix l tr) (hl : ∀ e ∈ l, LeafOk pn members e) :
    ∃ text ex, (∀ st, consLoop pn l st = some (text :: st)) ∧ Says pn members tr text ex ∧ useMls l = mls tr := by
  induction hp with
  | @atom e a hd =>
    obtain ⟨text, ex, h1, h2, h3, h4, h5⟩ := leaf_says hn hd (hl e List.mem_cons_self)
    refine ⟨text, ex, fun st => ?_, h4, ?_⟩
    · have : consStep pn e st = some (text :: st) := by
        unfold consStep
        rw [if_pos (show e.exprType = Services.ATTR ∨ e.exprType = Services.NAMES from h2), h3]; rfl
      rw [consLoop, this]; rfl
    · rw [← h5]
      rcases h2 with h2 | h2 <;> simp [useMls, h2, Services.ATTR, Services.NAMES]
  | @not l t e _ he ih =>
    obtain ⟨text, ex, h1, h2, h3⟩ := ih fun x hx => hl x (by simp [hx])
    refine ⟨paren2 "not".toList text, .not ex, fun st => ?_, ⟨writes_paren2 (writes_word "not" (by decide)) h2.writes, h2.doc, h2.ok, ?_, h2.need⟩, ?_⟩
    · have : consStep pn e (text :: st) = some (paren2 "not".toList text :: st) := by
        unfold consStep
        simp [he, Services.ATTR, Services.NAMES, Services.NOT]
      rw [consLoop_append, h1]
      simp only [Option.bind_some, consLoop, this]
    · intro p s t x hs ht hx
      exact not_congr (h2.holds p s t x hs ht hx)
    · rw [mls, ← h3]
      simp [useMls, he, Services.ATTR, Services.NAMES]
  | @and l1 t1 l2 t2 e _ _ he ih1 ih2 =>
    obtain ⟨text, ex, h1, h2, h3⟩ := ih1 fun x hx => hl x (by simp [hx])
    obtain ⟨text', ex', h1', h2', h3'⟩ := ih2 fun x hx => hl x (by simp [hx])
    refine ⟨paren3 "and".toList text text', .and ex ex', fun st => ?_,
      ⟨writes_paren3 (writes_word "and" (by decide)) h2.writes h2'.writes, ⟨h2.doc, h2'.doc⟩, ?_, ?_, ?_⟩, ?_⟩
    · have : consStep pn e (text' :: text :: st) = some (paren3 "and".toList text text' :: st) := by
        unfold consStep
        simp [he, Services.ATTR, Services.NAMES, Services.NOT, Services.AND]
      rw [consLoop_append, h1]
      simp only [Option.bind_some]
      rw [consLoop_append, h1']
      simp only [Option.bind_some, consLoop, this]
    · intro vt hvt
      exact ⟨h2.ok vt fun h => hvt (by simp [Services.Tree.usesThird, h]), h2'.ok vt fun h => hvt (by simp [Services.Tree.usesThird, h])⟩
    · intro p s t x hs ht hx
      exact and_congr (h2.holds p s t x hs ht hx) (h2'.holds p s t x hs ht hx)
    · simp only [CilConstr.Expr.need, Services.Tree.cells, h2.need, h2'.need]
    · rw [mls, ← h3, ← h3']
      simp [useMls, he, Services.ATTR, Services.NAMES]
  | @or l1 t1 l2 t2 e _ _ he ih1 ih2 =>
    obtain ⟨text, ex, h1, h2, h3⟩ := ih1 fun x hx => hl x (by simp [hx])
    obtain ⟨text', ex', h1', h2', h3'⟩ := ih2 fun x hx => hl x (by simp [hx])
    refine ⟨paren3 "or".toList text text', .or ex ex', fun st => ?_,
      ⟨writes_paren3 (writes_word "or" (by decide)) h2.writes h2'.writes, ⟨h2.doc, h2'.doc⟩, ?_, ?_, ?_⟩, ?_⟩
    · have : consStep pn e (text' :: text :: st) = some (paren3 "or".toList text text' :: st) := by
        unfold consStep
        simp [he, Services.ATTR, Services.NAMES, Services.NOT, Services.AND, Services.OR]
      rw [consLoop_append, h1]
      simp only [Option.bind_some]
      rw [consLoop_append, h1']
      simp only [Option.bind_some, consLoop, this]
    · intro vt hvt
      exact ⟨h2.ok vt fun h => hvt (by simp [Services.Tree.usesThird, h]), h2'.ok vt fun h => hvt (by simp [Services.Tree.usesThird, h])⟩
    · intro p s t x hs ht hx
      exact or_congr (h2.holds p s t x hs ht hx) (h2'.holds p s t x hs ht hx)
    · simp only [CilConstr.Expr.need, Services.Tree.cells, h2.need, h2'.need]
    · rw [mls, ← h3, ← h3']
      simp [useMls, he, Services.ATTR, Services.NAMES]

end Verif.KernelCil
