import Verif.Services.AvSpec
import Verif.Services.ConstraintLemmas
import Verif.Avtab.Props

namespace Verif.Services
open Verif.Policy Verif.Mls

theorem foldl_pred {α β : Type} (f : β → α → β) (P : β → Prop) (Q : α → Prop) (h : ∀ a x, P (f a x) ↔ P a ∨ Q x) :
    ∀ (l : List α) (a : β), P (l.foldl f a) ↔ P a ∨ ∃ x ∈ l, Q x := by
  intro l
  induction l with
  | nil => intro a; simp
  | cons x l ih =>
    intro a
    rw [List.foldl_cons, ih, h]
    simp only [List.mem_cons, exists_eq_or_imp]
    tauto

theorem enabledKind_iff (k : BitVec 16) (n : Avtab.Node) :
    enabledKind k n = true ↔ n.key.specified &&& k = k ∧ n.key.specified &&& Avtab.ENABLED = Avtab.ENABLED := by
  unfold enabledKind
  rw [beq_iff_eq]
  generalize n.key.specified = s
  generalize Avtab.ENABLED = e
  constructor
  · intro h
    constructor <;>
    · apply BitVec.eq_of_getLsbD_eq
      intro i hi
      have := congrArg (fun v => BitVec.getLsbD v i) h
      simp only [BitVec.getLsbD_or, BitVec.getLsbD_and] at this ⊢
      revert this
      cases s.getLsbD i <;> cases k.getLsbD i <;> cases e.getLsbD i <;> simp
  · rintro ⟨h1, h2⟩
    apply BitVec.eq_of_getLsbD_eq
    intro i hi
    have a1 := congrArg (fun v => BitVec.getLsbD v i) h1
    have a2 := congrArg (fun v => BitVec.getLsbD v i) h2
    simp only [BitVec.getLsbD_or, BitVec.getLsbD_and] at a1 a2 ⊢
    revert a1 a2
    cases s.getLsbD i <;> cases k.getLsbD i <;> cases e.getLsbD i <;> simp

/-- The three vectors of a decision. -/
inductive Vec | allowed | auditallow | auditdeny

def Vec.kind : Vec → BitVec 16
  | .allowed => Avtab.ALLOWED
  | .auditallow => Avtab.AUDITALLOW
  | .auditdeny => Avtab.AUDITDENY

/-- The bit has been changed from its default. -/
def Vec.changed (b : Nat) (a : Avd) : Vec → Prop
  | .allowed => a.allowed.getLsbD b = true
  | .auditallow => a.auditallow.getLsbD b = true
  | .auditdeny => a.auditdeny.getLsbD b = false

def Vec.bit : Vec → Bool
  | .auditdeny => false
  | _ => true

theorem teNode_iff (v : Vec) (b : Nat) (a : Avd) (n : Avtab.Node) :
    v.changed b (teNode a n) ↔ v.changed b a ∨ (n.key.specified = v.kind ∧ n.datum.data.getLsbD b = v.bit) := by
  have d1 : (Avtab.ALLOWED = Avtab.AUDITALLOW) = False := by simp [Avtab.ALLOWED, Avtab.AUDITALLOW]
  have d2 : (Avtab.ALLOWED = Avtab.AUDITDENY) = False := by simp [Avtab.ALLOWED, Avtab.AUDITDENY]
  have d3 : (Avtab.AUDITALLOW = Avtab.AUDITDENY) = False := by simp [Avtab.AUDITALLOW, Avtab.AUDITDENY]
  have d1' : (Avtab.AUDITALLOW = Avtab.ALLOWED) = False := by simp [Avtab.ALLOWED, Avtab.AUDITALLOW]
  have d2' : (Avtab.AUDITDENY = Avtab.ALLOWED) = False := by simp [Avtab.ALLOWED, Avtab.AUDITDENY]
  have d3' : (Avtab.AUDITDENY = Avtab.AUDITALLOW) = False := by simp [Avtab.AUDITALLOW, Avtab.AUDITDENY]
  unfold teNode
  by_cases h1 : n.key.specified = Avtab.ALLOWED
  · rw [if_pos h1, h1]
    cases v <;> simp [Vec.changed, Vec.kind, Vec.bit, d1, d2]
  · rw [if_neg h1]
    by_cases h2 : n.key.specified = Avtab.AUDITALLOW
    · rw [if_pos h2, h2]
      cases v <;> simp [Vec.changed, Vec.kind, Vec.bit, d1', d3]
    · rw [if_neg h2]
      by_cases h3 : n.key.specified = Avtab.AUDITDENY
      · rw [if_pos h3, h3]
        cases v <;> simp [Vec.changed, Vec.kind, Vec.bit, d2', d3']
        cases a.auditdeny.getLsbD b <;> simp
      · rw [if_neg h3]
        cases v <;> simp [Vec.changed, Vec.kind, h1, h2, h3]

theorem condNode_iff (v : Vec) (b : Nat) (a : Avd) (n : Avtab.Node) :
    v.changed b (condNode a n) ↔ v.changed b a ∨ (enabledKind v.kind n = true ∧ n.datum.data.getLsbD b = v.bit) := by
  unfold condNode
  simp only
  cases v <;> simp only [Vec.kind, Vec.bit] <;>
    cases enabledKind Avtab.ALLOWED n <;> cases enabledKind Avtab.AUDITDENY n <;> cases enabledKind Avtab.AUDITALLOW n <;>
    simp [Vec.changed] <;> cases a.auditdeny.getLsbD b <;> simp

theorem pairPass_iff (p : SPolicy) (v : Vec) (cls b : Nat) (a : Avd) (i j : Nat) :
    v.changed b (pairPass p cls a i j) ↔ v.changed b a ∨
      ((∃ n ∈ Avtab.enumerate p.te (avKey cls i j), n.key.specified = v.kind ∧ n.datum.data.getLsbD b = v.bit) ∨
       (∃ n ∈ Avtab.enumerate p.cond (avKey cls i j), enabledKind v.kind n = true ∧ n.datum.data.getLsbD b = v.bit)) := by
  unfold pairPass
  rw [foldl_pred condNode (fun a => v.changed b a) _ (condNode_iff v b),
    foldl_pred teNode (fun a => v.changed b a) _ (teNode_iff v b)]
  exact or_assoc

theorem tePass_iff (p : SPolicy) (v : Vec) (cls b : Nat) (hb : b < 32) (sbits tbits : List Nat) :
    v.changed b (tePass p cls sbits tbits) ↔ ∃ i ∈ sbits, ∃ j ∈ tbits,
      ((∃ n ∈ Avtab.enumerate p.te (avKey cls i j), n.key.specified = v.kind ∧ n.datum.data.getLsbD b = v.bit) ∨
       (∃ n ∈ Avtab.enumerate p.cond (avKey cls i j), enabledKind v.kind n = true ∧ n.datum.data.getLsbD b = v.bit)) := by
  unfold tePass
  rw [foldl_pred (fun a i => tbits.foldl (fun a j => pairPass p cls a i j) a) (fun a => v.changed b a) _
    (fun a i => foldl_pred (fun a j => pairPass p cls a i j) (fun a => v.changed b a) _
      (fun a j => pairPass_iff p v cls b a i j) tbits a)]
  have h0 : ¬ v.changed b ⟨0#32, 0#32, BitVec.allOnes 32⟩ := by
    cases v <;> simp only [Vec.changed, BitVec.getLsbD_allOnes, hb, decide_true] <;> simp
  simp only [h0, false_or]

theorem answers_kind {cls i j : Nat} {n : Avtab.Node} (v : Vec) (hk : n.key.specified &&& v.kind = v.kind) :
    Avtab.Answers (avKey cls i j) n ↔ (i + 1) % 2 ^ 16 = n.key.source ∧ (j + 1) % 2 ^ 16 = n.key.target ∧ cls = n.key.cls := by
  unfold Avtab.Answers avKey
  simp only
  have : ∃ i, i < 15 ∧ Avtab.AV.getLsbD i = true ∧ n.key.specified.getLsbD i = true := by
    cases v
    · refine ⟨0, by decide, by decide, ?_⟩
      have := congrArg (fun x => BitVec.getLsbD x 0) hk
      simpa [Vec.kind, Avtab.ALLOWED] using this
    · refine ⟨1, by decide, by decide, ?_⟩
      have := congrArg (fun x => BitVec.getLsbD x 1) hk
      simpa [Vec.kind, Avtab.AUDITALLOW] using this
    · refine ⟨2, by decide, by decide, ?_⟩
      have := congrArg (fun x => BitVec.getLsbD x 2) hk
      simpa [Vec.kind, Avtab.AUDITDENY] using this
  constructor
  · rintro ⟨h1, h2, h3, _⟩; exact ⟨h1, h2, h3⟩
  · rintro ⟨h1, h2, h3⟩; exact ⟨h1, h2, h3, this⟩

open Classical in
theorem mem_enumerate {h : Avtab.Avtab} {rules : List Avtab.Node} (hc : Contains h rules) (k : Avtab.Key) (n : Avtab.Node) :
    n ∈ Avtab.enumerate h k ↔ n ∈ rules ∧ Avtab.Answers k n := by
  rw [(hc k).mem_iff, List.mem_filter]
  simp

/-- Attribute bits as listed by the loops. -/
theorem bits_mem {m : Ebitmap.Ebitmap} (hw : Ebitmap.WF m) (hs : ∀ b, Ebitmap.getBit m b = true → b < 2 ^ 16 - 1) {bits : List Nat}
    (h : Ebitmap.forEachPositiveBit (m.highbit + 1) m = some bits) (b : Nat) : b ∈ bits ↔ Ebitmap.getBit m b = true := by
  rw [Ebitmap.C04_for_each_positive_bit hw (Nat.le_refl _)] at h
  simp only [Option.some.injEq] at h
  rw [← h, List.mem_filter, List.mem_range]
  constructor
  · exact fun h => h.2
  · intro hb
    have := hs b hb
    have h2 : b < 2 ^ 32 := by omega
    exact ⟨h2, hb⟩

/-- The parts of `PolicyOk` about the tables. -/
structure TablesOk (p : SPolicy) (R : Rules) : Prop where
  te : Contains p.te R.te
  cond : Contains p.cond R.cond
  attr : ∀ ty m, p.typeAttr ty = some m → Ebitmap.WF m ∧ ∀ b, Ebitmap.getBit m b = true → b < 2 ^ 16 - 1

theorem PolicyOk.tables {p : SPolicy} {R : Rules} (ok : PolicyOk p R) : TablesOk p R := ⟨ok.te, ok.cond, ok.attr⟩

/-- Changed bits of the decision are those with an applying rule. -/
theorem tePass_applies {p : SPolicy} {R : Rules} (ok : TablesOk p R) {s t : Context} {sattr tattr : Ebitmap.Ebitmap}
    {sbits tbits : List Nat} (h1 : p.typeAttr (s.type - 1) = some sattr) (h2 : p.typeAttr (t.type - 1) = some tattr)
    (h3 : Ebitmap.forEachPositiveBit (sattr.highbit + 1) sattr = some sbits)
    (h4 : Ebitmap.forEachPositiveBit (tattr.highbit + 1) tattr = some tbits)
    (v : Vec) (cls b : Nat) (hb : b < 32) :
    v.changed b (tePass p cls sbits tbits) ↔ ∃ r, Applies p R v.kind s t cls r ∧ r.datum.data.getLsbD b = v.bit := by
  obtain ⟨ws, fs⟩ := ok.attr _ _ h1
  obtain ⟨wt, ft⟩ := ok.attr _ _ h2
  have hkk : v.kind &&& v.kind = v.kind := BitVec.and_self
  rw [tePass_iff p v cls b hb]
  have cov1 : ∀ i, Ebitmap.getBit sattr i = true → (i + 1) % 2 ^ 16 = i + 1 ∧ Covers p s.type (i + 1) := by
    intro i hi
    have := fs i hi
    exact ⟨Nat.mod_eq_of_lt (by omega), by omega, sattr, h1, by simpa using hi⟩
  have cov2 : ∀ i, Ebitmap.getBit tattr i = true → (i + 1) % 2 ^ 16 = i + 1 ∧ Covers p t.type (i + 1) := by
    intro i hi
    have := ft i hi
    exact ⟨Nat.mod_eq_of_lt (by omega), by omega, tattr, h2, by simpa using hi⟩
  constructor
  · rintro ⟨i, hi, j, hj, h⟩
    obtain ⟨e1, c1⟩ := cov1 i ((bits_mem ws fs h3 i).mp hi)
    obtain ⟨e2, c2⟩ := cov2 j ((bits_mem wt ft h4 j).mp hj)
    rcases h with ⟨n, hn, hk, hbit⟩ | ⟨n, hn, hk, hbit⟩
    · obtain ⟨m1, m2⟩ := (mem_enumerate ok.te _ n).mp hn
      obtain ⟨a1, a2, a3⟩ := (answers_kind v (by rw [hk, hkk])).mp m2
      rw [e1] at a1; rw [e2] at a2
      exact ⟨n, ⟨a1 ▸ c1, a2 ▸ c2, a3.symm, Or.inl ⟨m1, hk⟩⟩, hbit⟩
    · obtain ⟨m1, m2⟩ := (mem_enumerate ok.cond _ n).mp hn
      have hk' := (enabledKind_iff v.kind n).mp hk
      obtain ⟨a1, a2, a3⟩ := (answers_kind v hk'.1).mp m2
      rw [e1] at a1; rw [e2] at a2
      exact ⟨n, ⟨a1 ▸ c1, a2 ▸ c2, a3.symm, Or.inr ⟨m1, hk'⟩⟩, hbit⟩
  · rintro ⟨r, ⟨⟨g1, m, hm, hgb⟩, ⟨g2, m', hm', hgb'⟩, g3, g4⟩, hbit⟩
    rw [h1] at hm; cases hm
    rw [h2] at hm'; cases hm'
    obtain ⟨e1, -⟩ := cov1 _ hgb
    obtain ⟨e2, -⟩ := cov2 _ hgb'
    rw [Nat.sub_add_cancel g1] at e1
    rw [Nat.sub_add_cancel g2] at e2
    refine ⟨r.key.source - 1, (bits_mem ws fs h3 _).mpr hgb, r.key.target - 1, (bits_mem wt ft h4 _).mpr hgb', ?_⟩
    have ans : r.key.specified &&& v.kind = v.kind → Avtab.Answers (avKey cls (r.key.source - 1) (r.key.target - 1)) r := by
      intro hk
      rw [answers_kind v hk, Nat.sub_add_cancel g1, Nat.sub_add_cancel g2]
      exact ⟨e1, e2, g3.symm⟩
    rcases g4 with ⟨k1, k2⟩ | ⟨k1, k2⟩
    · left
      exact ⟨r, (mem_enumerate ok.te _ r).mpr ⟨k1, ans (by rw [k2, hkk])⟩, k2, hbit⟩
    · right
      exact ⟨r, (mem_enumerate ok.cond _ r).mpr ⟨k1, ans k2.1⟩, (enabledKind_iff _ _).mpr k2, hbit⟩

/-! ## Constraints of a validated class -/

theorem validated_expr {fl : Flavors} {nperms : Nat} {cons : List Constraint} (h : validateConstraints fl nperms cons = true)
    (hn : nperms ≠ 2 ^ 32 - 1) {c : Constraint} (hc : c ∈ cons) :
    ∃ t, Postfix c.expr t ∧ t.cells ≤ 5 ∧ t.usesThird = false := by
  unfold validateConstraints at h
  simp only at h
  split at h
  · simp at h
  · have := (List.all_eq_true.mp h) c hc
    split at this
    · simp at this
    split at this
    · simp at this
    split at this
    · simp at this
    split at this
    · simp at this
    · obtain ⟨t, h1, h2, h3⟩ := validateExpr_forest c.expr [] [] (-1) .nil trivial (by simp) (by simp) this
      exact ⟨t, by simpa using h1, h2, h3 (by simpa using hn)⟩

theorem validated_expr_vt {fl : Flavors} {cons : List Constraint} (h : validateConstraints fl (2 ^ 32 - 1) cons = true)
    {c : Constraint} (hc : c ∈ cons) : ∃ t, Postfix c.expr t ∧ t.cells ≤ 5 := by
  unfold validateConstraints at h
  simp only at h
  split at h
  · simp at h
  · have := (List.all_eq_true.mp h) c hc
    split at this
    · simp at this
    split at this
    · simp at this
    split at this
    · simp at this
    split at this
    · simp at this
    · obtain ⟨t, h1, h2, h3⟩ := validateExpr_forest c.expr [] [] (-1) .nil trivial (by simp) (by simp) this
      exact ⟨t, by simpa using h1, h2⟩

open Classical in
theorem eval_postfix {p : Policy} {s t : Context} (hs : CtxOk p s) (ht : CtxOk p t) {x : Option Context}
    (hx : ∀ c, x = some c → CtxOk p c) {c : Constraint} {tr : Tree} (h : Postfix c.expr tr) (hd : tr.cells ≤ 5)
    (hthird : x = none → tr.usesThird = false) :
    constraintEval p s t x c = some (if tr.Holds p s t x then 1 else 0) := by
  have := loop_postfix hs ht hx h hthird [] [] (by simpa using hd)
  unfold constraintEval
  rw [List.append_nil] at this
  rw [this, loop]
  simp only [List.getLast?_singleton]
  by_cases hh : tr.Holds p s t x
  · rw [tv_true.mpr hh, if_pos hh]
  · have : tv (tr.Holds p s t x) = false := by rw [← Bool.not_eq_true, tv_true]; exact hh
    rw [this, if_neg hh]

/-- Abstract run: stack cells and use of the third context. -/
def shape : List CExpr → List (Nat × Bool) → Option (List (Nat × Bool))
  | [], st => some st
  | e :: l, st =>
    if e.exprType = 1 then
      match st with
      | a :: st => shape l (a :: st)
      | _ => none
    else if e.exprType = 2 ∨ e.exprType = 3 then
      match st with
      | b :: a :: st => shape l ((max a.1 (b.1 + 1), a.2 || b.2) :: st)
      | _ => none
    else shape l ((1, decide (e.exprType = 5) && band e.attr 16) :: st)

theorem shape_cons (e : CExpr) (l : List CExpr) (st : List (Nat × Bool)) : shape (e :: l) st =
    if e.exprType = 1 then
      match st with
      | a :: st => shape l (a :: st)
      | _ => none
    else if e.exprType = 2 ∨ e.exprType = 3 then
      match st with
      | b :: a :: st => shape l ((max a.1 (b.1 + 1), a.2 || b.2) :: st)
      | _ => none
    else shape l ((1, decide (e.exprType = 5) && band e.attr 16) :: st) := by
  rw [shape.eq_def]

theorem shape_postfix {l : List CExpr} {t : Tree} (h : Postfix l t) : ∀ rest st,
    shape (l ++ rest) st = shape rest ((t.cells, t.usesThird) :: st) := by
  induction h with
  | atom hd =>
    rename_i e a
    intro rest st
    have hty := denotes_type hd
    rw [List.singleton_append, shape_cons, if_neg (by omega), if_neg (by omega)]
    congr 3
    cases a with
    | same f n => simp [hd.1, Tree.usesThird]
    | roles r => simp [hd.1, Tree.usesThird]
    | levels ls r => simp [hd.1, Tree.usesThird]
    | names w f n set =>
      have := (band_code f w).2.1
      rw [hd.2.1]
      unfold XTARGET at this
      rw [this]
      cases w <;> simp [hd.1, Tree.usesThird]
  | not h he ih =>
    intro rest st
    rw [List.append_assoc, ih, List.singleton_append, shape_cons, if_pos he]
    rfl
  | and h1 h2 he ih1 ih2 =>
    intro rest st
    rw [List.append_assoc, List.append_assoc, ih1, ih2, List.singleton_append, shape_cons, if_neg (by omega), if_pos (Or.inl he)]
    rfl
  | or h1 h2 he ih1 ih2 =>
    intro rest st
    rw [List.append_assoc, List.append_assoc, ih1, ih2, List.singleton_append, shape_cons, if_neg (by omega), if_pos (Or.inr he)]
    rfl

theorem postfix_shape {l : List CExpr} {t1 t2 : Tree} (h1 : Postfix l t1) (h2 : Postfix l t2) :
    t1.cells = t2.cells ∧ t1.usesThird = t2.usesThird := by
  have a1 := shape_postfix h1 [] []
  have a2 := shape_postfix h2 [] []
  rw [a1] at a2
  simpa [shape] using a2

/-- A fitting expression holds iff the evaluator returns 1, whichever tree is read off it. -/
theorem eval_iff {p : Policy} {s t : Context} (hs : CtxOk p s) (ht : CtxOk p t) {x : Option Context}
    (hx : ∀ c, x = some c → CtxOk p c) {c : Constraint}
    (h : ∃ tr, Postfix c.expr tr ∧ tr.cells ≤ 5 ∧ (x = none → tr.usesThird = false)) :
    ∃ rc, constraintEval p s t x c = some rc ∧ (rc = 0 ∨ rc = 1) ∧
      (rc ≠ 0 ↔ ∃ tree, Postfix c.expr tree ∧ tree.Holds p s t x) := by
  classical
  obtain ⟨tr, h1, h2, h3⟩ := h
  refine ⟨_, eval_postfix hs ht hx h1 h2 h3, by split <;> simp, ?_⟩
  constructor
  · intro hne
    refine ⟨tr, h1, ?_⟩
    by_contra hc
    rw [if_neg hc] at hne
    exact hne rfl
  · rintro ⟨t2, p2, hh⟩
    obtain ⟨e1, e2⟩ := postfix_shape h1 p2
    have a := eval_postfix hs ht hx h1 h2 h3
    have b := eval_postfix hs ht hx p2 (by omega) (fun hn => by rw [← e2]; exact h3 hn)
    rw [a, if_pos hh] at b
    simp only [Option.some.injEq] at b
    rw [b]; decide


/-! ## Expressions that need too much stack; error codes of single nodes; uniqueness of meaning -/

theorem cells_pos (t : Tree) : 1 ≤ t.cells := by
  induction t with
  | atom a => exact Nat.le_refl 1
  | not t ih => exact ih
  | and a b iha ihb => simp only [Tree.cells]; omega
  | or a b iha ihb => simp only [Tree.cells]; omega

theorem loop_deep {p : Policy} {s t : Context} (hs : CtxOk p s) (ht : CtxOk p t) {x : Option Context}
    (hx : ∀ c, x = some c → CtxOk p c) {l : List CExpr} {tr : Tree} (h : Postfix l tr)
    (hthird : x = none → tr.usesThird = false) :
    ∀ (rest : List CExpr) (st : List Bool), 5 < tr.cells + st.length → st.length ≤ 5 →
      loop p s t x (l ++ rest) st = some 0 := by
  induction h with
  | atom hd =>
    rename_i e a
    intro rest st hst hle
    simp only [Tree.cells] at hst
    have hlen : st.length = MAXDEPTH := by unfold MAXDEPTH; omega
    rw [List.singleton_append, loop_cons]
    rcases denotes_type hd with h4 | h5
    · simp only [h4, NOT, AND, OR, ATTR, NAMES, Nat.reduceEqDiff, if_false, true_or, if_true, if_pos hlen]
    · simp only [h5, NOT, AND, OR, ATTR, NAMES, Nat.reduceEqDiff, if_false, or_true, if_true, if_pos hlen]
  | not h he ih =>
    intro rest st hst hle
    rw [List.append_assoc]
    exact ih hthird _ st hst hle
  | and h1 h2 he ih1 ih2 =>
    rename_i l1 t1 l2 t2 e
    intro rest st hst hle
    simp only [Tree.cells] at hst
    simp only [Tree.usesThird, Bool.or_eq_false_iff] at hthird
    rw [List.append_assoc, List.append_assoc]
    by_cases hd : 5 < t1.cells + st.length
    · exact ih1 (fun h => (hthird h).1) _ st hd hle
    · have hc := cells_pos t1
      rw [loop_postfix hs ht hx h1 (fun h => (hthird h).1) _ st (by omega)]
      exact ih2 (fun h => (hthird h).2) _ _ (by simp only [List.length_cons]; omega) (by simp only [List.length_cons]; omega)
  | or h1 h2 he ih1 ih2 =>
    rename_i l1 t1 l2 t2 e
    intro rest st hst hle
    simp only [Tree.cells] at hst
    simp only [Tree.usesThird, Bool.or_eq_false_iff] at hthird
    rw [List.append_assoc, List.append_assoc]
    by_cases hd : 5 < t1.cells + st.length
    · exact ih1 (fun h => (hthird h).1) _ st hd hle
    · have hc := cells_pos t1
      rw [loop_postfix hs ht hx h1 (fun h => (hthird h).1) _ st (by omega)]
      exact ih2 (fun h => (hthird h).2) _ _ (by simp only [List.length_cons]; omega) (by simp only [List.length_cons]; omega)

theorem valOp_out {op a b : Nat} {rc : Int} (h : valOp op a b = .out rc) : rc = 0 := by
  unfold valOp at h
  split at h
  · cases h
  · split at h
    · cases h
    · cases h; rfl

theorem mlsOp_out {op : Nat} {a b : Level} {rc : Int} (h : mlsOp op a b = .out rc) : rc = 0 := by
  unfold mlsOp at h
  repeat' split at h
  all_goals cases h
  rfl

theorem roleOp_out {p : Policy} {op a b : Nat} {rc : Int} (h : roleOp p op a b = .out rc) : rc = 0 := by
  unfold roleOp at h
  dsimp only at h
  repeat' split at h
  all_goals first | cases h; done | exact valOp_out h | skip

theorem attrStep_out {p : Policy} {s t : Context} {e : CExpr} {rc : Int} (h : attrStep p s t e = .out rc) : rc = 0 := by
  unfold attrStep at h
  repeat' split at h
  all_goals first | exact valOp_out h | exact roleOp_out h | exact mlsOp_out h | (cases h; rfl)

theorem namesStep_out {s t : Context} {x : Option Context} {e : CExpr} {rc : Int} (h : namesStep s t x e = .out rc) : rc = 0 := by
  unfold namesStep at h
  dsimp only at h
  split at h
  · cases h; rfl
  · split at h
    · cases h; rfl
    · split at h
      · cases h
      · split at h
        · cases h
        · cases h; rfl

theorem code_inj {f f' : Field} {w w' : Who} (h : f.code + w.code = f'.code + w'.code) : f = f' ∧ w = w' := by
  cases f <;> cases f' <;> cases w <;> cases w' <;> simp [Field.code, Who.code] at h <;> exact ⟨rfl, rfl⟩

theorem neg_inj {n n' : Bool} (h : (if n then 2 else 1) = (if n' then 2 else 1)) : n = n' := by
  cases n <;> cases n' <;> simp at h <;> rfl

theorem denotes_unique {p : Policy} {s t : Context} {x : Option Context} {e : CExpr} {a b : Atom} (ha : Denotes e a) (hb : Denotes e b) :
    a.Holds p s t x ↔ b.Holds p s t x := by
  have c2 : ∀ ls : Levels, ls.code ≠ 1 ∧ ls.code ≠ 2 ∧ ls.code ≠ 4 := by intro ls; cases ls <;> decide
  have cl : ∀ ls ls' : Levels, ls.code = ls'.code → ls = ls' := by
    intro ls ls' h; cases ls <;> cases ls' <;> simp [Levels.code] at h <;> rfl
  have cr : ∀ r r' : Rel, r.code = r'.code → r = r' := by
    intro ls ls' h; cases ls <;> cases ls' <;> simp [Rel.code] at h <;> rfl
  have cf : ∀ f f' : Field, f.code = f'.code → f = f' := by
    intro ls ls' h; cases ls <;> cases ls' <;> simp [Field.code] at h <;> rfl
  have rs : ∀ (f : Field) (n : Bool) (r : Rel), f.code = 2 → (if n then 2 else 1) = r.code →
      ((Atom.same f n).Holds p s t x ↔ (Atom.roles r).Holds p s t x) := by
    intro f n r hf hn
    cases f <;> simp [Field.code] at hf
    cases n <;> cases r <;> simp [Rel.code] at hn <;> simp [Atom.Holds, Field.get]
  cases a with
  | same f n =>
    obtain ⟨a1, a2, a3⟩ := ha
    cases b with
    | same f' n' =>
      obtain ⟨b1, b2, b3⟩ := hb
      obtain rfl := cf f f' (a2.symm.trans b2)
      obtain rfl := neg_inj (a3.symm.trans b3)
      exact Iff.rfl
    | roles r =>
      obtain ⟨b1, b2, b3⟩ := hb
      exact rs f n r (by rw [← a2, b2]) (by rw [← a3, b3])
    | levels ls r =>
      obtain ⟨b1, b2, b3⟩ := hb
      have := c2 ls
      rw [a2] at b2
      cases f <;> simp only [Field.code] at b2 <;> omega
    | names w f' n' set => have := hb.1; omega
  | roles r =>
    obtain ⟨a1, a2, a3⟩ := ha
    cases b with
    | same f' n' =>
      obtain ⟨b1, b2, b3⟩ := hb
      exact (rs f' n' r (by rw [← b2, a2]) (by rw [← b3, a3])).symm
    | roles r' =>
      obtain ⟨b1, b2, b3⟩ := hb
      rw [cr r r' (by rw [← a3, b3])]
    | levels ls r' =>
      obtain ⟨b1, b2, b3⟩ := hb
      have := c2 ls
      omega
    | names w f' n' set => have := hb.1; omega
  | levels ls r =>
    obtain ⟨a1, a2, a3⟩ := ha
    have := c2 ls
    cases b with
    | same f' n' =>
      obtain ⟨b1, b2, b3⟩ := hb
      rw [a2] at b2
      cases f' <;> simp only [Field.code] at b2 <;> omega
    | roles r' => obtain ⟨b1, b2, b3⟩ := hb; omega
    | levels ls' r' =>
      obtain ⟨b1, b2, b3⟩ := hb
      rw [cl ls ls' (by rw [← a2, b2]), cr r r' (by rw [← a3, b3])]
    | names w f' n' set => have := hb.1; omega
  | names w f n set =>
    obtain ⟨a1, a2, a3, a4⟩ := ha
    cases b with
    | same f' n' => have := hb.1; omega
    | roles r' => have := hb.1; omega
    | levels ls' r' => have := hb.1; omega
    | names w' f' n' set' =>
      obtain ⟨b1, b2, b3, b4⟩ := hb
      obtain ⟨rfl, rfl⟩ := code_inj (a2.symm.trans b2)
      obtain rfl := neg_inj (a3.symm.trans b3)
      rw [← a4, ← b4]

/-- Abstract run computing the truth value. -/
noncomputable def sem (p : Policy) (s t : Context) (x : Option Context) : List CExpr → List Bool → Option (List Bool)
  | [], st => some st
  | e :: l, st =>
    if e.exprType = 1 then
      match st with
      | a :: st => sem p s t x l ((!a) :: st)
      | _ => none
    else if e.exprType = 2 then
      match st with
      | b :: a :: st => sem p s t x l ((a && b) :: st)
      | _ => none
    else if e.exprType = 3 then
      match st with
      | b :: a :: st => sem p s t x l ((a || b) :: st)
      | _ => none
    else sem p s t x l (tv (∃ a, Denotes e a ∧ a.Holds p s t x) :: st)

theorem sem_cons (p : Policy) (s t : Context) (x : Option Context) (e : CExpr) (l : List CExpr) (st : List Bool) :
    sem p s t x (e :: l) st =
    if e.exprType = 1 then
      match st with
      | a :: st => sem p s t x l ((!a) :: st)
      | _ => none
    else if e.exprType = 2 then
      match st with
      | b :: a :: st => sem p s t x l ((a && b) :: st)
      | _ => none
    else if e.exprType = 3 then
      match st with
      | b :: a :: st => sem p s t x l ((a || b) :: st)
      | _ => none
    else sem p s t x l (tv (∃ a, Denotes e a ∧ a.Holds p s t x) :: st) := by
  rw [sem.eq_def]

theorem sem_postfix {p : Policy} {s t : Context} {x : Option Context} {l : List CExpr} {tr : Tree} (h : Postfix l tr) :
    ∀ rest st, sem p s t x (l ++ rest) st = sem p s t x rest (tv (tr.Holds p s t x) :: st) := by
  induction h with
  | atom hd =>
    rename_i e a
    intro rest st
    have hty := denotes_type hd
    rw [List.singleton_append, sem_cons, if_neg (by omega), if_neg (by omega), if_neg (by omega)]
    congr 2
    apply tv_eq
    rw [tv_true]
    exact ⟨fun ⟨b, h1, h2⟩ => (denotes_unique h1 hd).mp h2, fun h => ⟨a, hd, h⟩⟩
  | not h he ih =>
    intro rest st
    rw [List.append_assoc, ih, List.singleton_append, sem_cons, if_pos he]
    dsimp only
    congr 2
    apply tv_eq
    rw [Bool.not_eq_true', ← Bool.not_eq_true, tv_true]; rfl
  | and h1 h2 he ih1 ih2 =>
    intro rest st
    rw [List.append_assoc, List.append_assoc, ih1, ih2, List.singleton_append, sem_cons, if_neg (by omega), if_pos he]
    dsimp only
    congr 2
    apply tv_eq
    rw [Bool.and_eq_true, tv_true, tv_true]; rfl
  | or h1 h2 he ih1 ih2 =>
    intro rest st
    rw [List.append_assoc, List.append_assoc, ih1, ih2, List.singleton_append, sem_cons, if_neg (by omega), if_neg (by omega), if_pos he]
    dsimp only
    congr 2
    apply tv_eq
    rw [Bool.or_eq_true, tv_true, tv_true]; rfl

theorem postfix_holds_unique {p : Policy} {s t : Context} {x : Option Context} {l : List CExpr} {a b : Tree}
    (ha : Postfix l a) (hb : Postfix l b) : a.Holds p s t x ↔ b.Holds p s t x := by
  have h1 := sem_postfix (p := p) (s := s) (t := t) (x := x) ha [] []
  have h2 := sem_postfix (p := p) (s := s) (t := t) (x := x) hb [] []
  rw [h1] at h2
  have h3 : tv (a.Holds p s t x) = tv (b.Holds p s t x) := by simpa [sem] using h2
  rw [← tv_true (P := a.Holds p s t x), h3, tv_true]

end Verif.Services
