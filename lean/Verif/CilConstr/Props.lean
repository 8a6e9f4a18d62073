import Verif.CilConstr.Lemmas4
import Verif.Services.AvProps
import Verif.CilBin.Props

/-!
# C79: the constraints of CIL
-/

namespace Verif.CilConstr
open CilCond (Tree)
open CilDeny (CP MP Perms)
open Policy
open Services (Rel CExpr Constraint CtxOk SPolicy consPass validateTransLoop constraintEval)

/-! ### What a compiled expression says -/

theorem comp_meaning {db : Db} {look : Flavor → String → Option Datum} (ok : DbOk db look) {vt : Bool} {e : Expr} (he : e.Ok vt) (hd : e.Doc)
    {l : List CExpr} (h : Comp db look vt e.tree l) : ∃ tr, Meaning db look e l tr := by
  obtain ⟨x, c, h1, h2, h3⟩ := h
  rw [fill_tree he] at h1
  cases h1
  exact sepol_some ok hd h2 h3

theorem sat_iff {db : Db} {look : Flavor → String → Option Datum} {P : SPolicy} {s t : Context} (hs : CtxOk P.pol s) (ht : CtxOk P.pol t)
    {e : Expr} (he : e.Ok false) {k : Constraint} {tr : Services.Tree} (hm : Meaning db look e k.expr tr) (hv : validate k.expr (-1) = true) :
    (∃ rc, constraintEval P.pol s t none k = some rc ∧ (rc ≠ 0 ↔ Services.Sat P s t k)) ∧
    (Services.Sat P s t k ↔ e.Holds (Named db look) P.pol s t none) := by
  classical
  have hx : ∀ c, (none : Option Context) = some c → CtxOk P.pol c := fun c hc => by cases hc
  have hc := (validate_iff hm.postfix').1 hv
  have h3 := hm.third he
  obtain ⟨rc, a1, a2, a3⟩ := Services.eval_iff hs ht hx (c := k) ⟨tr, hm.postfix', hc, fun _ => h3⟩
  have b := Services.eval_postfix hs ht hx (c := k) hm.postfix' hc fun _ => h3
  refine ⟨⟨rc, a1, a3⟩, ?_⟩
  rw [← hm.holds P.pol s t none hs ht hx]
  unfold Services.Sat
  rw [← a3]
  rw [a1, Option.some.injEq] at b
  rw [b]
  split <;> simp_all

/-! ### C79 -/

/-- C79: an expression is accepted exactly if it is one of the language: what the documentation lists, and the
two loose forms. -/
theorem C79_accepts (vt : Bool) (t : Tree) : (∃ c, fill vt t = some c) ↔ ∃ e : Expr, e.Ok vt ∧ t = e.tree := by
  constructor
  · rintro ⟨c, h⟩
    exact fill_some _ _ h
  · rintro ⟨e, h1, rfl⟩
    exact ⟨_, fill_tree h1⟩

/-- `(or (eq t1 t2) (and (not (eq u1 (alice bob))) (dom l1 h2)))`. -/
def exExpr : Expr := .or (.same .type false) (.and (.not (.is .src .user false (.many "alice" ["bob"]))) (.levels .l1h2 .dom))

example : exExpr.Ok false ∧ exExpr.Doc ∧ fill false exExpr.tree ≠ none ∧
    fill false (.list [.atom "eq", .atom "t1", .atom "r2"]) = none ∧
    fill false (.list [.atom "eq", .atom "t3", .atom "foo_t"]) = none ∧ fill true (.list [.atom "eq", .atom "t3", .atom "foo_t"]) ≠ none :=
  ⟨by simp [exExpr, Expr.Ok, Names.Ok], by simp [exExpr, Expr.Doc], by decide +kernel, by decide +kernel, by decide +kernel, by decide +kernel⟩

/-! ### Data for the examples -/

/-- Users 0 and 1, role 0, types 0 to 2 have the next values. -/
def exDb : Db := ⟨CilBin.exDb, fun i => if i < 2 then some (i + 1) else none, fun i => if i < 1 then some (i + 1) else none,
  fun i => if i < 3 then some (i + 1) else none, true⟩

/-- Two users, a type, and an attribute with types 0 and 1 and the value 4. -/
def exLook : Flavor → String → Option Datum
  | .user, s => if s = "alice" then some (.one 0) else if s = "bob" then some (.one 1) else none
  | .type, s => if s = "foo_t" then some (.one 2) else if s = "dom" then some (.attr CilBin.exBits true (some 4)) else none
  | _, _ => none

theorem exDbOk : DbOk exDb exLook where
  bin := CilBin.exDb_ok
  value := by
    intro f i v h
    cases f <;> simp only [Db.value, exDb] at h
    · split at h <;> simp at h; omega
    · split at h <;> simp at h; omega
    · split at h <;> simp at h; omega
    · cases h
  datum := by
    intro f s d h
    cases f <;> simp only [exLook] at h
    · split at h
      · cases h; exact (by decide : 0 < 2 ^ 31)
      · split at h
        · cases h; exact (by decide : 1 < 2 ^ 31)
        · cases h
    · cases h
    · split at h
      · cases h; exact (by decide : 2 < 2 ^ 31)
      · split at h
        · cases h
          refine ⟨CilBin.exBits_ok.1, fun i hi => Nat.lt_trans (CilBin.exBits_ok.2 i hi) (by decide), fun n hn => ?_⟩
          cases hn
          decide
        · cases h
    · cases h

/-- `(and (eq u1 u2) (and (eq u1 u2) …))`, which needs `n + 1` cells. -/
def deep : Nat → Expr
  | 0 => .same .user false
  | n + 1 => .and (.same .user false) (deep n)

/-- `(eq t3 dom)`. -/
def exVt : Expr := .is .third .type false (.one "dom")

/-- A constraint on a permission of a class and one of a class map, and one on transitions. -/
def exStmts : List Stmt :=
  [.constrain [.cls 0 [0], .map 9 [.mk 0 [.cls 1 [3]]]] exExpr.tree, .validatetrans (.cls 0) exVt.tree]

theorem ex_known : (∀ q ∈ exExpr.names, Known exDb exLook q.1 q.2) ∧ ∀ q ∈ exVt.names, Known exDb exLook q.1 q.2 := by
  constructor
  · intro q hq
    simp only [exExpr, Expr.names, Names.all, List.map, List.nil_append, List.append_nil, List.mem_cons, List.not_mem_nil, or_false] at hq
    rcases hq with rfl | rfl
    · exact ⟨.one 0, rfl, fun i hi => by cases hi; exact ⟨1, rfl⟩, fun m hm => by cases hm⟩
    · exact ⟨.one 1, rfl, fun i hi => by cases hi; exact ⟨2, rfl⟩, fun m hm => by cases hm⟩
  · intro q hq
    simp only [exVt, Expr.names, Names.all, List.map, List.mem_cons, List.not_mem_nil, or_false] at hq
    subst hq
    refine ⟨.attr CilBin.exBits true (some 4), rfl, fun i hi => ?_, fun m hm => by cases hm⟩
    have := CilBin.exBits_ok.2 i hi
    exact ⟨i + 1, by simp [Db.value, exDb, fieldFlavor, this]⟩

theorem ex_docs : (∀ cp t, .constrain cp t ∈ exStmts → CilBin.Known exDb.bin cp ∧
      ∃ e : Expr, e.Ok false ∧ e.Doc ∧ t = e.tree ∧ e.need ≤ 5 ∧ ∀ q ∈ e.names, Known exDb exLook q.1 q.2) ∧
    ∀ r t, .validatetrans r t ∈ exStmts → (∀ c, r.Mem c → ∃ v, exDb.bin.classVal c = some v) ∧
      ∃ e : Expr, e.Ok true ∧ e.Doc ∧ t = e.tree ∧ ∀ q ∈ e.names, Known exDb exLook q.1 q.2 := by
  constructor
  · intro cp t hm
    simp only [exStmts, List.mem_cons, List.not_mem_nil, or_false, Stmt.constrain.injEq, reduceCtorEq] at hm
    obtain ⟨rfl, rfl⟩ := hm
    refine ⟨?_, exExpr, by simp [exExpr, Expr.Ok, Names.Ok], by simp [exExpr, Expr.Doc], rfl, by simp [exExpr, Expr.need], ex_known.1⟩
    intro x hx c ps hl
    simp only [List.mem_cons, List.not_mem_nil, or_false] at hx
    rcases hx with rfl | rfl
    · cases hl
      exact ⟨⟨1, rfl⟩, fun p hp => by simp at hp; subst hp; exact ⟨1, rfl⟩⟩
    · cases hl with
      | map h1 h2 h3 =>
        simp only [List.mem_cons, List.not_mem_nil, or_false, MP.mk.injEq] at h1
        obtain ⟨-, rfl⟩ := h1
        simp only [List.mem_cons, List.not_mem_nil, or_false] at h2
        subst h2
        cases h3
        exact ⟨⟨2, rfl⟩, fun p hp => by simp at hp; subst hp; exact ⟨4, rfl⟩⟩
  · intro r t hm
    simp only [exStmts, List.mem_cons, List.not_mem_nil, or_false, Stmt.validatetrans.injEq, reduceCtorEq, false_or] at hm
    obtain ⟨rfl, rfl⟩ := hm
    refine ⟨fun c hc => ?_, exVt, by simp [exVt, Expr.Ok, Names.Ok, reserved], by simp [exVt, Expr.Doc], rfl, ex_known.2⟩
    have : c = 0 := hc
    subst this
    exact ⟨1, rfl⟩

/-- C79: if the statements compile, then in deciding an access the constraints of a class remove a permission
exactly if the expression of one of the statements for it does not hold.  Partial: the expressions of the
statements for the class are those of the documentation; for others see `C79_l1_refuted` and
`C79_dom_name_refuted`. -/
theorem C79_constrain_partial {db : Db} {look : Flavor → String → Option Datum} (ok : DbOk db look) {l : List Stmt} {st : State}
    (h : compile db look l = some st) {c v : Nat} (hc : db.bin.classVal c = some v)
    (hdoc : ∀ cp t, .constrain cp t ∈ l → (∃ p, Perms cp c p) → ∃ e : Expr, e.Ok false ∧ e.Doc ∧ t = e.tree)
    {P : SPolicy} {s t : Context} (hs : CtxOk P.pol s) (ht : CtxOk P.pol t) (allowed : BitVec 32) :
    ∃ a, consPass P s t (st.cons v) allowed = some a ∧
      (∀ p b, db.bin.permVal c p = some (b + 1) → (a.getLsbD b = true ↔ allowed.getLsbD b = true ∧
        ∀ cp (e : Expr), e.Ok false → e.Doc → .constrain cp e.tree ∈ l → Perms cp c p → e.Holds (Named db look) P.pol s t none)) ∧
      ∀ b < 32, (∀ p, db.bin.permVal c p ≠ some (b + 1)) → a.getLsbD b = allowed.getLsbD b := by
  have inv := compile_inv ok.bin h
  have hk : ∀ k ∈ st.cons v, ∃ e : Expr, e.Ok false ∧ (∃ rc, constraintEval P.pol s t none k = some rc ∧ (rc ≠ 0 ↔ Services.Sat P s t k)) ∧
      (Services.Sat P s t k ↔ e.Holds (Named db look) P.pol s t none) ∧ e.Doc ∧ ∃ cp, .constrain cp e.tree ∈ l ∧
        ∀ b < 32, k.perms.getLsbD b = true → ∃ p, Perms cp c p ∧ db.bin.permVal c p = some (b + 1) := by
    intro k hk
    obtain ⟨cp, t', a1, a2, a3, ⟨d, q, a4, a5⟩, a6⟩ := inv.new v k hk
    have hdc := ok.bin.clsInj d c v a5 hc
    subst hdc
    obtain ⟨e, e1, e2, e3⟩ := hdoc cp t' a1 ⟨q, a4⟩
    subst e3
    obtain ⟨tr, hm⟩ := comp_meaning ok e1 e2 a2
    obtain ⟨s1, s2⟩ := sat_iff hs ht e1 hm a3
    refine ⟨e, e1, s1, s2, e2, cp, a1, fun b hb hbb => ?_⟩
    obtain ⟨d', p, b1, b2, b3⟩ := a6 b hb hbb
    have := ok.bin.clsInj d' d v b2 hc
    subst this
    exact ⟨p, b1, b3⟩
  obtain ⟨a, h1, h2⟩ := Services.consPass_spec (p := P) (s := s) (t := t) (st.cons v) allowed fun k hkm => by
    obtain ⟨e, _, hr, _⟩ := hk k hkm
    exact hr
  refine ⟨a, h1, ?_, ?_⟩
  · intro p b hp
    have hb : b < 32 := by have := ok.bin.perm c p _ hp; omega
    rw [h2 b hb]
    refine and_congr_right fun _ => ⟨?_, ?_⟩
    · intro hall cp e e1 e2 hm hper
      obtain ⟨v', b', a1, a2, k, a3, a4, a5, a6⟩ := inv.cover cp e.tree hm c p hper
      rw [hc] at a1
      cases a1
      rw [hp] at a2
      simp only [Option.some.injEq, Nat.add_right_cancel_iff] at a2
      subst a2
      obtain ⟨tr, hmean⟩ := comp_meaning ok e1 e2 a4
      exact (sat_iff hs ht e1 hmean a5).2.1 (hall k a3 a6)
    · intro hall k hkm hbit
      obtain ⟨e, e1, _, hsat, e2, cp, hm, hper⟩ := hk k hkm
      obtain ⟨p', q1, q2⟩ := hper b hb hbit
      have := ok.bin.permInj c p' p _ q2 hp
      subst this
      exact hsat.2 (hall cp e e1 e2 hm q1)
  · intro b hb hno
    rw [Bool.eq_iff_iff, h2 b hb]
    refine ⟨fun h => h.1, fun h => ⟨h, fun k hkm hbit => ?_⟩⟩
    obtain ⟨e, _, _, _, _, cp, _, hper⟩ := hk k hkm
    obtain ⟨p', _, q2⟩ := hper b hb hbit
    exact absurd q2 (hno p')

/-- The hypotheses are met, and the constraint removes the permission for `alice` but not for an equal type. -/
example : ∃ st, DbOk exDb exLook ∧ compile exDb exLook exStmts = some st ∧ exDb.bin.classVal 0 = some 1 ∧
    (∀ cp t, .constrain cp t ∈ exStmts → (∃ p, Perms cp 0 p) → ∃ e : Expr, e.Ok false ∧ e.Doc ∧ t = e.tree) ∧
    CtxOk Services.exPolicy.pol Services.exS ∧ CtxOk Services.exPolicy.pol Services.exT ∧
    consPass Services.exPolicy Services.exS Services.exT (st.cons 1) 3#32 = some 2#32 ∧
    consPass Services.exPolicy Services.exS { Services.exT with type := 1 } (st.cons 1) 3#32 = some 3#32 := by
  have h : (compile exDb exLook exStmts).map (fun st => (consPass Services.exPolicy Services.exS Services.exT (st.cons 1) 3#32,
      consPass Services.exPolicy Services.exS { Services.exT with type := 1 } (st.cons 1) 3#32)) = some (some 2#32, some 3#32) := by decide +kernel
  cases hc : compile exDb exLook exStmts with
  | none => rw [hc] at h; cases h
  | some st =>
    rw [hc] at h
    simp only [Option.map_some, Option.some.injEq, Prod.mk.injEq] at h
    refine ⟨st, exDbOk, rfl, rfl, fun cp t hm _ => ?_, Services.exCtxOk _ _ _ (by decide) (by decide) (by decide) _ _,
      Services.exCtxOk _ _ _ (by decide) (by decide) (by decide) _ _, h.1, h.2⟩
    obtain ⟨-, e, e1, e2, e3, -⟩ := ex_docs.1 cp t hm
    exact ⟨e, e1, e2, e3⟩

/-- C79: if the statements compile, then the check of a transition fails exactly if the expression of one of
the statements for the class does not hold or needs more than the five cells there are.  Partial: the
expressions are those of the documentation. -/
theorem C79_validatetrans_partial {db : Db} {look : Flavor → String → Option Datum} (ok : DbOk db look) {l : List Stmt} {st : State}
    (h : compile db look l = some st) {c v : Nat} (hc : db.bin.classVal c = some v)
    (hdoc : ∀ r t, .validatetrans r t ∈ l → r.Mem c → ∃ e : Expr, e.Ok true ∧ e.Doc ∧ t = e.tree)
    {P : SPolicy} {o n t : Context} (ho : CtxOk P.pol o) (hn : CtxOk P.pol n) (ht : CtxOk P.pol t) :
    ∃ b, validateTransLoop P o n t (st.vt v) = some b ∧
      (b = true ↔ ∀ r (e : Expr), e.Ok true → e.Doc → .validatetrans r e.tree ∈ l → r.Mem c →
        e.need ≤ 5 ∧ e.Holds (Named db look) P.pol o n (some t)) := by
  classical
  have inv := compile_inv ok.bin h
  have hx : ∀ c', some t = some c' → CtxOk P.pol c' := fun c' hc' => by cases hc'; exact ht
  have heval : ∀ (e : Expr), e.Ok true → e.Doc → ∀ k : Constraint, Comp db look true e.tree k.expr →
      constraintEval P.pol o n (some t) k = some (if e.need ≤ 5 ∧ e.Holds (Named db look) P.pol o n (some t) then 1 else 0) := by
    intro e e1 e2 k hcomp
    obtain ⟨tr, hm⟩ := comp_meaning ok e1 e2 hcomp
    have hh := hm.holds P.pol o n (some t) ho hn hx
    by_cases hcell : tr.cells ≤ 5
    · have := Services.eval_postfix ho hn hx (c := k) hm.postfix' hcell fun h => by cases h
      rw [this]
      have hcell' := hm.cells ▸ hcell
      by_cases hol : tr.Holds P.pol o n (some t)
      · rw [if_pos hol, if_pos ⟨hcell', hh.1 hol⟩]
      · rw [if_neg hol, if_neg fun h => hol (hh.2 h.2)]
    · have := Services.C17_too_deep ho hn hx (c := k) hm.postfix' (by omega) fun h => by cases h
      rw [this, if_neg]
      rw [← hm.cells]
      exact fun h => hcell h.1
  have hk : ∀ k ∈ st.vt v, ∃ e : Expr, e.Ok true ∧ e.Doc ∧ Comp db look true e.tree k.expr ∧ ∃ r, .validatetrans r e.tree ∈ l ∧ r.Mem c := by
    intro k hk
    obtain ⟨r, t', a1, a2, d, a3, a4⟩ := inv.newVt v k hk
    have := ok.bin.clsInj d c v a4 hc
    subst this
    obtain ⟨e, e1, e2, e3⟩ := hdoc r t' a1 a3
    subst e3
    exact ⟨e, e1, e2, a2, r, a1, a3⟩
  have hcover : ∀ r (e : Expr), e.Ok true → e.Doc → .validatetrans r e.tree ∈ l → r.Mem c → ∃ k ∈ st.vt v, Comp db look true e.tree k.expr := by
    intro r e _ _ hm hmem
    obtain ⟨v', a1, k, a2, a3⟩ := inv.coverVt r e.tree hm c hmem
    rw [hc] at a1
    cases a1
    exact ⟨k, a2, a3⟩
  have key : ∀ L : List Constraint, (∀ k ∈ L, ∃ e : Expr, e.Ok true ∧ e.Doc ∧ Comp db look true e.tree k.expr) →
      ∃ b, validateTransLoop P o n t L = some b ∧ (b = true ↔ ∀ k ∈ L, constraintEval P.pol o n (some t) k = some 1) := by
    intro L
    induction L with
    | nil => intro _; exact ⟨true, rfl, by simp⟩
    | cons k L ih =>
      intro hL
      obtain ⟨e, e1, e2, e3⟩ := hL k (by simp)
      obtain ⟨b, b1, b2⟩ := ih fun k' hk' => hL k' (List.mem_cons_of_mem _ hk')
      have he := heval e e1 e2 k e3
      rw [validateTransLoop, he]
      by_cases hh : e.need ≤ 5 ∧ e.Holds (Named db look) P.pol o n (some t)
      · rw [if_pos hh] at he ⊢
        refine ⟨b, by simpa using b1, ?_⟩
        rw [b2]
        simp [he]
      · rw [if_neg hh] at he ⊢
        refine ⟨false, rfl, ?_⟩
        simp [he]
  obtain ⟨b, b1, b2⟩ := key (st.vt v) fun k hkm => by
    obtain ⟨e, e1, e2, e3, _⟩ := hk k hkm
    exact ⟨e, e1, e2, e3⟩
  refine ⟨b, b1, ?_⟩
  rw [b2]
  constructor
  · intro hall r e e1 e2 hm hmem
    obtain ⟨k, k1, k2⟩ := hcover r e e1 e2 hm hmem
    have h1 := hall k k1
    rw [heval e e1 e2 k k2] at h1
    by_contra hno
    rw [if_neg hno] at h1
    cases h1
  · intro hall k hkm
    obtain ⟨e, e1, e2, e3, r, hm, hmem⟩ := hk k hkm
    rw [heval e e1 e2 k e3, if_pos (hall r e e1 e2 hm hmem)]

/-- The hypotheses are met; a process of type 1, which is in the attribute, may do the transition and one of type 3
may not. -/
example : ∃ st, DbOk exDb exLook ∧ compile exDb exLook exStmts = some st ∧ exDb.bin.classVal 0 = some 1 ∧
    (∀ r t, .validatetrans r t ∈ exStmts → r.Mem 0 → ∃ e : Expr, e.Ok true ∧ e.Doc ∧ t = e.tree) ∧
    CtxOk Services.exPolicy.pol Services.exS ∧ CtxOk Services.exPolicy.pol Services.exT ∧
    CtxOk Services.exPolicy.pol { Services.exS with type := 3 } ∧
    validateTransLoop Services.exPolicy Services.exS Services.exT Services.exS (st.vt 1) = some true ∧
    validateTransLoop Services.exPolicy Services.exS Services.exT { Services.exS with type := 3 } (st.vt 1) = some false := by
  have h : (compile exDb exLook exStmts).map (fun st =>
      (validateTransLoop Services.exPolicy Services.exS Services.exT Services.exS (st.vt 1),
       validateTransLoop Services.exPolicy Services.exS Services.exT { Services.exS with type := 3 } (st.vt 1))) =
      some (some true, some false) := by decide +kernel
  cases hc : compile exDb exLook exStmts with
  | none => rw [hc] at h; cases h
  | some st =>
    rw [hc] at h
    simp only [Option.map_some, Option.some.injEq, Prod.mk.injEq] at h
    refine ⟨st, exDbOk, rfl, rfl, fun r t hm _ => ?_, Services.exCtxOk _ _ _ (by decide) (by decide) (by decide) _ _,
      Services.exCtxOk _ _ _ (by decide) (by decide) (by decide) _ _,
      Services.exCtxOk _ _ _ (by decide) (by decide) (by decide) _ _, h.1, h.2⟩
    obtain ⟨-, e, e1, e2, e3, -⟩ := ex_docs.2 r t hm
    exact ⟨e, e1, e2, e3⟩

/-- C79: the statements compile if the expressions are those of the documentation, the names in them are known,
the classes and permissions are known, and the expressions of `constrain` need no more than five cells. -/
theorem C79_succeeds {db : Db} {look : Flavor → String → Option Datum} (ok : DbOk db look) {l : List Stmt}
    (h1 : ∀ cp t, .constrain cp t ∈ l → CilBin.Known db.bin cp ∧
      ∃ e : Expr, e.Ok false ∧ e.Doc ∧ t = e.tree ∧ e.need ≤ 5 ∧ ∀ q ∈ e.names, Known db look q.1 q.2)
    (h2 : ∀ r t, .validatetrans r t ∈ l → (∀ c, r.Mem c → ∃ v, db.bin.classVal c = some v) ∧
      ∃ e : Expr, e.Ok true ∧ e.Doc ∧ t = e.tree ∧ ∀ q ∈ e.names, Known db look q.1 q.2) :
    ∃ st, compile db look l = some st := by
  refine stmts_total l ?_ _
  intro s hs st
  cases s with
  | constrain cp t =>
    obtain ⟨k, e, e1, e2, e3, e4, e5⟩ := h1 cp t hs
    subst e3
    obtain ⟨c, le, tr, a1, a2, a3⟩ := sepol_ok ok e e2 e5
    rw [stmt, fill_tree e1, Option.bind_some, a1, Option.bind_some]
    exact constrainExpand_total a2 ((validate_iff a3.postfix').2 (by rw [a3.cells]; exact e4)) cp k st
  | validatetrans r t =>
    obtain ⟨k, e, e1, e2, e3, e5⟩ := h2 r t hs
    subst e3
    obtain ⟨c, le, tr, a1, a2, a3⟩ := sepol_ok ok e e2 e5
    rw [stmt, fill_tree e1, Option.bind_some, a1, Option.bind_some]
    exact validatetransLoop_total a2 _ (fun c hc => k c (mem_expandClass.1 hc)) st

example : ∃ st, compile exDb exLook exStmts = some st := C79_succeeds exDbOk ex_docs.1 ex_docs.2

/-- C79: what is needed in `C79_succeeds` is needed: when the statements compile, each expression is one of the
language, the classes and permissions that are covered have values, and for a statement that covers anything
the names in its expression are known and, for `constrain` with an expression of the documentation, it needs no
more than five cells. -/
theorem C79_rejects {db : Db} {look : Flavor → String → Option Datum} (ok : DbOk db look) {l : List Stmt} {st : State}
    (h : compile db look l = some st) :
    (∀ cp t, .constrain cp t ∈ l → ∃ e : Expr, e.Ok false ∧ t = e.tree) ∧
    (∀ r t, .validatetrans r t ∈ l → ∃ e : Expr, e.Ok true ∧ t = e.tree) ∧
    (∀ cp (e : Expr), e.Ok false → .constrain cp e.tree ∈ l → ∀ c p, Perms cp c p →
      (∃ v, db.bin.classVal c = some v) ∧ (∃ v, db.bin.permVal c p = some v) ∧ (∀ q ∈ e.names, Known db look q.1 q.2) ∧ (e.Doc → e.need ≤ 5)) ∧
    ∀ r (e : Expr), e.Ok true → .validatetrans r e.tree ∈ l → ∀ c, r.Mem c →
      (∃ v, db.bin.classVal c = some v) ∧ ∀ q ∈ e.names, Known db look q.1 q.2 := by
  have inv := compile_inv ok.bin h
  refine ⟨?_, ?_, ?_, ?_⟩
  · intro cp t hm
    obtain ⟨x, c, h1, _⟩ := inv.read cp t hm
    exact fill_some _ _ h1
  · intro r t hm
    obtain ⟨x, c, h1, _⟩ := inv.readVt r t hm
    exact fill_some _ _ h1
  · intro cp e he hm c p hp
    obtain ⟨v, b, a1, a2, k, _, hcomp, a5, _⟩ := inv.cover cp e.tree hm c p hp
    refine ⟨⟨v, a1⟩, ⟨_, a2⟩, ?_, fun hd => ?_⟩
    · obtain ⟨x, d, h1, h2, h3⟩ := hcomp
      rw [fill_tree he] at h1
      cases h1
      exact names_known ok e h2 h3
    · obtain ⟨tr, hmean⟩ := comp_meaning ok he hd hcomp
      rw [← hmean.cells]
      exact (validate_iff hmean.postfix').1 a5
  · intro r e he hm c hc
    obtain ⟨v, a1, k, _, x, d, h1, h2, h3⟩ := inv.coverVt r e.tree hm c hc
    rw [fill_tree he] at h1
    cases h1
    exact ⟨⟨v, a1⟩, names_known ok e h2 h3⟩

/-- An unknown name, an expression of depth six and an unknown class are errors. -/
example : (compile exDb exLook [.constrain [.cls 0 [0]] (Expr.is .src .user false (.one "carol")).tree]).isNone ∧
    (compile exDb exLook [.constrain [.cls 0 [0]] (deep 5).tree]).isNone ∧ (compile exDb exLook [.constrain [.cls 0 [0]] (deep 4).tree]).isSome ∧
    (compile exDb exLook [.constrain [.cls 7 [0]] (deep 1).tree]).isNone :=
  ⟨by decide +kernel, by decide +kernel, by decide +kernel, by decide +kernel⟩

/-- C79: the names of a comparison with types are kept as they are written, if the version of the policy has them:
an attribute as itself and not as its members. -/
theorem C79_type_names {db : Db} {look : Flavor → String → Option Datum} (ok : DbOk db look) {w : Services.Who} {f : Services.Field} {n : Bool}
    {ns : Names} (he : (Expr.is w f n ns).Ok false) {cp : List CP} {st : State} (h : compile db look [.constrain cp (Expr.is w f n ns).tree] = some st)
    {v : Nat} {k : Constraint} (hk : k ∈ st.cons v) : ∃ e, k.expr = [e] ∧
      (∀ j, Ebitmap.getBit e.typeNames.types j = true ↔ f = .type ∧ db.withNames = true ∧ ∃ s ∈ ns.all,
        (∃ i, look .type s = some (.one i) ∧ db.type i = some (j + 1)) ∨ ∃ m keep, look .type s = some (.attr m keep (some (j + 1)))) ∧
      e.typeNames.negset = Ebitmap.init ∧ e.typeNames.flags = 0 := by
  obtain ⟨cp', t', a1, ⟨x, c, b1, b2, b3⟩, -⟩ := (compile_inv ok.bin h).new v k hk
  simp only [List.mem_cons, List.not_mem_nil, or_false, Stmt.constrain.injEq] at a1
  obtain ⟨rfl, rfl⟩ := a1
  rw [fill_tree he] at b1
  cases b1
  have hkn := names_known ok _ b2 b3
  obtain ⟨c', e, T, d1, d2, -, d4⟩ := is_ok ok w f n ns fun s hs => hkn (f, s) (List.mem_map.2 ⟨s, hs, rfl⟩)
  rw [b2] at d1
  cases d1
  rw [b3] at d2
  simp only [Option.some.injEq] at d2
  refine ⟨e, d2, fun j => ?_, d4.negset, d4.flags⟩
  rw [d4.types.2 j]
  simp only [false_or]
  refine and_congr_right fun _ => and_congr_right fun _ => ⟨?_, ?_⟩
  · rintro ⟨s, hs, d, hd, ht⟩
    refine ⟨s, hs, ?_⟩
    cases d with
    | one i => exact .inl ⟨i, hd, ht⟩
    | attr m keep a =>
      have : a = some (j + 1) := ht
      subst this
      exact .inr ⟨m, keep, hd⟩
  · rintro ⟨s, hs, ⟨i, hd, ht⟩ | ⟨m, keep, hd⟩⟩
    · exact ⟨s, hs, _, hd, ht⟩
    · exact ⟨s, hs, _, hd, rfl⟩

example : (Expr.is .src .type false (.many "dom" ["foo_t"])).Ok false ∧
    (compile exDb exLook [.constrain [.cls 0 [0]] (Expr.is .src .type false (.many "dom" ["foo_t"])).tree]).map (fun st => (st.cons 1).map
      fun k => k.expr.map fun e => (List.range 6).filter fun j => Ebitmap.getBit e.typeNames.types j) = some [[[2, 3]]] :=
  ⟨by simp [Expr.Ok, Names.Ok], by decide +kernel⟩

/-! ### What is not as documented -/

mutual
theorem constrainExpand_congr {db : Db} {e1 e2 : Cons Datum} (h : toSepol db e1 = toSepol db e2) : ∀ (l : List CP) (st : State),
    constrainExpand db e1 l st = constrainExpand db e2 l st
  | [], st => by rw [constrainExpand, constrainExpand]
  | x :: xs, st => by
    rw [constrainExpand, constrainExpand, constrainItem_congr h x st]
    congr 1
    funext st
    exact constrainExpand_congr h xs st
theorem constrainItem_congr {db : Db} {e1 e2 : Cons Datum} (h : toSepol db e1 = toSepol db e2) : ∀ (x : CP) (st : State),
    constrainItem db e1 x st = constrainItem db e2 x st
  | .cls c ps, st => by rw [constrainItem, constrainItem, constrainHelper, constrainHelper, h]
  | .map _ ms, st => by rw [constrainItem, constrainItem, constrainMap_congr h ms st]
  | .set _ l, st => by rw [constrainItem, constrainItem, constrainExpand_congr h l st]
theorem constrainMap_congr {db : Db} {e1 e2 : Cons Datum} (h : toSepol db e1 = toSepol db e2) : ∀ (ms : List MP) (st : State),
    constrainMap db e1 ms st = constrainMap db e2 ms st
  | [], st => by rw [constrainMap, constrainMap]
  | .mk _ l :: ms, st => by
    rw [constrainMap, constrainMap, constrainExpand_congr h l st]
    congr 1
    funext st
    exact constrainMap_congr h ms st
end

/-- Statements whose expressions are the same in the policy compile to the same. -/
theorem constrain_congr {db : Db} {look : Flavor → String → Option Datum} {x1 x2 : Expr} (h1 : x1.Ok false) (h2 : x2.Ok false) {c1 c2 : Cons Datum}
    (r1 : resolve look x1.cons = some c1) (r2 : resolve look x2.cons = some c2) (h : toSepol db c1 = toSepol db c2) (cp : List CP) (st : State) :
    stmt db look (.constrain cp x1.tree) st = stmt db look (.constrain cp x2.tree) st := by
  rw [stmt, stmt, fill_tree h1, fill_tree h2, Option.bind_some, Option.bind_some, r1, r2, Option.bind_some, Option.bind_some,
    constrainExpand_congr h]

/-- C79 cannot hold for all that is accepted: a comparison with `l1` on the right is not an error, although the
documentation does not allow it, and it is not a comparison with `l1`: `(eq t1 l1)` is taken as `(eq t1 t2)`,
`(eq l1 l1)` as `(eq l1 h2)`, `(dom h1 l1)` as `(dom h1 h2)` and `(eq l2 l1)` as `(eq l2 h2)`, and the same for other
operators and for users and roles. -/
theorem C79_l1_refuted (db : Db) (look : Flavor → String → Option Datum) (cp : List CP) (st : State) :
    (∀ n, stmt db look (.constrain cp (.list [.atom (eqWord n), .atom "t1", .atom "l1"])) st =
      stmt db look (.constrain cp (.list [.atom (eqWord n), .atom "t1", .atom "t2"])) st) ∧
    (∀ n, stmt db look (.constrain cp (.list [.atom (eqWord n), .atom "u1", .atom "l1"])) st =
      stmt db look (.constrain cp (.list [.atom (eqWord n), .atom "u1", .atom "u2"])) st) ∧
    (∀ r, stmt db look (.constrain cp (.list [.atom (Rel.word r), .atom "r1", .atom "l1"])) st =
      stmt db look (.constrain cp (.list [.atom (Rel.word r), .atom "r1", .atom "r2"])) st) ∧
    (∀ r, stmt db look (.constrain cp (.list [.atom (Rel.word r), .atom "l1", .atom "l1"])) st =
      stmt db look (.constrain cp (.list [.atom (Rel.word r), .atom "l1", .atom "h2"])) st) ∧
    (∀ r, stmt db look (.constrain cp (.list [.atom (Rel.word r), .atom "h1", .atom "l1"])) st =
      stmt db look (.constrain cp (.list [.atom (Rel.word r), .atom "h1", .atom "h2"])) st) ∧
    ∀ r, stmt db look (.constrain cp (.list [.atom (Rel.word r), .atom "l2", .atom "l1"])) st =
      stmt db look (.constrain cp (.list [.atom (Rel.word r), .atom "l2", .atom "h2"])) st := by
  refine ⟨fun n => ?_, fun n => ?_, fun r => ?_, fun r => ?_, fun r => ?_, fun r => ?_⟩
  · cases n
    · exact constrain_congr (x1 := .looseL1 .eq .t1) (x2 := .same .type false) trivial trivial rfl rfl rfl cp st
    · exact constrain_congr (x1 := .looseL1 .neq .t1) (x2 := .same .type true) trivial trivial rfl rfl rfl cp st
  · cases n
    · exact constrain_congr (x1 := .looseL1 .eq .u1) (x2 := .same .user false) trivial trivial rfl rfl rfl cp st
    · exact constrain_congr (x1 := .looseL1 .neq .u1) (x2 := .same .user true) trivial trivial rfl rfl rfl cp st
  · exact constrain_congr (x1 := .looseL1 r .r1) (x2 := .roles r) trivial trivial rfl rfl rfl cp st
  · exact constrain_congr (x1 := .looseL1 r .l1) (x2 := .levels .l1h2 r) trivial trivial rfl rfl rfl cp st
  · exact constrain_congr (x1 := .looseL1 r .h1) (x2 := .levels .h1h2 r) trivial trivial rfl rfl rfl cp st
  · exact constrain_congr (x1 := .looseL1 r .l2) (x2 := .levels .l2h2 r) trivial trivial rfl rfl rfl cp st

/-- These statements do compile. -/
example : (compile exDb exLook [.constrain [.cls 0 [0]] (.list [.atom "eq", .atom "t1", .atom "l1"])]).isSome ∧
    (compile exDb exLook [.constrain [.cls 0 [0]] (.list [.atom "dom", .atom "h1", .atom "l1"])]).isSome ∧
    (compile exDb exLook [.constrain [.cls 0 [0]] (.list [.atom "eq", .atom "t1", .atom "t3"])]).isNone :=
  ⟨by decide +kernel, by decide +kernel, by decide +kernel⟩

/-- C79 cannot hold for all that is accepted: `dom`, `domby` and `incomp` with a name are not errors, although the
documentation has them for `r2` only; neither such an expression nor its negation ever holds. -/
theorem C79_dom_name_refuted (r : Rel) (h1 : r ≠ .eq) (h2 : r ≠ .neq) :
    ∃ st1 st2, compile exDb exLook [.constrain [.cls 0 [0]] (.list [.atom (Rel.word r), .atom "t1", .atom "foo_t"])] = some st1 ∧
      compile exDb exLook [.constrain [.cls 0 [0]] (.list [.atom "not", .list [.atom (Rel.word r), .atom "t1", .atom "foo_t"]])] = some st2 ∧
      ∀ P s t, consPass P s t (st1.cons 1) 1#32 = some 0#32 ∧ consPass P s t (st2.cons 1) 1#32 = some 0#32 := by
  have key : ∀ r : Rel, r ≠ .eq → r ≠ .neq → ∃ e1 : CExpr, ∃ e2 : CExpr,
      (compile exDb exLook [.constrain [.cls 0 [0]] (.list [.atom (Rel.word r), .atom "t1", .atom "foo_t"])]).map (fun st => st.cons 1) =
        some [⟨1#32, [e1]⟩] ∧
      (compile exDb exLook [.constrain [.cls 0 [0]] (.list [.atom "not", .list [.atom (Rel.word r), .atom "t1", .atom "foo_t"]])]).map
        (fun st => st.cons 1) = some [⟨1#32, [e1, e2]⟩] ∧ e1.exprType = 5 ∧ e1.op ≠ 1 ∧ e1.op ≠ 2 := by
    intro r h1 h2
    cases r
    · exact absurd rfl h1
    · exact absurd rfl h2
    all_goals exact ⟨_, _, rfl, rfl, rfl, by decide, by decide⟩
  obtain ⟨e1, e2, a1, a2, a3, a4, a5⟩ := key r h1 h2
  have hstep : ∀ s t x, ∃ y, Services.namesStep s t x e1 = y ∧ (y = .out 0) := by
    intro s t x
    refine ⟨_, rfl, ?_⟩
    unfold Services.namesStep
    simp only
    split
    · rfl
    · split
      · rfl
      · simp only [Services.EQ, Services.NEQ, a4, a5, if_false]
  have heval : ∀ (p : Policy) s t perms (l : List CExpr), constraintEval p s t none ⟨perms, e1 :: l⟩ = some 0 := by
    intro p s t perms l
    obtain ⟨y, y1, y2⟩ := hstep s t none
    unfold constraintEval
    rw [Services.loop.eq_def]
    rw [y2] at y1
    simp [a3, y1, Services.NOT, Services.AND, Services.OR, Services.ATTR, Services.NAMES, Services.MAXDEPTH]
  obtain ⟨st1, b1, b2⟩ := Option.map_eq_some_iff.1 a1
  obtain ⟨st2, c1, c2⟩ := Option.map_eq_some_iff.1 a2
  refine ⟨st1, st2, b1, c1, fun P s t => ?_⟩
  rw [b2, c2]
  constructor
  · simp [consPass, heval]
  · simp [consPass, heval]

example : (Rel.dom ≠ .eq ∧ Rel.dom ≠ .neq) ∧ (Rel.incomp ≠ .eq ∧ Rel.incomp ≠ .neq) := by decide

/-- C79: `validatetrans` has no such check as `constrain` has: an expression that is too deep compiles, and the
transitions are all refused although the expression holds. -/
theorem C79_deep_refuted : ∃ st, compile exDb exLook [.validatetrans (.cls 0) (deep 5).tree] = some st ∧ (deep 5).Ok true ∧ (deep 5).Doc ∧
    (deep 5).Holds (Named exDb exLook) Services.exPolicy.pol Services.exS Services.exS (some Services.exS) ∧
    validateTransLoop Services.exPolicy Services.exS Services.exS Services.exS (st.vt 1) = some false := by
  have h : (compile exDb exLook [.validatetrans (.cls 0) (deep 5).tree]).map (fun st =>
      validateTransLoop Services.exPolicy Services.exS Services.exS Services.exS (st.vt 1)) = some (some false) := by decide +kernel
  obtain ⟨st, h1, h2⟩ := Option.map_eq_some_iff.1 h
  refine ⟨st, h1, ?_, ?_, ?_, h2⟩
  · simp [deep, Expr.Ok]
  · simp [deep, Expr.Doc]
  · simp [deep, Expr.Holds, Eqs]

end Verif.CilConstr
