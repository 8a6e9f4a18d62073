import Verif.Validate.Lemmas5
import Verif.Services.AvProps
import Verif.Cond.Props
import Batteries.Data.List.Perm

/-!
# C84: what the check of a policy that has been read ensures
-/

namespace Verif.Validate
open Verif.Policy Verif.Services

/-! ## A policy -/

def exNoTypes : TypeSet := ⟨Ebitmap.init, Ebitmap.init, 0⟩

/-- The set of the numbers below 64 whose bits are set, counted from one. -/
def exSet (m : BitVec 64) : Ebitmap.Ebitmap := ⟨[⟨0, m⟩], 64⟩

def exLow : Level := ⟨1, Ebitmap.init⟩
def exHigh : Level := ⟨1, exSet 3#64⟩
def exCtx : Context := ⟨1, 1, 1, ⟨exLow, exHigh⟩⟩
def exOcon : Ocon := ⟨exCtx, exCtx, 1, true, 80, 80, 1, 0, 0, 1, true, 0, 0, 0, 0⟩

/-- A common with two permissions and two classes, one of which inherits it and is constrained; two types and an attribute;
a boolean with a conditional; one sensitivity with an alias and two categories with an alias. -/
def exPolicy : VPolicy :=
  { version := 33, target := 0, mls := 1, handleUnknown := 2, policycaps := exSet 3#64, permissive := exSet 4#64
    commons := ⟨[(['a'], ⟨1, ⟨[(['a'], 1), (['b'], 2)], 2⟩⟩)], 1⟩
    classes := ⟨[(['a'], ⟨1, some ⟨1, ⟨[(['a'], 1), (['b'], 2)], 2⟩⟩, ⟨[(['c'], 3)], 3⟩,
        [⟨5#32, [⟨5, 4, 1, exSet 3#64, exNoTypes⟩, ⟨4, 1, 1, Ebitmap.init, exNoTypes⟩, ⟨3, 0, 0, Ebitmap.init, exNoTypes⟩]⟩], [], 0, 1, 2, 7⟩),
      (['b'], ⟨3, none, ⟨[(['i'], 1)], 1⟩, [], [], 0, 0, 0, 0⟩)], 3⟩
    roles := ⟨[(['a'], ⟨1, exSet 1#64, ⟨exSet 7#64, Ebitmap.init, 0⟩, 0, Ebitmap.init, 0⟩)], 1⟩
    types := ⟨[(['a'], ⟨1, 1, 0, Ebitmap.init, 0, 0⟩), (['b'], ⟨2, 1, 0, Ebitmap.init, 1, 1⟩), (['c'], ⟨3, 1, 1, exSet 3#64, 0, 0⟩),
      (['d'], ⟨1, 0, 0, Ebitmap.init, 0, 0⟩)], 3⟩
    users := ⟨[(['a'], ⟨1, ⟨exSet 1#64, 0⟩, ⟨1, []⟩, ⟨1, [(1, 2)]⟩, ⟨1, []⟩, ⟨exLow, exHigh⟩, exLow, 0⟩)], 1⟩
    bools := ⟨[(['a'], ⟨1, 1, 0⟩)], 1⟩
    levels := ⟨[(['a'], ⟨exHigh, false, 0⟩), (['b'], ⟨exHigh, true, 0⟩)], 1⟩
    cats := ⟨[(['a'], ⟨1, false⟩), (['b'], ⟨2, false⟩), (['c'], ⟨2, true⟩)], 2⟩
    avtab := [⟨⟨1, 2, 1, 1#16⟩, ⟨6#32, none⟩⟩, ⟨⟨3, 2, 3, 1#16⟩, ⟨1#32, none⟩⟩, ⟨⟨1, 2, 1, 0x10#16⟩, ⟨2#32, none⟩⟩,
      ⟨⟨1, 2, 1, 0x100#16⟩, ⟨0#32, some ⟨1#8, 3#8, [1#32, 0, 0, 0, 0, 0, 0, 0]⟩⟩⟩]
    conds := [⟨1, [⟨1, 1⟩, ⟨2, 0⟩], [⟨⟨2, 2, 1, 0x8001#16⟩, ⟨1#32, none⟩⟩], [], 0⟩]
    roleTrans := [⟨1, 2, 1, 1⟩], roleAllow := [(1, 1)], filenameTrans := [⟨2, 1, [(exSet 3#64, 2)]⟩]
    ocontexts := fun i => if i = 0 ∨ i = 2 then [exOcon] else []
    genfs := [⟨true, [(exCtx, 0), (exCtx, 3)]⟩], rangeTrans := [⟨1, 2, 1, ⟨exLow, exHigh⟩⟩]
    typeAttr := fun i => if i = 2 then exSet 4#64 else exSet 5#64, attrType := fun i => if i = 2 then exSet 3#64 else exSet (1#64 <<< i) }

theorem ex_wf (m : BitVec 64) (h : m ≠ 0#64) : Ebitmap.WF (exSet m) := by
  refine ⟨?_, ?_, ?_, ?_, ?_⟩ <;> simp [exSet, h]

theorem ex_init : Ebitmap.WF Ebitmap.init := (Ebitmap.wf_iff_inv _).2 Ebitmap.inv_init

theorem ex_range : RangeWf ⟨exLow, exHigh⟩ := ⟨ex_init, ex_wf _ (by decide)⟩

theorem ex_read : Read exPolicy where
  sizes := by decide
  names := by decide
  policycaps := ex_wf _ (by decide)
  permissive := ex_wf _ (by decide)
  classes := by
    intro e he
    simp only [exPolicy, List.mem_cons, List.not_mem_nil, or_false] at he
    rcases he with rfl | rfl
    · refine ⟨by decide, ?_, by simp⟩
      intro c hc x hx
      simp only [List.mem_singleton] at hc
      subst hc
      simp only [List.mem_cons, List.not_mem_nil, or_false] at hx
      rcases hx with rfl | rfl | rfl
      · exact ⟨ex_wf _ (by decide), ex_init, ex_init⟩
      · exact ⟨ex_init, ex_init, ex_init⟩
      · exact ⟨ex_init, ex_init, ex_init⟩
    · exact ⟨by decide, by simp, by simp⟩
  roles := by
    intro e he
    simp only [exPolicy, List.mem_singleton] at he
    subst he
    exact ⟨ex_wf _ (by decide), ex_init, ex_wf _ (by decide), ex_init⟩
  types := by
    intro e he
    simp only [exPolicy, List.mem_cons, List.not_mem_nil, or_false] at he
    rcases he with rfl | rfl | rfl | rfl
    · exact ex_init
    · exact ex_init
    · exact ex_wf _ (by decide)
    · exact ex_init
  users := by
    intro e he
    simp only [exPolicy, List.mem_singleton] at he
    subst he
    exact ⟨ex_wf _ (by decide), ex_range, ex_init⟩
  levels := by
    intro e he
    simp only [exPolicy, List.mem_cons, List.not_mem_nil, or_false] at he
    rcases he with rfl | rfl <;> exact ex_wf _ (by decide)
  rules := by decide
  filenameTrans := by
    intro t ht d hd
    simp only [exPolicy, List.mem_singleton] at ht
    subst ht
    simp only [List.mem_singleton] at hd
    subst hd
    exact ex_wf _ (by decide)
  ocontexts := by
    intro i hi o ho
    simp only [exPolicy] at ho
    split at ho
    · rw [List.mem_singleton] at ho
      subst ho
      exact ⟨ex_range, ex_range⟩
    · cases ho
  genfs := by
    intro g hg o ho
    simp only [exPolicy, List.mem_singleton] at hg
    subst hg
    simp only [List.mem_cons, List.not_mem_nil, or_false] at ho
    rcases ho with rfl | rfl <;> exact ex_range
  rangeTrans := by
    intro t ht
    simp only [exPolicy, List.mem_singleton] at ht
    subst ht
    exact ex_range
  maps := by
    intro i hi
    have hi : i < 3 := hi
    have : i = 0 ∨ i = 1 ∨ i = 2 := by omega
    rcases this with rfl | rfl | rfl <;> exact ⟨ex_wf _ (by decide), ex_wf _ (by decide)⟩

theorem ex_accept : accept exPolicy = some true := by decide +kernel

/-! ## Acceptance -/

/-- C84: the check of a policy that has been read never uses a NULL pointer or shifts too far, and it accepts the policy exactly
if everything in it refers to things that the policy declares, as `Valid` says. -/
theorem C84_accept {p : VPolicy} (hr : Read p) : accept p ≠ none ∧ (accept p = some true ↔ Valid p) := accept_iff hr

example : Read exPolicy ∧ accept exPolicy = some true ∧
    accept { exPolicy with avtab := [⟨⟨1, 2, 2, 1#16⟩, ⟨1#32, none⟩⟩] } = some false ∧
    accept { exPolicy with avtab := [⟨⟨1, 2, 1, 0x10#16⟩, ⟨3#32, none⟩⟩] } = some false ∧
    accept { exPolicy with roleAllow := [(1, 2)] } = some false := ⟨ex_read, ex_accept, by decide +kernel⟩

/-! ## Permissions -/

theorem fills {l : List Nat} {a n : Nat} (hn : l.Nodup) (hl : l.length + a = n) (hr : ∀ v ∈ l, a < v ∧ v ≤ n) {v : Nat} (h1 : a < v) (h2 : v ≤ n) :
    v ∈ l := by
  have hs : l ⊆ List.range' (a + 1) (n - a) := by
    intro x hx
    have := hr x hx
    rw [List.mem_range'_1]
    omega
  have := (List.subperm_of_subset hn hs).perm_of_length_le (by rw [List.length_range']; omega)
  rw [this.mem_iff, List.mem_range'_1]
  omega

/-- The names of the permissions of a class, its own and those of its common. -/
def permNames (d : ClassD) : List (Str × Nat) := d.perms.entries ++ (match d.common with | none => [] | some c => c.perms.entries)

/-- C84: in an accepted policy the permissions of every class have the numbers from 1 on, without gaps, and every one of
these numbers has exactly one name: of the class or of its common. -/
theorem C84_permission_names {p : VPolicy} (hr : Read p) (h : accept p = some true) {e : Str × ClassD} (he : e ∈ p.classes.entries) :
    ((permNames e.2).map (·.2)).Nodup ∧ ∀ v, v ∈ (permNames e.2).map (·.2) ↔ 1 ≤ v ∧ v ≤ e.2.perms.nprim := by
  obtain ⟨_, _, hc, h32, hlen, hrange, hnd, _⟩ := ((accept_iff hr).2.1 h).classes e he
  have hown : ∀ v, v ∈ e.2.perms.entries.map (·.2) ↔ inherited e.2 < v ∧ v ≤ e.2.perms.nprim := by
    intro v
    constructor
    · intro hv
      obtain ⟨x, hx, rfl⟩ := List.mem_map.1 hv
      exact hrange x hx
    · rintro ⟨h1, h2⟩
      refine fills hnd (by rw [List.length_map]; omega) ?_ h1 h2
      intro w hw
      obtain ⟨x, hx, rfl⟩ := List.mem_map.1 hw
      exact hrange x hx
  unfold permNames
  cases hcom : e.2.common with
  | none =>
    have hi : inherited e.2 = 0 := by unfold inherited; rw [hcom]
    simp only [List.append_nil]
    refine ⟨hnd, fun v => ?_⟩
    rw [hown, hi]
    omega
  | some c =>
    have hi : inherited e.2 = c.perms.nprim := by unfold inherited; rw [hcom]
    obtain ⟨_, _, _, hlen', hrange', hnd'⟩ := hc c hcom
    have hcomm : ∀ v, v ∈ c.perms.entries.map (·.2) ↔ 1 ≤ v ∧ v ≤ c.perms.nprim := by
      intro v
      constructor
      · intro hv
        obtain ⟨x, hx, rfl⟩ := List.mem_map.1 hv
        exact hrange' x hx
      · rintro ⟨h1, h2⟩
        refine fills (a := 0) hnd' (by rw [List.length_map]; omega) ?_ (by omega) h2
        intro w hw
        obtain ⟨x, hx, rfl⟩ := List.mem_map.1 hw
        have := hrange' x hx
        omega
    simp only [List.map_append]
    constructor
    · rw [List.nodup_append]
      refine ⟨hnd, hnd', fun x hx y hy hxy => ?_⟩
      have h1 := (hown x).1 hx
      have h2 := (hcomm y).1 hy
      omega
    · intro v
      rw [List.mem_append, hown, hcomm, hi]
      omega

/-- C84: every rule of an accepted policy that grants or audits permissions names at least one permission of its class. -/
theorem C84_rules_name_permissions {p : VPolicy} (hr : Read p) (h : accept p = some true) {n : Avtab.Node} (hn : n ∈ p.avtab)
    (hk : 0xFFF#16 &&& n.key.specified ∈ [0x1#16, 0x2#16]) :
    ∃ e ∈ p.classes.entries, e.2.value = n.key.cls ∧ ∃ x ∈ permNames e.2, n.datum.data.getLsbD (x.2 - 1) = true := by
  have hnode := ((accept_iff hr).2.1 h).rules n hn
  obtain ⟨_, hcase⟩ := hnode
  have hk' : 0xFFF#16 &&& n.key.specified = 0x1#16 ∨ 0xFFF#16 &&& n.key.specified = 0x2#16 := by simpa using hk
  have hav : 0xFFF#16 &&& n.key.specified ∈ avKinds := mem_av.2 (by tauto)
  rcases hcase with ⟨_, _, _, hp⟩ | ⟨h1, _⟩ | ⟨h1, _⟩
  · rw [if_neg (by rcases hk' with h1 | h1 <;> rw [h1] <;> decide)] at hp
    obtain ⟨e, he, hv, b, hb, hbit⟩ := hp
    refine ⟨e, he, hv, ?_⟩
    have := ((C84_permission_names hr h he).2 (b + 1)).2 ⟨by omega, by omega⟩
    obtain ⟨x, hx, hxb⟩ := List.mem_map.1 this
    exact ⟨x, hx, by rw [hxb]; exact hbit⟩
  · exact absurd ⟨hav, h1⟩ kinds_apart.1
  · exact absurd ⟨hav, h1⟩ kinds_apart.2.1

example : (⟨⟨1, 2, 1, 1#16⟩, ⟨6#32, none⟩⟩ : Avtab.Node) ∈ exPolicy.avtab := by simp [exPolicy]

/-! ## Expressions -/

/-- The kinds of expressions of a conditional, conditional.h:39-45. -/
def CondTok.tok (e : CondTok) : Cond.Tok :=
  match e.exprType with
  | 1 => .bool e.boolean
  | 2 => .not
  | 3 => .or
  | 4 => .and
  | 5 => .xor
  | 6 => .eq
  | 7 => .neq
  | _ => .bad

theorem post_bexpr {p : VPolicy} {l : List CondTok} {n : Nat}
    (h : Post (fun e : CondTok => e.exprType = 1 ∧ IsBool p e.boolean) (fun e => e.exprType = 2 ∧ e.boolean = 0)
      (fun e => 3 ≤ e.exprType ∧ e.exprType ≤ 7 ∧ e.boolean = 0) l n) :
    ∃ t : Cond.BExpr, l.map CondTok.tok = t.postfix ∧ t.need = n ∧ ∀ b ∈ t.vars, IsBool p b := by
  induction h with
  | @leaf e he =>
    refine ⟨.var e.boolean, ?_, rfl, ?_⟩
    · simp [CondTok.tok, he.1, Cond.BExpr.postfix]
    · intro b hb
      rw [show b = e.boolean by simpa [Cond.BExpr.vars] using hb]
      exact he.2
  | @un e l n he _ ih =>
    obtain ⟨t, h1, h2, h3⟩ := ih
    refine ⟨.not t, ?_, h2, h3⟩
    simp [CondTok.tok, he.1, Cond.BExpr.postfix, h1]
  | @bin e l l' n n' he _ _ ih ih' =>
    obtain ⟨t, h1, h2, h3⟩ := ih
    obtain ⟨t', h1', h2', h3'⟩ := ih'
    have hcase : e.exprType = 3 ∨ e.exprType = 4 ∨ e.exprType = 5 ∨ e.exprType = 6 ∨ e.exprType = 7 := by omega
    have hv : ∀ b ∈ t.vars ++ t'.vars, IsBool p b := by
      intro b hb
      rcases List.mem_append.1 hb with hb | hb
      · exact h3 b hb
      · exact h3' b hb
    rcases hcase with hc | hc | hc | hc | hc
    · exact ⟨.or t t', by simp [CondTok.tok, hc, Cond.BExpr.postfix, h1, h1'], by simp [Cond.BExpr.need, h2, h2'], hv⟩
    · exact ⟨.and t t', by simp [CondTok.tok, hc, Cond.BExpr.postfix, h1, h1'], by simp [Cond.BExpr.need, h2, h2'], hv⟩
    · exact ⟨.xor t t', by simp [CondTok.tok, hc, Cond.BExpr.postfix, h1, h1'], by simp [Cond.BExpr.need, h2, h2'], hv⟩
    · exact ⟨.eq t t', by simp [CondTok.tok, hc, Cond.BExpr.postfix, h1, h1'], by simp [Cond.BExpr.need, h2, h2'], hv⟩
    · exact ⟨.neq t t', by simp [CondTok.tok, hc, Cond.BExpr.postfix, h1, h1'], by simp [Cond.BExpr.need, h2, h2'], hv⟩

/-- C84: the expression of every conditional of an accepted policy is the postfix form of a boolean expression over declared
booleans, and evaluating it, whatever the values of the booleans are, gives the value of that expression and not -1. -/
theorem C84_conditions {p : VPolicy} (hr : Read p) (h : accept p = some true) (hv : 16 ≤ p.version) {c : CondD} (hc : c ∈ p.conds) :
    ∃ t : Cond.BExpr, c.expr.map CondTok.tok = t.postfix ∧ (∀ b ∈ t.vars, IsBool p b) ∧
      ∀ σ, Cond.toInt (Cond.evaluate σ (c.expr.map CondTok.tok)) = if t.val σ then 1 else 0 := by
  obtain ⟨⟨n, hn, hpost⟩, _⟩ := ((accept_iff hr).2.1 h).conds hv c hc
  obtain ⟨t, h1, h2, h3⟩ := post_bexpr hpost
  refine ⟨t, h1, h3, fun σ => ?_⟩
  rw [h1, Cond.C12_value, if_pos (by omega)]

example : ∃ c ∈ exPolicy.conds, 16 ≤ exPolicy.version ∧ c.expr.map CondTok.tok = (Cond.BExpr.not (.var 1)).postfix :=
  ⟨_, List.mem_singleton.2 rfl, by decide, by decide⟩

/-- C84: the constraints of an accepted policy satisfy what the access decisions of property C17 need: they are the postfix
forms of expressions that fit the stack and a constraint on permissions does not look at a third context. -/
theorem C84_constraints {p : VPolicy} (hr : Read p) (h : accept p = some true) {e : Str × ClassD} (he : e ∈ p.classes.entries) :
    (∀ c ∈ e.2.constraints, ∃ t, Postfix c.expr t ∧ t.cells ≤ 5 ∧ t.usesThird = false) ∧
    (∀ c ∈ e.2.validatetrans, ∃ t, Postfix c.expr t ∧ t.cells ≤ 5) := by
  have hcls := ((accept_iff hr).2.1 h).classes e he
  unfold accept at h
  cases hi : index p with
  | none => rw [hi] at h; cases h
  | some a =>
    obtain ⟨fl, _, h2, _⟩ := arrayInit_ok hr (index_ok hi).2
    have hw := (hr.classes e he).2
    have h32 := (hr.classes e he).1
    obtain ⟨_, _, _, _, _, _, _, c1, c2, _⟩ := hcls
    have k1 := (validateConstraints_iff h2 h32 hw.1).2 c1
    have k2 := (validateTrans_iff h2 hw.2).2 c2
    exact ⟨fun c hc => validated_expr k1 (by omega) hc, fun c hc => validated_expr_vt k2 hc⟩

example : ∃ e ∈ exPolicy.classes.entries, e.2.constraints ≠ [] := ⟨_, List.mem_cons_self, by simp⟩

/-! ## What is not checked -/

/-- A policy whose category alias has the number of no category. -/
def exDangling : VPolicy := { exPolicy with cats := ⟨[(['a'], ⟨1, false⟩), (['b'], ⟨2, false⟩), (['c'], ⟨3, true⟩)], 3⟩ }

/-- C84: an alias of a category may stand for no category at all: only the range of its number is checked. -/
theorem C84_category_alias_refuted : ∃ p : VPolicy, Read p ∧ accept p = some true ∧
    ∃ e ∈ p.cats.entries, e.2.isalias = true ∧ ¬ IsCat p e.2.value := by
  refine ⟨exDangling, { ex_read with sizes := by decide }, by decide +kernel, (['c'], ⟨3, true⟩), by simp [exDangling], rfl, ?_⟩
  rintro ⟨_, _, e, he, hs, hv⟩
  simp only [exDangling, List.mem_cons, List.not_mem_nil, or_false] at he
  rcases he with rfl | rfl | rfl
  · simp at hv
  · simp at hv
  · simp at hs

/-- A policy with a context whose range is the wrong way round. -/
def exReversed : VPolicy := { exPolicy with rangeTrans := [⟨1, 2, 1, ⟨exHigh, exLow⟩⟩] }

/-- C84: the ends of a range need not be in order. -/
theorem C84_range_order_refuted : ∃ p : VPolicy, Read p ∧ accept p = some true ∧
    ∃ t ∈ p.rangeTrans, ∃ b, Ebitmap.getBit t.range.low.cat b = true ∧ Ebitmap.getBit t.range.high.cat b = false := by
  refine ⟨exReversed, { ex_read with rangeTrans := ?_ }, by decide +kernel, ⟨1, 2, 1, ⟨exHigh, exLow⟩⟩, by simp [exReversed], 0, by decide, by decide⟩
  intro t ht
  simp only [exReversed, List.mem_singleton] at ht
  subst ht
  exact ⟨ex_wf _ (by decide), ex_init⟩

/-- C84: an access vector may have bits that are no permissions, as long as it has one that is. -/
theorem C84_stray_bits_refuted : ∃ p : VPolicy, Read p ∧ accept p = some true ∧
    ∃ n ∈ p.avtab, ∃ e ∈ p.classes.entries, e.2.value = n.key.cls ∧ ∃ b, n.datum.data.getLsbD b = true ∧ e.2.perms.nprim ≤ b := by
  refine ⟨{ exPolicy with avtab := [⟨⟨3, 2, 3, 1#16⟩, ⟨3#32, none⟩⟩] }, { ex_read with rules := by decide }, by decide +kernel,
    ⟨⟨3, 2, 3, 1#16⟩, ⟨3#32, none⟩⟩, by simp, (['b'], ⟨3, none, ⟨[(['i'], 1)], 1⟩, [], [], 0, 0, 0, 0⟩), by simp [exPolicy], rfl, 1, by decide, by decide⟩

/-- A policy in which the numbers of types start at two. -/
def exTwo : VPolicy :=
  { exPolicy with
    permissive := exSet 4#64
    roles := ⟨[(['a'], ⟨1, Ebitmap.init, exNoTypes, 0, Ebitmap.init, 0⟩)], 1⟩
    types := ⟨[(['b'], ⟨2, 1, 0, Ebitmap.init, 0, 0⟩)], 2⟩
    classes := ⟨[(['a'], ⟨1, none, ⟨[(['r'], 1)], 1⟩, [], [], 0, 0, 0, 0⟩)], 1⟩
    avtab := [⟨⟨2, 2, 1, 1#16⟩, ⟨1#32, none⟩⟩], conds := [], roleTrans := [], filenameTrans := [], ocontexts := fun _ => [], genfs := []
    rangeTrans := [], typeAttr := fun i => if i = 1 then exSet 2#64 else Ebitmap.init, attrType := fun i => if i = 1 then exSet 2#64 else Ebitmap.init }

/-- C84: a policy with types is accepted only if number 1 is one of a type, since the mark of a primary name, which is 1, is
checked as if it were the number of a type; so a policy in which all that is used is declared may be rejected. -/
theorem C84_type_one {p : VPolicy} (hr : Read p) (h : accept p = some true) {e : Str × TypeD} (he : e ∈ p.types.entries)
    (h1 : e.2.primary = 1) : IsType p 1 := by
  rcases (((accept_iff hr).2.1 h).types e he).2.1 with h2 | h2
  · omega
  · rw [h1] at h2; exact h2

example : accept exTwo = some false ∧
    accept { exTwo with types := ⟨[(['b'], ⟨2, 1, 0, Ebitmap.init, 0, 0⟩), (['z'], ⟨1, 1, 0, Ebitmap.init, 0, 0⟩)], 2⟩ } = some true := by
  decide +kernel

end Verif.Validate
