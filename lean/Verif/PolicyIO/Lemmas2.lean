import Verif.PolicyIO.Lemmas

/-! # Constraints and classes -/

namespace Verif.PolicyIO
open Verif.Policy Verif.Services Verif.Validate

/-- What the reader checks of the kinds of expressions. -/
def depthCheck : List CExpr → Int → Bool
  | [], d => d == 0
  | e :: l, d =>
    if e.exprType = 1 then decide (0 ≤ d) && depthCheck l d
    else if e.exprType = 2 ∨ e.exprType = 3 then decide (1 ≤ d) && depthCheck l (d - 1)
    else if e.exprType = 4 ∨ e.exprType = 5 then decide (d < 4) && depthCheck l (d + 1)
    else false

theorem depthCheck_cons (e : CExpr) (l : List CExpr) (d : Int) : depthCheck (e :: l) d =
    if e.exprType = 1 then decide (0 ≤ d) && depthCheck l d
    else if e.exprType = 2 ∨ e.exprType = 3 then decide (1 ≤ d) && depthCheck l (d - 1)
    else if e.exprType = 4 ∨ e.exprType = 5 then decide (d < 4) && depthCheck l (d + 1)
    else false := rfl

theorem depth_arity : Arity (fun e : CExpr => e.exprType = 4 ∨ e.exprType = 5) (fun e => e.exprType = 1)
    (fun e => e.exprType = 2 ∨ e.exprType = 3) depthCheck 5 where
  nil d := by simp [depthCheck]
  other e l d h := by
    unfold depthCheck at h
    split at h
    · exact Or.inr (Or.inl ‹_›)
    · split at h
      · exact Or.inr (Or.inr ‹_›)
      · split at h
        · exact Or.inl ‹_›
        · cases h
  leaf e l d he := by
    rw [depthCheck_cons, if_neg (by omega), if_neg (by omega), if_pos he, Bool.and_eq_true, decide_eq_true_iff]
    constructor <;> rintro ⟨h1, h2⟩ <;> exact ⟨by omega, h2⟩
  un e l d he := by
    rw [depthCheck_cons, if_pos he, Bool.and_eq_true, decide_eq_true_iff]
  bin e l d he := by
    rw [depthCheck_cons, if_neg (by omega), if_pos he, Bool.and_eq_true, decide_eq_true_iff]

theorem post_mono {α : Type} {leaf un bin leaf' un' bin' : α → Prop} (h1 : ∀ e, leaf e → leaf' e) (h2 : ∀ e, un e → un' e)
    (h3 : ∀ e, bin e → bin' e) {l : List α} {n : Nat} (h : Post leaf un bin l n) : Post leaf' un' bin' l n := by
  induction h with
  | leaf he => exact .leaf (h1 _ he)
  | un he _ ih => exact .un (h2 _ he) ih
  | bin he _ _ ih1 ih2 => exact .bin (h3 _ he) ih1 ih2

theorem post_mem {α : Type} {leaf un bin : α → Prop} {l : List α} {n : Nat} (h : Post leaf un bin l n) :
    ∀ e ∈ l, leaf e ∨ un e ∨ bin e := by
  induction h with
  | leaf he => intro e h; rw [List.mem_singleton] at h; subst h; exact Or.inl he
  | un he _ ih =>
    intro e h
    rcases List.mem_append.1 h with h | h
    · exact ih e h
    · rw [List.mem_singleton] at h; subst h; exact Or.inr (Or.inl he)
  | bin he _ _ ih1 ih2 =>
    intro e h
    rcases List.mem_append.1 h with h | h
    · rcases List.mem_append.1 h with h | h
      · exact ih1 e h
      · exact ih2 e h
    · rw [List.mem_singleton] at h; subst h; exact Or.inr (Or.inr he)

theorem heldExpr_type (v : Nat) (e : CExpr) : (heldExpr v e).exprType = e.exprType := by unfold heldExpr; split <;> rfl
theorem heldExpr_attr (v : Nat) (e : CExpr) : (heldExpr v e).attr = e.attr := by unfold heldExpr; split <;> rfl

theorem depthCheck_held (v : Nat) (l : List CExpr) : ∀ d, depthCheck (l.map (heldExpr v)) d = depthCheck l d := by
  induction l with
  | nil => intro d; rfl
  | cons e l ih =>
    intro d
    rw [List.map_cons]
    unfold depthCheck
    rw [heldExpr_type, ih, ih, ih]

/-- What a valid expression says of what is checked when it is read. -/
theorem conExprOk_checks {p : VPolicy} {vt : Bool} {l : List CExpr} (h : ConExprOk p vt l) : depthCheck l (-1) = true ∧
    ∀ e ∈ l, e.exprType = 5 → (!vt && e.attr &&& XTARGET != 0) = false := by
  obtain ⟨n, hn, h⟩ := h
  constructor
  · refine (check_iff depth_arity).2 ⟨n, hn, post_mono ?_ ?_ ?_ h⟩
    · rintro e (he | he)
      · exact Or.inr he.1
      · exact Or.inl he.1
    · exact fun e he => he.1
    · exact fun e he => he.1
  · intro e he h5
    rcases post_mem h e he with (hl | hl) | hl | hl
    · obtain ⟨_, _, kind, side, ha, hs, hk⟩ := hl
      have hk : kind = USER ∨ kind = ROLE ∨ kind = TYPE := by
        rcases hk with h | h | h
        · exact Or.inl h.1
        · exact Or.inr (Or.inl h.1)
        · exact Or.inr (Or.inr h.1)
      rw [ha]
      rcases hs with hs | hs | ⟨hs, hv⟩
      · subst hs; rcases hk with h | h | h <;> subst h <;> cases vt <;> decide
      · subst hs; rcases hk with h | h | h <;> subst h <;> cases vt <;> decide
      · rw [hv]; rfl
    · have := hl.1; rw [h5] at this; exact absurd this (by decide)
    · have := hl.1; rw [h5] at this; exact absurd this (by decide)
    · have := hl.1; rw [h5] at this; rcases this with h | h <;> exact absurd h (by decide)

theorem heldExpr_five {v : Nat} {e : CExpr} (h : e.exprType = 5) (hv : 29 ≤ v) : heldExpr v e = e := by
  unfold heldExpr; rw [if_pos h, if_pos hv]

theorem inv_exprs {v : Nat} {vt : Bool} : ∀ (l : List CExpr) (d : Int), depthCheck l d = true → (∀ e ∈ l, ExprFits e) →
    (∀ e ∈ l, e.exprType = 5 → (!vt && e.attr &&& XTARGET != 0) = false) →
    ∃ b, wAll (writeCExpr v vt) l = some b ∧ Inv (readCExprs v vt l.length d) b (l.map (heldExpr v))
  | [], d, hd, _, _ => by
    have : d = 0 := by simpa [depthCheck] using hd
    subst this
    exact ⟨[], rfl, inv_reject rfl (inv_pure _)⟩
  | e :: l, d, hd, hf, hx => by
    have hl := fun d h => inv_exprs (v := v) (vt := vt) l d h (fun x hx => hf x (List.mem_cons_of_mem _ hx))
      (fun x h => hx x (List.mem_cons_of_mem _ h))
    obtain ⟨f1, f2, f3, f4, f5, f6⟩ := hf e (by simp)
    have hwl : ∀ b bs, writeCExpr v vt e = some b → wAll (writeCExpr v vt) l = some bs →
        wAll (writeCExpr v vt) (e :: l) = some (b ++ bs) := by
      intro b bs h1 h2; simp [wAll, h1, h2]
    unfold depthCheck at hd
    by_cases h5 : e.exprType = 5
    · rw [if_neg (by omega), if_neg (by omega), if_pos (Or.inr h5), Bool.and_eq_true, decide_eq_true_iff] at hd
      obtain ⟨bs, hb1, hb2⟩ := hl _ hd.2
      have hw : writeCExpr v vt e = some (w32 e.exprType ++ (w32 e.attr ++ (w32 e.op ++ (Ebitmap.write e.names ++
          (if v ≥ 29 then writeTypeSet e.typeNames else []))))) := by
        unfold writeCExpr
        rw [if_pos h5, if_neg (by rw [hx e (by simp) h5]; simp)]
      refine ⟨_, hwl _ _ hw hb1, ?_⟩
      rw [List.append_assoc, List.append_assoc, List.append_assoc, List.append_assoc]
      show Inv (readCExprs v vt (l.length + 1) d) _ _
      unfold readCExprs
      refine inv_bind (inv_u32 (by rw [h5]; unfold Word; decide)) ?_
      refine inv_bind (inv_u32 f1) ?_
      refine inv_bind (inv_u32 f2) ?_
      rw [if_neg (by omega), if_neg (by omega), if_neg (by omega), if_pos h5]
      refine inv_reject (hx e (by simp) h5) ?_
      refine inv_reject (by simp; omega) ?_
      refine inv_bind (inv_ebm f3) ?_
      by_cases h29 : v ≥ 29
      · simp only [if_pos h29]
        refine inv_bind (inv_typeSet f4 f5 f6) ?_
        refine inv_congr (inv_last (g := fun l => (⟨e.exprType, e.attr, e.op, e.names, e.typeNames⟩ : CExpr) :: l) hb2) rfl ?_
        rw [List.map_cons, heldExpr_five h5 h29]
      · simp only [if_neg h29]
        refine inv_skip ?_
        rw [List.nil_append]
        refine inv_congr (inv_last (g := fun l => (⟨e.exprType, e.attr, e.op, e.names, emptyTypeSet⟩ : CExpr) :: l) hb2) rfl ?_
        rw [List.map_cons]
        unfold heldExpr
        rw [if_pos h5, if_neg h29]; rfl
    · have hw : writeCExpr v vt e = some (w32 e.exprType ++ (w32 e.attr ++ w32 e.op)) := by
        unfold writeCExpr; rw [if_neg h5]
      have hh : heldExpr v e = ⟨e.exprType, e.attr, e.op, Ebitmap.init, emptyTypeSet⟩ := by unfold heldExpr; rw [if_neg h5]; rfl
      have hword : Word e.exprType := by
        unfold Word
        by_contra hc
        rw [if_neg (by omega), if_neg (by omega), if_neg (by omega)] at hd
        cases hd
      have key : ∀ d', depthCheck l d' = true → (∀ bs, Inv (readCExprs v vt l.length d') bs (l.map (heldExpr v)) →
          Inv (if e.exprType = 1 then do
              Rd.reject (decide (d < 0))
              let l ← readCExprs v vt l.length d
              Rd.pure (⟨e.exprType, e.attr, e.op, Ebitmap.init, emptyTypeSet⟩ :: l)
            else if e.exprType = 2 ∨ e.exprType = 3 then do
              Rd.reject (decide (d < 1))
              let l ← readCExprs v vt l.length (d - 1)
              Rd.pure (⟨e.exprType, e.attr, e.op, Ebitmap.init, emptyTypeSet⟩ :: l)
            else if e.exprType = 4 then do
              Rd.reject (d == 4)
              let l ← readCExprs v vt l.length (d + 1)
              Rd.pure (⟨e.exprType, e.attr, e.op, Ebitmap.init, emptyTypeSet⟩ :: l)
            else if e.exprType = 5 then do
              Rd.reject (!vt && e.attr &&& XTARGET != 0)
              Rd.reject (d == 4)
              let names ← ebm
              let typeNames ← if v ≥ 29 then readTypeSet else Rd.pure emptyTypeSet
              let l ← readCExprs v vt l.length (d + 1)
              Rd.pure (⟨e.exprType, e.attr, e.op, names, typeNames⟩ :: l)
            else Rd.fail) bs (heldExpr v e :: l.map (heldExpr v))) →
          ∃ b, wAll (writeCExpr v vt) (e :: l) = some b ∧ Inv (readCExprs v vt (e :: l).length d) b ((e :: l).map (heldExpr v)) := by
        intro d' hd' hinv
        obtain ⟨bs, hb1, hb2⟩ := hl d' hd'
        refine ⟨_, hwl _ _ hw hb1, ?_⟩
        rw [List.append_assoc, List.append_assoc]
        show Inv (readCExprs v vt (l.length + 1) d) _ _
        unfold readCExprs
        refine inv_bind (inv_u32 hword) ?_
        refine inv_bind (inv_u32 f1) ?_
        refine inv_bind (inv_u32 f2) ?_
        exact hinv bs hb2
      split at hd
      · rename_i h1
        rw [Bool.and_eq_true, decide_eq_true_iff] at hd
        refine key d hd.2 fun bs hb => ?_
        rw [if_pos h1, hh]
        exact inv_reject (by simp; omega) (inv_last (g := fun l => (⟨e.exprType, e.attr, e.op, Ebitmap.init, emptyTypeSet⟩ : CExpr) :: l) hb)
      · rename_i h1
        split at hd
        · rename_i h2
          rw [Bool.and_eq_true, decide_eq_true_iff] at hd
          refine key (d - 1) hd.2 fun bs hb => ?_
          rw [if_neg h1, if_pos h2, hh]
          exact inv_reject (by simp; omega) (inv_last (g := fun l => (⟨e.exprType, e.attr, e.op, Ebitmap.init, emptyTypeSet⟩ : CExpr) :: l) hb)
        · rename_i h2
          split at hd
          · rename_i h3
            have h4 : e.exprType = 4 := by omega
            rw [Bool.and_eq_true, decide_eq_true_iff] at hd
            refine key (d + 1) hd.2 fun bs hb => ?_
            rw [if_neg h1, if_neg h2, if_pos h4, hh]
            exact inv_reject (by simp; omega) (inv_last (g := fun l => (⟨e.exprType, e.attr, e.op, Ebitmap.init, emptyTypeSet⟩ : CExpr) :: l) hb)
          · cases hd

theorem inv_constraint {v : Nat} {vt : Bool} {p : VPolicy} {c : Constraint} (hc : ConstraintFits c) (he : ConExprOk p vt (heldConstraint v c).expr) :
    ∃ b, writeConstraint v vt c = some b ∧ Inv (readConstraint v vt) b (heldConstraint v c) := by
  obtain ⟨h1, h2⟩ := conExprOk_checks he
  simp only [heldConstraint] at h1 h2
  rw [depthCheck_held] at h1
  obtain ⟨bs, hb1, hb2⟩ := inv_exprs (v := v) (vt := vt) c.expr (-1) h1 hc.2 (fun e he h5 => by
    have := h2 (heldExpr v e) (List.mem_map_of_mem he) (by rw [heldExpr_type]; exact h5)
    rwa [heldExpr_attr] at this)
  refine ⟨w32 c.perms.toNat ++ (w32 c.expr.length ++ bs), by simp [writeConstraint, hb1], ?_⟩
  unfold readConstraint
  refine inv_bind (inv_u32 (by unfold Word; exact c.perms.isLt)) ?_
  refine inv_bind (inv_u32 hc.1) ?_
  refine inv_congr (inv_last (g := fun e => (⟨BitVec.ofNat 32 c.perms.toNat, e⟩ : Constraint)) hb2) rfl ?_
  simp [heldConstraint]

theorem char32_word {c : Nat} (h : c < 256) : Word (char32 c) ∧ char32 c % 256 = c := by
  unfold Word char32
  split <;> omega

theorem findCommon_mem {l : List (Str × CommonD)} (hn : (l.map (·.1)).Nodup) {k : Str} {d : CommonD} (h : (k, d) ∈ l) : findCommon l k = some d := by
  unfold findCommon
  induction l with
  | nil => cases h
  | cons e l ih =>
    rw [List.map_cons, List.nodup_cons] at hn
    rw [List.find?_cons]
    rcases List.mem_cons.1 h with h | h
    · subst h; simp
    · have : (e.1 == k) = false := by
        rw [beq_eq_false_iff_ne]
        intro hc
        exact hn.1 (hc ▸ List.mem_map_of_mem (f := (·.1)) h)
      rw [this]
      exact ih hn.2 h

theorem inv_since {v k c : Nat} (h : c < 256) : Inv (since v k) (if v ≥ k then w32 (char32 c) else [])
    (if v ≥ k then char32 c else 0) := by
  unfold since
  split
  · exact inv_u32 (char32_word h).1
  · exact inv_pure 0

theorem inv_class {p : PolicyDb} {e : Str × ClassP} (hn : GoodName e.1) (hc : ClassFits p e.2) (hcn : (p.commons.entries.map (·.1)).Nodup)
    (h1 : ∀ c ∈ e.2.datum.constraints, ConExprOk (held p).toV false (heldConstraint p.version c).expr)
    (h2 : ∀ c ∈ e.2.datum.validatetrans, ConExprOk (held p).toV true (heldConstraint p.version c).expr) :
    ∃ b, writeClass p.version e = some b ∧ Inv (readClass p.version p.commons.entries) b (some (e.1, heldClass p.version e.2)) ∧ 12 ≤ b.length := by
  obtain ⟨cb, hcb, hci⟩ := wAll_times (r := readConstraint p.version false) (w := writeConstraint p.version false) (g := heldConstraint p.version)
    (l := e.2.datum.constraints) fun c hx => inv_constraint (hc.constraints.2 c hx) (h1 c hx)
  obtain ⟨vb, hvb, hvi⟩ := wAll_times (r := readConstraint p.version true) (w := writeConstraint p.version true) (g := heldConstraint p.version)
    (l := e.2.datum.validatetrans) fun c hx => inv_constraint (hc.validatetrans.2 c hx) (h2 c hx)
  have hd := hc.defaults
  refine ⟨_, by simp only [writeClass, hcb, hvb, Option.bind_eq_bind, Option.bind_some]; rfl, ?_, ?_⟩
  · unfold readClass
    refine inv_bind (inv_u32 (word_len hn)) ?_
    refine inv_bind (inv_u32 ?_) ?_
    · cases hk : e.2.comkey with
      | none => exact (by unfold Word; decide)
      | some k => exact word_len (hc.common k hk).1
    refine inv_bind (inv_u32 (by have := hc.value; unfold Word; omega)) ?_
    refine inv_bind (inv_u32 (by have := hc.perms.2.1; unfold Word; omega)) ?_
    refine inv_bind (inv_u32 hc.perms.2.2.1) ?_
    refine inv_bind (inv_u32 hc.constraints.1) ?_
    refine inv_bind (inv_str hn) ?_
    refine inv_reject (by have := hc.value; simp; omega) ?_
    refine inv_reject (by have := hc.perms.2.1; simp; omega) ?_
    refine inv_bind (a := (e.2.comkey, e.2.datum.common)) ?_ ?_
    · unfold readComkey
      cases hk : e.2.comkey with
      | none => simp only [if_pos]; rw [hc.noCommon hk]; exact inv_pure _
      | some k =>
        obtain ⟨hg, d, hm, hcd⟩ := hc.common k hk
        have hne : k.length ≠ 0 := by have := hg.1; simpa [List.length_eq_zero_iff] using this
        simp only [if_neg hne]
        have := inv_bind (f := fun k => (match findCommon p.commons.entries k with
          | none => Rd.fail
          | some c => Rd.pure (some k, some c) : Rd (Option Str × Option CommonD))) (b' := []) (inv_str hg)
          (c := (some k, e.2.datum.common)) (by rw [findCommon_mem hcn hm, hcd]; exact inv_pure _)
        rwa [List.append_nil] at this
    refine inv_bind (inv_perms hc.perms) ?_
    refine inv_bind hci ?_
    refine inv_bind (inv_u32 hc.validatetrans.1) ?_
    refine inv_bind hvi ?_
    have hw : ∀ {c : Nat}, c < 256 → Word (char32 c) := fun h => (char32_word h).1
    have hm : ∀ {c : Nat}, c < 256 → char32 c % 256 = c := fun h => (char32_word h).2
    have hr : (if decide (p.version < 32) && e.2.datum.defaultRange == 7 then 0 else e.2.datum.defaultRange) < 256 := by split <;> omega
    have hrh : ∀ h : 27 ≤ p.version, (if decide (p.version < 32) && e.2.datum.defaultRange == 7 then 0 else e.2.datum.defaultRange)
        = if 27 ≤ p.version ∧ (32 ≤ p.version ∨ e.2.datum.defaultRange ≠ 7) then e.2.datum.defaultRange else 0 := by
      intro h
      by_cases h32 : p.version < 32
      · by_cases h7 : e.2.datum.defaultRange = 7
        · rw [if_pos (by simp [h32, h7]), if_neg (by omega)]
        · rw [if_neg (by simp [h7]), if_pos ⟨h, Or.inr h7⟩]
      · rw [if_neg (by simp [h32]), if_pos ⟨h, Or.inl (by omega)⟩]
    by_cases h27 : p.version ≥ 27
    · simp only [if_pos h27]
      rw [List.append_assoc, List.append_assoc]
      have hs : ∀ {c : Nat}, c < 256 → Inv (since p.version 27) (w32 (char32 c)) (char32 c) := fun h => by
        unfold since; rw [if_pos h27]; exact inv_u32 (hw h)
      refine inv_bind (hs hd.1) ?_
      refine inv_bind (hs hd.2.1) ?_
      refine inv_bind (hs hr) ?_
      refine inv_congr (inv_last (g := fun x => some (e.1, (⟨e.2.comkey, {
        value := e.2.datum.value
        common := e.2.datum.common
        perms := ⟨e.2.datum.perms.entries, e.2.datum.perms.nprim⟩
        constraints := e.2.datum.constraints.map (heldConstraint p.version)
        validatetrans := e.2.datum.validatetrans.map (heldConstraint p.version)
        defaultUser := char32 e.2.datum.defaultUser % 256
        defaultRole := char32 e.2.datum.defaultRole % 256
        defaultType := x % 256
        defaultRange := char32 (if decide (p.version < 32) && e.2.datum.defaultRange == 7 then 0 else e.2.datum.defaultRange) % 256 }⟩ : ClassP)))
        (inv_since (v := p.version) (k := 28) hd.2.2.1)) rfl ?_
      rw [hm hd.1, hm hd.2.1, hm hr, hrh h27]
      unfold heldClass
      rw [if_pos h27, if_pos h27]
      congr 4
      by_cases h28 : p.version ≥ 28
      · rw [if_pos h28, if_pos h28, hm hd.2.2.1]
      · rw [if_neg h28, if_neg h28]
    · simp only [since, if_neg h27, if_neg (show ¬ p.version ≥ 28 by omega)]
      refine inv_skip (inv_skip (inv_skip (inv_skip ?_)))
      refine inv_congr (inv_pure _) rfl ?_
      unfold heldClass
      rw [if_neg h27, if_neg h27, if_neg (by omega), if_neg (by omega)]
  · simp only [List.length_append, w32_length]
    omega

end Verif.PolicyIO
