import Verif.CilX.Lemmas

/-!
# Lemmas on the compilation of rules with extended permissions
-/

namespace Verif.CilX
open Ebitmap (Ebitmap)
open Avtab (Avtab Key Datum Node Rel XPerms)
open CilBin (Db Sym Target Kind Branch State typeDatum bits key shouldExpand expandType condInsertRule DbOk Emits)

/-! ### Loops -/

theorem forE_append {α σ : Type} (f : α → σ → Option σ) (l l' : List α) (st : σ) :
    forE f (l ++ l') st = (forE f l st).bind (forE f l') := by
  induction l generalizing st with
  | nil => rfl
  | cons x l ih =>
    simp only [List.cons_append, forE]
    cases f x st with
    | none => rfl
    | some st => exact ih st

theorem forE_map {α β σ : Type} (f : β → σ → Option σ) (g : α → β) (l : List α) (st : σ) :
    forE f (l.map g) st = forE (fun x => f (g x)) l st := by
  induction l generalizing st with
  | nil => rfl
  | cons x l ih =>
    simp only [List.map_cons, forE]
    cases f (g x) st with
    | none => rfl
    | some st => exact ih st

theorem forE_filter {α σ : Type} (f : α → σ → Option σ) (p : α → Prop) [DecidablePred p] (l : List α) (st : σ) :
    forE (fun t x => if p t then f t x else some x) l st = forE f (l.filter fun t => decide (p t)) st := by
  induction l generalizing st with
  | nil => rfl
  | cons x l ih =>
    by_cases h : p x
    · rw [List.filter_cons, if_pos (by simpa using h)]
      simp only [forE, if_pos h]
      cases f x st with
      | none => rfl
      | some st => exact ih st
    · rw [List.filter_cons, if_neg (by simpa using h)]
      simp only [forE, if_neg h]
      exact ih st

theorem forE_nest {α β σ : Type} (f : α → β → σ → Option σ) (l : α → List β) (ss : List α) (st : σ) :
    forE (fun s => forE (f s) (l s)) ss st = forE (fun p : α × β => f p.1 p.2) (ss.flatMap fun s => (l s).map fun t => (s, t)) st := by
  induction ss generalizing st with
  | nil => rfl
  | cons s ss ih =>
    rw [List.flatMap_cons, forE_append, forE_map]
    simp only [forE]
    cases forE (f s) (l s) st with
    | none => rfl
    | some st => exact ih st

theorem forE_congr {α σ : Type} {f g : α → σ → Option σ} {l : List α} (h : ∀ x ∈ l, ∀ st, f x st = g x st) (st : σ) : forE f l st = forE g l st := by
  induction l generalizing st with
  | nil => rfl
  | cons x l ih =>
    simp only [forE, h x (by simp) st]
    cases g x st with
    | none => rfl
    | some st => exact ih (fun y hy => h y (List.mem_cons_of_mem _ hy)) st

/-- A rule is compiled for a list of pairs of symbols. -/
theorem pairs_ok {db : Db} (ok : DbOk db) (tab : List Sym) (r : XRule) (hs : r.src.Ok db) (ht : ∀ y, r.tgt = .sym y → y.Ok db)
    (hd : ¬ (r.kind = .dontaudit ∧ db.disableDontaudit = true)) :
    ∃ ps : List (Sym × Sym), (∀ x y, (x, y) ∈ ps ↔ Emits db r.src r.tgt x y) ∧
      ∀ t, avrulexToHashtable db tab r t = forE (fun p => xHelper db tab r p.1 p.2) ps t := by
  obtain ⟨ss, hss, hms⟩ := CilBin.expandType_ok ok hs
  cases htg : r.tgt with
  | self =>
    refine ⟨ss.map fun s => (.type s, .type s), fun x y => ?_, fun t => ?_⟩
    · simp only [List.mem_map, Prod.mk.injEq, Emits, hms]
      constructor
      · rintro ⟨s, h1, rfl, rfl⟩; exact ⟨s, h1, rfl, rfl⟩
      · rintro ⟨s, h1, rfl, rfl⟩; exact ⟨s, h1, rfl, rfl⟩
    · simp only [avrulexToHashtable, if_neg hd, htg, hss, Option.bind_some, forE_map]
  | notself =>
    refine ⟨ss.flatMap fun s => ((List.range db.numTypes).filter fun t => decide (s ≠ t)).map fun t => (.type s, .type t), fun x y => ?_, fun t => ?_⟩
    · simp only [List.mem_flatMap, List.mem_map, List.mem_filter, List.mem_range, decide_eq_true_eq, Prod.mk.injEq, Emits, hms]
      constructor
      · rintro ⟨s, h1, t, ⟨h2, h3⟩, rfl, rfl⟩; exact ⟨s, t, h1, h2, h3, rfl, rfl⟩
      · rintro ⟨s, t, h1, h2, h3, rfl, rfl⟩; exact ⟨s, h1, t, ⟨h2, h3⟩, rfl, rfl⟩
    · simp only [avrulexToHashtable, if_neg hd, htg, hss, Option.bind_some]
      have hf : ∀ (s : Nat) (l : List Nat) (st : Tabs), forE (fun t x => if s ≠ t then xHelper db tab r (.type s) (.type t) x else some x) l st =
          forE (fun t => xHelper db tab r (.type s) (.type t)) (l.filter fun t => decide (s ≠ t)) st :=
        fun s l st => forE_filter _ (fun t => s ≠ t) l st
      rw [forE_congr fun s _ st => hf s _ st, forE_nest (fun s t => xHelper db tab r (.type s) (.type t))]
      have : (ss.flatMap fun s => ((List.range db.numTypes).filter fun t => decide (s ≠ t)).map fun t => ((.type s, .type t) : Sym × Sym)) =
          (ss.flatMap fun s => ((List.range db.numTypes).filter fun t => decide (s ≠ t)).map fun t => (s, t)).map fun p => (.type p.1, .type p.2) := by
        simp only [List.map_flatMap, List.map_map]
        rfl
      rw [this, forE_map]
  | other =>
    refine ⟨ss.flatMap fun s => (ss.filter fun t => decide (s ≠ t)).map fun t => (.type s, .type t), fun x y => ?_, fun t => ?_⟩
    · simp only [List.mem_flatMap, List.mem_map, List.mem_filter, decide_eq_true_eq, Prod.mk.injEq, Emits, hms]
      constructor
      · rintro ⟨s, h1, t, ⟨h2, h3⟩, rfl, rfl⟩; exact ⟨s, t, h1, h2, h3, rfl, rfl⟩
      · rintro ⟨s, t, h1, h2, h3, rfl, rfl⟩; exact ⟨s, h1, t, ⟨h2, h3⟩, rfl, rfl⟩
    · simp only [avrulexToHashtable, if_neg hd, htg, hss, Option.bind_some]
      have hf : ∀ (s : Nat) (l : List Nat) (st : Tabs), forE (fun t x => if s ≠ t then xHelper db tab r (.type s) (.type t) x else some x) l st =
          forE (fun t => xHelper db tab r (.type s) (.type t)) (l.filter fun t => decide (s ≠ t)) st :=
        fun s l st => forE_filter _ (fun t => s ≠ t) l st
      rw [forE_congr fun s _ st => hf s _ st, forE_nest (fun s t => xHelper db tab r (.type s) (.type t))]
      have : (ss.flatMap fun s => (ss.filter fun t => decide (s ≠ t)).map fun t => ((.type s, .type t) : Sym × Sym)) =
          (ss.flatMap fun s => (ss.filter fun t => decide (s ≠ t)).map fun t => (s, t)).map fun p => (.type p.1, .type p.2) := by
        simp only [List.map_flatMap, List.map_map]
        rfl
      rw [this, forE_map]
  | sym z =>
    obtain ⟨ts, hts, hmt⟩ := CilBin.expandType_ok ok (ht z htg)
    cases he1 : shouldExpand db r.src <;> cases he2 : shouldExpand db z
    · refine ⟨[(r.src, z)], fun x y => by simp [Emits, he1, he2], fun t => ?_⟩
      simp only [avrulexToHashtable, if_neg hd, htg, he1, he2, forE]
      cases xHelper db tab r r.src z t <;> rfl
    · refine ⟨ts.map fun t => (r.src, .type t), fun x y => ?_, fun t => ?_⟩
      · simp only [List.mem_map, Prod.mk.injEq, Emits, he1, he2, hmt, Bool.false_eq_true, if_false, if_true]
        constructor
        · rintro ⟨s, h1, rfl, rfl⟩; exact ⟨rfl, s, h1, rfl⟩
        · rintro ⟨rfl, s, h1, rfl⟩; exact ⟨s, h1, rfl, rfl⟩
      · simp only [avrulexToHashtable, if_neg hd, htg, he1, he2, hts, Option.bind_some, forE_map]
    · refine ⟨ss.map fun s => (.type s, z), fun x y => ?_, fun t => ?_⟩
      · simp only [List.mem_map, Prod.mk.injEq, Emits, he1, he2, hms, Bool.false_eq_true, if_false, if_true]
        constructor
        · rintro ⟨s, h1, rfl, rfl⟩; exact ⟨⟨s, h1, rfl⟩, rfl⟩
        · rintro ⟨⟨s, h1, rfl⟩, rfl⟩; exact ⟨s, h1, rfl, rfl⟩
      · simp only [avrulexToHashtable, if_neg hd, htg, he1, he2, hss, Option.bind_some, forE_map]
    · refine ⟨(ss.flatMap fun s => ts.map fun t => (s, t)).map fun p => (.type p.1, .type p.2), fun x y => ?_, fun t => ?_⟩
      · simp only [List.mem_flatMap, List.mem_map, Prod.mk.injEq, Emits, he1, he2, hms, hmt, if_true]
        constructor
        · rintro ⟨p, ⟨s, h1, t, h2, rfl⟩, rfl, rfl⟩; exact ⟨⟨s, h1, rfl⟩, t, h2, rfl⟩
        · rintro ⟨⟨s, h1, rfl⟩, t, h2, rfl⟩; exact ⟨(s, t), ⟨s, h1, t, h2, rfl⟩, rfl, rfl⟩
      · simp only [avrulexToHashtable, if_neg hd, htg, he1, he2, hss, hts, Option.bind_some]
        rw [forE_map, forE_nest (fun s t => xHelper db tab r (.type s) (.type t))]

/-! ### The tables of bitmaps -/

/-- The table holds bitmaps of numbers below 2^16 for keys of the kind, and they have the numbers. -/
structure TabOk (K : Key → Prop) (t : XTab) (S : Key → Nat → Prop) : Prop where
  wf : ∀ x ∈ t, Ebitmap.WF x.2 ∧ ∀ n, Ebitmap.getBit x.2 n = true → n < 2 ^ 16
  keys : ∀ x ∈ t, K x.1
  iff : ∀ k n, (∃ e, (k, e) ∈ t ∧ Ebitmap.getBit e n = true) ↔ S k n

theorem tabAdd_ok {K : Key → Prop} {t : XTab} {S : Key → Nat → Prop} (h : TabOk K t S) {k : Key} (hk : K k) {e : Ebitmap} (hw : Ebitmap.WF e)
    (hs : ∀ n, Ebitmap.getBit e n = true → n < 2 ^ 16) : TabOk K (tabAdd k e t) (fun k' n => S k' n ∨ (k' = k ∧ Ebitmap.getBit e n = true)) := by
  induction t generalizing S with
  | nil =>
    have hc : Ebitmap.cpy e = e := Ebitmap.cpy_eq e
    unfold tabAdd
    rw [hc]
    refine ⟨by simpa using ⟨hw, hs⟩, by simpa using hk, fun k' n => ?_⟩
    rw [← h.iff k' n]
    simp only [List.mem_cons, List.not_mem_nil, or_false, Prod.mk.injEq, false_and, exists_false, false_or]
    constructor
    · rintro ⟨e', ⟨rfl, rfl⟩, h⟩; exact ⟨rfl, h⟩
    · rintro ⟨rfl, h⟩; exact ⟨e, ⟨rfl, rfl⟩, h⟩
  | cons x t ih =>
    obtain ⟨k', e'⟩ := x
    have hx := h.wf (k', e') (by simp)
    have ht : TabOk K t (fun k n => ∃ e, (k, e) ∈ t ∧ Ebitmap.getBit e n = true) :=
      ⟨fun y hy => h.wf y (List.mem_cons_of_mem _ hy), fun y hy => h.keys y (List.mem_cons_of_mem _ hy), fun _ _ => Iff.rfl⟩
    unfold tabAdd
    split
    · rename_i he
      subst he
      obtain ⟨u1, u2⟩ := (Ebitmap.C02_or_and_xor hx.1 hw).2.1
      refine ⟨?_, ?_, fun k n => ?_⟩
      · intro y hy
        rcases List.mem_cons.1 hy with rfl | hy
        · refine ⟨u1, fun n hn => ?_⟩
          simp only [u2, Bool.or_eq_true] at hn
          exact hn.elim (hx.2 n) (hs n)
        · exact ht.wf y hy
      · intro y hy
        rcases List.mem_cons.1 hy with rfl | hy
        · exact hk
        · exact ht.keys y hy
      · rw [← h.iff k n]
        simp only [List.mem_cons, Prod.mk.injEq]
        constructor
        · rintro ⟨a, ⟨rfl, rfl⟩ | ha, hb⟩
          · rw [u2, Bool.or_eq_true] at hb
            rcases hb with hb | hb
            · exact Or.inl ⟨e', Or.inl ⟨rfl, rfl⟩, hb⟩
            · exact Or.inr ⟨rfl, hb⟩
          · exact Or.inl ⟨a, Or.inr ha, hb⟩
        · rintro (⟨a, ⟨rfl, rfl⟩ | ha, hb⟩ | ⟨rfl, hb⟩)
          · exact ⟨_, Or.inl ⟨rfl, rfl⟩, by rw [u2, hb, Bool.true_or]⟩
          · exact ⟨a, Or.inr ha, hb⟩
          · exact ⟨_, Or.inl ⟨rfl, rfl⟩, by rw [u2, hb, Bool.or_true]⟩
    · rename_i he
      have := ih ht
      refine ⟨?_, ?_, fun k n => ?_⟩
      · intro y hy
        rcases List.mem_cons.1 hy with rfl | hy
        · exact hx
        · exact this.wf y hy
      · intro y hy
        rcases List.mem_cons.1 hy with rfl | hy
        · exact h.keys _ (by simp)
        · exact this.keys y hy
      · rw [← h.iff k n]
        have h1 := this.iff k n
        simp only [List.mem_cons, Prod.mk.injEq]
        constructor
        · rintro ⟨a, ha | ha, hb⟩
          · exact Or.inl ⟨a, Or.inl ha, hb⟩
          · rcases h1.1 ⟨a, ha, hb⟩ with ⟨b, h2, h3⟩ | h2
            · exact Or.inl ⟨b, Or.inr h2, h3⟩
            · exact Or.inr h2
        · rintro (⟨a, ha | ha, hb⟩ | h2)
          · exact ⟨a, Or.inl ha, hb⟩
          · obtain ⟨b, h2, h3⟩ := h1.2 (Or.inl ⟨a, ha, hb⟩)
            exact ⟨b, Or.inr h2, h3⟩
          · obtain ⟨b, h2, h3⟩ := h1.2 (Or.inr h2)
            exact ⟨b, Or.inr h2, h3⟩

abbrev TPred := XKind → Key → Nat → Prop

def TabsOk (K : XKind → Key → Prop) (t : Tabs) (S : TPred) : Prop := ∀ xk, TabOk (K xk) (t.get xk) (S xk)

theorem TabsOk.congr {K : XKind → Key → Prop} {t : Tabs} {S S' : TPred} (h : TabsOk K t S) (hs : ∀ xk k n, S xk k n ↔ S' xk k n) : TabsOk K t S' :=
  fun xk => ⟨(h xk).wf, (h xk).keys, fun k n => ((h xk).iff k n).trans (hs xk k n)⟩

/-- What `f` adds to the tables. -/
def TStep (K : XKind → Key → Prop) (f : Tabs → Option Tabs) (N : TPred) : Prop :=
  ∀ t S, TabsOk K t S → ∀ t', f t = some t' → TabsOk K t' (fun xk k n => S xk k n ∨ N xk k n)

theorem tstep_forE {K : XKind → Key → Prop} {α : Type} {f : α → Tabs → Option Tabs} {N : α → TPred} {l : List α} (h : ∀ x ∈ l, TStep K (f x) (N x)) :
    TStep K (forE f l) (fun xk k n => ∃ x ∈ l, N x xk k n) := by
  induction l with
  | nil =>
    intro t S ht t' he
    cases he
    exact ht.congr fun xk k n => by simp
  | cons x l ih =>
    intro t S ht t' he
    simp only [forE] at he
    cases h1 : f x t with
    | none => rw [h1] at he; cases he
    | some t1 =>
      rw [h1] at he
      refine (ih (fun y hy => h y (List.mem_cons_of_mem _ hy)) t1 _ (h x (by simp) t S ht t1 h1) t' he).congr fun xk k n => ?_
      simp only [List.mem_cons, exists_eq_or_imp, or_assoc]

theorem forE_total {α σ : Type} {f : α → σ → Option σ} {l : List α} (h : ∀ x ∈ l, ∀ t, ∃ t', f x t = some t') (t : σ) : ∃ t', forE f l t = some t' := by
  induction l generalizing t with
  | nil => exact ⟨t, rfl⟩
  | cons x l ih =>
    obtain ⟨t1, h1⟩ := h x (by simp) t
    obtain ⟨t2, h2⟩ := ih (fun y hy => h y (List.mem_cons_of_mem _ hy)) t1
    exact ⟨t2, by simp only [forE, h1, h2]⟩

theorem get_set (t : Tabs) (xk xk' : XKind) (x : XTab) : (t.set xk x).get xk' = if xk' = xk then x else t.get xk' := by
  cases xk <;> cases xk' <;> rfl

/-- What a rule adds for two symbols. -/
def HAdds (db : Db) (tab : List Sym) (r : XRule) (x y : Sym) : TPred :=
  fun xk k n => xk = r.permx.kind ∧ Ebitmap.getBit r.permx.perms n = true ∧ xspec r.kind = some k.specified ∧
    ∃ sv tv c cv, c ∈ r.permx.classes ∧ typeDatum tab x = some sv ∧ typeDatum tab y = some tv ∧ db.classVal c = some cv ∧ k = key sv tv cv k.specified

/-- The keys of a table: those of rules with extended permissions, and of classes with a property. -/
def XKey (C : XKind → Nat → Prop) (xk : XKind) (k : Key) : Prop := k.specified ∈ Optimize.xKinds ∧ C xk k.cls

theorem xspec_kinds {k : Kind} {sp : BitVec 16} (h : xspec k = some sp) : sp ∈ Optimize.xKinds := by
  cases k <;> simp only [xspec, Option.some.injEq, reduceCtorEq] at h <;> subst h <;> simp [Optimize.xKinds]

theorem helper_tstep {db : Db} (C : XKind → Nat → Prop) (tab : List Sym) (r : XRule)
    (hC : ∀ c ∈ r.permx.classes, ∀ v, db.classVal c = some v → C r.permx.kind (v % 2 ^ 16)) (hw : Ebitmap.WF r.permx.perms)
    (hs : ∀ n, Ebitmap.getBit r.permx.perms n = true → n < 2 ^ 16) (x y : Sym) :
    TStep (XKey C) (xHelper db tab r x y) (HAdds db tab r x y) := by
  intro t S ht t' he
  unfold xHelper at he
  obtain ⟨sv, hsv, he⟩ := Option.bind_eq_some_iff.1 he
  obtain ⟨tv, htv, he⟩ := Option.bind_eq_some_iff.1 he
  refine (tstep_forE (K := XKey C) (N := fun c xk k n => xk = r.permx.kind ∧ Ebitmap.getBit r.permx.perms n = true ∧ xspec r.kind = some k.specified ∧
    ∃ cv, db.classVal c = some cv ∧ k = key sv tv cv k.specified) ?_ t S ht t' he).congr fun xk k n => ?_
  · intro c hc t S ht t' he
    obtain ⟨cv, hcv, he⟩ := Option.bind_eq_some_iff.1 he
    obtain ⟨sp, hsp, he⟩ := Option.map_eq_some_iff.1 he
    subst he
    intro xk
    rw [get_set]
    split
    · rename_i hxk
      subst hxk
      have := tabAdd_ok (ht r.permx.kind) (k := key sv tv cv sp) ⟨xspec_kinds hsp, hC c hc cv hcv⟩ hw hs
      refine ⟨this.wf, this.keys, fun k n => (this.iff k n).trans (or_congr_right ?_)⟩
      constructor
      · rintro ⟨rfl, hb⟩
        exact ⟨rfl, hb, hsp, cv, hcv, rfl⟩
      · rintro ⟨-, hb, h1, cv', h2, h3⟩
        rw [hsp] at h1
        rw [hcv] at h2
        cases h2
        refine ⟨?_, hb⟩
        rw [h3]
        congr 1
        exact (Option.some.inj h1).symm
    · rename_i hxk
      exact ⟨(ht xk).wf, (ht xk).keys, fun k n => ((ht xk).iff k n).trans (by simp [hxk])⟩
  · refine or_congr_right ?_
    unfold HAdds
    constructor
    · rintro ⟨c, h1, h2, h3, h4, cv, h5, h6⟩; exact ⟨h2, h3, h4, sv, tv, c, cv, h1, hsv, htv, h5, h6⟩
    · rintro ⟨h2, h3, h4, sv', tv', c, cv, h1, e1, e2, h5, h6⟩
      rw [hsv] at e1; cases e1
      rw [htv] at e2; cases e2
      exact ⟨c, h1, h2, h3, h4, cv, h5, h6⟩

/-- What a rule adds. -/
def RAdds (db : Db) (tab : List Sym) (r : XRule) : TPred :=
  fun xk k n => ¬ (r.kind = .dontaudit ∧ db.disableDontaudit = true) ∧ ∃ x y, Emits db r.src r.tgt x y ∧ HAdds db tab r x y xk k n

theorem rule_tstep {db : Db} (ok : DbOk db) (C : XKind → Nat → Prop) (tab : List Sym) (cond : Option Branch) (r : XRule)
    (hC : ∀ c ∈ r.permx.classes, ∀ v, db.classVal c = some v → C r.permx.kind (v % 2 ^ 16)) (hw : Ebitmap.WF r.permx.perms)
    (hs : ∀ n, Ebitmap.getBit r.permx.perms n = true → n < 2 ^ 16) (h1 : r.src.Ok db) (h2 : ∀ y, r.tgt = .sym y → y.Ok db) :
    TStep (XKey C) (ruleToTabs db tab cond r) (RAdds db tab r) := by
  intro t S ht t' he
  unfold ruleToTabs at he
  split at he
  · rename_i hn
    cases he
    refine ht.congr fun xk k n => ?_
    simp [RAdds, HAdds, hn.1, xspec]
  · by_cases hd : r.kind = .dontaudit ∧ db.disableDontaudit = true
    · have : avrulexToHashtable db tab r t = some t := by simp only [avrulexToHashtable, if_pos hd]
      rw [this] at he
      cases he
      refine ht.congr fun xk k n => ?_
      simp [RAdds, hd]
    · obtain ⟨ps, hps, heq⟩ := pairs_ok ok tab r h1 h2 hd
      rw [heq] at he
      refine (tstep_forE (fun p _ => helper_tstep C tab r hC hw hs p.1 p.2) t S ht t' he).congr fun xk k n => or_congr_right ?_
      simp only [RAdds, hd, not_false_eq_true, true_and, ← hps]
      constructor
      · rintro ⟨⟨x, y⟩, h3, h4⟩; exact ⟨x, y, h3, h4⟩
      · rintro ⟨x, y, h3, h4⟩; exact ⟨(x, y), h3, h4⟩

theorem rule_total {db : Db} (ok : DbOk db) {tab : List Sym} {cond : Option Branch} {r : XRule} (hn : r.kind = .neverallow → cond = none)
    (hc : ∀ c ∈ r.permx.classes, ∃ v, db.classVal c = some v) (h1 : r.src.Ok db) (h2 : ∀ y, r.tgt = .sym y → y.Ok db)
    (he : ∀ x y, Emits db r.src r.tgt x y → x ∈ tab ∧ y ∈ tab) (t : Tabs) : ∃ t', ruleToTabs db tab cond r t = some t' := by
  unfold ruleToTabs
  split
  · exact ⟨t, rfl⟩
  · rename_i hno
    by_cases hd : r.kind = .dontaudit ∧ db.disableDontaudit = true
    · exact ⟨t, by simp only [avrulexToHashtable, if_pos hd]⟩
    · obtain ⟨ps, hps, heq⟩ := pairs_ok ok tab r h1 h2 hd
      rw [heq]
      refine forE_total (fun p hp t => ?_) t
      obtain ⟨hx, hy⟩ := he p.1 p.2 ((hps _ _).1 hp)
      obtain ⟨sv, hsv⟩ := CilBin.typeDatum_mem.2 hx
      obtain ⟨tv, htv⟩ := CilBin.typeDatum_mem.2 hy
      unfold xHelper
      rw [hsv, htv]
      simp only [Option.bind_some]
      refine forE_total (fun c hcc t => ?_) t
      obtain ⟨cv, hcv⟩ := hc c hcc
      obtain ⟨sp, hsp⟩ : ∃ sp, xspec r.kind = some sp := by
        cases hk : r.kind with
        | neverallow => exact absurd ⟨hk, hn hk⟩ hno
        | _ => exact ⟨_, rfl⟩
      rw [hcv, hsp]
      exact ⟨_, rfl⟩

/-! ### Rules from the tables -/

abbrev SPred := Option Branch → Key → XKind → Nat → Prop

/-- The state has the rules of another and rules `A` with extended permissions, which list the numbers of `G`. -/
def Ext (st0 st : State) (G : SPred) : Prop :=
  (∃ log, Rel st.te log) ∧ (∃ clog, Rel st.cond clog) ∧ ∃ A : Option Branch → Node → Prop,
    (∀ n, n ∈ Avtab.nodes st.te ↔ n ∈ Avtab.nodes st0.te ∨ A none n) ∧
    (∀ b n, n ∈ st.lists b ↔ n ∈ st0.lists b ∨ A (some b) n) ∧
    (∀ c n, A c n → n.key.specified ∈ Optimize.xKinds ∧ ∃ p xk, n.datum.xperms = some p ∧ (PartOk xk p ∨ (CompleteOk p ∧ xk = .ioctl)) ∧
      ∃ m < 2 ^ 16, G c n.key xk m) ∧
    ∀ c k xk m, m < 2 ^ 16 → ((∃ n p, A c n ∧ n.key = k ∧ n.datum.xperms = some p ∧ Lists xk p m) ↔ G c k xk m)

theorem Ext.congr {st0 st : State} {G G' : SPred} (h : Ext st0 st G) (hg : ∀ c k xk m, m < 2 ^ 16 → (G c k xk m ↔ G' c k xk m)) : Ext st0 st G' := by
  obtain ⟨h1, h2, A, h3, h4, h5, h6⟩ := h
  refine ⟨h1, h2, A, h3, h4, fun c n hn => ?_, fun c k xk m hm => (h6 c k xk m hm).trans (hg c k xk m hm)⟩
  obtain ⟨a, p, xk, b, d, m, hm, e⟩ := h5 c n hn
  exact ⟨a, p, xk, b, d, m, hm, (hg _ _ _ _ hm).1 e⟩

def SStep (st0 : State) (f : State → Option State) (N : SPred) : Prop :=
  ∀ st G, Ext st0 st G → ∀ st', f st = some st' → Ext st0 st' (fun c k xk m => G c k xk m ∨ N c k xk m)

def STotal (st0 : State) (f : State → Option State) : Prop := ∀ st G, Ext st0 st G → ∃ st', f st = some st'

theorem sstep_forE {st0 : State} {α : Type} {f : α → State → Option State} {N : α → SPred} {l : List α} (h : ∀ x ∈ l, SStep st0 (f x) (N x)) :
    SStep st0 (forE f l) (fun c k xk m => ∃ x ∈ l, N x c k xk m) := by
  induction l with
  | nil =>
    intro st G hi st' he
    cases he
    exact hi.congr fun c k xk m _ => by simp
  | cons x l ih =>
    intro st G hi st' he
    simp only [forE] at he
    cases h1 : f x st with
    | none => rw [h1] at he; cases he
    | some st1 =>
      rw [h1] at he
      refine (ih (fun y hy => h y (List.mem_cons_of_mem _ hy)) st1 _ (h x (by simp) st G hi st1 h1) st' he).congr fun c k xk m _ => ?_
      simp only [List.mem_cons, exists_eq_or_imp, or_assoc]

theorem stotal_forE {st0 : State} {α : Type} {f : α → State → Option State} {N : α → SPred} {l : List α} (h : ∀ x ∈ l, SStep st0 (f x) (N x))
    (ht : ∀ x ∈ l, STotal st0 (f x)) : STotal st0 (forE f l) := by
  induction l with
  | nil => exact fun st G _ => ⟨st, rfl⟩
  | cons x l ih =>
    intro st G hi
    obtain ⟨st1, h1⟩ := ht x (by simp) st G hi
    obtain ⟨st2, h2⟩ := ih (fun y hy => h y (List.mem_cons_of_mem _ hy)) (fun y hy => ht y (List.mem_cons_of_mem _ hy)) st1 _ (h x (by simp) st G hi st1 h1)
    exact ⟨st2, by simp only [forE, h1, h2]⟩

theorem xKinds_isXperm {k : Key} (h : k.specified ∈ Optimize.xKinds) : Avtab.isXperm k = true := by
  unfold Avtab.isXperm
  simp only [Optimize.xKinds, List.mem_cons, List.not_mem_nil, or_false] at h
  rcases h with h | h | h <;> rw [h] <;> decide

/-- One rule is added. -/
theorem insertX_ok {st : State} {log clog : List Node} (h1 : Rel st.te log) (h2 : Rel st.cond clog) {k : Key} (hk : k.specified ∈ Optimize.xKinds)
    (d : BitVec 32) (p : XPerms) (cond : Option Branch) :
    ∃ st' log' clog', insertX st k ⟨d, some p⟩ cond = some st' ∧ Rel st'.te log' ∧ Rel st'.cond clog' ∧
      (∀ n, n ∈ Avtab.nodes st'.te ↔ n ∈ Avtab.nodes st.te ∨ (cond = none ∧ n = ⟨k, ⟨d, some p⟩⟩)) ∧
      (∀ b n, n ∈ st'.lists b ↔ n ∈ st.lists b ∨ (cond = some b ∧ n = ⟨k, ⟨d, some p⟩⟩)) := by
  have hx := xKinds_isXperm hk
  have hst : Avtab.stored k ⟨d, some p⟩ = ⟨k, ⟨d, some p⟩⟩ := by simp [Avtab.stored, hx]
  cases cond with
  | none =>
    have hc := Avtab.insert_cases h1 k ⟨d, some p⟩
    have hno : ¬ (Avtab.isXperm k = false ∧ ∃ r ∈ log, Avtab.Answers k r) := by rw [hx]; simp
    rw [if_neg hno] at hc
    simp only [Avtab.logStep, if_neg hno, hst] at hc
    refine ⟨{ st with te := (Avtab.insert st.te k ⟨d, some p⟩).1 }, _, clog, ?_, hc.2, h2, ?_, by simp⟩
    · have : Avtab.insert st.te k ⟨d, some p⟩ = ((Avtab.insert st.te k ⟨d, some p⟩).1, .ok) := by rw [← hc.1]
      unfold insertX
      simp only
      rw [this]
    · intro n
      simp only [true_and]
      rw [(Avtab.nodes_perm hc.2).mem_iff, (Avtab.nodes_perm h1).mem_iff, List.mem_cons]
      exact or_comm
  | some b =>
    obtain ⟨tb, htb, -⟩ := h2.tb
    have hp := Avtab.rel_push h2 tb htb k ⟨d, some p⟩
    rw [hst] at hp
    have hmk : Avtab.mkNode k ⟨d, some p⟩ = ⟨k, ⟨d, some p⟩⟩ := by rw [Avtab.mkNode_eq, hst]
    unfold insertX condInsertRule Avtab.insertNonunique
    simp only [htb]
    refine ⟨_, log, _, rfl, h1, hp, by simp, ?_⟩
    intro b' n
    by_cases hb : b' = b
    · subst hb
      simp only [if_true, hmk, List.mem_cons, true_and]
      exact or_comm
    · have : ¬ b = b' := fun h => hb h.symm
      simp [hb, this]

/-- A list of blocks is added. -/
theorem blocks_ok {st : State} {log clog : List Node} (h1 : Rel st.te log) (h2 : Rel st.cond clog) {k : Key} (hk : k.specified ∈ Optimize.xKinds)
    (d : BitVec 32) (cond : Option Branch) (l : List XPerms) :
    ∃ st' log' clog', forE (fun p st => insertX st k ⟨d, some p⟩ cond) l st = some st' ∧ Rel st'.te log' ∧ Rel st'.cond clog' ∧
      (∀ n, n ∈ Avtab.nodes st'.te ↔ n ∈ Avtab.nodes st.te ∨ (cond = none ∧ ∃ p ∈ l, n = ⟨k, ⟨d, some p⟩⟩)) ∧
      (∀ b n, n ∈ st'.lists b ↔ n ∈ st.lists b ∨ (cond = some b ∧ ∃ p ∈ l, n = ⟨k, ⟨d, some p⟩⟩)) := by
  induction l generalizing st log clog with
  | nil => exact ⟨st, log, clog, rfl, h1, h2, by simp, by simp⟩
  | cons p l ih =>
    obtain ⟨st1, log1, clog1, e1, a1, b1, c1, d1⟩ := insertX_ok h1 h2 hk d p cond
    obtain ⟨st2, log2, clog2, e2, a2, b2, c2, d2⟩ := ih a1 b1
    refine ⟨st2, log2, clog2, by simp only [forE, e1, e2], a2, b2, fun n => ?_, fun b n => ?_⟩
    · rw [c2, c1]
      simp only [List.mem_cons, exists_eq_or_imp, or_assoc, and_or_left]
    · rw [d2, d1]
      simp only [List.mem_cons, exists_eq_or_imp, or_assoc, and_or_left]

theorem lists_kind {xk xk' : XKind} {p : XPerms} (h : PartOk xk p ∨ (CompleteOk p ∧ xk = .ioctl)) {m : Nat} (hl : Lists xk' p m) : xk' = xk := by
  rcases h with h | ⟨h, rfl⟩
  · have hs := h.spec
    cases xk <;> cases xk' <;> first | rfl | (simp [Lists, hs, XKind.spec, Optimize.FUNCTION, Optimize.DRIVER, Optimize.NLMSG] at hl)
  · have hs := h.spec
    cases xk' <;> first | rfl | (simp [Lists, hs, Optimize.DRIVER, Optimize.NLMSG] at hl)

theorem entry_sstep {st0 : State} {data : XKind → Nat → Option (BitVec 32)} {xk : XKind} {cond : Option Branch} {x : Key × Ebitmap}
    (hk : x.1.specified ∈ Optimize.xKinds) (hw : Ebitmap.WF x.2) (hs : ∀ n, Ebitmap.getBit x.2 n = true → n < 2 ^ 16) :
    SStep st0 (xpermToPolicydb data xk cond x) (fun c k xk' m => c = cond ∧ k = x.1 ∧ xk' = xk ∧ Ebitmap.getBit x.2 m = true) := by
  intro st G hi st' he
  obtain ⟨⟨log, h1⟩, ⟨clog, h2⟩, A, h3, h4, h5, h6⟩ := hi
  unfold xpermToPolicydb at he
  obtain ⟨dt, hdt, he⟩ := Option.bind_eq_some_iff.1 he
  obtain ⟨l, hl, hl1, hl2, hl3⟩ := permxList_ok (kind := xk) hw hs
  rw [hl, Option.bind_some] at he
  obtain ⟨st2, log2, clog2, e2, a2, b2, c2, d2⟩ := blocks_ok h1 h2 hk dt cond l
  rw [e2] at he
  cases he
  refine ⟨⟨log2, a2⟩, ⟨clog2, b2⟩, fun c n => A c n ∨ (cond = c ∧ ∃ p ∈ l, n = ⟨x.1, ⟨dt, some p⟩⟩), ?_, ?_, ?_, ?_⟩
  · intro n; rw [c2, h3, or_assoc]
  · intro b n; rw [d2, h4, or_assoc]
  · rintro c n (hn | ⟨rfl, p, hp, rfl⟩)
    · obtain ⟨a, p, xk', b, d, m, hm, e⟩ := h5 c n hn
      exact ⟨a, p, xk', b, d, m, hm, Or.inl e⟩
    · obtain ⟨m, hm⟩ := hl3 (by intro h; rw [h] at hp; cases hp)
      exact ⟨hk, p, xk, rfl, hl1 p hp, m, hs m hm, Or.inr ⟨rfl, rfl, rfl, hm⟩⟩
  · intro c k xk' m hm
    refine Iff.trans ?_ (or_congr_left (h6 c k xk' m hm))
    constructor
    · rintro ⟨n, p, hn | ⟨rfl, p', hp', rfl⟩, hnk, hnp, hli⟩
      · exact Or.inl ⟨n, p, hn, hnk, hnp, hli⟩
      · cases hnp
        obtain rfl := lists_kind (hl1 _ hp') hli
        exact Or.inr ⟨rfl, hnk.symm, rfl, (hl2 m hm).1 ⟨_, hp', hli⟩⟩
    · rintro (⟨n, p, hn, hnk, hnp, hli⟩ | ⟨rfl, rfl, rfl, hb⟩)
      · exact ⟨n, p, Or.inl hn, hnk, hnp, hli⟩
      · obtain ⟨p, hp, hli⟩ := (hl2 m hm).2 hb
        exact ⟨_, p, Or.inr ⟨rfl, p, hp, rfl⟩, rfl, rfl, hli⟩

theorem entry_total {st0 : State} {data : XKind → Nat → Option (BitVec 32)} {xk : XKind} {cond : Option Branch} {x : Key × Ebitmap}
    (hk : x.1.specified ∈ Optimize.xKinds) (hw : Ebitmap.WF x.2) (hs : ∀ n, Ebitmap.getBit x.2 n = true → n < 2 ^ 16)
    (hd : ∃ d, data xk x.1.cls = some d) : STotal st0 (xpermToPolicydb data xk cond x) := by
  intro st G hi
  obtain ⟨⟨log, h1⟩, ⟨clog, h2⟩, -⟩ := hi
  obtain ⟨dt, hdt⟩ := hd
  obtain ⟨l, hl, -⟩ := permxList_ok (kind := xk) hw hs
  obtain ⟨st2, _, _, e2, -⟩ := blocks_ok h1 h2 hk dt cond l
  exact ⟨st2, by unfold xpermToPolicydb; rw [hdt, Option.bind_some, hl, Option.bind_some, e2]⟩

/-- What a group adds. -/
def GAdds (db : Db) (tab : List Sym) (g : Group) : SPred := fun c k xk m => c = g.cond ∧ ∃ r ∈ g.rules, RAdds db tab r xk k m

theorem group_tabs {db : Db} (ok : DbOk db) {decls : List Sym} (hsy : ∀ x ∈ decls, x.Ok db) (C : XKind → Nat → Prop) (tab : List Sym) {g : Group}
    (hr : ∀ r ∈ g.rules, RuleOk decls r)
    (hC : ∀ r ∈ g.rules, ∀ c ∈ r.permx.classes, ∀ v, db.classVal c = some v → C r.permx.kind (v % 2 ^ 16)) {t : Tabs}
    (he : forE (ruleToTabs db tab g.cond) g.rules ⟨[], []⟩ = some t) :
    TabsOk (XKey C) t (fun xk k n => ∃ r ∈ g.rules, RAdds db tab r xk k n) := by
  have h0 : TabsOk (XKey C) ⟨[], []⟩ (fun _ _ _ => False) := by
    intro xk
    have : (Tabs.mk [] []).get xk = [] := by cases xk <;> rfl
    rw [this]
    exact ⟨by simp, by simp, by simp⟩
  refine (tstep_forE (fun r h => rule_tstep ok C tab g.cond r (hC r h) (hr r h).wf (hr r h).small (hsy _ (hr r h).src)
    fun y hy => hsy _ ((hr r h).tgt y hy)) _ _ h0 t he).congr fun xk k n => by simp

theorem group_sstep {db : Db} (ok : DbOk db) {decls : List Sym} (hsy : ∀ x ∈ decls, x.Ok db) {data : XKind → Nat → Option (BitVec 32)} (tab : List Sym)
    {ord : XTab → XTab} (hord : ∀ t, (ord t).Perm t) {g : Group} (hr : ∀ r ∈ g.rules, RuleOk decls r) (st0 : State) :
    SStep st0 (groupToPolicydb db data tab ord g) (GAdds db tab g) := by
  intro st G hi st' he
  unfold groupToPolicydb at he
  obtain ⟨t, ht, he⟩ := Option.bind_eq_some_iff.1 he
  obtain ⟨st1, h1, he⟩ := Option.bind_eq_some_iff.1 he
  have hT := group_tabs ok hsy (fun _ _ => True) tab hr (fun _ _ _ _ _ _ => trivial) ht
  have hst : ∀ (xk : XKind) (x : XTab), x = t.get xk → SStep st0 (forE (xpermToPolicydb data xk g.cond) (ord x))
      (fun c k xk' m => c = g.cond ∧ xk' = xk ∧ ∃ r ∈ g.rules, RAdds db tab r xk k m) := by
    intro xk x hx st G hi st' he
    subst hx
    refine (sstep_forE (N := fun y c k xk' m => c = g.cond ∧ k = y.1 ∧ xk' = xk ∧ Ebitmap.getBit y.2 m = true) (fun y hy => ?_) st G hi st'
      he).congr fun c k xk' m _ => or_congr_right ?_
    · have hy' := (hord _).mem_iff.1 hy
      exact entry_sstep ((hT xk).keys y hy').1 ((hT xk).wf y hy').1 ((hT xk).wf y hy').2
    · have hi := (hT xk).iff k m
      constructor
      · rintro ⟨y, hy, rfl, rfl, rfl, hb⟩
        exact ⟨rfl, rfl, hi.1 ⟨y.2, (hord _).mem_iff.1 hy, hb⟩⟩
      · rintro ⟨rfl, rfl, hra⟩
        obtain ⟨e, hy, hb⟩ := hi.2 hra
        exact ⟨(k, e), (hord _).mem_iff.2 hy, rfl, rfl, rfl, hb⟩
  refine (hst .nlmsg _ rfl st1 _ (hst .ioctl _ rfl st G hi st1 h1) st' he).congr fun c k xk m _ => ?_
  rw [or_assoc]
  refine or_congr_right ?_
  unfold GAdds
  constructor
  · rintro (⟨h1, rfl, h2⟩ | ⟨h1, rfl, h2⟩) <;> exact ⟨h1, h2⟩
  · rintro ⟨h1, h2⟩
    cases xk
    · exact Or.inl ⟨h1, rfl, h2⟩
    · exact Or.inr ⟨h1, rfl, h2⟩

theorem group_total {db : Db} (ok : DbOk db) {decls : List Sym} {tab : List Sym} (hd : CilBin.declare db decls [] = some tab)
    (hty : ∀ v < db.numTypes, Sym.type v ∈ decls) (hsy : ∀ x ∈ decls, x.Ok db)
    {data : XKind → Nat → Option (BitVec 32)}
    {ord : XTab → XTab} (hord : ∀ t, (ord t).Perm t) {g : Group} (hr : ∀ r ∈ g.rules, RuleOk decls r)
    (hn : ∀ r ∈ g.rules, r.kind = .neverallow → g.cond = none)
    (hc : ∀ r ∈ g.rules, ∀ c ∈ r.permx.classes, ∃ v d, db.classVal c = some v ∧ data r.permx.kind v = some d) (st0 : State) :
    STotal st0 (groupToPolicydb db data tab ord g) := by
  intro st G hi
  obtain ⟨t, ht⟩ := forE_total (f := ruleToTabs db tab g.cond) (l := g.rules) (fun r h t =>
    rule_total ok (hn r h) (fun c hcc => let ⟨v, _, hv, _⟩ := hc r h c hcc; ⟨v, hv⟩) (hsy _ (hr r h).src) (fun y hy => hsy _ ((hr r h).tgt y hy))
      (fun x y he => CilBin.emits_mem hd hty hsy (hr r h).src (hr r h).tgt he) t) ⟨[], []⟩
  have hT := group_tabs ok hsy (fun xk cv => ∃ d, data xk cv = some d) tab hr (fun r h c hcc v hv => by
    obtain ⟨v', d, h1, h2⟩ := hc r h c hcc
    rw [hv] at h1
    cases h1
    exact ⟨d, by rw [Nat.mod_eq_of_lt (ok.cls c v hv)]; exact h2⟩) ht
  have hs : ∀ (xk : XKind) (x : XTab), x = t.get xk → SStep st0 (forE (xpermToPolicydb data xk g.cond) (ord x))
      (fun c k xk' m => ∃ y ∈ ord x, c = g.cond ∧ k = y.1 ∧ xk' = xk ∧ Ebitmap.getBit y.2 m = true) := by
    intro xk x hx
    subst hx
    refine sstep_forE fun y hy => ?_
    have hy' := (hord _).mem_iff.1 hy
    exact entry_sstep ((hT xk).keys y hy').1 ((hT xk).wf y hy').1 ((hT xk).wf y hy').2
  have hto : ∀ (xk : XKind) (x : XTab), x = t.get xk → STotal st0 (forE (xpermToPolicydb data xk g.cond) (ord x)) := by
    intro xk x hx
    subst hx
    refine stotal_forE (N := fun y c k xk' m => c = g.cond ∧ k = y.1 ∧ xk' = xk ∧ Ebitmap.getBit y.2 m = true) (fun y hy => ?_) fun y hy => ?_
    · have hy' := (hord _).mem_iff.1 hy
      exact entry_sstep ((hT xk).keys y hy').1 ((hT xk).wf y hy').1 ((hT xk).wf y hy').2
    · have hy' := (hord _).mem_iff.1 hy
      exact entry_total ((hT xk).keys y hy').1 ((hT xk).wf y hy').1 ((hT xk).wf y hy').2 ((hT xk).keys y hy').2
  obtain ⟨st1, e1⟩ := hto .ioctl _ rfl st G hi
  obtain ⟨st2, e2⟩ := hto .nlmsg _ rfl st1 _ (hs .ioctl _ rfl st G hi st1 e1)
  exact ⟨st2, by unfold groupToPolicydb; rw [ht, Option.bind_some]; simp only [Tabs.get] at e1 e2; rw [e1, Option.bind_some, e2]⟩

theorem ext_start {st : State} {log clog : List Node} (h1 : Rel st.te log) (h2 : Rel st.cond clog) : Ext st st (fun _ _ _ _ => False) :=
  ⟨⟨log, h1⟩, ⟨clog, h2⟩, fun _ _ => False, by simp, by simp, by simp, by simp⟩

end Verif.CilX
