import Verif.CilBin.Lemmas4
import Verif.CilBin.SpecType

/-!
# Lemmas on type rules
-/

namespace Verif.CilBin
open Ebitmap (Ebitmap)
open CilDeny (CP MP)
open Avtab (Avtab Key Datum Node Rel Answers)

abbrev TPred := Option Branch → Key → BitVec 32 → Prop

theorem tkind_tyK (kind : TKind) : TyK kind.spec := by
  cases kind
  · exact Or.inl rfl
  · exact Or.inr (Or.inl rfl)
  · exact Or.inr (Or.inr rfl)

theorem tkind_inj {a b : TKind} (h : a.spec = b.spec) : a = b := by
  revert h; cases a <;> cases b <;> decide

/-! ### Insertion for a key -/

theorem condListSearch_iff {k : Key} (hk : TyK k.specified) {l : List Node} (hl : ∀ n ∈ l, AvK n.key.specified ∨ TyK n.key.specified) :
    condListSearch k l = true ↔ ∃ n ∈ l, n.key = k := by
  have hand : ∀ a b : BitVec 16, (AvK a ∨ TyK a) → TyK b → ((a &&& b ≠ 0#16) ↔ a = b) := by
    intro a b ha hb
    rcases ha with (rfl | rfl | rfl) | (rfl | rfl | rfl) <;> rcases hb with rfl | rfl | rfl <;> decide
  induction l with
  | nil => simp [condListSearch]
  | cons n l ih =>
    have h1 := hl n (by simp)
    have h2 := ih fun m hm => hl m (List.mem_cons_of_mem _ hm)
    unfold condListSearch
    have he : (n.key.source = k.source ∧ n.key.target = k.target ∧ n.key.cls = k.cls ∧ n.key.specified &&& k.specified ≠ 0#16) ↔ n.key = k := by
      rw [hand _ _ h1 hk]
      obtain ⟨⟨a, b, c, d⟩, e⟩ := n
      obtain ⟨a', b', c', d'⟩ := k
      simp
    by_cases h : n.key = k
    · rw [if_pos (he.2 h)]; simp [h]
    · rw [if_neg (fun hc => h (he.1 hc))]; exact h2.trans (by simp [h])

/-- The three ways an insertion can go. -/
theorem insertTypeRule_cases {st : State} {G : Pred} {T : TPred} (h : Inv st G T) (kind : TKind) (src tgt obj res : Nat) (cond : Option Branch)
    {k : Key} (hk : k = key src tgt obj kind.spec) {d : BitVec 32} (hd : d = BitVec.ofNat 32 res) :
    (∀ d d', T none k d → T none k d' → d = d') ∧
    ((∃ d0, T none k d0 ∧ insertTypeRule st kind src tgt obj res cond = if d0 ≠ d then none else some st) ∨
     ((∀ d0, ¬ T none k d0) ∧
      ((∃ st', insertTypeRule st kind src tgt obj res cond = some st' ∧
          Inv st' G (fun c k' d' => T c k' d' ∨ (c = cond ∧ k' = k ∧ d' = d)) ∧
          ∀ b, cond = some b → (∀ b' d', ¬ T (some b') k d') ∨ (∃ d', T (some (b.1, !b.2)) k d') ∨
            ((∃ b', T (some b') k d) ∧ ∀ d', ¬ T (some b) k d')) ∨
       (∃ b, cond = some b ∧ (∀ d', ¬ T (some (b.1, !b.2)) k d') ∧ ∃ e b', T (some b') k e ∧
          ((e ≠ d ∧ insertTypeRule st kind src tgt obj res cond = none) ∨
           (e = d ∧ (∃ d', T (some b) k d') ∧ insertTypeRule st kind src tgt obj res cond = some st)))))) := by
  subst hk hd
  obtain ⟨log, clog, hsh, hav, hty⟩ := h
  have hk : TyK (key src tgt obj kind.spec).specified := tkind_tyK kind
  have hcond : ∀ b, ∃ st', condInsertRule st (key src tgt obj kind.spec) ⟨BitVec.ofNat 32 res, none⟩ b = some st' ∧
      Inv st' G (fun c k d => T c k d ∨ (c = some b ∧ k = key src tgt obj kind.spec ∧ d = BitVec.ofNat 32 res)) := by
    intro b
    obtain ⟨st2, h1, h2, h3⟩ := condInsert_shape hsh (d := BitVec.ofNat 32 res) b (Or.inr hk)
    refine ⟨st2, h1, log, _, h2, ?_, ?_⟩
    · intro c k b' hk' hb'
      rw [← hav c k b' hk' hb']
      simp only [h3]
      constructor
      · rintro ⟨n, h4 | ⟨-, rfl⟩, h5, h6⟩
        · exact ⟨n, h4, h5, h6⟩
        · subst h5; exact absurd hk (avK_not_tyK hk')
      · rintro ⟨n, h4, h5⟩; exact ⟨n, Or.inl h4, h5⟩
    · intro c k d hk'
      simp only [← hty c k d hk', h3, Node.mk.injEq, Datum.mk.injEq, and_true]
  have hls : ∀ b, condListSearch (key src tgt obj kind.spec) (st.lists b) = true ↔ ∃ d', T (some b) (key src tgt obj kind.spec) d' := by
    intro b
    rw [condListSearch_iff hk fun n hn => (hsh.six n (Or.inr ((hsh.lists n).2 ⟨b, hn⟩))).1]
    constructor
    · rintro ⟨n, h1, h2⟩
      have hx := (hsh.six n (Or.inr ((hsh.lists n).2 ⟨b, h1⟩))).2
      refine ⟨n.datum.data, (hty _ _ _ hk).1 ?_⟩
      show _ ∈ st.lists b
      rw [← h2, ← hx]; exact h1
    · rintro ⟨d', h1⟩
      exact ⟨_, (hty _ _ _ hk).2 h1, rfl⟩
  refine ⟨?_, ?_⟩
  · intro d d' h1 h2
    have := hsh.unique ((hty _ _ _ hk).2 h1) ((hty _ _ _ hk).2 h2) rfl
    simpa using this
  · rcases search_te hsh (Or.inr hk) with ⟨h1, h2⟩ | ⟨d0, h1, h2⟩
    · right
      refine ⟨fun d0 h0 => h2 _ ((hty none _ _ hk).2 h0) rfl, ?_⟩
      unfold insertTypeRule
      simp only [h1]
      cases cond with
      | none =>
        left
        obtain ⟨te, h3, h4⟩ := insert_shape hsh (d := BitVec.ofNat 32 res) (Or.inr hk) h2
        refine ⟨{ st with te := te }, by simp only [h3], ⟨_, _, h4, ?_, ?_⟩, by simp⟩
        · intro c k b hk' hb
          simp only [← hav c k b hk' hb]
          cases c with
          | none =>
            simp only [Entry, List.mem_cons]
            constructor
            · rintro ⟨n, rfl | h5, h6, h7⟩
              · subst h6; exact absurd hk (avK_not_tyK hk')
              · exact ⟨n, h5, h6, h7⟩
            · rintro ⟨n, h5, h6⟩; exact ⟨n, Or.inr h5, h6⟩
          | some b' => simp [Entry]
        · intro c k d hk'
          simp only [← hty c k d hk']
          cases c with
          | none =>
            simp only [Entry, List.mem_cons, Node.mk.injEq, Datum.mk.injEq, and_true, true_and]
            exact or_comm
          | some b' => simp [Entry]
      | some b =>
        obtain ⟨st', e1, i1⟩ := hcond b
        simp only
        cases hs : Avtab.search st.cond (key src tgt obj kind.spec) with
        | none =>
          left
          refine ⟨st', e1, i1, fun b' hb' => ?_⟩
          left
          intro b2 d' ht
          have hm : (⟨key src tgt obj kind.spec, ⟨d', none⟩⟩ : Node) ∈ clog := (hsh.lists _).2 ⟨b2, (hty (some b2) _ _ hk).2 ht⟩
          exact (search_none hsh.cond _).1 hs _ hm ((answers_six (Or.inr hk) (Or.inr hk)).2 rfl)
        | some e =>
          obtain ⟨r, hr, ha, rfl⟩ := search_some hsh.cond hs
          have hkr := (answers_six (Or.inr hk) (hsh.six r (Or.inr hr)).1).1 ha
          obtain ⟨b2, hb2⟩ := (hsh.lists r).1 hr
          have hT : T (some b2) (key src tgt obj kind.spec) r.datum.data := by
            refine (hty _ _ _ hk).1 ?_
            show _ ∈ st.lists b2
            rw [← hkr, ← (hsh.six r (Or.inr hr)).2]; exact hb2
          simp only
          by_cases ho : condListSearch (key src tgt obj kind.spec) (st.lists (b.1, !b.2)) = true
          · left
            simp only [ho, if_true]
            refine ⟨st', e1, i1, fun b' hb' => ?_⟩
            cases hb'
            exact Or.inr (Or.inl ((hls _).1 ho))
          · simp only [ho, Bool.false_eq_true, if_false]
            have hno : ∀ d', ¬ T (some (b.1, !b.2)) (key src tgt obj kind.spec) d' := fun d' h => ho ((hls _).2 ⟨d', h⟩)
            by_cases hne : r.datum.data ≠ BitVec.ofNat 32 res
            · right
              simp only [if_pos hne]
              exact ⟨b, rfl, hno, _, b2, hT, Or.inl ⟨hne, trivial⟩⟩
            · simp only [if_neg hne]
              have heq : r.datum.data = BitVec.ofNat 32 res := by simpa using hne
              by_cases ht : condListSearch (key src tgt obj kind.spec) (st.lists b) = true
              · right
                simp only [ht, if_true]
                exact ⟨b, rfl, hno, _, b2, hT, Or.inr ⟨heq, (hls _).1 ht, trivial⟩⟩
              · left
                simp only [ht, Bool.false_eq_true, if_false]
                refine ⟨st', e1, i1, fun b' hb' => ?_⟩
                cases hb'
                exact Or.inr (Or.inr ⟨⟨b2, heq ▸ hT⟩, fun d' h => ht ((hls _).2 ⟨d', h⟩)⟩)
    · left
      refine ⟨d0, (hty none _ _ hk).1 h2, ?_⟩
      unfold insertTypeRule
      simp only [h1]

/-! ### Requests -/

/-- Source, target, class and result. -/
abbrev Req := Nat × Nat × Nat × Nat

def ins (kind : TKind) (cond : Option Branch) (o : Option Req) (st : State) : Option State :=
  o.bind fun q => insertTypeRule st kind q.1 q.2.1 q.2.2.1 q.2.2.2 cond

def reqClasses (db : Db) (sv tv rv : Nat) (classes : List Nat) : List (Option Req) :=
  classes.map fun c => (db.classVal c).map fun cv => (sv, tv, cv, rv)

def reqTargets (db : Db) (tab : List Sym) (sv rv : Nat) (classes ts : List Nat) : List (Option Req) :=
  ts.flatMap fun t =>
    match typeDatum tab (.type t) with
    | none => [none]
    | some tv => reqClasses db sv tv rv classes

theorem forM_append {α : Type} (f : α → State → Option State) (a b : List α) (st : State) :
    forM f (a ++ b) st = (forM f a st).bind (forM f b) := by
  induction a generalizing st with
  | nil => rfl
  | cons x a ih =>
    rw [List.cons_append, forM, forM]
    cases f x st with
    | none => rfl
    | some st => exact ih st

theorem forM_flatMap {α β : Type} (f : β → State → Option State) (g : α → List β) (F : α → State → Option State) (l : List α)
    (h : ∀ x ∈ l, ∀ st, F x st = forM f (g x) st) (st : State) : forM F l st = forM f (l.flatMap g) st := by
  induction l generalizing st with
  | nil => rfl
  | cons x l ih =>
    rw [List.flatMap_cons, forM_append, forM, h x (by simp)]
    cases forM f (g x) st with
    | none => rfl
    | some st => exact ih (fun y hy => h y (List.mem_cons_of_mem _ hy)) st

theorem helper_eq (db : Db) (kind : TKind) (sv tv rv : Nat) (cond : Option Branch) (classes : List Nat) (st : State) :
    typeRuleHelper db kind sv tv rv cond classes st = forM (ins kind cond) (reqClasses db sv tv rv classes) st := by
  unfold typeRuleHelper reqClasses
  induction classes generalizing st with
  | nil => rfl
  | cons c l ih =>
    rw [List.map_cons, forM, forM]
    have : ((db.classVal c).bind fun cv => insertTypeRule st kind sv tv cv rv cond) =
        ins kind cond ((db.classVal c).map fun cv => (sv, tv, cv, rv)) st := by
      unfold ins; cases db.classVal c <;> rfl
    rw [this]
    cases ins kind cond ((db.classVal c).map fun cv => (sv, tv, cv, rv)) st with
    | none => rfl
    | some st => exact ih st

def ruleReqs (db : Db) (tab : List Sym) (r : TypeRule) (rv : Nat) (ss ts : List Nat) : List (Option Req) :=
  ss.flatMap fun s =>
    match typeDatum tab (.type s) with
    | none => [none]
    | some sv =>
      match r.tgt with
      | none => reqClasses db sv sv rv r.classes
      | some _ => reqTargets db tab sv rv r.classes ts

theorem typeRule_eq {db : Db} {tab : List Sym} {r : TypeRule} {rv : Nat} {ss ts : List Nat} (h1 : (expandType db r.src).bind bits = some ss)
    (h2 : typeDatum tab r.result = some rv) (h3 : ∀ y, r.tgt = some y → (expandType db y).bind bits = some ts) (st : State) :
    typeRuleToAvtab db tab r st = forM (ins r.kind r.cond) (ruleReqs db tab r rv ss ts) st := by
  unfold typeRuleToAvtab ruleReqs
  simp only [h1, h2, Option.bind_some]
  cases ht : r.tgt with
  | none =>
    simp only
    apply forM_flatMap
    intro s _ st
    cases typeDatum tab (.type s) with
    | none => rfl
    | some sv => exact helper_eq ..
  | some y =>
    simp only [h3 y ht, Option.bind_some]
    apply forM_flatMap
    intro s _ st
    cases typeDatum tab (.type s) with
    | none => rfl
    | some sv =>
      simp only [Option.bind_some]
      unfold reqTargets
      apply forM_flatMap
      intro t _ st
      cases typeDatum tab (.type t) with
      | none => rfl
      | some tv => exact helper_eq ..

/-- The requests of a rule. -/
theorem mem_ruleReqs {db : Db} {tab : List Sym} {r : TypeRule} {rv : Nat} {ss ts : List Nat} (hs : ∀ s, s ∈ ss ↔ r.src.Mem db s)
    (ht : ∀ y, r.tgt = some y → ∀ t, t ∈ ts ↔ y.Mem db t) (sv tv cv rv' : Nat) :
    some (sv, tv, cv, rv') ∈ ruleReqs db tab r rv ss ts ↔ rv' = rv ∧ ∃ s t c, r.Covers db s t ∧ c ∈ r.classes ∧
      typeDatum tab (.type s) = some sv ∧ typeDatum tab (.type t) = some tv ∧ db.classVal c = some cv := by
  have hcl : ∀ sv' tv', some (sv, tv, cv, rv') ∈ reqClasses db sv' tv' rv r.classes ↔
      rv' = rv ∧ sv' = sv ∧ tv' = tv ∧ ∃ c ∈ r.classes, db.classVal c = some cv := by
    intro sv' tv'
    unfold reqClasses
    simp only [List.mem_map, Option.map_eq_some_iff, Prod.mk.injEq]
    constructor
    · rintro ⟨c, h1, cv', h2, rfl, rfl, rfl, rfl⟩; exact ⟨rfl, rfl, rfl, c, h1, h2⟩
    · rintro ⟨rfl, rfl, rfl, c, h1, h2⟩; exact ⟨c, h1, cv, h2, rfl, rfl, rfl, rfl⟩
  unfold ruleReqs TypeRule.Covers
  simp only [List.mem_flatMap, hs]
  cases htg : r.tgt with
  | none =>
    simp only
    constructor
    · rintro ⟨s, h1, h2⟩
      cases e : typeDatum tab (.type s) with
      | none => rw [e] at h2; simp at h2
      | some sv' =>
        rw [e] at h2
        obtain ⟨rfl, rfl, rfl, c, h3, h4⟩ := (hcl _ _).1 h2
        exact ⟨rfl, s, s, c, ⟨h1, rfl⟩, h3, e, e, h4⟩
    · rintro ⟨rfl, s, t, c, ⟨h1, rfl⟩, h3, h4, h5, h6⟩
      rw [h4] at h5
      cases h5
      exact ⟨t, h1, by rw [h4]; exact (hcl _ _).2 ⟨rfl, rfl, rfl, c, h3, h6⟩⟩
  | some y =>
    simp only [reqTargets]
    constructor
    · rintro ⟨s, h1, h2⟩
      cases e : typeDatum tab (.type s) with
      | none => rw [e] at h2; simp at h2
      | some sv' =>
        rw [e] at h2
        simp only [List.mem_flatMap, ht y htg] at h2
        obtain ⟨t, h3, h4⟩ := h2
        cases e' : typeDatum tab (.type t) with
        | none => rw [e'] at h4; simp at h4
        | some tv' =>
          rw [e'] at h4
          obtain ⟨rfl, rfl, rfl, c, h5, h6⟩ := (hcl _ _).1 h4
          exact ⟨rfl, s, t, c, ⟨h1, h3⟩, h5, e, e', h6⟩
    · rintro ⟨rfl, s, t, c, ⟨h1, h2⟩, h3, h4, h5, h6⟩
      refine ⟨s, h1, ?_⟩
      rw [h4]
      simp only [List.mem_flatMap, ht y htg]
      refine ⟨t, h2, ?_⟩
      rw [h5]
      exact (hcl _ _).2 ⟨rfl, rfl, rfl, c, h3, h6⟩

theorem none_ruleReqs {db : Db} {tab : List Sym} {r : TypeRule} {rv : Nat} {ss ts : List Nat} (hs : ∀ s ∈ ss, ∃ v, typeDatum tab (.type s) = some v)
    (ht : ∀ t ∈ ts, ∃ v, typeDatum tab (.type t) = some v) (hc : ∀ c ∈ r.classes, ∃ v, db.classVal c = some v) :
    none ∉ ruleReqs db tab r rv ss ts := by
  have hcl : ∀ sv tv, none ∉ reqClasses db sv tv rv r.classes := by
    intro sv tv h
    unfold reqClasses at h
    obtain ⟨c, h1, h2⟩ := List.mem_map.1 h
    obtain ⟨v, hv⟩ := hc c h1
    rw [hv] at h2
    cases h2
  intro h
  unfold ruleReqs at h
  obtain ⟨s, h1, h2⟩ := List.mem_flatMap.1 h
  obtain ⟨sv, hsv⟩ := hs s h1
  rw [hsv] at h2
  simp only at h2
  split at h2
  · exact hcl _ _ h2
  · unfold reqTargets at h2
    obtain ⟨t, h3, h4⟩ := List.mem_flatMap.1 h2
    obtain ⟨tv, htv⟩ := ht t h3
    rw [htv] at h4
    exact hcl _ _ h4

end Verif.CilBin
