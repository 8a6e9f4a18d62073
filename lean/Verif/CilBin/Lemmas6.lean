import Verif.CilBin.Lemmas5

/-!
# Lemmas on all type rules of a policy
-/

namespace Verif.CilBin
open Avtab (Avtab Key Datum Node Rel Answers)

/-- A request has the key and the datum. -/
def ReqIs (kind : TKind) (q : Req) (k : Key) (d : BitVec 32) : Prop := k = key q.1 q.2.1 q.2.2.1 kind.spec ∧ d = BitVec.ofNat 32 q.2.2.2

/-- A list of requests outside of conditionals. -/
theorem uncond_reqs {kind : TKind} {l : List (Option Req)} {st st' : State} {G : Pred} {T : TPred} (h : Inv st G T)
    (he : forM (ins kind none) l st = some st') :
    ∃ T', Inv st' G T' ∧ ∀ c k d, T' c k d ↔ T c k d ∨ (c = none ∧ ∃ q, some q ∈ l ∧ ReqIs kind q k d) := by
  induction l generalizing st T with
  | nil => cases he; exact ⟨T, h, fun c k d => by simp⟩
  | cons o l ih =>
    unfold forM at he
    split at he
    · cases he
    rename_i st1 e1
    cases o with
    | none => cases e1
    | some q =>
      have e1 : insertTypeRule st kind q.1 q.2.1 q.2.2.1 q.2.2.2 none = some st1 := e1
      have key : ∃ T1, Inv st1 G T1 ∧ ∀ c k d, T1 c k d ↔ T c k d ∨ (c = none ∧ ReqIs kind q k d) := by
        obtain ⟨hu, hc⟩ := insertTypeRule_cases h kind q.1 q.2.1 q.2.2.1 q.2.2.2 none rfl rfl
        rcases hc with ⟨d0, h0, e⟩ | ⟨hno, ⟨st2, e, hi, -⟩ | ⟨b, hb, -⟩⟩
        · rw [e] at e1
          split at e1
          · cases e1
          · rename_i hd
            cases e1
            refine ⟨T, h, fun c k d => ?_⟩
            constructor
            · exact Or.inl
            · rintro (h | ⟨rfl, rfl, rfl⟩)
              · exact h
              · simp only [ne_eq, Decidable.not_not] at hd
                rw [← hd]; exact h0
        · rw [e] at e1
          cases e1
          exact ⟨_, hi, fun c k d => Iff.rfl⟩
        · cases hb
      obtain ⟨T1, i1, t1⟩ := key
      obtain ⟨T2, i2, t2⟩ := ih i1 he
      refine ⟨T2, i2, fun c k d => ?_⟩
      rw [t2, t1]
      simp only [List.mem_cons, Option.some.injEq]
      constructor
      · rintro ((h | ⟨rfl, h⟩) | ⟨rfl, q', h, h'⟩)
        · exact Or.inl h
        · exact Or.inr ⟨rfl, q, Or.inl rfl, h⟩
        · exact Or.inr ⟨rfl, q', Or.inr h, h'⟩
      · rintro (h | ⟨rfl, q', rfl | h, h'⟩)
        · exact Or.inl (Or.inl h)
        · exact Or.inl (Or.inr ⟨rfl, h'⟩)
        · exact Or.inr ⟨rfl, q', h, h'⟩

/-- What a rule requests. -/
def RuleReq (db : Db) (tab : List Sym) (r : TypeRule) (k : Key) (d : BitVec 32) : Prop :=
  ∃ rv s t c sv tv cv, typeDatum tab r.result = some rv ∧ r.Covers db s t ∧ c ∈ r.classes ∧ typeDatum tab (.type s) = some sv ∧
    typeDatum tab (.type t) = some tv ∧ db.classVal c = some cv ∧ k = key sv tv cv r.kind.spec ∧ d = BitVec.ofNat 32 rv

theorem rule_list {db : Db} (ok : DbOk db) {tab decls : List Sym} (hd : ∀ x ∈ decls, x.Ok db) {r : TypeRule}
    (hr : Rule.Ok decls (.type r)) : (∀ st, typeRuleToAvtab db tab r st = none) ∨
    ∃ l, (∀ st, typeRuleToAvtab db tab r st = forM (ins r.kind r.cond) l st) ∧
      (∀ k d, (∃ q, some q ∈ l ∧ ReqIs r.kind q k d) ↔ RuleReq db tab r k d) ∧
      ((∀ v < db.numTypes, Sym.type v ∈ tab) → (∀ c ∈ r.classes, ∃ v, db.classVal c = some v) → none ∉ l) := by
  obtain ⟨ss, hss, hms⟩ := expandType_ok ok (hd _ hr.1)
  obtain ⟨ts, hts, hmt⟩ : ∃ ts, (∀ y, r.tgt = some y → (expandType db y).bind bits = some ts) ∧
      ((∀ y, r.tgt = some y → ∀ t, t ∈ ts ↔ y.Mem db t) ∧ ∀ t ∈ ts, t < db.numTypes) := by
    cases hg : r.tgt with
    | none => exact ⟨[], by simp, by simp, by simp⟩
    | some y =>
      have hy := hd _ (hr.2.1 y hg)
      obtain ⟨ts, h1, h2⟩ := expandType_ok ok hy
      refine ⟨ts, fun y' h => by cases h; exact h1, fun y' h => by cases h; exact h2, fun t ht => hy.lt ((h2 t).1 ht)⟩
  cases hrv : typeDatum tab r.result with
  | none =>
    left
    intro st
    unfold typeRuleToAvtab
    simp [hss, hrv]
  | some rv =>
    right
    refine ⟨ruleReqs db tab r rv ss ts, typeRule_eq hss hrv hts, ?_, ?_⟩
    · intro k d
      unfold ReqIs RuleReq
      constructor
      · rintro ⟨⟨sv, tv, cv, rv'⟩, h1, rfl, rfl⟩
        obtain ⟨rfl, s, t, c, h2, h3, h4, h5, h6⟩ := (mem_ruleReqs hms hmt.1 sv tv cv rv').1 h1
        exact ⟨rv', s, t, c, sv, tv, cv, hrv, h2, h3, h4, h5, h6, rfl, rfl⟩
      · rintro ⟨rv', s, t, c, sv, tv, cv, h1, h2, h3, h4, h5, h6, rfl, rfl⟩
        rw [hrv] at h1
        cases h1
        exact ⟨(sv, tv, cv, rv), (mem_ruleReqs hms hmt.1 sv tv cv rv).2 ⟨rfl, s, t, c, h2, h3, h4, h5, h6⟩, rfl, rfl⟩
    · intro h1 h2
      exact none_ruleReqs (fun s hs => typeDatum_mem.2 (h1 s ((hd _ hr.1).lt ((hms s).1 hs)))) (fun t ht => typeDatum_mem.2 (h1 t (hmt.2 t ht))) h2

/-- What the rules outside of conditionals request, and those of a branch. -/
def AllReq (db : Db) (tab : List Sym) (rules : List Rule) (cond : Option Branch) (k : Key) (d : BitVec 32) : Prop :=
  ∃ r, Rule.type r ∈ rules ∧ r.cond = cond ∧ RuleReq db tab r k d

/-- The second pass. -/
theorem second_pass {db : Db} (ok : DbOk db) {tab decls : List Sym} (hd : ∀ x ∈ decls, x.Ok db) {rules : List Rule}
    (hr : ∀ r ∈ rules, Rule.Ok decls r) (hs : ∀ r ∈ rules, r.second = true) {st st' : State} {G : Pred} {T : TPred} (h : Inv st G T)
    (he : forM (ruleToPolicydb db tab) rules st = some st') :
    ∃ T', Inv st' G T' ∧ ∀ c k d, T' c k d ↔ T c k d ∨ (c = none ∧ AllReq db tab rules none k d) := by
  induction rules generalizing st T with
  | nil => cases he; exact ⟨T, h, fun c k d => by simp [AllReq]⟩
  | cons r rules ih =>
    unfold forM at he
    split at he
    · cases he
    rename_i st1 e1
    have h2 := hs r (by simp)
    cases r with
    | av r => cases h2
    | type r =>
      have hcd : r.cond = none := by simpa [Rule.second] using h2
      rcases rule_list (tab := tab) ok hd (hr _ List.mem_cons_self) with hn | ⟨l, hl1, hl2, -⟩
      · have : typeRuleToAvtab db tab r st = some st1 := e1
        rw [hn] at this; cases this
      · have e1 : typeRuleToAvtab db tab r st = some st1 := e1
        rw [hl1, hcd] at e1
        obtain ⟨T1, i1, t1⟩ := uncond_reqs h e1
        obtain ⟨T2, i2, t2⟩ := ih (fun x hx => hr x (List.mem_cons_of_mem _ hx)) (fun x hx => hs x (List.mem_cons_of_mem _ hx)) i1 he
        refine ⟨T2, i2, fun c k d => ?_⟩
        rw [t2, t1, hl2]
        unfold AllReq
        simp only [List.mem_cons, Rule.type.injEq]
        constructor
        · rintro ((h | ⟨rfl, h⟩) | ⟨rfl, r', h, h'⟩)
          · exact Or.inl h
          · exact Or.inr ⟨rfl, r, Or.inl rfl, hcd, h⟩
          · exact Or.inr ⟨rfl, r', Or.inr h, h'⟩
        · rintro (h | ⟨rfl, r', rfl | h, h'⟩)
          · exact Or.inl (Or.inl h)
          · exact Or.inl (Or.inr ⟨rfl, h'.2⟩)
          · exact Or.inr ⟨rfl, r', h, h'⟩

/-! ### Conditional rules -/

abbrev BPred := Branch → Key → BitVec 32 → Prop

def Sided (F : BPred) (k : Key) : Prop := ∀ n d d', ¬ (F (n, true) k d ∧ F (n, false) k d')

def Single (F : BPred) (k : Key) : Prop := ∀ b b' d d', F b k d → F b' k d' → b.1 = b'.1

/-- What is known of the rules in branches, after requests `Q` of all requests `F`, if `U` are those outside of conditionals. -/
structure W (F : BPred) (U : Key → BitVec 32 → Prop) (Q : BPred) (T : TPred) : Prop where
  sub : ∀ b k d, Q b k d → F b k d
  uncond : ∀ k d, T none k d ↔ U k d
  sound : ∀ b k d, T (some b) k d → Q b k d ∧ ∀ d', ¬ U k d'
  some_ : ∀ b k d, Q b k d → U k d ∨ ((∀ d', ¬ U k d') ∧ ∃ d', T (some b) k d')
  agree : ∀ k, Sided F k → ∀ b b' d d', T (some b) k d → T (some b') k d' → d = d'
  exact_ : ∀ k, Sided F k ∨ Single F k → ∀ b d, Q b k d → (∀ d', ¬ U k d') → T (some b) k d

theorem Sided.both {F : BPred} {k : Key} (h : Sided F k) {b : Branch} {d d' : BitVec 32} (h1 : F b k d) (h2 : F (b.1, !b.2) k d') : False := by
  obtain ⟨n, x⟩ := b
  cases x
  · exact h n d' d ⟨h2, h1⟩
  · exact h n d d' ⟨h1, h2⟩

theorem W.congr {F Q Q' : BPred} {U : Key → BitVec 32 → Prop} {T : TPred} (h : W F U Q T) (hq : ∀ b k d, Q b k d ↔ Q' b k d) : W F U Q' T :=
  ⟨fun b k d hx => h.sub b k d ((hq _ _ _).2 hx), h.uncond, fun b k d hx => ⟨(hq _ _ _).1 (h.sound b k d hx).1, (h.sound b k d hx).2⟩,
    fun b k d hx => h.some_ b k d ((hq _ _ _).2 hx), h.agree, fun k hk b d hx => h.exact_ k hk b d ((hq _ _ _).2 hx)⟩

theorem cond_ins {F Q : BPred} {U : Key → BitVec 32 → Prop} {st st' : State} {G : Pred} {T : TPred} (h : Inv st G T) (w : W F U Q T) {kind : TKind}
    {q : Req} {b : Branch} {k : Key} {d : BitVec 32} (hq : ReqIs kind q k d) (hF : F b k d)
    (he : insertTypeRule st kind q.1 q.2.1 q.2.2.1 q.2.2.2 (some b) = some st') :
    ∃ T', Inv st' G T' ∧ W F U (fun b' k' d' => Q b' k' d' ∨ (b' = b ∧ k' = k ∧ d' = d)) T' := by
  obtain ⟨hk, hd⟩ := hq
  have hsub : ∀ b' k' d', Q b' k' d' ∨ (b' = b ∧ k' = k ∧ d' = d) → F b' k' d' := by
    rintro b' k' d' (h | ⟨rfl, rfl, rfl⟩)
    · exact w.sub _ _ _ h
    · exact hF
  obtain ⟨hu, hc⟩ := insertTypeRule_cases h kind q.1 q.2.1 q.2.2.1 q.2.2.2 (some b) hk hd
  rcases hc with ⟨d0, h0, e⟩ | ⟨hno, ⟨st2, e, hi, hcase⟩ | ⟨b1, hb1, hoth, x, b2, hx, ⟨-, e⟩ | ⟨rfl, ⟨d1, hd1⟩, e⟩⟩⟩
  · rw [e] at he
    split at he
    · cases he
    · rename_i hne
      cases he
      simp only [ne_eq, Decidable.not_not] at hne
      subst hne
      have hU := (w.uncond _ _).1 h0
      refine ⟨T, h, hsub, w.uncond, fun b' k' d' ht => ⟨Or.inl (w.sound _ _ _ ht).1, (w.sound _ _ _ ht).2⟩, ?_, w.agree, ?_⟩
      · rintro b' k' d' (h | ⟨rfl, rfl, rfl⟩)
        · exact w.some_ _ _ _ h
        · exact Or.inl hU
      · rintro k' hk' b' d' (h | ⟨rfl, rfl, rfl⟩) hnu
        · exact w.exact_ k' hk' b' d' h hnu
        · exact absurd hU (hnu _)
  · rw [e] at he
    cases he
    have hnu : ∀ d', ¬ U k d' := fun d' h => hno d' ((w.uncond _ _).2 h)
    refine ⟨_, hi, hsub, ?_, ?_, ?_, ?_, ?_⟩
    · intro k' d'
      rw [← w.uncond]
      simp
    · rintro b' k' d' (h | ⟨h1, rfl, rfl⟩)
      · exact ⟨Or.inl (w.sound _ _ _ h).1, (w.sound _ _ _ h).2⟩
      · cases h1; exact ⟨Or.inr ⟨rfl, rfl, rfl⟩, hnu⟩
    · rintro b' k' d' (h | ⟨rfl, rfl, rfl⟩)
      · rcases w.some_ _ _ _ h with h1 | ⟨h1, d2, h2⟩
        · exact Or.inl h1
        · exact Or.inr ⟨h1, d2, Or.inl h2⟩
      · exact Or.inr ⟨hnu, d', Or.inr ⟨rfl, rfl, rfl⟩⟩
    · intro k' hs b1 b2 d1 d2 h1 h2
      have hold : ∀ b' d', T (some b') k d' → Sided F k → d' = d := by
        intro b' d' ht hs
        rcases hcase b rfl with h3 | ⟨d3, h3⟩ | ⟨⟨b3, h3⟩, -⟩
        · exact absurd ht (h3 _ _)
        · exact (hs.both hF (w.sub _ _ _ (w.sound _ _ _ h3).1)).elim
        · exact w.agree k hs _ _ _ _ ht h3
      rcases h1 with h1 | ⟨-, rfl, rfl⟩ <;> rcases h2 with h2 | ⟨-, h2, rfl⟩
      · exact w.agree k' hs _ _ _ _ h1 h2
      · subst h2; exact hold _ _ h1 hs
      · exact (hold _ _ h2 hs).symm
      · rfl
    · rintro k' hk' b' d' (h | ⟨rfl, rfl, rfl⟩) hnu'
      · exact Or.inl (w.exact_ k' hk' b' d' h hnu')
      · exact Or.inr ⟨rfl, rfl, rfl⟩
  · rw [e] at he; cases he
  · rw [e] at he
    cases he
    cases hb1
    have hnu : ∀ d', ¬ U k d' := fun d' h => hno d' ((w.uncond _ _).2 h)
    refine ⟨T, h, hsub, w.uncond, fun b' k' d' ht => ⟨Or.inl (w.sound _ _ _ ht).1, (w.sound _ _ _ ht).2⟩, ?_, w.agree, ?_⟩
    · rintro b' k' d' (h | ⟨rfl, rfl, rfl⟩)
      · exact w.some_ _ _ _ h
      · exact Or.inr ⟨hnu, d1, hd1⟩
    · rintro k' hk' b' d' (h | ⟨rfl, rfl, rfl⟩) hnu'
      · exact w.exact_ k' hk' b' d' h hnu'
      · rcases hk' with hs | hs
        · have := w.agree k' hs _ _ _ _ hd1 hx
          rw [this] at hd1; exact hd1
        · have hb2 := hs _ _ _ _ hF (w.sub _ _ _ (w.sound _ _ _ hx).1)
          have : b2 = b' := by
            obtain ⟨n, x⟩ := b'
            obtain ⟨n', x'⟩ := b2
            simp only at hb2
            subst hb2
            cases x <;> cases x'
            · rfl
            · exact absurd hx (hoth _)
            · exact absurd hx (hoth _)
            · rfl
          rw [this] at hx; exact hx

theorem cond_reqs {F Q : BPred} {U : Key → BitVec 32 → Prop} {kind : TKind} {b : Branch} {l : List (Option Req)} {st st' : State} {G : Pred} {T : TPred}
    (h : Inv st G T) (w : W F U Q T) (hF : ∀ q k d, some q ∈ l → ReqIs kind q k d → F b k d) (he : forM (ins kind (some b)) l st = some st') :
    ∃ T', Inv st' G T' ∧ W F U (fun b' k' d' => Q b' k' d' ∨ (b' = b ∧ ∃ q, some q ∈ l ∧ ReqIs kind q k' d')) T' := by
  induction l generalizing st T Q with
  | nil => cases he; exact ⟨T, h, w.congr fun b k d => by simp⟩
  | cons o l ih =>
    unfold forM at he
    split at he
    · cases he
    rename_i st1 e1
    cases o with
    | none => cases e1
    | some q =>
      obtain ⟨T1, i1, w1⟩ := cond_ins h w (q := q) (kind := kind) ⟨rfl, rfl⟩ (hF q _ _ (by simp) ⟨rfl, rfl⟩) e1
      obtain ⟨T2, i2, w2⟩ := ih i1 w1 (fun q' k d hq => hF q' k d (List.mem_cons_of_mem _ hq)) he
      refine ⟨T2, i2, w2.congr fun b' k' d' => ?_⟩
      simp only [List.mem_cons, Option.some.injEq]
      constructor
      · rintro ((h | ⟨rfl, rfl, rfl⟩) | ⟨rfl, q', h, h'⟩)
        · exact Or.inl h
        · exact Or.inr ⟨rfl, q, Or.inl rfl, rfl, rfl⟩
        · exact Or.inr ⟨rfl, q', Or.inr h, h'⟩
      · rintro (h | ⟨rfl, q', rfl | h, h'⟩)
        · exact Or.inl (Or.inl h)
        · exact Or.inl (Or.inr ⟨rfl, h'.1, h'.2⟩)
        · exact Or.inr ⟨rfl, q', h, h'⟩

/-- The third pass. -/
theorem third_pass {db : Db} (ok : DbOk db) {tab decls : List Sym} (hd : ∀ x ∈ decls, x.Ok db) {F : BPred} {U : Key → BitVec 32 → Prop}
    {rules : List Rule} (hr : ∀ r ∈ rules, Rule.Ok decls r) (hs : ∀ r ∈ rules, r.second = false)
    (hF : ∀ b k d, AllReq db tab rules (some b) k d → F b k d) {Q : BPred} {st st' : State} {G : Pred} {T : TPred} (h : Inv st G T) (w : W F U Q T)
    (he : forM (ruleToPolicydb db tab) rules st = some st') :
    ∃ G' T', Inv st' G' T' ∧ W F U (fun b k d => Q b k d ∨ AllReq db tab rules (some b) k d) T' := by
  induction rules generalizing st G T Q with
  | nil => cases he; exact ⟨G, T, h, w.congr fun b k d => by simp [AllReq]⟩
  | cons r rules ih =>
    unfold forM at he
    split at he
    · cases he
    rename_i st1 e1
    have h2 := hs r (by simp)
    have hr' := fun x hx => hr x (List.mem_cons_of_mem r hx)
    have hs' := fun x hx => hs x (List.mem_cons_of_mem r hx)
    have hF' : ∀ b k d, AllReq db tab rules (some b) k d → F b k d := by
      rintro b k d ⟨r', h1, h2⟩
      exact hF b k d ⟨r', List.mem_cons_of_mem _ h1, h2⟩
    cases r with
    | av r =>
      have hok := hr (.av r) (by simp)
      have h1 : ∃ G1, Inv st1 G1 T := by
        unfold ruleToPolicydb at e1
        simp only at e1
        split at e1
        · cases e1; exact ⟨G, h⟩
        · exact ⟨_, avrule_step ok tab r (hd _ hok.1) (fun y hy => hd y (hok.2 y hy)) st G T h st1 e1⟩
      obtain ⟨G1, i1⟩ := h1
      obtain ⟨G2, T2, i2, w2⟩ := ih hr' hs' hF' i1 w he
      exact ⟨G2, T2, i2, w2.congr fun b k d => by simp [AllReq]⟩
    | type r =>
      obtain ⟨b0, hcd⟩ : ∃ b, r.cond = some b := by
        cases hc : r.cond with
        | none => simp [Rule.second, hc] at h2
        | some b => exact ⟨b, rfl⟩
      rcases rule_list (tab := tab) ok hd (hr _ List.mem_cons_self) with hn | ⟨l, hl1, hl2, -⟩
      · have : typeRuleToAvtab db tab r st = some st1 := e1
        rw [hn] at this; cases this
      · have e1 : typeRuleToAvtab db tab r st = some st1 := e1
        rw [hl1, hcd] at e1
        obtain ⟨T1, i1, w1⟩ := cond_reqs h w
          (fun q k d hq hk => hF b0 k d ⟨r, List.mem_cons_self, hcd, (hl2 k d).1 ⟨q, hq, hk⟩⟩) e1
        obtain ⟨G2, T2, i2, w2⟩ := ih hr' hs' hF' i1 w1 he
        refine ⟨G2, T2, i2, w2.congr fun b k d => ?_⟩
        rw [hl2]
        unfold AllReq
        simp only [List.mem_cons, Rule.type.injEq]
        constructor
        · rintro ((h | ⟨rfl, h⟩) | ⟨r', h, h'⟩)
          · exact Or.inl h
          · exact Or.inr ⟨r, Or.inl rfl, hcd, h⟩
          · exact Or.inr ⟨r', Or.inr h, h'⟩
        · rintro (h | ⟨r', rfl | h, h'⟩)
          · exact Or.inl (Or.inl h)
          · rw [hcd, Option.some.injEq] at h'
            exact Or.inl (Or.inr ⟨h'.1.symm, h'.2⟩)
          · exact Or.inr ⟨r', h, h'⟩

/-- What is known of the type rules of a compiled policy. -/
theorem compile_types {db : Db} (ok : DbOk db) {decls : List Sym} {rules : List Rule} (hk : Complete db decls rules) {P : Policy}
    (hc : compile db decls rules = some P) :
    declare db decls [] = some P.tab ∧ ∃ G T, Inv P.rules G T ∧
      W (fun b => AllReq db P.tab rules (some b)) (AllReq db P.tab rules none) (fun b => AllReq db P.tab rules (some b)) T := by
  unfold compile at hc
  obtain ⟨tab, h1, hc⟩ := Option.bind_eq_some_iff.1 hc
  obtain ⟨map, h2, hc⟩ := Option.bind_eq_some_iff.1 hc
  obtain ⟨st, h3, hc⟩ := Option.bind_eq_some_iff.1 hc
  obtain ⟨st', h4, hc⟩ := Option.bind_eq_some_iff.1 hc
  cases hc
  refine ⟨h1, ?_⟩
  have hfil : ∀ k d, AllReq db tab (rules.filter Rule.second) none k d ↔ AllReq db tab rules none k d := by
    intro k d
    unfold AllReq
    simp only [List.mem_filter]
    constructor
    · rintro ⟨r, ⟨h1, -⟩, h2⟩; exact ⟨r, h1, h2⟩
    · rintro ⟨r, h1, h2⟩; exact ⟨r, ⟨h1, by simp [Rule.second, h2.1]⟩, h2⟩
  have hfil' : ∀ b k d, AllReq db tab (rules.filter fun r => !r.second) (some b) k d ↔ AllReq db tab rules (some b) k d := by
    intro b k d
    unfold AllReq
    simp only [List.mem_filter]
    constructor
    · rintro ⟨r, ⟨h1, -⟩, h2⟩; exact ⟨r, h1, h2⟩
    · rintro ⟨r, h1, h2⟩; exact ⟨r, ⟨h1, by simp [Rule.second, h2.1]⟩, h2⟩
  obtain ⟨T1, i1, t1⟩ := second_pass ok (tab := tab) hk.syms (fun r hx => hk.rules r (List.mem_filter.1 hx).1)
    (fun r hx => (List.mem_filter.1 hx).2) start_inv h3
  have w1 : W (fun b => AllReq db tab rules (some b)) (AllReq db tab rules none) (fun _ _ _ => False) T1 := by
    have hs : ∀ b k d, ¬ T1 (some b) k d := by
      intro b k d h
      rcases (t1 _ _ _).1 h with h | h
      · exact h
      · cases h.1
    refine ⟨by simp, ?_, fun b k d h => absurd h (hs b k d), by simp, fun k _ b b' d d' h => absurd h (hs b k d), by simp⟩
    intro k d
    rw [t1, ← hfil]
    simp
  obtain ⟨G, T, i2, w2⟩ := third_pass ok (tab := tab) hk.syms (fun r hx => hk.rules r (List.mem_filter.1 hx).1)
    (fun r hx => by have := (List.mem_filter.1 hx).2; simpa using this) (fun b k d h => (hfil' b k d).1 h) i1 w1 h4
  exact ⟨G, T, i2, w2.congr fun b k d => by rw [hfil']; simp⟩

/-! ### Compilation does not fail -/

/-- Requests that agree do not fail. -/
theorem total_reqs {A : Key → BitVec 32 → Prop} (hA : ∀ k d d', A k d → A k d' → d = d') {kind : TKind} {cond : Option Branch} {l : List (Option Req)}
    (hl : none ∉ l) (hq : ∀ q k d, some q ∈ l → ReqIs kind q k d → A k d) {st : State} {G : Pred} {T : TPred} (h : Inv st G T)
    (ht : ∀ c k d, T c k d → A k d) : ∃ st' T', forM (ins kind cond) l st = some st' ∧ Inv st' G T' ∧ ∀ c k d, T' c k d → A k d := by
  induction l generalizing st T with
  | nil => exact ⟨st, T, rfl, h, ht⟩
  | cons o l ih =>
    cases o with
    | none => simp at hl
    | some q =>
      have hqa := hq q _ _ (by simp) ⟨rfl, rfl⟩
      have key : ∃ st1 T1, insertTypeRule st kind q.1 q.2.1 q.2.2.1 q.2.2.2 cond = some st1 ∧ Inv st1 G T1 ∧ ∀ c k d, T1 c k d → A k d := by
        obtain ⟨hu, hc⟩ := insertTypeRule_cases h kind q.1 q.2.1 q.2.2.1 q.2.2.2 cond rfl rfl
        rcases hc with ⟨d0, h0, e⟩ | ⟨hno, ⟨st2, e, hi, -⟩ | ⟨b, rfl, hoth, x, b2, hx, ⟨hne, e⟩ | ⟨hx', -, e⟩⟩⟩
        · have := hA _ _ _ (ht _ _ _ h0) hqa
          rw [if_neg (by simpa using this)] at e
          exact ⟨st, T, e, h, ht⟩
        · refine ⟨st2, _, e, hi, ?_⟩
          rintro c k d (h | ⟨-, rfl, rfl⟩)
          · exact ht _ _ _ h
          · exact hqa
        · exact absurd (hA _ _ _ (ht _ _ _ hx) hqa) hne
        · exact ⟨st, T, e, h, ht⟩
      obtain ⟨st1, T1, e1, i1, t1⟩ := key
      obtain ⟨st2, T2, e2, i2, t2⟩ := ih (fun hn => hl (List.mem_cons_of_mem _ hn)) (fun q' k d hq' => hq q' k d (List.mem_cons_of_mem _ hq')) i1 t1
      refine ⟨st2, T2, ?_, i2, t2⟩
      unfold forM
      have : ins kind cond (some q) st = some st1 := e1
      simp only [this, e2]

/-- Rules that can be compiled: classes and permissions are known. -/
def Rule.Known (db : Db) : Rule → Prop
  | .av r => CilBin.Known db r.perms ∧ (r.kind = .neverallow → r.cond = none)
  | .type r => ∀ c ∈ r.classes, ∃ v, db.classVal c = some v

theorem total_rules {db : Db} (ok : DbOk db) {decls tab : List Sym} (hd : declare db decls [] = some tab) {rules : List Rule}
    (hc : Complete db decls rules) (hk : ∀ r ∈ rules, r.Known db) {A : Key → BitVec 32 → Prop} (hA : ∀ k d d', A k d → A k d' → d = d')
    (hq : ∀ cond k d, AllReq db tab rules cond k d → A k d) {st : State} {G : Pred} {T : TPred} (h : Inv st G T) (ht : ∀ c k d, T c k d → A k d) :
    ∃ st' G' T', forM (ruleToPolicydb db tab) rules st = some st' ∧ Inv st' G' T' ∧ ∀ c k d, T' c k d → A k d := by
  induction rules generalizing st G T with
  | nil => exact ⟨st, G, T, rfl, h, ht⟩
  | cons r rules ih =>
    have hc' : Complete db decls rules := ⟨hc.types, hc.syms, fun r hr => hc.rules r (List.mem_cons_of_mem _ hr)⟩
    have hk' := fun x hx => hk x (List.mem_cons_of_mem r hx)
    have hq' : ∀ cond k d, AllReq db tab rules cond k d → A k d := by
      rintro cond k d ⟨r', h1, h2⟩
      exact hq cond k d ⟨r', List.mem_cons_of_mem _ h1, h2⟩
    have key : ∃ st1 G1 T1, ruleToPolicydb db tab r st = some st1 ∧ Inv st1 G1 T1 ∧ ∀ c k d, T1 c k d → A k d := by
      cases r with
      | av a =>
        have hra := hc.rules (.av a) (by simp)
        obtain ⟨hkn, hne⟩ := hk (.av a) (by simp)
        have hs : a.src.Ok db := hc.syms _ hra.1
        have ht' : ∀ y, a.tgt = .sym y → y.Ok db := fun y hy => hc.syms _ (hra.2 y hy)
        unfold ruleToPolicydb
        simp only
        split
        · exact ⟨st, G, T, rfl, h, ht⟩
        · rename_i hno
          obtain ⟨st1, e1⟩ := avrule_total ok (fun hk => hno ⟨hk, hne hk⟩) hs ht' hkn
            (fun x y he => emits_mem hd hc.types hc.syms hra.1 hra.2 he) st G T h
          exact ⟨st1, _, _, e1, avrule_step ok tab a hs ht' st G T h st1 e1, ht⟩
      | type r =>
        have hrt := hc.rules (.type r) (by simp)
        have hty : ∀ v < db.numTypes, Sym.type v ∈ tab := fun v hv => (declare_mem hd _).2 (Or.inr ⟨hc.types v hv, rfl⟩)
        rcases rule_list (tab := tab) ok hc.syms hrt with hn | ⟨l, hl1, hl2, hl3⟩
        · exfalso
          obtain ⟨ss, hss, hms⟩ := expandType_ok ok (hc.syms _ hrt.1)
          obtain ⟨v, hv, hv'⟩ := hrt.2.2
          obtain ⟨rv, hrv⟩ := typeDatum_mem.2 ((declare_mem hd _).2 (Or.inr ⟨hv', by rw [hv]; rfl⟩))
          obtain ⟨ts, hts⟩ : ∃ ts, ∀ y, r.tgt = some y → (expandType db y).bind bits = some ts := by
            cases hg : r.tgt with
            | none => exact ⟨[], by simp⟩
            | some y =>
              obtain ⟨ts, h1, -⟩ := expandType_ok ok (hc.syms _ (hrt.2.1 y hg))
              exact ⟨ts, fun y' h => by cases h; exact h1⟩
          have hts' : (∀ y, r.tgt = some y → ∀ t, t ∈ ts ↔ y.Mem db t) := by
            intro y hy
            obtain ⟨ts', h1, h2⟩ := expandType_ok ok (hc.syms _ (hrt.2.1 y hy))
            rw [hts y hy] at h1
            cases h1
            exact h2
          have heq := typeRule_eq hss hrv hts
          have hnn : none ∉ ruleReqs db tab r rv ss (if r.tgt = none then [] else ts) := by
            refine none_ruleReqs (fun s hs => typeDatum_mem.2 (hty s ((hc.syms _ hrt.1).lt ((hms s).1 hs)))) ?_ (hk _ List.mem_cons_self)
            intro t ht
            cases hg : r.tgt with
            | none => rw [hg] at ht; simp at ht
            | some y =>
              rw [hg] at ht
              simp only [reduceCtorEq, if_false] at ht
              exact typeDatum_mem.2 (hty t ((hc.syms _ (hrt.2.1 y hg)).lt ((hts' y hg t).1 ht)))
          have heq2 := typeRule_eq (ts := if r.tgt = none then [] else ts) hss hrv (by
            intro y hy
            rw [hy]
            simpa using hts y hy)
          obtain ⟨st', T', e, -⟩ := total_reqs hA (cond := r.cond) hnn (fun q k d hq'' hk'' => hq r.cond k d ⟨r, List.mem_cons_self, rfl, by
            obtain ⟨sv, tv, cv, rv'⟩ := q
            obtain ⟨rfl, s, t, c, h2, h3, h4, h5, h6⟩ := (mem_ruleReqs hms (by
              intro y hy
              rw [hy]
              simpa using hts' y hy) sv tv cv rv').1 hq''
            exact ⟨rv', s, t, c, sv, tv, cv, hrv, h2, h3, h4, h5, h6, hk''.1, hk''.2⟩⟩) h ht
          rw [← heq2, hn] at e
          cases e
        · obtain ⟨st1, T1, e1, i1, t1⟩ := total_reqs hA (cond := r.cond) (hl3 hty (hk _ List.mem_cons_self))
            (fun q k d hq'' hk'' => hq r.cond k d ⟨r, List.mem_cons_self, rfl, (hl2 k d).1 ⟨q, hq'', hk''⟩⟩) h ht
          exact ⟨st1, G, T1, (hl1 st).trans e1, i1, t1⟩
    obtain ⟨st1, G1, T1, e1, i1, t1⟩ := key
    obtain ⟨st2, G2, T2, e2, i2, t2⟩ := ih hc' hk' hq' i1 t1
    exact ⟨st2, G2, T2, by unfold forM; simp only [e1, e2], i2, t2⟩

end Verif.CilBin
