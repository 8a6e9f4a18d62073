import Verif.Services.ObjectsSpec
import Verif.Sidtab.Props

namespace Verif.Services
open Verif.Policy Verif.Mls

def strip {κ : Type} (o : Ocon κ) : Ocon κ := { o with sid0 := 0, sid1 := 0 }

structure CachedOk {κ : Type} (st : Sidtab.Sidtab) (o : Ocon κ) : Prop where
  c0 : o.sid0 ≠ 0 → Sidtab.lookup st o.sid0 = some o.ctx0
  c1 : o.sid1 ≠ 0 → Sidtab.lookup st o.sid1 = some o.ctx1
  w0 : WFRange o.ctx0.range
  w1 : WFRange o.ctx1.range

def Ext (st st' : Sidtab.Sidtab) : Prop :=
  Sidtab.Inv st' ∧ ∀ x c, Sidtab.lookup st x = some c → Sidtab.lookup st' x = some c

theorem Ext.refl {st} (h : Sidtab.Inv st) : Ext st st := ⟨h, fun _ _ h => h⟩
theorem Ext.trans {a b c} (h1 : Ext a b) (h2 : Ext b c) : Ext a c := ⟨h2.1, fun x y h => h2.2 x y (h1.2 x y h)⟩

theorem CachedOk.mono {κ : Type} {st st'} {o : Ocon κ} (h : CachedOk st o) (e : Ext st st') : CachedOk st' o :=
  ⟨fun a => e.2 _ _ (h.c0 a), fun a => e.2 _ _ (h.c1 a), h.w0, h.w1⟩

theorem convert_ext {st st' : Sidtab.Sidtab} (hi : Sidtab.Inv st) {c : Context} (hc : WFRange c.range) {sid : Nat}
    (h : Sidtab.contextToSid st c = some (st', sid)) : Ext st st' ∧ Sidtab.lookup st' sid = some c ∧ sid ≠ 0 := by
  obtain ⟨h1, h2, h3, h4, h5⟩ := (Sidtab.contextToSid_spec hi hc).2 st' sid h
  refine ⟨⟨h1, fun x d hx => ?_⟩, h3, by omega⟩
  by_cases hxs : x = sid
  · subst hxs
    rcases h5 with ⟨rfl, _⟩ | ⟨_, hsid, _⟩
    · exact hx
    · rw [hsid, Sidtab.lookup_next hi _ (Nat.le_refl _)] at hx; cases hx
  · rw [h4 x hxs]; exact hx

def FullT (st : Sidtab.Sidtab) : Prop := st.nextSid = 2 ^ 32 - 1 ∨ st.shutdown = true

/-- What the resolution of an entry guarantees. -/
structure GetOk {κ : Type} (get : Sidtab.Sidtab → Ocon κ → Sidtab.Sidtab × Ocon κ × Bool) (done : Ocon κ → Prop) : Prop where
  ok : ∀ st o, Sidtab.Inv st → CachedOk st o → Ext st (get st o).1 ∧ CachedOk (get st o).1 (get st o).2.1 ∧
    strip (get st o).2.1 = strip o ∧ ((get st o).2.2 = true → done (get st o).2.1) ∧
    ((get st o).2.2 = false → FullT (get st o).1)
  done : ∀ st o, done o → get st o = (st, o, true)

theorem get0_ok {κ : Type} : GetOk (κ := κ) get0 (fun o => o.sid0 ≠ 0) where
  ok := by
    intro st o hi hc
    unfold get0
    by_cases h0 : o.sid0 ≠ 0
    · rw [if_pos h0]
      exact ⟨.refl hi, hc, rfl, fun _ => h0, fun h => by cases h⟩
    · rw [if_neg h0]
      cases hs : Sidtab.contextToSid st o.ctx0 with
      | none =>
        have hf := ((Sidtab.contextToSid_spec hi hc.w0).1.mp hs).2
        exact ⟨.refl hi, ⟨fun h => absurd rfl h, hc.c1, hc.w0, hc.w1⟩, rfl, fun h => (by cases h), fun _ => hf⟩
      | some r =>
        obtain ⟨e1, e2, e3⟩ := convert_ext hi hc.w0 (st' := r.1) (sid := r.2) hs
        exact ⟨e1, ⟨fun _ => e2, fun h => e1.2 _ _ (hc.c1 h), hc.w0, hc.w1⟩, rfl, fun _ => e3, fun h => by cases h⟩
  done := by
    intro st o h
    unfold get0
    rw [if_pos h]

theorem get01_ok {κ : Type} : GetOk (κ := κ) get01 (fun o => o.sid0 ≠ 0 ∧ o.sid1 ≠ 0) where
  ok := by
    intro st o hi hc
    unfold get01
    by_cases h0 : o.sid0 ≠ 0 ∧ o.sid1 ≠ 0
    · rw [if_pos h0]
      exact ⟨.refl hi, hc, rfl, fun _ => h0, fun h => by cases h⟩
    · rw [if_neg h0]
      cases hs : Sidtab.contextToSid st o.ctx0 with
      | none =>
        have hf := ((Sidtab.contextToSid_spec hi hc.w0).1.mp hs).2
        exact ⟨.refl hi, ⟨fun h => absurd rfl h, hc.c1, hc.w0, hc.w1⟩, rfl, fun h => (by cases h), fun _ => hf⟩
      | some r =>
        obtain ⟨e1, e2, e3⟩ := convert_ext hi hc.w0 (st' := r.1) (sid := r.2) hs
        dsimp only
        cases hs1 : Sidtab.contextToSid r.1 o.ctx1 with
        | none =>
          have hf := ((Sidtab.contextToSid_spec e1.1 hc.w1).1.mp hs1).2
          exact ⟨e1, ⟨fun _ => e2, fun h => absurd rfl h, hc.w0, hc.w1⟩, rfl, fun h => (by cases h), fun _ => hf⟩
        | some r' =>
          obtain ⟨f1, f2, f3⟩ := convert_ext e1.1 hc.w1 (st' := r'.1) (sid := r'.2) hs1
          exact ⟨e1.trans f1, ⟨fun _ => f1.2 _ _ e2, fun _ => f2, hc.w0, hc.w1⟩, rfl, fun _ => ⟨e3, f3⟩, fun h => by cases h⟩
  done := by
    intro st o h
    unfold get01
    rw [if_pos h]

theorem splitFirst_spec {α : Type} (m : α → Bool) : ∀ l : List α,
    (splitFirst m l = none → ∀ x ∈ l, m x = false) ∧
    (∀ pre o post, splitFirst m l = some (pre, o, post) → l = pre ++ o :: post ∧ m o = true ∧ ∀ x ∈ pre, m x = false) := by
  intro l
  induction l with
  | nil => simp [splitFirst]
  | cons a l ih =>
    unfold splitFirst
    by_cases h : m a = true
    · rw [if_pos h]
      refine ⟨fun h => (by cases h), fun pre o post he => ?_⟩
      simp only [Option.some.injEq, Prod.mk.injEq] at he
      obtain ⟨rfl, rfl, rfl⟩ := he
      exact ⟨rfl, h, by simp⟩
    · rw [if_neg h]
      rw [Bool.not_eq_true] at h
      constructor
      · intro he x hx
        rw [Option.map_eq_none_iff] at he
        rcases List.mem_cons.mp hx with rfl | hx
        · exact h
        · exact ih.1 he x hx
      · intro pre o post he
        rw [Option.map_eq_some_iff] at he
        obtain ⟨⟨p', o', q'⟩, h1, h2⟩ := he
        simp only [Prod.mk.injEq] at h2
        obtain ⟨rfl, rfl, rfl⟩ := h2
        obtain ⟨a1, a2, a3⟩ := ih.2 _ _ _ h1
        refine ⟨by rw [a1]; rfl, a2, fun x hx => ?_⟩
        rcases List.mem_cons.mp hx with rfl | hx
        · exact h
        · exact a3 x hx

theorem splitFirst_append {α : Type} (m : α → Bool) (pre post : List α) (o : α) (h : m o = true) (hp : ∀ x ∈ pre, m x = false) :
    splitFirst m (pre ++ o :: post) = some (pre, o, post) := by
  induction pre with
  | nil => simp [splitFirst, h]
  | cons a pre ih =>
    rw [List.cons_append]
    unfold splitFirst
    rw [if_neg (by rw [hp a (by simp)]; simp), ih (fun x hx => hp x (by simp [hx]))]
    rfl

/-- The list `l` is the configured list `l0` with correct cached SIDs. -/
def CRel {κ : Type} (st : Sidtab.Sidtab) (l0 l : List (Ocon κ)) : Prop := l.map strip = l0 ∧ ∀ o ∈ l, CachedOk st o

theorem CRel.mono {κ : Type} {st st'} {l0 l : List (Ocon κ)} (h : CRel st l0 l) (e : Ext st st') : CRel st' l0 l :=
  ⟨h.1, fun o ho => (h.2 o ho).mono e⟩

/-- Entries with computed SIDs never change. -/
inductive Later {κ : Type} (done : Ocon κ → Prop) : List (Ocon κ) → List (Ocon κ) → Prop
  | nil : Later done [] []
  | cons {o o' l l'} : (strip o = strip o' ∧ (done o → o' = o)) → Later done l l' → Later done (o :: l) (o' :: l')

theorem Later.refl {κ : Type} {done : Ocon κ → Prop} (l : List (Ocon κ)) : Later done l l := by
  induction l with
  | nil => exact .nil
  | cons a l ih => exact .cons ⟨rfl, fun _ => rfl⟩ ih

theorem Later.trans {κ : Type} {done : Ocon κ → Prop} {a b c : List (Ocon κ)} (h1 : Later done a b) (h2 : Later done b c) :
    Later done a c := by
  induction h1 generalizing c with
  | nil => cases h2; exact .nil
  | cons hx _ ih =>
    cases h2 with
    | cons hy h2 =>
      refine .cons ⟨hx.1.trans hy.1, fun hd => ?_⟩ (ih h2)
      have := hx.2 hd
      subst this
      exact hy.2 hd

theorem Later.append {κ : Type} {done : Ocon κ → Prop} {a b a' b' : List (Ocon κ)} (h1 : Later done a a') (h2 : Later done b b') :
    Later done (a ++ b) (a' ++ b') := by
  induction h1 with
  | nil => exact h2
  | cons hx _ ih => exact .cons hx ih

theorem find_spec {κ : Type} {get : Sidtab.Sidtab → Ocon κ → Sidtab.Sidtab × Ocon κ × Bool} {done : Ocon κ → Prop}
    (hg : GetOk get done) (m : κ → Bool) {st : Sidtab.Sidtab} (hi : Sidtab.Inv st) {l0 l : List (Ocon κ)} (hr : CRel st l0 l) :
    Ext st (find get m st l).1 ∧ CRel (find get m st l).1 l0 (find get m st l).2.1 ∧ Later done l (find get m st l).2.1 ∧
    ((find get m st l).2.2 = .absent → NoMatch l0 (fun k => m k = true) ∧ (find get m st l).1 = st) ∧
    ((find get m st l).2.2 = .failed → (∃ o, FirstMatch l0 (fun k => m k = true) o) ∧ FullT (find get m st l).1) ∧
    (∀ o, (find get m st l).2.2 = .entry o → FirstMatch l0 (fun k => m k = true) (strip o) ∧
      CachedOk (find get m st l).1 o ∧ done o) := by
  obtain ⟨s1, s2⟩ := splitFirst_spec (fun o : Ocon κ => m o.key) l
  unfold find
  cases hs : splitFirst (fun o : Ocon κ => m o.key) l with
  | none =>
    refine ⟨.refl hi, hr, .refl l, fun _ => ⟨fun x hx => ?_, rfl⟩, fun h => (by cases h), fun o h => by cases h⟩
    rw [← hr.1] at hx
    obtain ⟨y, hy, rfl⟩ := List.mem_map.mp hx
    have := s1 hs y hy
    show ¬ m y.key = true
    rw [this]; simp
  | some r =>
    obtain ⟨pre, o, post⟩ := r
    obtain ⟨a1, a2, a3⟩ := s2 _ _ _ hs
    obtain ⟨g1, g2, g3, g4, g5⟩ := hg.ok st o hi (hr.2 o (by rw [a1]; simp))
    dsimp only
    have hrel : CRel (get st o).1 l0 (pre ++ (get st o).2.1 :: post) := by
      refine ⟨?_, fun x hx => ?_⟩
      · rw [← hr.1, a1]
        simp [g3]
      · rcases List.mem_append.mp hx with hx | hx
        · exact (hr.2 x (by rw [a1]; simp [hx])).mono g1
        · rcases List.mem_cons.mp hx with rfl | hx
          · exact g2
          · exact (hr.2 x (by rw [a1]; simp [hx])).mono g1
    have hfm : FirstMatch l0 (fun k => m k = true) (strip (get st o).2.1) := by
      refine ⟨pre.map strip, post.map strip, ?_, ?_, ?_⟩
      · rw [← hr.1, a1, g3]; simp
      · rw [g3]; exact a2
      · intro x hx
        obtain ⟨y, hy, rfl⟩ := List.mem_map.mp hx
        show ¬ m y.key = true
        rw [a3 y hy]; simp
    refine ⟨g1, hrel, ?_, ?_, ?_, ?_⟩
    · rw [a1]
      refine (Later.refl pre).append (.cons ⟨g3.symm, fun hd => ?_⟩ (.refl post))
      rw [hg.done st o hd]
    · split <;> intro h <;> cases h
    · split
      · intro h; cases h
      · rename_i hf
        rw [Bool.not_eq_true] at hf
        exact fun _ => ⟨⟨_, hfm⟩, g5 hf⟩
    · intro o' he
      split at he
      · rename_i ht
        cases he
        exact ⟨hfm, g2, g4 ht⟩
      · cases he

/-- A lookup answered once is answered the same way in every later state. -/
theorem find_stable {κ : Type} {get : Sidtab.Sidtab → Ocon κ → Sidtab.Sidtab × Ocon κ × Bool} {done : Ocon κ → Prop}
    (hg : GetOk get done) (m : κ → Bool) {st : Sidtab.Sidtab} (hi : Sidtab.Inv st) {l0 l : List (Ocon κ)} (hr : CRel st l0 l)
    {l' : List (Ocon κ)} (hl : Later done (find get m st l).2.1 l') (st' : Sidtab.Sidtab) :
    ((find get m st l).2.2 = .absent → find get m st' l' = (st', l', .absent)) ∧
    (∀ o, (find get m st l).2.2 = .entry o → find get m st' l' = (st', l', .entry o)) := by
  have keys : ∀ {a b : List (Ocon κ)}, Later done a b → ∀ {P : κ → Prop}, (∀ x ∈ a, P x.key) → ∀ x ∈ b, P x.key := by
    intro a b h P
    induction h with
    | nil => intro _ x hx; cases hx
    | @cons u v _ _ hx _ ih =>
      intro hp x hxm
      rcases List.mem_cons.mp hxm with rfl | hxm
      · have h1 : (strip u).key = (strip x).key := congrArg (fun o : Ocon κ => o.key) hx.1
        change u.key = x.key at h1
        rw [← h1]; exact hp _ (by simp)
      · exact ih (fun y hy => hp y (by simp [hy])) x hxm
  obtain ⟨s1, s2⟩ := splitFirst_spec (fun o : Ocon κ => m o.key) l
  have hnone : ∀ l : List (Ocon κ), (∀ x ∈ l, m x.key = false) → splitFirst (fun o : Ocon κ => m o.key) l = none := by
    intro l
    induction l with
    | nil => intro _; rfl
    | cons a l ih =>
      intro h
      unfold splitFirst
      rw [if_neg (by rw [h a (by simp)]; simp), ih (fun x hx => h x (by simp [hx]))]
      rfl
  unfold find at hl ⊢
  cases hs : splitFirst (fun o : Ocon κ => m o.key) l with
  | none =>
    rw [hs] at hl
    dsimp only at hl ⊢
    have := keys hl (P := fun k => m k = false) (s1 hs)
    rw [hnone l' this]
    exact ⟨fun _ => rfl, fun o h => by cases h⟩
  | some r =>
    obtain ⟨pre, o, post⟩ := r
    obtain ⟨a1, a2, a3⟩ := s2 _ _ _ hs
    rw [hs] at hl
    dsimp only at hl ⊢
    obtain ⟨g1, g2, g3, g4, g5⟩ := hg.ok st o hi (hr.2 o (by rw [a1]; simp))
    constructor
    · split <;> intro h <;> cases h
    · intro o' he
      split at he
      · rename_i ht
        cases he
        -- split the later list
        have : ∃ pre' post', l' = pre' ++ (get st o).2.1 :: post' ∧ Later done pre pre' := by
          have gen : ∀ (pre : List (Ocon κ)) l', Later done (pre ++ (get st o).2.1 :: post) l' →
              ∃ pre' post', l' = pre' ++ (get st o).2.1 :: post' ∧ Later done pre pre' := by
            intro pre
            induction pre with
            | nil =>
              intro l' h
              cases h with
              | cons hx h => rw [hx.2 (g4 ht)]; exact ⟨[], _, rfl, .nil⟩
            | cons a pre ih =>
              intro l' h
              cases h with
              | cons hx h =>
                obtain ⟨p', q', e, hp⟩ := ih _ h
                exact ⟨_ :: p', q', by rw [e]; rfl, .cons hx hp⟩
          exact gen pre l' hl
        obtain ⟨pre', post', e, hp⟩ := this
        have hk : ∀ x ∈ pre', m x.key = false := keys hp (P := fun k => m k = false) a3
        have hm : m (get st o).2.1.key = true := by
          have : (strip (get st o).2.1).key = (strip o).key := congrArg (fun o : Ocon κ => o.key) g3
          change (get st o).2.1.key = o.key at this
          rw [this]; exact a2
        rw [e, splitFirst_append (fun o : Ocon κ => m o.key) pre' post' _ hm hk]
        dsimp only
        rw [hg.done st' _ (g4 ht)]
        simp
      · cases he

/-! ### strings -/

theorem strcmp_zero : ∀ a b : Str, strcmp a b = 0 ↔ a = b := by
  intro a
  induction a with
  | nil => intro b; cases b <;> simp [strcmp]
  | cons x a ih =>
    intro b
    cases b with
    | nil => simp [strcmp]
    | cons y b =>
      unfold strcmp
      split
      · rename_i h
        simp only [Int.reduceNeg, Int.reduceEq, List.cons.injEq, false_iff, not_and, reduceCtorEq]
        intro he; subst he; omega
      · split
        · rename_i h
          simp only [Int.reduceEq, List.cons.injEq, false_iff, not_and, reduceCtorEq, Int.one_ne_zero]
          intro he; subst he; omega
        · rename_i h1 h2
          have : x = y := Char.toNat_inj.mp (by omega)
          rw [ih]; simp [this]

theorem strcmp_swap : ∀ a b : Str, strcmp b a = - strcmp a b := by
  intro a
  induction a with
  | nil => intro b; cases b <;> simp [strcmp]
  | cons x a ih =>
    intro b
    cases b with
    | nil => simp [strcmp]
    | cons y b =>
      unfold strcmp
      by_cases h1 : x.toNat < y.toNat
      · rw [if_pos h1, if_neg (by omega), if_pos h1]; rfl
      · rw [if_neg h1]
        by_cases h2 : y.toNat < x.toNat
        · rw [if_pos h2, if_neg h1, if_pos h2]
        · rw [if_neg h2, if_neg h1, if_neg h2]; exact ih b

theorem strcmp_range : ∀ a b : Str, strcmp a b = -1 ∨ strcmp a b = 0 ∨ strcmp a b = 1 := by
  intro a
  induction a with
  | nil => intro b; cases b <;> simp [strcmp]
  | cons x a ih =>
    intro b
    cases b with
    | nil => simp [strcmp]
    | cons y b =>
      unfold strcmp
      split
      · simp
      · split
        · simp
        · exact ih b

theorem strcmp_trans : ∀ a b c : Str, strcmp a b < 0 → strcmp b c < 0 → strcmp a c < 0 := by
  intro a
  induction a with
  | nil =>
    intro b c
    cases b with
    | nil => simp [strcmp]
    | cons y b => cases c <;> simp [strcmp]
  | cons x a ih =>
    intro b c
    cases b with
    | nil => simp [strcmp]
    | cons y b =>
      cases c with
      | nil => simp [strcmp]
      | cons z c =>
        simp only [strcmp]
        have := ih b c
        split
        · split
          · intro _ _; split <;> first | omega | (split <;> omega)
          · split
            · intro _ h; omega
            · intro _ _; split <;> first | omega | (split <;> omega)
        · split
          · intro h; omega
          · split
            · intro _ _; split <;> first | omega | (split <;> omega)
            · split
              · intro _ h; omega
              · intro h1 h2; split <;> first | omega | (split <;> first | omega | exact this h1 h2)

theorem strncmp_prefix : ∀ a b : Str, strncmp a.length a b = 0 ↔ a <+: b := by
  intro a
  induction a with
  | nil => intro b; simp [strncmp]
  | cons x a ih =>
    intro b
    cases b with
    | nil => simp [strncmp]
    | cons y b =>
      rw [List.length_cons]
      unfold strncmp
      rw [List.cons_prefix_cons]
      split
      · rename_i h
        simp only [Int.reduceNeg, Int.reduceEq, false_iff, not_and, reduceCtorEq]
        intro he; subst he; omega
      · split
        · rename_i h
          simp only [Int.reduceEq, false_iff, not_and, Int.one_ne_zero]
          intro he; subst he; omega
        · rename_i h1 h2
          have : x = y := Char.toNat_inj.mp (by omega)
          rw [ih]; simp [this]

end Verif.Services
