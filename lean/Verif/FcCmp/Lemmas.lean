import Verif.FcCmp.Model
import Verif.FileLabel.Props
/-! # Comparing two handles: each comparison keeps what it claims -/
namespace Verif.FcCmp
open Verif.FileLabel

/-- The first has nothing more. -/
def Le (r : Res) : Prop := r = .equal ∨ r = .subset
/-- The second has nothing more. -/
def Ge (r : Res) : Prop := r = .equal ∨ r = .superset

theorem more_some {r r' : Res} : more r = some r' ↔ Ge r ∧ r' = .superset := by
  unfold more Ge
  cases r <;> cases r' <;> simp
theorem less_some {r r' : Res} : less r = some r' ↔ Le r ∧ r' = .subset := by
  unfold less Le
  cases r <;> cases r' <;> simp

theorem not_le_superset : ¬ Le .superset := by unfold Le; simp
theorem not_ge_subset : ¬ Ge .subset := by unfold Ge; simp

/-- What is compared of a literal. -/
def litKey (l : Lit) : Bytes × Nat := (l.literalMatch, l.kind)
/-- What is compared of an expression. -/
def reKey (r : Re) : Bytes × Nat := (r.regexStr, r.kind)

/-- What a result says about two lists. -/
structure Tells {α : Type} (r r' : Res) (l m : List α) : Prop where
  le : Le r' → Le r ∧ l.Sublist m
  ge : Ge r' → Ge r ∧ m.Sublist l

theorem tells_nil {α : Type} (r : Res) : Tells r r ([] : List α) [] := ⟨fun h => ⟨h, .slnil⟩, fun h => ⟨h, .slnil⟩⟩

theorem tells_more {α : Type} {r r' : Res} (h : more r = some r') (l : List α) : Tells r r' l [] := by
  obtain ⟨hg, rfl⟩ := more_some.1 h
  exact ⟨fun h' => absurd h' not_le_superset, fun _ => ⟨hg, List.nil_sublist _⟩⟩

theorem tells_less {α : Type} {r r' : Res} (h : less r = some r') (m : List α) : Tells r r' [] m := by
  obtain ⟨hg, rfl⟩ := less_some.1 h
  exact ⟨fun _ => ⟨hg, List.nil_sublist _⟩, fun h' => absurd h' not_ge_subset⟩

theorem Tells.left {α : Type} {r r1 r' : Res} {a : α} {l m : List α} (h : more r = some r1) (ht : Tells r1 r' l m) :
    Tells r r' (a :: l) m := by
  obtain ⟨hg, rfl⟩ := more_some.1 h
  exact ⟨fun h' => absurd (ht.le h').1 not_le_superset, fun h' => ⟨hg, (ht.ge h').2.cons a⟩⟩

theorem Tells.right {α : Type} {r r1 r' : Res} {b : α} {l m : List α} (h : less r = some r1) (ht : Tells r1 r' l m) :
    Tells r r' l (b :: m) := by
  obtain ⟨hg, rfl⟩ := less_some.1 h
  exact ⟨fun h' => ⟨hg, (ht.le h').2.cons b⟩, fun h' => absurd (ht.ge h').1 not_ge_subset⟩

theorem Tells.both {α : Type} {r r' : Res} {a b : α} {l m : List α} (hab : a = b) (ht : Tells r r' l m) :
    Tells r r' (a :: l) (b :: m) := by
  subst hab
  exact ⟨fun h' => ⟨(ht.le h').1, (ht.le h').2.cons_cons a⟩, fun h' => ⟨(ht.ge h').1, (ht.ge h').2.cons_cons a⟩⟩

theorem lits_tells {r r' : Res} {as bs : List Lit} (h : lits r as bs = some r') : Tells r r' (as.map litKey) (bs.map litKey) := by
  fun_induction lits r as bs with
  | case1 r => simp only [Option.some.injEq] at h; subst h; exact tells_nil r
  | case2 => exact tells_more h _
  | case3 => exact tells_less h _
  | case4 r a as b bs h1 ih =>
    obtain ⟨r1, hr, h⟩ := Option.bind_eq_some_iff.1 h
    exact Tells.left hr (ih r1 h)
  | case5 r a as b bs h1 h2 ih =>
    obtain ⟨r1, hr, h⟩ := Option.bind_eq_some_iff.1 h
    exact Tells.right hr (ih r1 h)
  | case6 r a as b bs h1 h2 h3 ih =>
    obtain ⟨r1, hr, h⟩ := Option.bind_eq_some_iff.1 h
    exact Tells.left hr (ih r1 h)
  | case7 r a as b bs h1 h2 h3 h4 ih =>
    obtain ⟨r1, hr, h⟩ := Option.bind_eq_some_iff.1 h
    exact Tells.right hr (ih r1 h)
  | case8 r a as b bs h1 h2 h3 h4 ih =>
    have he : a.literalMatch = b.literalMatch := strcmp_eq.1 (by omega)
    have hk : a.kind = b.kind := by omega
    exact Tells.both (by unfold litKey; rw [he, hk]) (ih h)

theorem same_key {a b : Re} : same a b = true ↔ reKey a = reKey b := by
  unfold same reKey
  simp [strcmp_eq, and_comm]

theorem after_split {p : Re → Bool} {l t : List Re} (h : after p l = some t) : ∃ s x, l = s ++ x :: t ∧ p x = true := by
  induction l with
  | nil => simp [after] at h
  | cons y ys ih =>
    rw [after] at h
    split at h
    · rename_i hy
      simp only [Option.some.injEq] at h
      exact ⟨[], y, by rw [h]; rfl, hy⟩
    · obtain ⟨s, x, rfl, hx⟩ := ih h
      exact ⟨y :: s, x, rfl, hx⟩

theorem res_tells {r r' : Res} {as bs : List Re} (h : res r as bs = some r') : Tells r r' (as.map reKey) (bs.map reKey) := by
  fun_induction res r as bs with
  | case1 r => simp only [Option.some.injEq] at h; subst h; exact tells_nil r
  | case2 => exact tells_more h _
  | case3 => exact tells_less h _
  | case4 r a as b bs h1 ih => exact Tells.both (same_key.1 h1) (ih h)
  | case5 a as b bs h1 ih => exact Tells.left (r := .superset) rfl (ih h)
  | case6 a as b bs h1 _ ih => exact Tells.right (r := .subset) rfl (ih h)
  | case7 r a as b bs h1 h2 h3 bs' hb ih =>
    have hr : r = .equal := by cases r <;> simp at h2 h3 ⊢
    subst hr
    obtain ⟨s, x, hl, hx⟩ := after_split hb
    have ht := ih h
    refine ⟨fun h' => ⟨Or.inl rfl, ?_⟩, fun h' => absurd (ht.ge h').1 not_ge_subset⟩
    rw [hl, List.map_append, List.map_cons, List.map_cons, ← same_key.1 hx]
    exact ((ht.le h').2.cons_cons _).trans (List.sublist_append_right _ _)
  | case8 r a as b bs h1 h2 h3 hb as' ha ih =>
    have hr : r = .equal := by cases r <;> simp at h2 h3 ⊢
    subst hr
    obtain ⟨s, x, hl, hx⟩ := after_split ha
    have ht := ih h
    refine ⟨fun h' => absurd (ht.le h').1 not_le_superset, fun h' => ⟨Or.inl rfl, ?_⟩⟩
    rw [hl, List.map_append, List.map_cons, List.map_cons, same_key.1 hx]
    exact ((ht.ge h').2.cons_cons _).trans (List.sublist_append_right _ _)
  | case9 => simp at h

/-- What the loop over the children says. -/
theorem kids_tells {f : Node → Node → Option Res} {r r' : Res} {cs ds : List Node} (h : kids f r cs ds = some r') :
    (Le r' → Le r ∧ ∀ c ∈ cs, ∃ d ∈ ds, c.stem = d.stem ∧ ∃ x, f c d = some x ∧ Le x) ∧
    (Ge r' → Ge r ∧ ∀ d ∈ ds, ∃ c ∈ cs, c.stem = d.stem ∧ ∃ x, f c d = some x ∧ Ge x) := by
  fun_induction kids f r cs ds with
  | case1 r => simp only [Option.some.injEq] at h; subst h; exact ⟨fun h => ⟨h, by simp⟩, fun h => ⟨h, by simp⟩⟩
  | case2 r c cs =>
    obtain ⟨hg, rfl⟩ := more_some.1 h
    exact ⟨fun h' => absurd h' not_le_superset, fun _ => ⟨hg, by simp⟩⟩
  | case3 r d ds =>
    obtain ⟨hg, rfl⟩ := less_some.1 h
    exact ⟨fun _ => ⟨hg, by simp⟩, fun h' => absurd h' not_ge_subset⟩
  | case4 r c cs d ds h1 ih =>
    obtain ⟨r1, hr, h⟩ := Option.bind_eq_some_iff.1 h
    obtain ⟨hr', rfl⟩ := more_some.1 hr
    obtain ⟨i1, i2⟩ := ih _ h
    refine ⟨fun h' => absurd (i1 h').1 not_le_superset, fun h' => ⟨hr', fun d' hd' => ?_⟩⟩
    obtain ⟨c', hc', hx⟩ := (i2 h').2 d' hd'
    exact ⟨c', List.mem_cons_of_mem _ hc', hx⟩
  | case5 r c cs d ds h1 h2 ih =>
    obtain ⟨r1, hr, h⟩ := Option.bind_eq_some_iff.1 h
    obtain ⟨hr', rfl⟩ := less_some.1 hr
    obtain ⟨i1, i2⟩ := ih _ h
    refine ⟨fun h' => ⟨hr', fun d' hd' => ?_⟩, fun h' => absurd (i2 h').1 not_ge_subset⟩
    obtain ⟨c', hc', hx⟩ := (i1 h').2 d' hd'
    exact ⟨c', List.mem_cons_of_mem _ hc', hx⟩
  | case6 r c cs d ds h1 h2 hf ih =>
    have hs : c.stem = d.stem := strcmp_eq.1 (by omega)
    obtain ⟨r1, hr, h⟩ := Option.bind_eq_some_iff.1 h
    obtain ⟨hr', rfl⟩ := less_some.1 hr
    obtain ⟨i1, i2⟩ := ih _ h
    refine ⟨fun h' => ⟨hr', fun x hx => ?_⟩, fun h' => absurd (i2 h').1 not_ge_subset⟩
    rcases List.mem_cons.1 hx with rfl | hx
    · exact ⟨d, List.mem_cons_self, hs, _, hf, Or.inr rfl⟩
    · obtain ⟨y, hy, hh⟩ := (i1 h').2 x hx
      exact ⟨y, List.mem_cons_of_mem _ hy, hh⟩
  | case7 r c cs d ds h1 h2 hf ih =>
    have hs : c.stem = d.stem := strcmp_eq.1 (by omega)
    obtain ⟨i1, i2⟩ := ih h
    refine ⟨fun h' => ⟨(i1 h').1, fun x hx => ?_⟩, fun h' => ⟨(i2 h').1, fun x hx => ?_⟩⟩
    · rcases List.mem_cons.1 hx with rfl | hx
      · exact ⟨d, List.mem_cons_self, hs, _, hf, Or.inl rfl⟩
      · obtain ⟨y, hy, hh⟩ := (i1 h').2 x hx
        exact ⟨y, List.mem_cons_of_mem _ hy, hh⟩
    · rcases List.mem_cons.1 hx with rfl | hx
      · exact ⟨c, List.mem_cons_self, hs, _, hf, Or.inl rfl⟩
      · obtain ⟨y, hy, hh⟩ := (i2 h').2 x hx
        exact ⟨y, List.mem_cons_of_mem _ hy, hh⟩
  | case8 r c cs d ds h1 h2 hf ih =>
    have hs : c.stem = d.stem := strcmp_eq.1 (by omega)
    obtain ⟨r1, hr, h⟩ := Option.bind_eq_some_iff.1 h
    obtain ⟨hr', rfl⟩ := more_some.1 hr
    obtain ⟨i1, i2⟩ := ih _ h
    refine ⟨fun h' => absurd (i1 h').1 not_le_superset, fun h' => ⟨hr', fun x hx => ?_⟩⟩
    rcases List.mem_cons.1 hx with rfl | hx
    · exact ⟨c, List.mem_cons_self, hs, _, hf, Or.inr rfl⟩
    · obtain ⟨y, hy, hh⟩ := (i2 h').2 x hx
      exact ⟨y, List.mem_cons_of_mem _ hy, hh⟩
  | case9 => simp at h

theorem obs_step {β : Type} (g : Node → List β) (n : Node) (s : Bytes) (ss : List Bytes) :
    obsAt g n (s :: ss) = ((child n s).map (fun c => obsAt g c ss)).getD [] := by
  simp only [obsAt, at_]
  cases child n s <;> rfl

/-- The specifications at each path. -/
theorem cmpTree_le {k : Nat} {n m : Node} {r : Res} (hm : WF m) (h : cmpTree k n m = some r) (hr : Le r) (p : List Bytes) :
    ((obsAt Node.lits n p).map litKey).Sublist ((obsAt Node.lits m p).map litKey) ∧
    ((obsAt Node.res n p).map reKey).Sublist ((obsAt Node.res m p).map reKey) := by
  induction k generalizing n m r p with
  | zero => simp [cmpTree] at h
  | succ k ih =>
    rw [cmpTree] at h
    split at h
    · simp at h
    · obtain ⟨r1, h1, h⟩ := Option.bind_eq_some_iff.1 h
      obtain ⟨r2, h2, h3⟩ := Option.bind_eq_some_iff.1 h
      obtain ⟨hr2, hkids⟩ := (kids_tells h3).1 hr
      obtain ⟨hr1, hres⟩ := (res_tells h2).le hr2
      obtain ⟨-, hlits⟩ := (lits_tells h1).le hr1
      cases p with
      | nil => exact ⟨hlits, hres⟩
      | cons s ss =>
        simp only [obs_step]
        cases hc : child n s with
        | none => exact ⟨List.nil_sublist _, List.nil_sublist _⟩
        | some c =>
          have hcm : c ∈ n.children := List.mem_of_find?_eq_some hc
          have hcs : c.stem = s := by have := List.find?_some hc; simpa using this
          obtain ⟨d, hd, hs, x, hx, hxl⟩ := hkids c hcm
          have hd' : child m s = some d := (find_unique hm.nodup s d).2 ⟨hd, by rw [← hs, hcs]⟩
          rw [hd']
          exact ih (hm.sub d hd) hx hxl ss

theorem cmpTree_ge {k : Nat} {n m : Node} {r : Res} (hn : WF n) (h : cmpTree k n m = some r) (hr : Ge r) (p : List Bytes) :
    ((obsAt Node.lits m p).map litKey).Sublist ((obsAt Node.lits n p).map litKey) ∧
    ((obsAt Node.res m p).map reKey).Sublist ((obsAt Node.res n p).map reKey) := by
  induction k generalizing n m r p with
  | zero => simp [cmpTree] at h
  | succ k ih =>
    rw [cmpTree] at h
    split at h
    · simp at h
    · obtain ⟨r1, h1, h⟩ := Option.bind_eq_some_iff.1 h
      obtain ⟨r2, h2, h3⟩ := Option.bind_eq_some_iff.1 h
      obtain ⟨hr2, hkids⟩ := (kids_tells h3).2 hr
      obtain ⟨hr1, hres⟩ := (res_tells h2).ge hr2
      obtain ⟨-, hlits⟩ := (lits_tells h1).ge hr1
      cases p with
      | nil => exact ⟨hlits, hres⟩
      | cons s ss =>
        simp only [obs_step]
        cases hc : child m s with
        | none => exact ⟨List.nil_sublist _, List.nil_sublist _⟩
        | some c =>
          have hcm : c ∈ m.children := List.mem_of_find?_eq_some hc
          have hcs : c.stem = s := by have := List.find?_some hc; simpa using this
          obtain ⟨d, hd, hs, x, hx, hxl⟩ := hkids c hcm
          have hd' : child n s = some d := (find_unique hn.nodup s d).2 ⟨hd, by rw [hs, hcs]⟩
          rw [hd']
          exact ih (hn.sub d hd) hx hxl ss

end Verif.FcCmp
