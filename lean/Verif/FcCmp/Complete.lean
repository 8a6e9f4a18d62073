import Verif.FcCmp.Lemmas
import Mathlib.Data.List.Sort
/-! # Comparing two handles: what holds is found -/
namespace Verif.FcCmp
open Verif.FileLabel
open Verif.FileLabel.Spec (Entry Sorts plain leading entriesFrom entries)

/-! ## Literals -/

/-- The order of literals. -/
def keyLe (a b : Bytes × Nat) : Prop := strcmp a.1 b.1 < 0 ∨ a.1 = b.1 ∧ b.2 ≤ a.2

theorem keyLe_cmpLit {a b : Lit} : cmpLit a b ≤ 0 ↔ keyLe (litKey a) (litKey b) := by
  unfold cmpLit keyLe litKey
  simp only
  by_cases h : strcmp a.literalMatch b.literalMatch = 0
  · rw [if_neg (by simpa using h)]
    have he := strcmp_eq.1 h
    constructor
    · intro hh
      refine Or.inr ⟨he, ?_⟩
      split at hh <;> split at hh <;> omega
    · rintro (hh | ⟨_, hh⟩)
      · omega
      · split <;> split <;> omega
  · rw [if_pos h]
    constructor
    · intro hh; exact Or.inl (by omega)
    · rintro (hh | ⟨hh, _⟩)
      · omega
      · exact absurd (strcmp_eq.2 hh) h

theorem keyLe_antisymm {a b : Bytes × Nat} (h1 : keyLe a b) (h2 : keyLe b a) : a = b := by
  unfold keyLe at h1 h2
  rcases h1 with h1 | ⟨e1, h1⟩
  · rcases h2 with h2 | ⟨e2, h2⟩
    · have := (strcmp_anti a.1 b.1).1 h1; omega
    · rw [e2] at h1; have := strcmp_eq.2 (rfl : a.1 = a.1); omega
  · rcases h2 with h2 | ⟨e2, h2⟩
    · rw [e1] at h2; have := strcmp_eq.2 (rfl : b.1 = b.1); omega
    · exact Prod.ext e1 (by omega)

/-- The literals are in order. -/
def Ordered (l : List Lit) : Prop := (l.map litKey).Pairwise keyLe

theorem ordered_of {l : List Lit} (h : SortedL l) : Ordered l := by
  unfold Ordered
  rw [List.pairwise_map]
  exact List.Pairwise.imp (fun hh => keyLe_cmpLit.1 hh) h

/-- What the code does with two different literals. -/
theorem key_cases {a b : Lit} (hne : litKey a ≠ litKey b) :
    (keyLe (litKey b) (litKey a) → ¬ strcmp a.literalMatch b.literalMatch < 0 ∧
      (strcmp a.literalMatch b.literalMatch > 0 ∨ ¬ strcmp a.literalMatch b.literalMatch > 0 ∧ ¬ a.kind > b.kind ∧ a.kind < b.kind)) ∧
    (keyLe (litKey a) (litKey b) → strcmp a.literalMatch b.literalMatch < 0 ∨
      ¬ strcmp a.literalMatch b.literalMatch < 0 ∧ ¬ strcmp a.literalMatch b.literalMatch > 0 ∧ a.kind > b.kind) := by
  unfold keyLe litKey at *
  simp only at *
  constructor
  · rintro (h | ⟨h1, h2⟩)
    · have := (strcmp_anti b.literalMatch a.literalMatch).1 h
      exact ⟨by omega, Or.inl this⟩
    · have h0 := strcmp_eq.2 h1.symm
      refine ⟨by omega, Or.inr ⟨by omega, by omega, ?_⟩⟩
      rcases Nat.lt_or_ge a.kind b.kind with h | h
      · exact h
      · exact absurd (Prod.ext h1.symm (by show a.kind = b.kind; omega)) hne
  · rintro (h | ⟨h1, h2⟩)
    · exact Or.inl h
    · have h0 := strcmp_eq.2 h1
      refine Or.inr ⟨by omega, by omega, ?_⟩
      rcases Nat.lt_or_ge b.kind a.kind with h | h
      · exact h
      · exact absurd (Prod.ext h1 (by show a.kind = b.kind; omega)) hne

theorem sub_head {α : Type} {a b : α} {l m : List α} (hne : a ≠ b) (h : (a :: l).Sublist (b :: m)) : (a :: l).Sublist m := by
  cases h with
  | cons _ h => exact h
  | cons_cons _ h => exact absurd rfl hne

theorem sub_tail {α : Type} {a b : α} {l m : List α} (h : (a :: l).Sublist (b :: m)) : l.Sublist m := by
  cases h with
  | cons _ h => exact (List.sublist_cons_self a l).trans h
  | cons_cons _ h => exact h

theorem less_le {r : Res} (h : Le r) : less r = some .subset := less_some.2 ⟨h, rfl⟩
theorem more_ge {r : Res} (h : Ge r) : more r = some .superset := more_some.2 ⟨h, rfl⟩

theorem lits_eq {as bs : List Lit} (h : as.map litKey = bs.map litKey) (r : Res) : lits r as bs = some r := by
  induction as generalizing bs with
  | nil =>
    cases bs with
    | nil => rw [lits]
    | cons b bs => simp at h
  | cons a as ih =>
    cases bs with
    | nil => simp at h
    | cons b bs =>
      simp only [List.map_cons, List.cons.injEq] at h
      have h1 : a.literalMatch = b.literalMatch := congrArg Prod.fst h.1
      have h2 : a.kind = b.kind := congrArg Prod.snd h.1
      have h0 := strcmp_eq.2 h1
      rw [lits, if_neg (by omega), if_neg (by omega), if_neg (by omega), if_neg (by omega)]
      exact ih h.2

theorem lits_le {as bs : List Lit} (hb : Ordered bs) (h : (as.map litKey).Sublist (bs.map litKey)) {r : Res} (hr : Le r) :
    ∃ r', lits r as bs = some r' ∧ Le r' := by
  induction bs generalizing as r with
  | nil =>
    cases as with
    | nil => exact ⟨r, by rw [lits], hr⟩
    | cons a as => simp at h
  | cons b bs ih =>
    cases as with
    | nil => exact ⟨.subset, by rw [lits, less_le hr], Or.inr rfl⟩
    | cons a as =>
      have hb' := List.pairwise_cons.1 hb
      by_cases hk : litKey a = litKey b
      · have h1 : a.literalMatch = b.literalMatch := congrArg Prod.fst hk
        have h2 : a.kind = b.kind := congrArg Prod.snd hk
        have h0 := strcmp_eq.2 h1
        rw [lits, if_neg (by omega), if_neg (by omega), if_neg (by omega), if_neg (by omega)]
        exact ih hb'.2 (sub_tail h) hr
      · have hs := sub_head hk h
        have hle : keyLe (litKey b) (litKey a) := hb'.1 _ (hs.subset List.mem_cons_self)
        obtain ⟨h1, h2⟩ := (key_cases hk).1 hle
        obtain ⟨r', hr', hl⟩ := ih hb'.2 (as := a :: as) hs (r := .subset) (Or.inr rfl)
        refine ⟨r', ?_, hl⟩
        rw [lits, if_neg h1]
        rcases h2 with h2 | ⟨h2, h3, h4⟩
        · rw [if_pos h2, less_le hr]; exact hr'
        · rw [if_neg h2, if_neg h3, if_pos h4, less_le hr]; exact hr'

theorem lits_ge {as bs : List Lit} (ha : Ordered as) (h : (bs.map litKey).Sublist (as.map litKey)) {r : Res} (hr : Ge r) :
    ∃ r', lits r as bs = some r' ∧ Ge r' := by
  induction as generalizing bs r with
  | nil =>
    cases bs with
    | nil => exact ⟨r, by rw [lits], hr⟩
    | cons a as => simp at h
  | cons a as ih =>
    cases bs with
    | nil => exact ⟨.superset, by rw [lits, more_ge hr], Or.inr rfl⟩
    | cons b bs =>
      have ha' := List.pairwise_cons.1 ha
      by_cases hk : litKey a = litKey b
      · have h1 : a.literalMatch = b.literalMatch := congrArg Prod.fst hk
        have h2 : a.kind = b.kind := congrArg Prod.snd hk
        have h0 := strcmp_eq.2 h1
        rw [lits, if_neg (by omega), if_neg (by omega), if_neg (by omega), if_neg (by omega)]
        exact ih ha'.2 (sub_tail h) hr
      · have hs := sub_head (fun e => hk e.symm) h
        have hle : keyLe (litKey a) (litKey b) := ha'.1 _ (hs.subset List.mem_cons_self)
        have h2 := (key_cases hk).2 hle
        obtain ⟨r', hr', hl⟩ := ih ha'.2 (bs := b :: bs) hs (r := .superset) (Or.inr rfl)
        refine ⟨r', ?_, hl⟩
        rw [lits]
        rcases h2 with h2 | ⟨h2, h3, h4⟩
        · rw [if_pos h2, more_ge hr]; exact hr'
        · rw [if_neg h2, if_neg h3, if_pos h4, more_ge hr]; exact hr'

/-! ## Expressions -/

theorem res_eq {as bs : List Re} (h : as.map reKey = bs.map reKey) (r : Res) : res r as bs = some r := by
  induction as generalizing bs with
  | nil =>
    cases bs with
    | nil => rw [res]
    | cons b bs => simp at h
  | cons a as ih =>
    cases bs with
    | nil => simp at h
    | cons b bs =>
      simp only [List.map_cons, List.cons.injEq] at h
      rw [res, if_pos (same_key.2 h.1)]
      exact ih h.2

/-- The first of the same is the best choice. -/
theorem after_sub {a : Re} {as l : List Re} (h : ((a :: as).map reKey).Sublist (l.map reKey)) {p : Re → Bool}
    (hp : ∀ x, p x = true ↔ reKey a = reKey x) : ∃ t, after p l = some t ∧ (as.map reKey).Sublist (t.map reKey) := by
  induction l with
  | nil => simp at h
  | cons x xs ih =>
    rw [after]
    by_cases hx : p x = true
    · rw [if_pos hx]
      exact ⟨xs, rfl, sub_tail h⟩
    · rw [if_neg hx]
      exact ih (sub_head (fun e => hx ((hp x).2 e)) h)

theorem after_none {l : List Re} {p : Re → Bool} (h : ∀ x ∈ l, p x ≠ true) : after p l = none := by
  induction l with
  | nil => rfl
  | cons x xs ih =>
    rw [after, if_neg (h x List.mem_cons_self)]
    exact ih fun y hy => h y (List.mem_cons_of_mem _ hy)

theorem res_subset {as bs : List Re} (h : (as.map reKey).Sublist (bs.map reKey)) : res .subset as bs = some .subset := by
  induction bs generalizing as with
  | nil =>
    cases as with
    | nil => rw [res]
    | cons a as => simp at h
  | cons b bs ih =>
    cases as with
    | nil => rw [res]; rfl
    | cons a as =>
      rw [res]
      by_cases hk : reKey a = reKey b
      · rw [if_pos (same_key.2 hk)]; exact ih (sub_tail h)
      · rw [if_neg (fun e => hk (same_key.1 e)), if_neg (by simp), if_pos rfl]
        exact ih (as := a :: as) (sub_head hk h)

theorem res_superset {as bs : List Re} (h : (bs.map reKey).Sublist (as.map reKey)) : res .superset as bs = some .superset := by
  induction as generalizing bs with
  | nil =>
    cases bs with
    | nil => rw [res]
    | cons a as => simp at h
  | cons a as ih =>
    cases bs with
    | nil => rw [res]; rfl
    | cons b bs =>
      rw [res]
      by_cases hk : reKey a = reKey b
      · rw [if_pos (same_key.2 hk)]; exact ih (sub_tail h)
      · rw [if_neg (fun e => hk (same_key.1 e)), if_pos rfl]
        exact ih (bs := b :: bs) (sub_head (fun e => hk e.symm) h)

theorem res_equal_le {as bs : List Re} (h : (as.map reKey).Sublist (bs.map reKey)) : ∃ r', res .equal as bs = some r' ∧ Le r' := by
  induction as generalizing bs with
  | nil =>
    cases bs with
    | nil => exact ⟨.equal, by rw [res], Or.inl rfl⟩
    | cons b bs => exact ⟨.subset, by rw [res]; rfl, Or.inr rfl⟩
  | cons a as ih =>
    cases bs with
    | nil => simp at h
    | cons b bs =>
      rw [res]
      by_cases hk : reKey a = reKey b
      · rw [if_pos (same_key.2 hk)]; exact ih (sub_tail h)
      · rw [if_neg (fun e => hk (same_key.1 e)), if_neg (by simp), if_neg (by simp)]
        obtain ⟨t, ht, hs⟩ := after_sub h (p := fun x => same a x) (fun x => same_key)
        split
        · rename_i bs' hb
          rw [ht] at hb
          simp only [Option.some.injEq] at hb
          subst hb
          exact ⟨.subset, res_subset hs, Or.inr rfl⟩
        · rename_i hb; rw [ht] at hb; simp at hb

theorem res_equal_ge {as bs : List Re} (hn : (as.map reKey).Nodup) (h : (bs.map reKey).Sublist (as.map reKey)) :
    ∃ r', res .equal as bs = some r' ∧ Ge r' := by
  induction as generalizing bs with
  | nil =>
    cases bs with
    | nil => exact ⟨.equal, by rw [res], Or.inl rfl⟩
    | cons b bs => simp at h
  | cons a as ih =>
    cases bs with
    | nil => exact ⟨.superset, by rw [res]; rfl, Or.inr rfl⟩
    | cons b bs =>
      have hn' := List.nodup_cons.1 hn
      rw [res]
      by_cases hk : reKey a = reKey b
      · rw [if_pos (same_key.2 hk)]; exact ih hn'.2 (sub_tail h)
      · rw [if_neg (fun e => hk (same_key.1 e)), if_neg (by simp), if_neg (by simp)]
        have hs := sub_head (fun e => hk e.symm) h
        have hnone : after (fun x => same a x) (b :: bs) = none := by
          refine after_none fun x hx e => hn'.1 ?_
          rw [same_key.1 e]
          exact hs.subset (List.mem_map_of_mem hx)
        obtain ⟨t, ht, hs'⟩ := after_sub h (p := fun x => same x b) (fun x => same_key.trans eq_comm)
        split
        · rename_i bs' hb; rw [hnone] at hb; simp at hb
        · split
          · rename_i as' ha
            rw [ht] at ha
            simp only [Option.some.injEq] at ha
            subst ha
            exact ⟨.superset, res_superset hs', Or.inr rfl⟩
          · rename_i ha; rw [ht] at ha; simp at ha

theorem res_le {as bs : List Re} (h : (as.map reKey).Sublist (bs.map reKey)) {r : Res} (hr : Le r) :
    ∃ r', res r as bs = some r' ∧ Le r' := by
  rcases hr with rfl | rfl
  · exact res_equal_le h
  · exact ⟨_, res_subset h, Or.inr rfl⟩

theorem res_ge {as bs : List Re} (hn : (as.map reKey).Nodup) (h : (bs.map reKey).Sublist (as.map reKey)) {r : Res} (hr : Ge r) :
    ∃ r', res r as bs = some r' ∧ Ge r' := by
  rcases hr with rfl | rfl
  · exact res_equal_ge hn h
  · exact ⟨_, res_superset h, Or.inr rfl⟩

/-! ## Children -/

/-- Children are in strict order. -/
def Ord (l : List Node) : Prop := l.Pairwise (fun a b => strcmp a.stem b.stem < 0)

theorem kids_le {f : Node → Node → Option Res} {cs ds : List Node} (hc : Ord cs) (hd : Ord ds)
    (h : ∀ c ∈ cs, ∃ d ∈ ds, c.stem = d.stem ∧ ∃ x, f c d = some x ∧ Le x) {r : Res} (hr : Le r) :
    ∃ r', kids f r cs ds = some r' ∧ Le r' := by
  induction ds generalizing cs r with
  | nil =>
    cases cs with
    | nil => exact ⟨r, by rw [kids], hr⟩
    | cons c cs => obtain ⟨d, hd, _⟩ := h c List.mem_cons_self; simp at hd
  | cons d ds ih =>
    cases cs with
    | nil => exact ⟨.subset, by rw [kids, less_le hr], Or.inr rfl⟩
    | cons c cs =>
      have hd' := List.pairwise_cons.1 hd
      have hc' := List.pairwise_cons.1 hc
      rw [kids]
      by_cases hs : c.stem = d.stem
      · have h0 := strcmp_eq.2 hs
        rw [if_neg (by omega), if_neg (by omega)]
        obtain ⟨y, hy, hys, x, hx, hxl⟩ := h c List.mem_cons_self
        have hyd : y = d := by
          rcases List.mem_cons.1 hy with e | hy
          · exact e
          · have := hd'.1 y hy
            rw [← hys, hs] at this
            have := strcmp_eq.2 (rfl : d.stem = d.stem)
            omega
        subst hyd
        have hrest : ∀ c' ∈ cs, ∃ d' ∈ ds, c'.stem = d'.stem ∧ ∃ x, f c' d' = some x ∧ Le x := by
          intro c' hc''
          obtain ⟨z, hz, hzs, hh⟩ := h c' (List.mem_cons_of_mem _ hc'')
          rcases List.mem_cons.1 hz with rfl | hz
          · have := hc'.1 c' hc''
            rw [hzs, hs] at this
            have := strcmp_eq.2 (rfl : z.stem = z.stem)
            omega
          · exact ⟨z, hz, hzs, hh⟩
        rw [hx]
        rcases hxl with rfl | rfl
        · exact ih hc'.2 hd'.2 hrest hr
        · simp only [less_le hr, Option.bind_some]
          exact ih hc'.2 hd'.2 hrest (Or.inr rfl)
      · -- `d` is only in the second
        have hall : ∀ c' ∈ c :: cs, ∃ d' ∈ ds, c'.stem = d'.stem ∧ ∃ x, f c' d' = some x ∧ Le x := by
          obtain ⟨y, hy, hys, hh⟩ := h c List.mem_cons_self
          have hyd : y ∈ ds := by
            rcases List.mem_cons.1 hy with rfl | hy
            · exact absurd hys hs
            · exact hy
          have hlt := hd'.1 y hyd
          rw [← hys] at hlt
          intro c' hc''
          obtain ⟨z, hz, hzs, hh⟩ := h c' hc''
          rcases List.mem_cons.1 hz with rfl | hz
          · rcases List.mem_cons.1 hc'' with rfl | hc''
            · exact absurd hzs hs
            · have h1 := hc'.1 c' hc''
              rw [hzs] at h1
              have := (strcmp_anti c.stem z.stem).1 h1
              omega
          · exact ⟨z, hz, hzs, hh⟩
        have hgt : strcmp c.stem d.stem > 0 := by
          obtain ⟨y, hy, hys, -⟩ := hall c List.mem_cons_self
          have := hd'.1 y hy
          rw [← hys] at this
          exact (strcmp_anti d.stem c.stem).1 this
        rw [if_neg (by omega), if_pos hgt, less_le hr]
        exact ih hc hd'.2 hall (Or.inr rfl)

theorem kids_ge {f : Node → Node → Option Res} {cs ds : List Node} (hc : Ord cs) (hd : Ord ds)
    (h : ∀ d ∈ ds, ∃ c ∈ cs, c.stem = d.stem ∧ ∃ x, f c d = some x ∧ Ge x) {r : Res} (hr : Ge r) :
    ∃ r', kids f r cs ds = some r' ∧ Ge r' := by
  induction cs generalizing ds r with
  | nil =>
    cases ds with
    | nil => exact ⟨r, by rw [kids], hr⟩
    | cons c cs => obtain ⟨d, hd, _⟩ := h c List.mem_cons_self; simp at hd
  | cons c cs ih =>
    cases ds with
    | nil => exact ⟨.superset, by rw [kids, more_ge hr], Or.inr rfl⟩
    | cons d ds =>
      have hd' := List.pairwise_cons.1 hd
      have hc' := List.pairwise_cons.1 hc
      rw [kids]
      by_cases hs : c.stem = d.stem
      · have h0 := strcmp_eq.2 hs
        rw [if_neg (by omega), if_neg (by omega)]
        obtain ⟨y, hy, hys, x, hx, hxl⟩ := h d List.mem_cons_self
        have hyd : y = c := by
          rcases List.mem_cons.1 hy with e | hy
          · exact e
          · have := hc'.1 y hy
            rw [hys, hs] at this
            have := strcmp_eq.2 (rfl : d.stem = d.stem)
            omega
        subst hyd
        have hrest : ∀ d' ∈ ds, ∃ c' ∈ cs, c'.stem = d'.stem ∧ ∃ x, f c' d' = some x ∧ Ge x := by
          intro c' hc''
          obtain ⟨z, hz, hzs, hh⟩ := h c' (List.mem_cons_of_mem _ hc'')
          rcases List.mem_cons.1 hz with rfl | hz
          · have := hd'.1 c' hc''
            rw [← hzs, hs] at this
            have := strcmp_eq.2 (rfl : d.stem = d.stem)
            omega
          · exact ⟨z, hz, hzs, hh⟩
        rw [hx]
        rcases hxl with rfl | rfl
        · exact ih hc'.2 hd'.2 hrest hr
        · simp only [more_ge hr, Option.bind_some]
          exact ih hc'.2 hd'.2 hrest (Or.inr rfl)
      · have hall : ∀ d' ∈ d :: ds, ∃ c' ∈ cs, c'.stem = d'.stem ∧ ∃ x, f c' d' = some x ∧ Ge x := by
          obtain ⟨y, hy, hys, hh⟩ := h d List.mem_cons_self
          have hyd : y ∈ cs := by
            rcases List.mem_cons.1 hy with rfl | hy
            · exact absurd hys hs
            · exact hy
          have hlt := hc'.1 y hyd
          rw [hys] at hlt
          intro c' hc''
          obtain ⟨z, hz, hzs, hh⟩ := h c' hc''
          rcases List.mem_cons.1 hz with rfl | hz
          · rcases List.mem_cons.1 hc'' with rfl | hc''
            · exact absurd hzs hs
            · have h1 := hd'.1 c' hc''
              rw [← hzs] at h1
              have := (strcmp_anti d.stem z.stem).1 h1
              omega
          · exact ⟨z, hz, hzs, hh⟩
        have hlt : strcmp c.stem d.stem < 0 := by
          obtain ⟨y, hy, hys, -⟩ := hall d List.mem_cons_self
          have := hc'.1 y hy
          rw [hys] at this
          exact this
        rw [if_pos hlt, more_ge hr]
        exact ih hc'.2 hd hall (Or.inr rfl)

end Verif.FcCmp
