import Verif.FileLabel.Tree
/-!
# The searches
-/
namespace Verif.FileLabel
open Spec

theorem strcmp_flip {a b : Bytes} : 0 < strcmp a b ↔ strcmp b a < 0 := (strcmp_anti b a).symm

theorem strcmp_lt_trans {a b c : Bytes} (h1 : strcmp a b < 0) (h2 : strcmp b c ≤ 0) : strcmp a c < 0 := by
  have h3 := strcmp_trans a b c (by omega) h2
  by_contra hn
  have h0 : a = c := strcmp_eq.1 (by omega)
  subst h0
  have := strcmp_anti a b
  omega

theorem strcmp_lt_trans' {a b c : Bytes} (h1 : strcmp a b ≤ 0) (h2 : strcmp b c < 0) : strcmp a c < 0 := by
  have h3 := strcmp_trans a b c h1 (by omega)
  by_contra hn
  have h0 : a = c := strcmp_eq.1 (by omega)
  subst h0
  have := strcmp_anti b a
  omega

/-! ## Children -/

theorem strict_get {l : List Node} (h : l.Pairwise (fun a b => strcmp a.stem b.stem < 0)) {i j : Nat} {a b : Node}
    (hi : l[i]? = some a) (hj : l[j]? = some b) (hij : i < j) : strcmp a.stem b.stem < 0 := by
  obtain ⟨h1, rfl⟩ := List.getElem?_eq_some_iff.1 hi
  obtain ⟨h2, rfl⟩ := List.getElem?_eq_some_iff.1 hj
  exact List.pairwise_iff_getElem.1 h i j h1 h2 hij

theorem searchChildLoop_spec {l : List Node} (h : l.Pairwise (fun a b => strcmp a.stem b.stem < 0)) (key : Bytes)
    (lower upper : Nat) (hup : upper < l.length)
    (hlo : ∀ i a, i < lower → l[i]? = some a → a.stem ≠ key)
    (hhi : ∀ i a, upper < i → l[i]? = some a → a.stem ≠ key) :
    match searchChildLoop l.toArray key lower upper with
    | some c => c ∈ l ∧ c.stem = key
    | none => ∀ c ∈ l, c.stem ≠ key := by
  induction hk : upper + 1 - lower using Nat.strongRecOn generalizing lower upper with
  | _ k ih =>
    rw [searchChildLoop]
    by_cases hle : lower ≤ upper
    · rw [if_pos hle]
      simp only
      generalize hm : lower + (upper - lower) / 2 = m
      have hml : m < l.length := by omega
      simp only [List.getElem?_toArray]
      rw [List.getElem?_eq_getElem hml]
      simp only
      obtain ⟨hn1, hn2⟩ := strncmp_stem l[m].stem key
      by_cases he : strncmp l[m].stem key key.length = 0 ∧ l[m].stem.length = key.length
      · rw [if_pos (by simp [he.1, he.2])]
        exact ⟨List.getElem_mem hml, hn2.1 he⟩
      · rw [if_neg (by simpa using he)]
        have hne : l[m].stem ≠ key := fun hh => he (hn2.2 hh)
        have hmg : l[m]? = some l[m] := List.getElem?_eq_getElem hml
        by_cases hlt : strncmp l[m].stem key key.length < 0
        · rw [if_pos hlt]
          refine ih (upper + 1 - (m + 1)) (by omega) (m + 1) upper hup ?_ hhi rfl
          intro i a hi ha
          by_cases him : i = m
          · subst him; rw [hmg] at ha; simp only [Option.some.injEq] at ha; rw [← ha]; exact hne
          · have h1 := strict_get h ha hmg (by omega)
            have h2 := hn1.1 hlt
            have := strcmp_lt_trans h1 (Int.le_of_lt h2)
            intro hh; rw [hh] at this
            have := strcmp_anti key key; omega
        · rw [if_neg hlt]
          have hgt : strcmp key l[m].stem < 0 := by
            rw [← strcmp_flip]
            have h1 : ¬ strcmp l[m].stem key < 0 := fun hh => hlt (hn1.2 hh)
            have h2 : strcmp l[m].stem key ≠ 0 := fun hh => hne (strcmp_eq.1 hh)
            omega
          have hhi' : ∀ i a, m ≤ i → l[i]? = some a → a.stem ≠ key := by
            intro i a hi ha
            by_cases him : i = m
            · subst him; rw [hmg] at ha; simp only [Option.some.injEq] at ha; rw [← ha]; exact hne
            · have h1 := strict_get h hmg ha (by omega)
              have := strcmp_lt_trans hgt (Int.le_of_lt h1)
              intro hh; rw [hh] at this
              have := strcmp_anti key key; omega
          by_cases hm0 : m = 0
          · rw [if_pos hm0]
            intro c hc
            obtain ⟨i, hi, rfl⟩ := List.getElem_of_mem hc
            exact hhi' i _ (by omega) (List.getElem?_eq_getElem hi)
          · rw [if_neg hm0]
            exact ih (m - 1 + 1 - lower) (by omega) lower (m - 1) (by omega) hlo
              (fun i a hi ha => hhi' i a (by omega) ha) rfl
    · rw [if_neg hle]
      intro c hc
      obtain ⟨i, hi, rfl⟩ := List.getElem_of_mem hc
      by_cases h1 : i < lower
      · exact hlo i _ h1 (List.getElem?_eq_getElem hi)
      · exact hhi i _ (by omega) (List.getElem?_eq_getElem hi)

theorem strict_nodup {l : List Node} (h : l.Pairwise (fun a b => strcmp a.stem b.stem < 0)) :
    (l.map Node.stem).Nodup := by
  rw [List.Nodup, List.pairwise_map]
  exact h.imp (fun {a b} hab hh => by rw [hh] at hab; have := strcmp_anti b.stem b.stem; omega)

theorem searchChild_eq {n : Node} (h : Strict n) (key : Bytes) :
    searchChild n.children.toArray key = child n key := by
  unfold searchChild child
  by_cases h0 : n.children.toArray.size = 0
  · rw [if_pos h0]
    have : n.children = [] := by simpa using h0
    rw [this]; rfl
  · rw [if_neg h0]
    have hs : n.children.toArray.size = n.children.length := by simp
    have := searchChildLoop_spec h key 0 (n.children.toArray.size - 1) (by omega)
      (fun i a hi => absurd hi (by omega))
      (fun i a hi ha => by
        obtain ⟨h1, _⟩ := List.getElem?_eq_some_iff.1 ha
        omega)
    revert this
    cases searchChildLoop n.children.toArray key 0 (n.children.toArray.size - 1) with
    | none =>
      intro hn
      rw [eq_comm, List.find?_eq_none]
      intro x hx
      simpa using hn x hx
    | some c =>
      intro hc
      rw [eq_comm]
      exact (find_unique (strict_nodup h) key c).2 hc

/-! ## Literals -/

/-- Sorted literals. -/
abbrev SortedL (l : List Lit) : Prop := l.Pairwise (fun a b => cmpLit a b ≤ 0)

theorem sortedL_le {l : List Lit} (h : SortedL l) {i j : Nat} {a b : Lit}
    (hi : l[i]? = some a) (hj : l[j]? = some b) (hij : i ≤ j) :
    strcmp a.literalMatch b.literalMatch ≤ 0 := by
  obtain ⟨h1, rfl⟩ := List.getElem?_eq_some_iff.1 hi
  obtain ⟨h2, rfl⟩ := List.getElem?_eq_some_iff.1 hj
  rcases Nat.lt_or_ge i j with hlt | hge
  · have := (cmpLit_nonpos _ _).1 (List.pairwise_iff_getElem.1 h i j h1 h2 hlt)
    rcases this with h | ⟨h, _⟩
    · omega
    · rw [strcmp_eq.2 h]; exact Int.le_refl _
  · have : i = j := by omega
    subst this
    rw [strcmp_eq.2 rfl]; exact Int.le_refl _

theorem firstMatch_spec (l : List Lit) (h : SortedL l) (key : Bytes) (m : Nat) (a : Lit) (hm : l[m]? = some a)
    (ha : a.literalMatch = key) :
    (∃ b, l[firstMatch false l.toArray key m]? = some b ∧ b.literalMatch = key) ∧
    ∀ i b, i < firstMatch false l.toArray key m → l[i]? = some b → b.literalMatch ≠ key := by
  induction m generalizing a with
  | zero => rw [firstMatch]; exact ⟨⟨a, hm, ha⟩, fun i b hi => absurd hi (by omega)⟩
  | succ m ih =>
    rw [firstMatch]
    simp only [List.getElem?_toArray]
    obtain ⟨h1, _⟩ := List.getElem?_eq_some_iff.1 hm
    have hml : m < l.length := by omega
    have hmg : l[m]? = some l[m] := List.getElem?_eq_getElem hml
    rw [hmg]
    simp only [litCmp, Bool.false_eq_true, if_false]
    by_cases he : strcmp l[m].literalMatch key = 0
    · rw [if_pos he]
      exact ih _ hmg (strcmp_eq.1 he)
    · rw [if_neg he]
      refine ⟨⟨a, hm, ha⟩, ?_⟩
      intro i b hi hb hbk
      have hle := sortedL_le h hb hmg (by omega)
      have hle2 := sortedL_le h hmg hm (by omega)
      rw [hbk] at hle
      rw [ha] at hle2
      exact he (by rw [strcmp_le_antisymm hle2 hle]; exact strcmp_eq.2 rfl)

theorem searchLitLoop_spec {l : List Lit} (h : SortedL l) (key : Bytes)
    (lower upper : Nat) (hup : upper < l.length)
    (hlo : ∀ i a, i < lower → l[i]? = some a → a.literalMatch ≠ key)
    (hhi : ∀ i a, upper < i → l[i]? = some a → a.literalMatch ≠ key) :
    match searchLitLoop false l.toArray key lower upper with
    | some i => (∃ b, l[i]? = some b ∧ b.literalMatch = key) ∧
        ∀ j b, j < i → l[j]? = some b → b.literalMatch ≠ key
    | none => ∀ c ∈ l, c.literalMatch ≠ key := by
  induction hk : upper + 1 - lower using Nat.strongRecOn generalizing lower upper with
  | _ k ih =>
    rw [searchLitLoop]
    by_cases hle : lower ≤ upper
    · rw [if_pos hle]
      simp only
      generalize hm : lower + (upper - lower) / 2 = m
      have hml : m < l.length := by omega
      simp only [List.getElem?_toArray]
      have hmg : l[m]? = some l[m] := List.getElem?_eq_getElem hml
      rw [hmg]
      simp only [litCmp, Bool.false_eq_true, if_false]
      by_cases he : strcmp l[m].literalMatch key = 0
      · rw [if_pos he]
        exact firstMatch_spec l h key m _ hmg (strcmp_eq.1 he)
      · rw [if_neg he]
        have hne : l[m].literalMatch ≠ key := fun hh => he (strcmp_eq.2 hh)
        by_cases hlt : strcmp l[m].literalMatch key < 0
        · rw [if_pos hlt]
          refine ih (upper + 1 - (m + 1)) (by omega) (m + 1) upper hup ?_ hhi rfl
          intro i a hi ha
          have h1 := sortedL_le h ha hmg (by omega)
          have := strcmp_lt_trans' h1 hlt
          intro hh; rw [hh] at this
          have := strcmp_anti key key; omega
        · rw [if_neg hlt]
          have hgt : strcmp key l[m].literalMatch < 0 := by
            rw [← strcmp_flip]; omega
          have hhi' : ∀ i a, m ≤ i → l[i]? = some a → a.literalMatch ≠ key := by
            intro i a hi ha
            have h1 := sortedL_le h hmg ha hi
            have := strcmp_lt_trans hgt h1
            intro hh; rw [hh] at this
            have := strcmp_anti key key; omega
          by_cases hm0 : m = 0
          · rw [if_pos hm0]
            intro c hc
            obtain ⟨i, hi, rfl⟩ := List.getElem_of_mem hc
            exact hhi' i _ (by omega) (List.getElem?_eq_getElem hi)
          · rw [if_neg hm0]
            exact ih (m - 1 + 1 - lower) (by omega) lower (m - 1) (by omega) hlo
              (fun i a hi ha => hhi' i a (by omega) ha) rfl
    · rw [if_neg hle]
      intro c hc
      obtain ⟨i, hi, rfl⟩ := List.getElem_of_mem hc
      by_cases h1 : i < lower
      · exact hlo i _ h1 (List.getElem?_eq_getElem hi)
      · exact hhi i _ (by omega) (List.getElem?_eq_getElem hi)

theorem searchLit_spec {l : List Lit} (h : SortedL l) (key : Bytes) :
    match searchLit false l.toArray key with
    | some i => (∃ b, l[i]? = some b ∧ b.literalMatch = key) ∧
        ∀ j b, j < i → l[j]? = some b → b.literalMatch ≠ key
    | none => ∀ c ∈ l, c.literalMatch ≠ key := by
  unfold searchLit
  by_cases h0 : l.toArray.size = 0
  · rw [if_pos h0]
    have : l = [] := by simpa using h0
    rw [this]; simp
  · rw [if_neg h0]
    have hs : l.toArray.size = l.length := by simp
    exact searchLitLoop_spec h key 0 (l.toArray.size - 1) (by omega)
      (fun i a hi => absurd hi (by omega))
      (fun i a hi ha => by
        obtain ⟨h1, _⟩ := List.getElem?_eq_some_iff.1 ha
        omega)

/-- What the loop over the literals returns for one of them. -/
def litAnswer (l : Lit) : Except Err Hit :=
  if l.ctx = none_ then .error .noent else .ok ⟨l.regexStr, l.ctx, l.prefixLen, l.kind, false⟩

theorem litLoop_spec {l : List Lit} (h : SortedL l) (key : Bytes) (kind : Nat)
    (hhead : ∀ a, l.head? = some a → a.literalMatch = key) :
    match litLoop false key kind l with
    | some r => ∃ a ∈ l, a.literalMatch = key ∧ kindOk kind a.kind = true ∧ r = litAnswer a ∧
        ∀ b ∈ l, b.literalMatch = key → kindOk kind b.kind = true → b.kind ≤ a.kind
    | none => ∀ b ∈ l, b.literalMatch = key → kindOk kind b.kind ≠ true := by
  induction l with
  | nil => rw [litLoop]; simp
  | cons a as ih =>
    have ha : a.literalMatch = key := hhead a rfl
    rw [litLoop.eq_def]
    simp only
    have hcons := List.pairwise_cons.1 h
    by_cases hk : kindOk kind a.kind = true
    · have key2 : ∃ x ∈ a :: as, x.literalMatch = key ∧ kindOk kind x.kind = true ∧ litAnswer a = litAnswer x ∧
          ∀ b ∈ a :: as, b.literalMatch = key → kindOk kind b.kind = true → b.kind ≤ x.kind := by
        refine ⟨a, List.mem_cons_self, ha, hk, rfl, ?_⟩
        intro b hb hbk _
        rcases List.mem_cons.1 hb with rfl | hb
        · exact Nat.le_refl _
        · have := (cmpLit_nonpos a b).1 (hcons.1 b hb)
          rw [ha, hbk] at this
          rcases this with h | ⟨_, h⟩
          · have := strcmp_anti key key; omega
          · exact h
      rw [if_pos hk]
      by_cases hn : a.ctx = none_
      · rw [if_pos hn]
        rw [show litAnswer a = _ from if_pos hn] at key2
        exact key2
      · rw [if_neg hn]
        rw [show litAnswer a = _ from if_neg hn] at key2
        exact key2
    · rw [if_neg hk]
      cases as with
      | nil => simp only [List.mem_singleton]; rintro b rfl _; exact hk
      | cons l' ls =>
        simp only
        simp only [litCmp, Bool.false_eq_true, if_false]
        by_cases he : strcmp l'.literalMatch key = 0
        · rw [if_pos he]
          have := ih hcons.2 (by intro x hx; simp only [List.head?_cons, Option.some.injEq] at hx; rw [← hx]; exact strcmp_eq.1 he)
          revert this
          cases litLoop false key kind (l' :: ls) with
          | none =>
            intro hn b hb hbk
            rcases List.mem_cons.1 hb with rfl | hb
            · exact hk
            · exact hn b hb hbk
          | some r =>
            rintro ⟨x, hx, hxk, hxo, hr, hbest⟩
            refine ⟨x, List.mem_cons_of_mem _ hx, hxk, hxo, hr, ?_⟩
            intro b hb hbk hbo
            rcases List.mem_cons.1 hb with rfl | hb
            · exact absurd hbo hk
            · exact hbest b hb hbk hbo
        · rw [if_neg he]
          intro b hb hbk
          rcases List.mem_cons.1 hb with rfl | hb
          · exact hk
          · exfalso
            have h1 : strcmp a.literalMatch l'.literalMatch ≤ 0 :=
              sortedL_le (i := 0) (j := 1) h rfl rfl (by omega)
            have h2 : strcmp l'.literalMatch b.literalMatch ≤ 0 := by
              obtain ⟨j, hj, hjb⟩ := List.getElem_of_mem hb
              exact sortedL_le (i := 0) (j := j) hcons.2 rfl (by rw [← hjb]; exact List.getElem?_eq_getElem hj) (by omega)
            rw [ha] at h1
            rw [hbk] at h2
            exact he (by rw [strcmp_le_antisymm h2 h1]; exact strcmp_eq.2 rfl)

/-! ## The way down -/

/-- The nodes along directories, the deepest first. -/
def walk (n : Node) (ps : List Node) : List Bytes → List Node
  | [] => n :: ps
  | d :: ds =>
    match child n d with
    | none => n :: ps
    | some c => walk c (n :: ps) ds

theorem deepest_walk (n : Node) (ps : List Node) (p : Bytes) (hc : p.head? = some slash)
    (hd : ∀ d ∈ dirs p, d ≠ []) (hs : ∀ path m, at_ n path = some m → Strict m) :
    deepest n ps p = walk n ps (dirs p) := by
  induction hk : p.length using Nat.strongRecOn generalizing n ps p with
  | _ k ih =>
    cases p with
    | nil => simp at hc
    | cons b bs =>
      simp only [List.head?_cons, Option.some.injEq] at hc
      unfold dirs at hd ⊢
      simp only [List.drop_succ_cons, List.drop_zero] at hd ⊢
      rw [parts_cut] at hd ⊢
      rw [deepest]
      rw [if_neg (by simp [hc])]
      split
      · rename_i hcut; rw [hcut]; rfl
      · rename_i seg q hcut
        rw [hcut] at hd ⊢
        simp only at hd ⊢
        rw [if_neg (hd seg List.mem_cons_self), searchChild_eq (hs [] n rfl), walk]
        cases hch : child n seg with
        | none => rfl
        | some c =>
          simp only
          have hl := cut_length hcut
          simp only [List.length_cons] at hk
          exact ih q.length (by omega) c (n :: ps) q (cut_head hcut)
            (fun d hd' => hd d (List.mem_cons_of_mem _ hd'))
            (fun path m hm => hs (seg :: path) m (by simp only [at_, hch, Option.bind_some]; exact hm)) rfl

/-- The nodes of a walk with their paths, the deepest first. -/
theorem walk_eq (n : Node) (ps : List Node) (ds : List Bytes) :
    ∃ k, k ≤ ds.length ∧ (∀ i ≤ k, (at_ n (ds.take i)).isSome = true) ∧
      (k < ds.length → at_ n (ds.take (k + 1)) = none) ∧
      walk n ps ds = (List.range (k + 1)).reverse.filterMap (fun i => at_ n (ds.take i)) ++ ps := by
  induction ds generalizing n ps with
  | nil => exact ⟨0, by simp, by intro i _; simp [at_], by simp, by simp [walk, at_]⟩
  | cons d ds ih =>
    rw [walk]
    cases hch : child n d with
    | none =>
      refine ⟨0, by simp, ?_, ?_, ?_⟩
      · intro i hi
        have : i = 0 := by omega
        subst this; simp [at_]
      · intro _; simp [at_, hch]
      · simp [at_]
    | some c =>
      obtain ⟨k, h1, h2, h3, h4⟩ := ih c (n :: ps)
      refine ⟨k + 1, by simpa using h1, ?_, ?_, ?_⟩
      · intro i hi
        cases i with
        | zero => simp [at_]
        | succ i => simp only [List.take_succ_cons, at_, hch, Option.bind_some]; exact h2 i (by omega)
      · intro hlt
        simp only [List.take_succ_cons, at_, hch, Option.bind_some]
        exact h3 (by simpa using hlt)
      · simp only
        rw [h4]
        rw [List.range_succ_eq_map (n := k + 1), List.reverse_cons, List.filterMap_append, ← List.map_reverse, List.filterMap_map]
        simp only [List.append_assoc]
        congr 1
        · apply List.filterMap_congr
          intro i _
          simp [at_, hch]

end Verif.FileLabel
