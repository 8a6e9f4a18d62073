import Verif.Bounds.Model
import Verif.Assertion.Lemmas
import Verif.Avtab.Lemmas2

/-! # Lemmas on the tables of the bounds checks -/

namespace Verif.Bounds
open Verif.Avtab Verif.Policy Verif.Optimize Verif.Assertion

/-- A key of the temporary tables. -/
def K (s t cls : Nat) : Key := ⟨s, t, cls, ALLOWED⟩

/-- The permission is in the table. -/
def Has (h : Avtab) (k : Key) (b : Nat) : Prop := ∃ d, search h k = some d ∧ d.data.getLsbD b = true

/-- A temporary table. -/
structure Tab (h : Avtab) : Prop where
  ex : ∃ tb, h.htable = some tb ∧ (∀ i, Sorted (tb i)) ∧ ∀ i, ∀ n ∈ tb i, n.key.specified = ALLOWED

theorem hits_same {k c : Key} (hk : k.specified = ALLOWED) (hc : c.specified = ALLOWED) : hits k c = true ↔ k = c := by
  cases k; cases c
  simp only at hk hc
  subst hk hc
  have : (kindMask ALLOWED &&& ALLOWED != 0#16) = true := by decide
  simp [hits, this]
  tauto

theorem tab_alloc : Tab (alloc init SIZE) := by
  refine ⟨⟨fun _ => [], by simp [alloc, SIZE], fun _ => List.Pairwise.nil, by simp⟩⟩

theorem not_has_alloc (k : Key) (b : Nat) : ¬ Has (alloc init SIZE) k b := by
  rintro ⟨d, h, _⟩
  simp [search, alloc, SIZE, searchChain] at h

theorem not_has_init (k : Key) (b : Nat) : ¬ Has init k b := by
  rintro ⟨d, h, _⟩
  simp [search, init] at h

theorem search_eq {h : Avtab} {tb} (htb : h.htable = some tb) (hs : ∀ i, Sorted (tb i)) (k : Key) :
    search h k = ((tb (hash k h.mask)).find? (fun n => hits k n.key)).map Node.datum := by
  unfold search; rw [htb]; exact search_find _ _ (hs _)

theorem orChain_find (k : Key) (v : BitVec 32) (l : List Avtab.Node) (hs : Sorted l)
    (hk : k.specified = ALLOWED) (ha : ∀ n ∈ l, n.key.specified = ALLOWED) :
    Sorted (orChain k v l) ∧ (∀ n ∈ orChain k v l, n.key.specified = ALLOWED) ∧
    ((orChain k v l).map Node.key = l.map Node.key) ∧
    (orChain k v l).find? (fun n => hits k n.key) =
      (l.find? (fun n => hits k n.key)).map (fun c => ⟨c.key, { c.datum with data := c.datum.data ||| v }⟩) ∧
    (∀ q, q.specified = ALLOWED → q ≠ k →
      (orChain k v l).find? (fun n => hits q n.key) = l.find? (fun n => hits q n.key)) := by
  have hkeys : ∀ l, (orChain k v l).map Node.key = l.map Node.key := by
    intro l
    induction l with
    | nil => rfl
    | cons c cs ih =>
      rw [orChain]
      split
      · rfl
      · split
        · rfl
        · simp [ih]
  have hsorted : Sorted (orChain k v l) := by
    have : ((orChain k v l).map Node.key).Pairwise (fun a b => before b a = false) := by
      rw [hkeys, List.pairwise_map]; exact hs
    rw [List.pairwise_map] at this
    exact this
  refine ⟨hsorted, ?_, hkeys l, ?_, ?_⟩
  · intro n hn
    have : n.key ∈ (orChain k v l).map Node.key := List.mem_map_of_mem hn
    rw [hkeys] at this
    obtain ⟨m, hm, hmk⟩ := List.mem_map.1 this
    rw [← hmk]; exact ha m hm
  · clear hsorted
    induction l with
    | nil => rfl
    | cons c cs ih =>
      rw [orChain]
      split
      · rename_i hh; simp [List.find?, hh]
      · rename_i hh
        split
        · rename_i hb
          have hn := no_hit_after hs hb
          have : (c :: cs).find? (fun n => hits k n.key) = none := by
            rw [List.find?_eq_none]
            intro x hx; rw [hn x hx]; simp
          rw [this]; rfl
        · have hh' : hits k c.key = false := by simpa using hh
          simp only [List.find?, hh']
          exact ih (List.pairwise_cons.1 hs).2 (fun n hn => ha n (List.mem_cons_of_mem _ hn))
  · intro q hq hne
    clear hsorted
    induction l with
    | nil => rfl
    | cons c cs ih =>
      rw [orChain]
      have hc := ha c List.mem_cons_self
      split
      · rename_i hh
        have hkc := (hits_same hk hc).1 hh
        have : hits q c.key = false := by
          by_contra hcon
          exact hne (((hits_same hq hc).1 (by simpa using hcon)).trans hkc.symm)
        simp [List.find?, this]
      · split
        · rfl
        · simp only [List.find?]
          rw [ih (List.pairwise_cons.1 hs).2 (fun n hn => ha n (List.mem_cons_of_mem _ hn))]

theorem hash_inj_bucket {tb : Nat → List Avtab.Node} {i j : Nat} {l : List Avtab.Node} :
    setBucket tb i l j = if j = i then l else tb j := rfl

theorem insertOr_spec {h : Avtab} (hT : Tab h) {k : Key} (hk : k.specified = ALLOWED) (v : BitVec 32) :
    ∃ h', insertOr h k v = some h' ∧ Tab h' ∧
      ∀ q, q.specified = ALLOWED → ∀ b, Has h' q b ↔ Has h q b ∨ (q = k ∧ v.getLsbD b = true) := by
  obtain ⟨tb, htb, hs, ha⟩ := hT.ex
  have hsk := search_eq htb hs k
  unfold insertOr
  cases hsr : search h k with
  | none =>
    rw [hsr] at hsk
    have hnone : (tb (hash k h.mask)).find? (fun n => hits k n.key) = none := by
      cases hf : (tb (hash k h.mask)).find? (fun n => hits k n.key) with
      | none => rfl
      | some n => rw [hf] at hsk; simp at hsk
    rw [List.find?_eq_none] at hnone
    have hx : isXperm k = false := by unfold isXperm; rw [hk]; decide
    have hm : mkNode k ⟨v, none⟩ = ⟨k, ⟨v, none⟩⟩ := by unfold mkNode; rw [hx]; rfl
    cases hic : insertChain k (mkNode k ⟨v, none⟩) (tb (hash k h.mask)) with
    | none =>
      rw [insertChain_none k _ _ (hs _)] at hic
      obtain ⟨_, c, hc, hh⟩ := hic
      exact absurd hh (hnone c hc)
    | some l =>
      have hl := insertChain_eq _ _ _ _ hic
      have hins : Avtab.insert h k ⟨v, none⟩ =
          ({ h with htable := some (setBucket tb (hash k h.mask) l), nel := h.nel + 1 }, .ok) := by
        unfold Avtab.insert; rw [htb]; simp only; rw [hic]
      simp only [hins]
      have hsl : Sorted l := by
        rw [hl]; exact insertNonuniqueChain_sorted k _ (by rw [hm]; exact ⟨rfl, rfl, rfl⟩) _ (hs _)
      have hal : ∀ n ∈ l, n.key.specified = ALLOWED := by
        intro n hn
        rw [hl, (insertNonuniqueChain_perm k _ _).mem_iff, hm] at hn
        rcases List.mem_cons.1 hn with rfl | hn
        · exact hk
        · exact ha _ n hn
      refine ⟨_, rfl, ⟨⟨_, rfl, ?_, ?_⟩⟩, ?_⟩
      · intro i; rw [hash_inj_bucket]; split
        · exact hsl
        · exact hs i
      · intro i; rw [hash_inj_bucket]; split
        · exact hal
        · exact ha i
      · intro q hq b
        have hsingle : SingleKind ALLOWED := ⟨0, by decide, by decide⟩
        have hfind : l.find? (fun x => hits q x.key) =
            if q = k then some ⟨k, ⟨v, none⟩⟩ else (tb (hash k h.mask)).find? (fun x => hits q x.key) := by
          rw [hl, find_insertNonunique k q _ _ (by rw [hm]) (by rw [hq]; exact hsingle) (by rw [hk]; exact hsingle), hm]
          by_cases hqk : q = k
          · rw [if_pos hqk, if_pos ((hits_same hq hk).2 hqk)]
          · rw [if_neg hqk, if_neg (fun hh => hqk ((hits_same hq hk).1 hh))]
        unfold Has
        have hs' : search { h with htable := some (setBucket tb (hash k h.mask) l), nel := h.nel + 1 } q =
            ((setBucket tb (hash k h.mask) l (hash q h.mask)).find? (fun n => hits q n.key)).map Node.datum := by
          refine search_eq (h := { h with htable := some (setBucket tb (hash k h.mask) l), nel := h.nel + 1 }) rfl ?_ q
          intro i; rw [hash_inj_bucket]; split
          · exact hsl
          · exact hs i
        rw [hs', search_eq htb hs q, hash_inj_bucket]
        by_cases hqk : q = k
        · subst hqk
          rw [if_pos rfl, hfind, if_pos rfl, ← hsk]
          simp
        · have : ∀ x, (x = hash k h.mask → x = hash q h.mask →
            (if hash q h.mask = hash k h.mask then l else tb (hash q h.mask)).find? (fun n => hits q n.key) =
              (tb (hash q h.mask)).find? (fun n => hits q n.key)) := by
            intro x h1 h2
            rw [if_pos (h2.symm.trans h1), hfind, if_neg hqk, ← h1, h2]
          by_cases heq : hash q h.mask = hash k h.mask
          · rw [this _ heq rfl]; simp [hqk]
          · rw [if_neg heq]; simp [hqk]
  | some d =>
    rw [hsr] at hsk
    simp only
    refine ⟨_, rfl, ?_⟩
    have ho := orChain_find k v (tb (hash k h.mask)) (hs _) hk (ha _)
    have hod : orData h k v = { h with htable := some (setBucket tb (hash k h.mask) (orChain k v (tb (hash k h.mask)))) } := by
      unfold orData; rw [htb]
    rw [hod]
    have hsb : ∀ i, Sorted (setBucket tb (hash k h.mask) (orChain k v (tb (hash k h.mask))) i) := by
      intro i; rw [hash_inj_bucket]; split
      · exact ho.1
      · exact hs i
    refine ⟨⟨⟨_, rfl, hsb, ?_⟩⟩, ?_⟩
    · intro i; rw [hash_inj_bucket]; split
      · exact ho.2.1
      · exact ha i
    · intro q hq b
      unfold Has
      have hs' := search_eq (h := { h with htable := some (setBucket tb (hash k h.mask) (orChain k v (tb (hash k h.mask)))) }) rfl hsb q
      rw [hs', search_eq htb hs q]
      simp only [hash_inj_bucket]
      by_cases hqk : q = k
      · subst hqk
        rw [if_pos rfl, ho.2.2.2.1]
        cases hf : (tb (hash q h.mask)).find? (fun n => hits q n.key) with
        | none => rw [hf] at hsk; simp at hsk
        | some n => simp
      · by_cases heq : hash q h.mask = hash k h.mask
        · rw [if_pos heq, ho.2.2.2.2 q hq hqk, heq]; simp [hqk]
        · rw [if_neg heq]; simp [hqk]

theorem insertRule_spec {a g : Avtab} (ha : Tab a) (hg : Tab g) (other : Option Avtab) {k : Key}
    (hk : k.specified = ALLOWED) (v : BitVec 32) :
    ∃ a' g', insertRule a g other k v = some (a', g') ∧ Tab a' ∧ Tab g' ∧
      (∀ q, q.specified = ALLOWED → ∀ b, Has a' q b ↔ Has a q b ∨ (q = k ∧ v.getLsbD b = true)) ∧
      (∀ q, q.specified = ALLOWED → ∀ b, Has g' q b ↔
        Has g q b ∨ (q = k ∧ v.getLsbD b = true ∧ ∃ o, other = some o ∧ Has o q b)) := by
  obtain ⟨a', h1, h2, h3⟩ := insertOr_spec ha hk v
  unfold insertRule
  rw [h1]
  simp only [Option.bind_some]
  cases other with
  | none => exact ⟨a', g, rfl, h2, hg, h3, by simp⟩
  | some o =>
    simp only
    cases hs : search o k with
    | none =>
      refine ⟨a', g, rfl, h2, hg, h3, ?_⟩
      intro q hq b
      constructor
      · exact Or.inl
      · rintro (h | ⟨rfl, _, o', ho, d, hd, _⟩)
        · exact h
        · simp only [Option.some.injEq] at ho; subst ho; rw [hs] at hd; simp at hd
    | some dup =>
      simp only
      split
      · obtain ⟨g', k1, k2, k3⟩ := insertOr_spec hg hk (dup.data &&& v)
        refine ⟨a', g', by rw [k1]; rfl, h2, k2, h3, ?_⟩
        intro q hq b
        rw [k3 q hq b]
        constructor
        · rintro (h | ⟨rfl, h⟩)
          · exact Or.inl h
          · rw [BitVec.getLsbD_and, Bool.and_eq_true] at h
            exact Or.inr ⟨rfl, h.2, o, rfl, dup, hs, h.1⟩
        · rintro (h | ⟨rfl, hv, o', ho, d, hd, hb⟩)
          · exact Or.inl h
          · simp only [Option.some.injEq] at ho; subst ho
            rw [hs] at hd; simp only [Option.some.injEq] at hd; subst hd
            refine Or.inr ⟨rfl, ?_⟩
            rw [BitVec.getLsbD_and, Bool.and_eq_true]; exact ⟨hb, hv⟩
      · rename_i hz
        refine ⟨a', g, rfl, h2, hg, h3, ?_⟩
        intro q hq b
        constructor
        · exact Or.inl
        · rintro (h | ⟨rfl, hv, o', ho, d, hd, hb⟩)
          · exact h
          · simp only [Option.some.injEq] at ho; subst ho
            rw [hs] at hd; simp only [Option.some.injEq] at hd; subst hd
            have hz' : dup.data &&& v = 0#32 := by simpa using hz
            have : (dup.data &&& v).getLsbD b = true := by
              rw [BitVec.getLsbD_and, Bool.and_eq_true]; exact ⟨hb, hv⟩
            rw [hz'] at this; simp at this

theorem insertTargets_spec (other : Option Avtab) (parent cls : Nat) (v : BitVec 32) (l : List Nat) :
    ∀ {a g : Avtab}, Tab a → Tab g →
    ∃ a' g', insertTargets other parent cls v l (a, g) = some (a', g') ∧ Tab a' ∧ Tab g' ∧
      (∀ q, q.specified = ALLOWED → ∀ b, Has a' q b ↔ Has a q b ∨
        ((∃ i ∈ l, q = ⟨parent % 2 ^ 16, (i + 1) % 2 ^ 16, cls, ALLOWED⟩) ∧ v.getLsbD b = true)) ∧
      (∀ q, q.specified = ALLOWED → ∀ b, Has g' q b ↔ Has g q b ∨
        ((∃ i ∈ l, q = ⟨parent % 2 ^ 16, (i + 1) % 2 ^ 16, cls, ALLOWED⟩) ∧ v.getLsbD b = true ∧
          ∃ o, other = some o ∧ Has o q b)) := by
  induction l with
  | nil => intro a g ha hg; exact ⟨a, g, rfl, ha, hg, by simp, by simp⟩
  | cons i l ih =>
    intro a g ha hg
    obtain ⟨a1, g1, h1, h2, h3, h4, h5⟩ := insertRule_spec ha hg other
      (k := ⟨parent % 2 ^ 16, (i + 1) % 2 ^ 16, cls, ALLOWED⟩) rfl v
    obtain ⟨a2, g2, k1, k2, k3, k4, k5⟩ := ih h2 h3
    refine ⟨a2, g2, by rw [insertTargets, h1]; exact k1, k2, k3, ?_, ?_⟩
    · intro q hq b
      rw [k4 q hq b, h4 q hq b]
      simp only [List.mem_cons, exists_eq_or_imp]
      tauto
    · intro q hq b
      rw [k5 q hq b, h5 q hq b]
      simp only [List.mem_cons, exists_eq_or_imp]
      generalize (∃ o, other = some o ∧ Has o q b) = O
      constructor
      · rintro ((h | ⟨h, hv, ho⟩) | ⟨h, hv, ho⟩)
        · exact Or.inl h
        · exact Or.inr ⟨Or.inl h, hv, ho⟩
        · exact Or.inr ⟨Or.inr h, hv, ho⟩
      · rintro (h | ⟨h | h, hv, ho⟩)
        · exact Or.inl (Or.inl h)
        · exact Or.inl (Or.inr ⟨h, hv, ho⟩)
        · exact Or.inr ⟨h, hv, ho⟩

end Verif.Bounds
