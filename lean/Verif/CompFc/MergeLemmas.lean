import Verif.CompFc.Merge
import Verif.CompFc.Props
/-! # Merging trees -/
namespace Verif.CompFc
open Verif.FileLabel
open Verif.FileLabel.Spec (Entry Sorts plain leading entriesFrom entries Older)
open Spec

/-- The child with a stem in a list. -/
def kid (s : Bytes) (l : List Node) : Option Node := l.find? (fun c => decide (c.stem = s))

/-- Sorted, with distinct stems. -/
def Ord (l : List Node) : Prop := l.Pairwise (fun a b => strcmp a.stem b.stem < 0)

/-- What is there of two. -/
def both (f : Node → Node → Node) : Option Node → Option Node → Option Node
  | some a, some b => some (f a b)
  | some a, none => some a
  | none, b => b

theorem kid_cons (s : Bytes) (c : Node) (l : List Node) : kid s (c :: l) = if c.stem = s then some c else kid s l := by
  unfold kid
  rw [List.find?_cons]
  by_cases h : c.stem = s <;> simp [h]

theorem kid_none {s : Bytes} {l : List Node} (h : ∀ c ∈ l, c.stem ≠ s) : kid s l = none := by
  unfold kid
  rw [List.find?_eq_none]
  intro c hc
  simpa using h c hc

theorem strcmp_ne {a b : Bytes} (h : strcmp a b < 0) : b ≠ a := by
  rintro rfl
  have := strcmp_eq.2 (rfl : b = b)
  omega

theorem kid_after {c : Node} {l : List Node} (h : ∀ x ∈ l, strcmp c.stem x.stem < 0) : kid c.stem l = none :=
  kid_none fun x hx => strcmp_ne (h x hx)

theorem kid_mergeKids {f : Node → Node → Node} (hf : ∀ a b, (f a b).stem = a.stem) (s : Bytes) (cs ds : List Node) (hc : Ord cs)
    (hd : Ord ds) : kid s (mergeKids f cs ds) = both f (kid s cs) (kid s ds) := by
  induction cs generalizing ds with
  | nil => rfl
  | cons c cs ih =>
    unfold Ord at hc
    rw [List.pairwise_cons] at hc
    rw [mergeKids]
    induction ds with
    | nil =>
      rw [mergeStep]
      cases kid s (c :: cs) <;> rfl
    | cons d ds ih2 =>
      have hd0 := hd
      unfold Ord at hd
      rw [List.pairwise_cons] at hd
      rw [mergeStep]
      split
      · rename_i h0
        have he := strcmp_eq.1 h0
        rw [kid_cons, kid_cons, kid_cons, hf]
        by_cases hs : c.stem = s
        · rw [if_pos hs, if_pos hs, if_pos (he ▸ hs)]; rfl
        · rw [if_neg hs, if_neg hs, if_neg (he ▸ hs)]; exact ih ds hc.2 hd.2
      · split
        · rename_i hlt
          rw [kid_cons, kid_cons s c cs]
          by_cases hs : c.stem = s
          · rw [if_pos hs, if_pos hs, ← hs, kid_after (l := d :: ds)]
            · rfl
            · intro x hx
              rcases List.mem_cons.1 hx with rfl | hx
              · exact hlt
              · exact strcmp_lt_trans hlt (Int.le_of_lt (hd.1 x hx))
          · rw [if_neg hs, if_neg hs]; exact ih (d :: ds) hc.2 hd0
        · rename_i h0 hlt
          have hgt : strcmp d.stem c.stem < 0 := strcmp_flip.1 (by omega)
          rw [kid_cons, kid_cons s d ds]
          by_cases hs : d.stem = s
          · rw [if_pos hs, if_pos hs, ← hs, kid_after (l := c :: cs)]
            · rfl
            · intro x hx
              rcases List.mem_cons.1 hx with rfl | hx
              · exact hgt
              · exact strcmp_lt_trans hgt (Int.le_of_lt (hc.1 x hx))
          · rw [if_neg hs, if_neg hs]; exact ih2 hd.2

theorem mem_mergeKids {f : Node → Node → Node} {cs ds : List Node} {x : Node} (h : x ∈ mergeKids f cs ds) :
    x ∈ cs ∨ x ∈ ds ∨ ∃ c ∈ cs, ∃ d ∈ ds, x = f c d := by
  induction cs generalizing ds with
  | nil => exact Or.inr (Or.inl h)
  | cons c cs ih =>
    rw [mergeKids] at h
    induction ds with
    | nil => exact Or.inl h
    | cons d ds ih2 =>
      rw [mergeStep] at h
      have up : ∀ {es}, (∀ y ∈ es, y ∈ d :: ds) → x ∈ mergeKids f cs es →
          x ∈ c :: cs ∨ x ∈ d :: ds ∨ ∃ a ∈ c :: cs, ∃ b ∈ d :: ds, x = f a b := by
        intro es hes hx
        rcases ih hx with h | h | ⟨a, ha, b, hb, h⟩
        · exact Or.inl (List.mem_cons_of_mem _ h)
        · exact Or.inr (Or.inl (hes x h))
        · exact Or.inr (Or.inr ⟨a, List.mem_cons_of_mem _ ha, b, hes b hb, h⟩)
      split at h
      · rcases List.mem_cons.1 h with h | h
        · exact Or.inr (Or.inr ⟨c, List.mem_cons_self, d, List.mem_cons_self, h⟩)
        · exact up (fun y hy => List.mem_cons_of_mem _ hy) h
      · split at h
        · rcases List.mem_cons.1 h with h | h
          · exact Or.inl (h ▸ List.mem_cons_self)
          · exact up (fun y hy => hy) h
        · rcases List.mem_cons.1 h with h | h
          · exact Or.inr (Or.inl (h ▸ List.mem_cons_self))
          · rcases ih2 h with h | h | ⟨a, ha, b, hb, h⟩
            · exact Or.inl h
            · exact Or.inr (Or.inl (List.mem_cons_of_mem _ h))
            · exact Or.inr (Or.inr ⟨a, ha, b, List.mem_cons_of_mem _ hb, h⟩)

theorem ord_mergeKids {f : Node → Node → Node} (hf : ∀ a b, (f a b).stem = a.stem) {cs ds : List Node} (hc : Ord cs)
    (hd : Ord ds) : Ord (mergeKids f cs ds) := by
  induction cs generalizing ds with
  | nil => exact hd
  | cons c cs ih =>
    have hc0 := hc
    unfold Ord at hc
    rw [List.pairwise_cons] at hc
    rw [mergeKids]
    induction ds with
    | nil => exact hc0
    | cons d ds ih2 =>
      have hd0 := hd
      unfold Ord at hd
      rw [List.pairwise_cons] at hd
      rw [mergeStep]
      have all : ∀ {s : Bytes} {es : List Node}, (∀ x ∈ cs, strcmp s x.stem < 0) → (∀ x ∈ es, strcmp s x.stem < 0) →
          ∀ x ∈ mergeKids f cs es, strcmp s x.stem < 0 := by
        intro s es h1 h2 x hx
        rcases mem_mergeKids hx with h | h | ⟨a, ha, b, _, rfl⟩
        · exact h1 x h
        · exact h2 x h
        · rw [hf]; exact h1 a ha
      split
      · rename_i h0
        have he := strcmp_eq.1 h0
        refine List.pairwise_cons.2 ⟨?_, ih hc.2 hd.2⟩
        intro x hx
        rw [hf]
        exact all hc.1 (fun x hx => he ▸ hd.1 x hx) x hx
      · split
        · rename_i hlt
          refine List.pairwise_cons.2 ⟨?_, ih hc.2 hd0⟩
          refine all hc.1 ?_
          intro x hx
          rcases List.mem_cons.1 hx with rfl | hx
          · exact hlt
          · exact strcmp_lt_trans hlt (Int.le_of_lt (hd.1 x hx))
        · rename_i h0 hlt
          have hgt : strcmp d.stem c.stem < 0 := strcmp_flip.1 (by omega)
          refine List.pairwise_cons.2 ⟨?_, ih2 hd.2⟩
          intro x hx
          have hx' : x ∈ mergeKids f (c :: cs) ds := hx
          have hcs : ∀ y ∈ c :: cs, strcmp d.stem y.stem < 0 := by
            intro y hy
            rcases List.mem_cons.1 hy with rfl | hy
            · exact hgt
            · exact strcmp_lt_trans hgt (Int.le_of_lt (hc.1 y hy))
          rcases mem_mergeKids hx' with h | h | ⟨a, ha, b, _, rfl⟩
          · exact hcs x h
          · exact hd.1 x h
          · rw [hf]; exact hcs a ha

theorem merge_stem (q : Qsort) (k : Nat) (n m : Node) : (merge q k n m).stem = n.stem := by
  cases k with
  | zero => rfl
  | succ k => cases n; cases m; rfl

theorem ord_nodup {l : List Node} (h : Ord l) : (l.map Node.stem).Nodup := by
  rw [List.Nodup, List.pairwise_map]
  exact h.imp fun h => (strcmp_ne h).symm

theorem ord_sort {q : Qsort} (hq : Sorts q) {l : List Node} (h : (l.map Node.stem).Nodup) : Ord (q.sort cmpNode l) := by
  have hp := hq cmpNode l
  have hnd : ((q.sort cmpNode l).map Node.stem).Nodup := by rw [(hp.1.map Node.stem).nodup_iff]; exact h
  rw [List.Nodup, List.pairwise_map] at hnd
  refine ((hp.2 cmpNode_consistent).and hnd).imp ?_
  rintro a b ⟨ha, hb⟩
  have : strcmp a.stem b.stem ≠ 0 := fun h => hb (strcmp_eq.1 h)
  simp only [cmpNode] at ha
  omega

theorem kid_sort {q : Qsort} (hq : Sorts q) {l : List Node} (h : (l.map Node.stem).Nodup) (s : Bytes) :
    kid s (q.sort cmpNode l) = kid s l := by
  have hp := (hq cmpNode l).1
  have hnd : ((q.sort cmpNode l).map Node.stem).Nodup := by rw [(hp.map Node.stem).nodup_iff]; exact h
  unfold kid
  apply Option.ext
  intro x
  rw [find_unique hnd, hp.mem_iff, find_unique h]

/-- A tree whose children are in order everywhere. -/
def AllOrd (n : Node) : Prop := ∀ x, Within n x → Strict x

theorem child_merge {q : Qsort} (hq : Sorts q) {n m : Node} (k : Nat) (hn : WF n) (hm : AllOrd m) (s : Bytes) :
    child (merge q (k + 1) n m) s = both (merge q k) (child n s) (child m s) := by
  have hmo := hm m (.here m)
  cases n with
  | mk st l r c =>
    cases m with
    | mk st' l' r' c' =>
      show kid s (if c'.isEmpty then c else if c.isEmpty then c' else mergeKids (merge q k) (q.sort cmpNode c) c') =
        both (merge q k) (kid s c) (kid s c')
      split
      · rename_i he
        rw [List.isEmpty_iff.1 he]
        cases kid s c <;> rfl
      · split
        · rename_i he
          rw [List.isEmpty_iff.1 he]; rfl
        · have hc : (c.map Node.stem).Nodup := hn.nodup
          have hmo' : Ord c' := hmo
          rw [kid_mergeKids (merge_stem q k) s _ _ (ord_sort hq hc) hmo', kid_sort hq hc]

theorem AllOrd.sub {n c : Node} (h : AllOrd n) (hc : c ∈ n.children) : AllOrd c := fun x hx => h x (.child hc hx)

theorem child_mem {n c : Node} {s : Bytes} (h : child n s = some c) : c ∈ n.children := List.mem_of_find?_eq_some h

/-- Fewer than `k` levels. -/
def Levels (k : Nat) (n : Node) : Prop := ∀ p, (at_ n p).isSome = true → p.length < k

theorem Levels.sub {k : Nat} {n c : Node} {s : Bytes} (h : Levels (k + 1) n) (hc : child n s = some c) : Levels k c := by
  intro p hp
  have := h (s :: p) (by simp only [at_, hc, Option.bind_some]; exact hp)
  simp only [List.length_cons] at this
  omega

theorem obs_cons {β : Type} (g : Node → List β) (n : Node) (s : Bytes) (ss : List Bytes) :
    obsAt g n (s :: ss) = ((child n s).map (fun c => obsAt g c ss)).getD [] := by
  simp only [obsAt, at_]
  cases child n s <;> rfl

theorem obs_merge {q : Qsort} (hq : Sorts q) {β : Type} {g : Node → List β} (hg : ∀ k n m, g (merge q (k + 1) n m) = g n ++ g m)
    {k : Nat} {n m : Node} (hn : WF n) (hm : AllOrd m) (hk : Levels k m) (p : List Bytes) :
    obsAt g (merge q k n m) p = obsAt g n p ++ obsAt g m p := by
  induction k generalizing n m p with
  | zero => exact absurd (hk [] rfl) (by simp)
  | succ k ih =>
    cases p with
    | nil => exact hg k n m
    | cons s ss =>
      rw [obs_cons, obs_cons, obs_cons, child_merge hq k hn hm]
      cases ha : child n s with
      | none =>
        cases hb : child m s with
        | none => rfl
        | some b => rfl
      | some a =>
        cases hb : child m s with
        | none => simp [both]
        | some b =>
          simp only [both, Option.map_some, Option.getD_some]
          exact ih (hn.sub a (child_mem ha)) (hm.sub (child_mem hb)) (hk.sub hb) ss

theorem isSome_merge {q : Qsort} (hq : Sorts q) {k : Nat} {n m : Node} (hn : WF n) (hm : AllOrd m) (hk : Levels k m) (p : List Bytes)
    (h : (at_ (merge q k n m) p).isSome = true) : (at_ n p).isSome = true ∨ (at_ m p).isSome = true := by
  induction k generalizing n m p with
  | zero => exact Or.inl h
  | succ k ih =>
    cases p with
    | nil => exact Or.inl rfl
    | cons s ss =>
      simp only [at_] at h ⊢
      rw [child_merge hq k hn hm] at h
      cases ha : child n s with
      | none =>
        rw [ha] at h
        exact Or.inr h
      | some a =>
        cases hb : child m s with
        | none => rw [ha, hb] at h; exact Or.inl h
        | some b =>
          rw [ha, hb] at h
          simp only [both, Option.bind_some] at h ⊢
          exact ih (hn.sub a (child_mem ha)) (hm.sub (child_mem hb)) (hk.sub hb) ss h

theorem merge_wf {q : Qsort} (hq : Sorts q) {k : Nat} {n m : Node} (hn : WF n) (hm : AllOrd m) (hw : WF m) : WF (merge q k n m) := by
  induction k generalizing n m with
  | zero => exact hn
  | succ k ih =>
    have hmo := hm m (.here m)
    cases n with
    | mk st l r c =>
      cases m with
      | mk st' l' r' c' =>
        rw [merge]
        refine .mk _ _ _ _ ?_ ?_
        · split
          · exact hn.nodup
          · split
            · exact hw.nodup
            · exact ord_nodup (ord_mergeKids (merge_stem q k) (ord_sort hq hn.nodup) hmo)
        · intro x hx
          split at hx
          · exact hn.sub x hx
          · split at hx
            · exact hw.sub x hx
            · rcases mem_mergeKids hx with h | h | ⟨a, ha, b, hb, rfl⟩
              · exact hn.sub x ((hq cmpNode c).1.mem_iff.1 h)
              · exact hw.sub x h
              · exact ih (hn.sub a ((hq cmpNode c).1.mem_iff.1 ha)) (hm.sub hb) (hw.sub b hb)

end Verif.CompFc
