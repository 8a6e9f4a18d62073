import Verif.FileLabel.Strings
import Mathlib.Data.List.Nodup
/-!
# The tree of specifications
-/
namespace Verif.FileLabel
open Spec

/-- The child with a stem. -/
def child (n : Node) (s : Bytes) : Option Node := n.children.find? (fun c => decide (c.stem = s))

/-- The node at a path. -/
def at_ : Node → List Bytes → Option Node
  | n, [] => some n
  | n, s :: ss => (child n s).bind (fun c => at_ c ss)

/-- An observation at a path. -/
def obsAt {β : Type} (g : Node → List β) (n : Node) (p : List Bytes) : List β :=
  ((at_ n p).map g).getD []

/-- A change of a node in place. -/
structure Local (f : Node → Node) : Prop where
  stem : ∀ n, (f n).stem = n.stem
  children : ∀ n, (f n).children = n.children

theorem addRe_local (x : Re) : Local (addRe x) := ⟨fun n => by cases n; rfl, fun n => by cases n; rfl⟩
theorem addLit_local (x : Lit) : Local (addLit x) := ⟨fun n => by cases n; rfl, fun n => by cases n; rfl⟩

theorem upd_stem {f : Node → Node} (hf : Local f) (p : List Bytes) (n : Node) :
    (n.upd f p).stem = n.stem := by
  cases p with
  | nil => rw [Node.upd]; exact hf.stem n
  | cons s ss => cases n; rfl

theorem new_stem (s : Bytes) : (Node.new s).stem = s := rfl

theorem find_updChild {F : Node → Node} (hF : ∀ n, (F n).stem = n.stem) (s s' : Bytes) (c : List Node) :
    (updChild s F c).find? (fun x => decide (x.stem = s')) =
      if s' = s then some (F ((c.find? (fun x => decide (x.stem = s))).getD (.new s)))
      else c.find? (fun x => decide (x.stem = s')) := by
  induction c with
  | nil =>
    simp only [updChild, List.find?_cons, hF, List.find?_nil, new_stem]
    by_cases h : s' = s
    · subst h; simp
    · have : ¬ s = s' := fun x => h x.symm
      simp [h, this]
  | cons x xs ih =>
    unfold updChild
    by_cases hx : x.stem = s
    · rw [if_pos hx]
      simp only [List.find?_cons, hF, hx, decide_true, Option.getD_some]
      by_cases h : s' = s
      · subst h; simp
      · have : ¬ s = s' := fun x => h x.symm
        simp [h, this]
    · rw [if_neg hx]
      simp only [List.find?_cons, hx, decide_false]
      by_cases h : x.stem = s'
      · have : ¬ s' = s := fun y => hx (h.trans y)
        simp [h, this]
      · simp only [h, decide_false, ih]

theorem at_new (s : Bytes) (p : List Bytes) : at_ (.new s) p = if p = [] then some (.new s) else none := by
  cases p <;> simp [at_, child, Node.new, Node.children]

/-- The node of an update, before it. -/
theorem child_upd {f : Node → Node} (hf : Local f) (s : Bytes) (ss : List Bytes) (n : Node) (s' : Bytes) :
    child (n.upd f (s :: ss)) s' =
      if s' = s then some (((child n s).getD (.new s)).upd f ss) else child n s' := by
  cases n with
  | mk st l r c => exact find_updChild (fun n => upd_stem hf ss n) s s' c

theorem obsAt_upd {β : Type} {g : Node → List β} {f : Node → Node} (hf : Local f) (xs : List β)
    (hg : ∀ n, g (f n) = g n ++ xs) (hnew : ∀ s, g (.new s) = [])
    (hc : ∀ st l r c c', g (.mk st l r c) = g (.mk st l r c')) (p p' : List Bytes) (n : Node) :
    obsAt g (n.upd f p) p' = if p' = p then obsAt g n p ++ xs else obsAt g n p' := by
  induction p generalizing n p' with
  | nil =>
    cases p' with
    | nil => simp [obsAt, at_, Node.upd, hg]
    | cons s ss => simp [obsAt, at_, Node.upd, child, hf.children]
  | cons s ss ih =>
    cases p' with
    | nil => cases n; simp only [obsAt, at_, Node.upd, Option.map_some, Option.getD_some]; rw [if_neg (by simp)]; exact hc _ _ _ _ _
    | cons s' ss' =>
      have h1 : ∀ m : Node, obsAt g m (s' :: ss') = ((child m s').map (fun c => obsAt g c ss')).getD [] := by
        intro m
        simp only [obsAt, at_]
        cases child m s' <;> rfl
      rw [h1, child_upd hf]
      by_cases hs : s' = s
      · subst hs
        rw [if_pos rfl, Option.map_some, Option.getD_some, ih]
        have h2 : ∀ p, obsAt g ((child n s').getD (.new s')) p = obsAt g n (s' :: p) := by
          intro p
          unfold obsAt
          cases hch : child n s' with
          | some c => simp [at_, hch]
          | none =>
            simp only [Option.getD_none, at_new, at_, hch, Option.bind_none]
            split <;> simp [hnew]
        rw [h2, h2]
        simp
      · rw [if_neg hs, if_neg (by simp [hs]), ← h1]

theorem isSome_upd {f : Node → Node} (hf : Local f) (p p' : List Bytes) (n : Node) :
    (at_ (n.upd f p) p').isSome = true ↔ (at_ n p').isSome = true ∨ p' <+: p := by
  induction p generalizing n p' with
  | nil =>
    cases p' with
    | nil => simp [at_]
    | cons s ss => simp [at_, Node.upd, child, hf.children]
  | cons s ss ih =>
    cases p' with
    | nil => simp [at_]
    | cons s' ss' =>
      simp only [at_]
      rw [child_upd hf]
      by_cases hs : s' = s
      · subst hs
        rw [if_pos rfl, Option.bind_some, ih]
        rw [List.cons_prefix_cons]
        cases hch : child n s' with
        | some c => simp
        | none =>
          simp only [Option.getD_none, at_new, Option.bind_none, Option.isSome_none, Bool.false_eq_true, false_or, true_and]
          constructor
          · rintro (h | h)
            · split at h
              · rename_i h'; subst h'; exact List.nil_prefix
              · simp at h
            · exact h
          · exact Or.inr
      · rw [if_neg hs, List.cons_prefix_cons]
        simp [hs]

/-! ## Distinct children -/

/-- The children of every node have distinct stems. -/
inductive WF : Node → Prop
  | mk (s : Bytes) (l : List Lit) (r : List Re) (c : List Node)
      (hd : (c.map Node.stem).Nodup) (hc : ∀ x ∈ c, WF x) : WF (.mk s l r c)

theorem WF.nodup {n : Node} (h : WF n) : (n.children.map Node.stem).Nodup := by cases h; assumption
theorem WF.sub {n : Node} (h : WF n) : ∀ x ∈ n.children, WF x := by cases h; assumption

theorem wf_new (s : Bytes) : WF (.new s) := .mk _ _ _ _ (by simp) (by simp)

theorem Local.wf {f : Node → Node} (hf : Local f) {n : Node} (h : WF n) : WF (f n) := by
  have h1 := hf.children n
  cases hfn : f n with
  | mk s l r c =>
    rw [hfn] at h1
    simp only [Node.children] at h1
    subst h1
    exact .mk _ _ _ _ h.nodup h.sub

theorem updChild_stems {F : Node → Node} (hF : ∀ n, (F n).stem = n.stem) (s : Bytes) (c : List Node) :
    (updChild s F c).map Node.stem = if s ∈ c.map Node.stem then c.map Node.stem else c.map Node.stem ++ [s] := by
  induction c with
  | nil => simp [updChild, hF, new_stem]
  | cons x xs ih =>
    unfold updChild
    by_cases hx : x.stem = s
    · rw [if_pos hx]; simp [hF, hx]
    · rw [if_neg hx]
      have hx' : ¬ s = x.stem := fun h => hx h.symm
      simp only [List.map_cons, ih, List.mem_cons, hx', false_or]
      split <;> simp

theorem mem_updChild {F : Node → Node} {s : Bytes} {c : List Node} {x : Node} (h : x ∈ updChild s F c) :
    x ∈ c ∨ (∃ y ∈ c, x = F y) ∨ x = F (.new s) := by
  induction c with
  | nil => simp [updChild] at h; exact Or.inr (Or.inr h)
  | cons y ys ih =>
    unfold updChild at h
    split at h
    · rcases List.mem_cons.1 h with h | h
      · exact Or.inr (Or.inl ⟨y, List.mem_cons_self, h⟩)
      · exact Or.inl (List.mem_cons_of_mem _ h)
    · rcases List.mem_cons.1 h with h | h
      · exact Or.inl (by rw [h]; exact List.mem_cons_self)
      · rcases ih h with h | ⟨z, hz, h⟩ | h
        · exact Or.inl (List.mem_cons_of_mem _ h)
        · exact Or.inr (Or.inl ⟨z, List.mem_cons_of_mem _ hz, h⟩)
        · exact Or.inr (Or.inr h)

theorem upd_wf {f : Node → Node} (hf : Local f) (p : List Bytes) {n : Node} (h : WF n) : WF (n.upd f p) := by
  induction p generalizing n with
  | nil => rw [Node.upd]; exact hf.wf h
  | cons s ss ih =>
    cases h with
    | mk st l r c hd hc =>
      refine .mk _ _ _ _ ?_ ?_
      · rw [updChild_stems (fun n => upd_stem hf ss n)]
        split
        · exact hd
        · rename_i hn
          exact List.nodup_append.2 ⟨hd, by simp, by
            intro a ha b hb
            simp only [List.mem_singleton] at hb
            subst hb
            rintro rfl
            exact hn ha⟩
      · intro x hx
        rcases mem_updChild hx with h | ⟨y, hy, rfl⟩ | rfl
        · exact hc x h
        · exact ih (hc y hy)
        · exact ih (wf_new s)

theorem at_wf {n m : Node} {p : List Bytes} (h : WF n) (hm : at_ n p = some m) : WF m := by
  induction p generalizing n with
  | nil => simp only [at_, Option.some.injEq] at hm; exact hm ▸ h
  | cons s ss ih =>
    simp only [at_] at hm
    cases hc : child n s with
    | none => simp [hc] at hm
    | some c =>
      rw [hc, Option.bind_some] at hm
      exact ih (h.sub c (List.mem_of_find?_eq_some hc)) hm

/-! ## Sorting the tree -/

theorem sortNodes_map (q : Qsort) (c : List Node) : sortNodes q c = c.map (sortNode q) := by
  induction c with
  | nil => rw [sortNodes]; rfl
  | cons x xs ih => rw [sortNodes, ih]; rfl

theorem sortNode_stem (q : Qsort) (n : Node) : (sortNode q n).stem = n.stem := by
  cases n; rw [sortNode]; rfl

theorem sortNode_res (q : Qsort) (n : Node) : (sortNode q n).res = n.res := by
  cases n; rw [sortNode]; rfl

theorem sortNode_lits (q : Qsort) (n : Node) : (sortNode q n).lits = q.sort cmpLit n.lits := by
  cases n; rw [sortNode]; rfl

theorem sortNode_children (q : Qsort) (n : Node) :
    (sortNode q n).children = q.sort cmpNode (n.children.map (sortNode q)) := by
  cases n; rw [sortNode, sortNodes_map]; rfl

theorem find_unique {l : List Node} (hd : (l.map Node.stem).Nodup) (s : Bytes) (x : Node) :
    l.find? (fun c => decide (c.stem = s)) = some x ↔ x ∈ l ∧ x.stem = s := by
  constructor
  · intro h
    exact ⟨List.mem_of_find?_eq_some h, by have := List.find?_some h; simpa using this⟩
  · rintro ⟨hx, hs⟩
    induction l with
    | nil => simp at hx
    | cons y ys ih =>
      simp only [List.map_cons, List.nodup_cons] at hd
      rw [List.find?_cons]
      rcases List.mem_cons.1 hx with rfl | hx
      · simp [hs]
      · have : ¬ y.stem = s := fun h => hd.1 (by rw [h, ← hs]; exact List.mem_map_of_mem hx)
        simp [this, ih hd.2 hx]

theorem child_sort {q : Qsort} (hq : Sorts q) {n : Node} (h : WF n) (s : Bytes) :
    child (sortNode q n) s = (child n s).map (sortNode q) := by
  have hp := (hq cmpNode (n.children.map (sortNode q))).1
  have hst : (n.children.map (sortNode q)).map Node.stem = n.children.map Node.stem := by
    rw [List.map_map]; exact List.map_congr_left (fun x _ => sortNode_stem q x)
  have hnd : ((q.sort cmpNode (n.children.map (sortNode q))).map Node.stem).Nodup := by
    rw [(hp.map Node.stem).nodup_iff, hst]; exact h.nodup
  unfold child
  rw [sortNode_children]
  apply Option.ext
  intro x
  rw [find_unique hnd, hp.mem_iff, List.mem_map, Option.map_eq_some_iff]
  constructor
  · rintro ⟨⟨y, hy, rfl⟩, hs⟩
    rw [sortNode_stem] at hs
    exact ⟨y, (find_unique h.nodup s y).2 ⟨hy, hs⟩, rfl⟩
  · rintro ⟨y, hy, rfl⟩
    have := (find_unique h.nodup s y).1 hy
    exact ⟨⟨y, this.1, rfl⟩, by rw [sortNode_stem]; exact this.2⟩

theorem at_sort {q : Qsort} (hq : Sorts q) {n : Node} (h : WF n) (p : List Bytes) :
    at_ (sortNode q n) p = (at_ n p).map (sortNode q) := by
  induction p generalizing n with
  | nil => rfl
  | cons s ss ih =>
    simp only [at_]
    rw [child_sort hq h]
    cases hc : child n s with
    | none => rfl
    | some c =>
      rw [Option.map_some, Option.bind_some, Option.bind_some]
      exact ih (h.sub c (List.mem_of_find?_eq_some hc))

/-- The children of a node are sorted by their stems, which are distinct. -/
def Strict (n : Node) : Prop := n.children.Pairwise (fun a b => strcmp a.stem b.stem < 0)

theorem strict_sort {q : Qsort} (hq : Sorts q) {n : Node} (h : WF n) : Strict (sortNode q n) := by
  have hp := (hq cmpNode (n.children.map (sortNode q)))
  have hst : (n.children.map (sortNode q)).map Node.stem = n.children.map Node.stem := by
    rw [List.map_map]; exact List.map_congr_left (fun x _ => sortNode_stem q x)
  have hnd : ((q.sort cmpNode (n.children.map (sortNode q))).map Node.stem).Nodup := by
    rw [(hp.1.map Node.stem).nodup_iff, hst]; exact h.nodup
  unfold Strict
  rw [sortNode_children]
  have h1 := hp.2 cmpNode_consistent
  have h2 : (q.sort cmpNode (n.children.map (sortNode q))).Pairwise (fun a b => a.stem ≠ b.stem) := by
    rw [List.Nodup, List.pairwise_map] at hnd; exact hnd
  exact (h1.and h2).imp (by
    rintro a b ⟨ha, hb⟩
    have : strcmp a.stem b.stem ≠ 0 := fun h => hb (strcmp_eq.1 h)
    simp only [cmpNode] at ha
    omega)

end Verif.FileLabel
