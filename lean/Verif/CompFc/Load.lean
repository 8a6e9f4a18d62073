import Verif.CompFc.Lemmas
import Verif.FileLabel.Lookup
import Verif.FileLabel.Text
/-! # The trees that the text reader makes -/
namespace Verif.CompFc
open Verif.FileLabel
open Verif.FileLabel.Spec (Sorts)
open Spec

/-! ## Strings -/

theorem simplify_facts (r : Bytes) : ∀ t, simplify r = some t →
    (0 ∉ r → 0 ∉ t) ∧ (r ≠ [] → t ≠ []) ∧ t.length ≤ r.length ∧ ∀ n, (hasMeta r n).2 = n + t.length := by
  fun_induction simplify r with
  | case1 => intro t h; cases h; simp [hasMeta]
  | case2 b bs hm => intro t h; simp at h
  | case3 => intro t h; simp at h
  | case4 c cs he hm ih =>
    intro t h
    obtain ⟨u, hu, rfl⟩ := Option.map_eq_some_iff.1 h
    obtain ⟨h1, h2, h3, h4⟩ := ih u hu
    refine ⟨?_, by simp, by simp only [List.length_cons]; omega, ?_⟩
    · intro h0
      simp only [List.mem_cons, not_or] at h0 ⊢
      exact ⟨h0.2.1, h1 h0.2.2⟩
    · intro n
      rw [hasMeta, if_neg hm, if_pos rfl]
      rw [if_pos he, h4, List.length_cons]; omega
  | case5 => intro t h; simp at h
  | case6 b bs hm hb ih =>
    intro t h
    obtain ⟨u, hu, rfl⟩ := Option.map_eq_some_iff.1 h
    obtain ⟨h1, h2, h3, h4⟩ := ih u hu
    refine ⟨?_, by simp, by simp only [List.length_cons]; omega, ?_⟩
    · intro h0
      simp only [List.mem_cons, not_or] at h0 ⊢
      exact ⟨h0.1, h1 h0.2⟩
    · intro n
      rw [hasMeta.eq_def]
      simp only
      rw [if_neg hm, if_neg hb, h4, List.length_cons]; omega

theorem hasMeta_le (r : Bytes) : ∀ n, (hasMeta r n).2 ≤ n + r.length := by
  intro n
  fun_induction hasMeta r n with
  | case1 => simp
  | case2 => simp
  | case3 => simp
  | case4 => simp only [List.length_cons]; omega
  | case5 => simp
  | case6 => simp only [List.length_cons]; omega

theorem cut_seg {s a r : Bytes} (h : cut s = some (a, r)) : a.length ≤ s.length := by
  induction s generalizing a r with
  | nil => simp [cut] at h
  | cons b bs ih =>
    unfold cut at h
    split at h
    · simp only [Option.some.injEq, Prod.mk.injEq] at h
      rw [← h.1]; simp
    · obtain ⟨x, hx, h⟩ := Option.map_eq_some_iff.1 h
      simp only [Prod.mk.injEq] at h
      have := ih (a := x.1) (r := x.2) hx
      rw [← h.1]
      simp only [List.length_cons]; omega

theorem cut_nul {s a r : Bytes} (h : cut s = some (a, r)) (h0 : 0 ∉ s) : 0 ∉ a ∧ 0 ∉ r := by
  induction s generalizing a r with
  | nil => simp [cut] at h
  | cons b bs ih =>
    unfold cut at h
    split at h
    · simp only [Option.some.injEq, Prod.mk.injEq] at h
      rw [← h.1, ← h.2]; exact ⟨by simp, h0⟩
    · obtain ⟨x, hx, h⟩ := Option.map_eq_some_iff.1 h
      simp only [Prod.mk.injEq] at h
      simp only [List.mem_cons, not_or] at h0
      have := ih (a := x.1) (r := x.2) hx h0.2
      rw [← h.1, ← h.2]
      simp only [List.mem_cons, not_or]
      exact ⟨⟨h0.1, this.1⟩, this.2⟩

/-- A list of stems as nodes have them. -/
def Stems (p : List Bytes) : Prop := ∀ s ∈ p, s ≠ [] ∧ 0 ∉ s ∧ s.length < 65535

theorem reStems_stems {pfx : Option Bytes} {depth : Nat} {p : Bytes} {path : List Bytes}
    (h : reStems pfx depth p = some path) (h0 : 0 ∉ p) : Stems path ∧ path.length ≤ 3 - depth := by
  induction hk : p.length using Nat.strongRecOn generalizing p depth path with
  | _ k ih =>
    rw [reStems.eq_def] at h
    split at h
    · simp only [Option.some.injEq] at h; subst h; exact ⟨by simp [Stems], by simp⟩
    · split at h
      · simp only [Option.some.injEq] at h; subst h; exact ⟨by simp [Stems], by simp⟩
      · rename_i hd seg q hc
        have hlen := cut_length hc
        have hpos : p ≠ [] := by intro x; subst x; simp [cut] at hc
        have hq : q.length < p.length := by
          cases p with
          | nil => exact absurd rfl hpos
          | cons b bs => simp only [List.drop_succ_cons, List.drop_zero] at hlen; simp only [List.length_cons]; omega
        obtain ⟨hn1, hn2⟩ := cut_nul hc (fun x => h0 (List.mem_of_mem_drop x))
        split at h
        · exact ih q.length (by omega) h hn2 rfl
        · rename_i hseg
          split at h
          · simp only [Option.some.injEq] at h; subst h; exact ⟨by simp [Stems], by simp⟩
          · rename_i stem hstem
            split at h
            · simp only [Option.some.injEq] at h; subst h; exact ⟨by simp [Stems], by simp⟩
            · rename_i hlong
              split at h
              · simp at h
              · obtain ⟨rest, hr, rfl⟩ := Option.map_eq_some_iff.1 h
                obtain ⟨f1, f2, _, _⟩ := simplify_facts seg stem hstem
                obtain ⟨i1, i2⟩ := ih q.length (by omega) hr hn2 rfl
                refine ⟨?_, by simp only [List.length_cons]; omega⟩
                intro s hs
                rcases List.mem_cons.1 hs with rfl | hs
                · exact ⟨f2 hseg, f1 hn1, by omega⟩
                · exact i1 s hs

theorem litStems_stems {pfx : Option Bytes} {depth : Nat} {p : Bytes} {path : List Bytes}
    (h : litStems pfx depth p = some path) (h0 : 0 ∉ p) (hsh : p.length < 65535) : Stems path ∧ path.length ≤ 3 - depth := by
  induction hk : p.length using Nat.strongRecOn generalizing p depth path with
  | _ k ih =>
    rw [litStems.eq_def] at h
    split at h
    · simp only [Option.some.injEq] at h; subst h; exact ⟨by simp [Stems], by simp⟩
    · split at h
      · simp only [Option.some.injEq] at h; subst h; exact ⟨by simp [Stems], by simp⟩
      · split at h
        · simp only [Option.some.injEq] at h; subst h; exact ⟨by simp [Stems], by simp⟩
        · split at h
          · simp only [Option.some.injEq] at h; subst h; exact ⟨by simp [Stems], by simp⟩
          · rename_i hd _ b bs hb seg q hc
            have hlen := cut_length hc
            have hsl := cut_seg hc
            simp only [List.length_cons] at hk hsh
            simp only [List.mem_cons, not_or] at h0
            obtain ⟨hn1, hn2⟩ := cut_nul hc h0.2
            split at h
            · exact ih q.length (by omega) h hn2 (by omega) rfl
            · rename_i hseg
              split at h
              · simp at h
              · obtain ⟨rest, hr, rfl⟩ := Option.map_eq_some_iff.1 h
                obtain ⟨i1, i2⟩ := ih q.length (by omega) hr hn2 (by omega) rfl
                refine ⟨?_, by simp only [List.length_cons]; omega⟩
                intro s hs
                rcases List.mem_cons.1 hs with rfl | hs
                · exact ⟨hseg, hn1, by omega⟩
                · exact i1 s hs

/-! ## Trees -/

/-- There is something in the node. -/
def Some_ (n : Node) : Prop := n.lits ≠ [] ∨ n.res ≠ [] ∨ n.children ≠ []

/-- A tree of at most `k + 1` levels below a node. -/
inductive Tr (A : Lit → Prop) (B : Re → Prop) : Nat → Node → Prop
  | mk {k : Nat} {s : Bytes} {ls : List Lit} {rs : List Re} {cs : List Node}
      (lits : ∀ l ∈ ls, A l) (res : ∀ r ∈ rs, B r) (kids : ∀ c ∈ cs, Tr A B k c)
      (stems : ∀ c ∈ cs, c.stem ≠ [] ∧ 0 ∉ c.stem ∧ c.stem.length < 65535) (some_ : ∀ c ∈ cs, Some_ c) : Tr A B (k + 1) (.mk s ls rs cs)

theorem tr_new (A : Lit → Prop) (B : Re → Prop) (k : Nat) (s : Bytes) : Tr A B (k + 1) (.new s) :=
  .mk (by simp) (by simp) (by simp) (by simp) (by simp)

mutual
/-- The number of specifications. -/
def count : Node → Nat
  | .mk _ ls rs cs => ls.length + rs.length + counts cs
/-- The number of specifications in trees. -/
def counts : List Node → Nat
  | [] => 0
  | c :: cs => count c + counts cs
end

theorem counts_sum (cs : List Node) : counts cs = (cs.map count).sum := by
  induction cs with
  | nil => rfl
  | cons c cs ih => rw [counts, ih, List.map_cons, List.sum_cons]

theorem counts_updChild {F : Node → Node} (hF : ∀ n, count (F n) = count n + 1) (s : Bytes) (cs : List Node) :
    counts (updChild s F cs) = counts cs + 1 := by
  induction cs with
  | nil => simp [updChild, counts, hF, Node.new, count]
  | cons c cs ih =>
    unfold updChild
    split
    · simp only [counts, hF]; omega
    · simp only [counts, ih]; omega

theorem count_upd {f : Node → Node} (hf : ∀ n, count (f n) = count n + 1) (p : List Bytes) (n : Node) :
    count (n.upd f p) = count n + 1 := by
  induction p generalizing n with
  | nil => rw [Node.upd]; exact hf n
  | cons s ss ih =>
    cases n with
    | mk st l r c => rw [Node.upd, count, count, counts_updChild ih]; omega

theorem count_pos {A : Lit → Prop} {B : Re → Prop} {k : Nat} {n : Node} (h : Tr A B k n) (hs : Some_ n) : 1 ≤ count n := by
  induction h with
  | @mk k s ls rs cs lits res kids stems some_ ih =>
    rw [count]
    rcases hs with hs | hs | hs
    · have : ls.length ≠ 0 := by simpa [Node.lits] using hs
      omega
    · have : rs.length ≠ 0 := by simpa [Node.res] using hs
      omega
    · cases cs with
      | nil => simp [Node.children] at hs
      | cons c cs =>
        have := ih c List.mem_cons_self (some_ c List.mem_cons_self)
        rw [counts]; omega

theorem mem_counts {c : Node} {cs : List Node} (h : c ∈ cs) : count c ≤ counts cs := by
  induction cs with
  | nil => simp at h
  | cons x xs ih =>
    rw [counts]
    rcases List.mem_cons.1 h with rfl | h
    · omega
    · have := ih h; omega

theorem length_counts {cs : List Node} (h : ∀ c ∈ cs, 1 ≤ count c) : cs.length ≤ counts cs := by
  induction cs with
  | nil => simp
  | cons x xs ih =>
    have h1 := h x List.mem_cons_self
    have h2 := ih (fun y hy => h y (List.mem_cons_of_mem _ hy))
    simp only [counts, List.length_cons]; omega

theorem small_of_tr {A : Lit → Prop} {B : Re → Prop} {k : Nat} {n : Node} (h : Tr A B k n) (hc : count n < 4294967295) :
    ∀ x, Within n x → Small x := by
  induction h with
  | @mk k s ls rs cs lits res kids stems some_ ih =>
    rw [count] at hc
    intro x hx
    cases hx with
    | here =>
      have := length_counts (cs := cs) (fun c hcs => count_pos (kids c hcs) (some_ c hcs))
      refine ⟨?_, ?_, ?_⟩ <;> simp only [Node.lits, Node.res, Node.children] <;> omega
    | child hm hw =>
      simp only [Node.children] at hm
      have := mem_counts hm
      exact ih _ hm (by omega) x hw

/-- A change that adds a specification. -/
structure Adds (A : Lit → Prop) (B : Re → Prop) (f : Node → Node) : Prop where
  loc : Local f
  tr : ∀ k n, Tr A B k n → Tr A B k (f n)
  some_ : ∀ n, Some_ (f n)
  count : ∀ n, count (f n) = count n + 1

theorem addRe_adds {A : Lit → Prop} {B : Re → Prop} {x : Re} (h : B x) : Adds A B (addRe x) where
  loc := addRe_local x
  tr := by
    intro k n hn
    cases hn with
    | mk lits res kids stems some_ =>
      refine .mk lits ?_ kids stems some_
      intro r hr
      rcases List.mem_append.1 hr with hr | hr
      · exact res r hr
      · simp only [List.mem_singleton] at hr; exact hr ▸ h
  some_ := by intro n; cases n; right; left; simp [addRe, Node.res]
  count := by intro n; cases n; simp only [addRe, CompFc.count, List.length_append, List.length_singleton]; omega

theorem addLit_adds {A : Lit → Prop} {B : Re → Prop} {x : Lit} (h : A x) : Adds A B (addLit x) where
  loc := addLit_local x
  tr := by
    intro k n hn
    cases hn with
    | mk lits res kids stems some_ =>
      refine .mk ?_ res kids stems some_
      intro r hr
      rcases List.mem_append.1 hr with hr | hr
      · exact lits r hr
      · simp only [List.mem_singleton] at hr; exact hr ▸ h
  some_ := by intro n; cases n; left; simp [addLit, Node.lits]
  count := by intro n; cases n; simp only [addLit, CompFc.count, List.length_append, List.length_singleton]; omega

theorem updChild_ne (s : Bytes) (F : Node → Node) (c : List Node) : updChild s F c ≠ [] := by
  cases c with
  | nil => simp [updChild]
  | cons c cs => unfold updChild; split <;> simp

theorem upd_some {A : Lit → Prop} {B : Re → Prop} {f : Node → Node} (hf : Adds A B f) (p : List Bytes) (n : Node) :
    Some_ (n.upd f p) := by
  cases p with
  | nil => rw [Node.upd]; exact hf.some_ n
  | cons s ss => cases n; right; right; simp only [Node.upd, Node.children]; exact updChild_ne _ _ _

theorem upd_tr {A : Lit → Prop} {B : Re → Prop} {f : Node → Node} (hf : Adds A B f) {p : List Bytes} (hp : Stems p)
    {k : Nat} (hk : p.length < k) {n : Node} (h : Tr A B k n) : Tr A B k (n.upd f p) := by
  induction p generalizing k n with
  | nil => rw [Node.upd]; exact hf.tr _ _ h
  | cons s ss ih =>
    cases h with
    | @mk k st ls rs cs lits res kids stems some_ =>
      have hs := hp s List.mem_cons_self
      have hss : Stems ss := fun x hx => hp x (List.mem_cons_of_mem _ hx)
      simp only [List.length_cons] at hk
      refine .mk lits res ?_ ?_ ?_
      · intro x hx
        rcases mem_updChild hx with h | ⟨y, hy, rfl⟩ | rfl
        · exact kids x h
        · exact ih hss (by omega) (kids y hy)
        · obtain ⟨k', rfl⟩ : ∃ k', k = k' + 1 := ⟨k - 1, by omega⟩
          exact ih hss (by omega) (tr_new A B k' s)
      · intro x hx
        rcases mem_updChild hx with h | ⟨y, hy, rfl⟩ | rfl
        · exact stems x h
        · rw [upd_stem hf.loc]; exact stems y hy
        · rw [upd_stem hf.loc]; exact hs
      · intro x hx
        rcases mem_updChild hx with h | ⟨y, hy, rfl⟩ | rfl
        · exact some_ x h
        · exact upd_some hf ss y
        · exact upd_some hf ss _

/-! ## Lines -/

theorem entriesLoop_all {P : Bytes → Prop} {items : Nat} {args : List Bytes} {s : Bytes} {n : Nat} {out : List Bytes}
    (hP : ∀ s : Bytes, 0 ∉ s → P ((s.dropWhile isspace).takeWhile (fun b => !isspace b)))
    (h0 : 0 ∉ s) (ha : ∀ a ∈ args, P a) (h : entriesLoop items args s = .ok n out) : ∀ a ∈ out, P a := by
  induction hk : 3 - args.length using Nat.strongRecOn generalizing items args s with
  | _ k ih =>
    rw [entriesLoop] at h
    split at h
    · simp only [Items.ok.injEq] at h; rw [← h.2]; exact ha
    · split at h
      · simp at h
      · split at h
        · simp only [Items.ok.injEq] at h; rw [← h.2]; exact ha
        · split at h
          · simp at h
          · rename_i h2 _ _ e s' hr
            unfold readEntry at hr
            simp only at hr
            split at hr
            · simp at hr
            · split at hr
              · simp at hr
              · simp only [Option.some.injEq, Prod.mk.injEq] at hr
                refine ih (3 - (args ++ [e]).length) (by simp only [List.length_append, List.length_singleton]; omega) ?_ ?_ h rfl
                · rw [← hr.2]
                  intro hz
                  exact h0 ((List.dropWhile_sublist _).subset ((List.dropWhile_sublist _).subset hz))
                · intro a haa
                  rcases List.mem_append.1 haa with haa | haa
                  · exact ha a haa
                  · simp only [List.mem_singleton] at haa
                    subst haa
                    rw [← hr.1]; exact hP s h0

theorem takeWhile_nil_space {s : Bytes} (h : (s.dropWhile isspace).takeWhile (fun b => !isspace b) = []) :
    (s.dropWhile isspace).dropWhile (fun b => !isspace b) = [] := by
  have h1 : s.dropWhile isspace = [] := takeWhile_drop_nil.1 h
  rw [h1]; rfl

theorem entriesLoop_ne {args : List Bytes} {s : Bytes} {n : Nat} {out : List Bytes} (ha : ∀ a ∈ args, a ≠ [])
    (h : entriesLoop args.length args s = .ok n out) : ∀ i, i < n → out.getD i [] ≠ [] := by
  have hget : ∀ (args : List Bytes), (∀ a ∈ args, a ≠ []) → ∀ i, i < args.length → args.getD i [] ≠ [] := by
    intro args ha i hi
    rw [List.getD_eq_getElem?_getD, List.getElem?_eq_getElem hi]; exact ha _ (List.getElem_mem hi)
  induction hk : 3 - args.length using Nat.strongRecOn generalizing args s with
  | _ k ih =>
    rw [entriesLoop] at h
    by_cases h3 : args.length ≥ 3
    · rw [if_pos h3] at h
      simp only [Items.ok.injEq] at h; rw [← h.2, ← h.1]; exact hget args ha
    · rw [if_neg h3, if_neg h3] at h
      split at h
      · simp only [Items.ok.injEq] at h; rw [← h.2, ← h.1]; exact hget args ha
      · split at h
        · simp at h
        · rename_i e s' hr
          unfold readEntry at hr
          simp only at hr
          split at hr
          · simp at hr
          · split at hr
            · simp at hr
            · simp only [Option.some.injEq, Prod.mk.injEq] at hr
              by_cases he : e = []
              · rw [he] at hr
                have hs' : s' = [] := by rw [← hr.2]; exact takeWhile_nil_space hr.1
                rw [if_pos he, hs', entriesLoop] at h
                split at h
                · omega
                · split at h
                  · simp at h
                  · rw [if_pos rfl] at h
                    simp only [Items.ok.injEq] at h
                    rw [← h.2, ← h.1]
                    intro i hi
                    have := hget args ha i hi
                    rwa [List.getD_eq_getElem?_getD, List.getElem?_append_left hi, ← List.getD_eq_getElem?_getD]
              · rw [if_neg he] at h
                have hl : args.length + 1 = (args ++ [e]).length := by simp
                rw [hl] at h
                refine ih (3 - (args ++ [e]).length) (by simp only [List.length_append, List.length_singleton]; omega) ?_ h rfl
                intro a haa
                rcases List.mem_append.1 haa with haa | haa
                · exact ha a haa
                · simp only [List.mem_singleton] at haa; exact haa ▸ he

theorem readEntries_ne {l : Bytes} {n : Nat} {args : List Bytes} (hr : readEntries l = .ok n args) :
    ∀ i, i < n → args.getD i [] ≠ [] := by
  unfold readEntries at hr
  simp only at hr
  split at hr
  · simp only [Items.ok.injEq] at hr; rw [← hr.1]; intro i hi; omega
  · split at hr
    · simp only [Items.ok.injEq] at hr; rw [← hr.1]; intro i hi; omega
    · exact entriesLoop_ne (args := []) (by simp) hr

theorem readEntries_short {l : Bytes} {n : Nat} {args : List Bytes} (hr : readEntries l = .ok n args) :
    ∀ i, (args.getD i []).length < 65535 := by
  have hall : ∀ a ∈ args, a.length < 65535 := by
    unfold readEntries at hr
    simp only at hr
    split at hr
    · simp only [Items.ok.injEq] at hr; rw [← hr.2]; simp
    · split at hr
      · simp only [Items.ok.injEq] at hr; rw [← hr.2]; simp
      · exact entriesLoop_short (by simp) hr
  intro i
  by_cases hi : i < args.length
  · rw [List.getD_eq_getElem?_getD, List.getElem?_eq_getElem hi]; exact hall _ (List.getElem_mem hi)
  · rw [List.getD_eq_getElem?_getD, List.getElem?_eq_none (by omega)]; simp

theorem parseLine_sizes {l r c : Bytes} {k : Nat} (h : parseLine l = .spec r k c) :
    r ≠ [] ∧ c ≠ [] ∧ r.length < 65535 ∧ c.length < 65535 := by
  unfold parseLine at h
  split at h
  · simp at h
  · simp at h
  · simp at h
  · simp at h
  · rename_i args hr
    simp only [Line.spec.injEq] at h
    rw [← h.1, ← h.2.2]
    exact ⟨readEntries_ne hr 0 (by omega), readEntries_ne hr 1 (by omega), readEntries_short hr 0, readEntries_short hr 1⟩
  · rename_i n args h0 h1 h2 hr
    split at h
    · simp at h
    · simp only [Line.spec.injEq] at h
      rw [← h.1, ← h.2.2]
      have hn : 3 ≤ n := by
        have a0 : n ≠ 0 := fun x => h0 x
        have a1 : n ≠ 1 := fun x => h1 x
        have a2 : n ≠ 2 := fun x => h2 x
        omega
      exact ⟨readEntries_ne hr 0 (by omega), readEntries_ne hr 2 (by omega), readEntries_short hr 0, readEntries_short hr 2⟩

theorem parseLine_nul {l r c : Bytes} {k : Nat} (h : parseLine l = .spec r k c) : 0 ∉ r ∧ 0 ∉ c ∧ k < 256 := by
  have hall : ∀ n args, readEntries l = .ok n args → ∀ a ∈ args, (0 : Byte) ∉ a := by
    intro n args hr
    unfold readEntries at hr
    simp only at hr
    split at hr
    · simp only [Items.ok.injEq] at hr; rw [← hr.2]; simp
    · split at hr
      · simp only [Items.ok.injEq] at hr; rw [← hr.2]; simp
      · rename_i heq _
        refine entriesLoop_all (P := fun a => (0 : Byte) ∉ a) ?_ ?_ (by simp) hr
        · intro s hs hz
          exact hs ((List.dropWhile_sublist _).subset ((List.takeWhile_sublist _).subset hz))
        · intro hz
          have := mem_takeWhile_sat ((List.dropWhile_sublist _).subset hz)
          simp at this
  have hget : ∀ (args : List Bytes) i, (∀ a ∈ args, (0 : Byte) ∉ a) → (0 : Byte) ∉ args.getD i [] := by
    intro args i ha
    by_cases hi : i < args.length
    · rw [List.getD_eq_getElem?_getD, List.getElem?_eq_getElem hi]; exact ha _ (List.getElem_mem hi)
    · rw [List.getD_eq_getElem?_getD, List.getElem?_eq_none (by omega)]; simp
  unfold parseLine at h
  split at h
  · simp at h
  · simp at h
  · simp at h
  · simp at h
  · rename_i args hr
    simp only [Line.spec.injEq] at h
    rw [← h.1, ← h.2.1, ← h.2.2]
    exact ⟨hget _ _ (hall _ _ hr), hget _ _ (hall _ _ hr), by omega⟩
  · rename_i n args h0 h1 h2 hr
    split at h
    · simp at h
    · rename_i k' hk'
      simp only [Line.spec.injEq] at h
      rw [← h.1, ← h.2.1, ← h.2.2]
      refine ⟨hget _ _ (hall _ _ hr), hget _ _ (hall _ _ hr), ?_⟩
      unfold kindOf at hk'
      split at hk'
      · split at hk'
        · simp at hk'
        · repeat' (split at hk'; · simp only [Option.some.injEq] at hk'; omega)
          simp at hk'
      · simp at hk'

/-- A context of the lines. -/
structure CtxOk (S : List Bytes) (c : Bytes) : Prop where
  nul : 0 ∉ c
  ne : c ≠ []
  short : c.length < 65535
  mem : c ∈ S

/-- What the literals satisfy, for lines with the contexts `S`. -/
structure ALit (S : List Bytes) (l : Lit) : Prop where
  ok : LitOk l
  ne : l.regexStr ≠ []
  lne : l.literalMatch ≠ []
  short : l.regexStr.length < 65535
  ctx : CtxOk S l.ctx

/-- What the expressions satisfy. -/
structure ARe (input : Nat) (S : List Bytes) (r : Re) : Prop where
  ok : ReOk r
  ne : r.regexStr ≠ []
  short : r.regexStr.length < 65535
  ctx : CtxOk S r.ctx
  input : r.inputno = input

theorem insert_tr {input : Nat} {S : List Bytes} {d d' : Data} {r c : Bytes} {k line : Nat} (hr : 0 ∉ r) (hne : r ≠ [])
    (hsh : r.length < 65535) (hc : CtxOk S c) (hk : k < 256)
    (hl : 0 < line) (hl' : line < 4294967295) (h : Tr (ALit S) (ARe input S) 4 d.root)
    (hi : insertSpec none d r k c input line = some d') :
    Tr (ALit S) (ARe input S) 4 d'.root ∧ count d'.root ≤ count d.root + 1 := by
  unfold insertSpec at hi
  simp only at hi
  split at hi
  · split at hi
    · simp only [Option.some.injEq] at hi; rw [← hi]; exact ⟨h, by omega⟩
    · rename_i path hp
      simp only [Option.some.injEq] at hi
      rw [← hi]
      obtain ⟨h1, h2⟩ := reStems_stems hp hr
      have hadd : Adds (ALit S) (ARe input S) (addRe ⟨c, r, (hasMeta r 0).2, k, input, line⟩) := by
        refine addRe_adds ⟨⟨hr, ?_, hk, hl, hl'⟩, hne, hsh, hc, rfl⟩
        have := hasMeta_le r 0
        simpa using this
      exact ⟨upd_tr hadd h1 (by omega) h, Nat.le_of_eq (count_upd hadd.count _ _)⟩
  · split at hi
    · simp at hi
    · rename_i t ht
      obtain ⟨f1, f2, f3, f4⟩ := simplify_facts r t ht
      split at hi
      · simp only [Option.some.injEq] at hi; rw [← hi]; exact ⟨h, by omega⟩
      · rename_i path hp
        simp only [Option.some.injEq] at hi
        rw [← hi]
        obtain ⟨h1, h2⟩ := litStems_stems hp (f1 hr) (by omega)
        have hadd : Adds (ALit S) (ARe input S) (addLit ⟨c, r, t, (hasMeta r 0).2, k, line⟩) := by
          refine addLit_adds ⟨⟨hr, f1 hr, ?_, f3, hk⟩, hne, f2 hne, hsh, hc⟩
          rw [f4]; simp
        exact ⟨upd_tr hadd h1 (by omega) h, Nat.le_of_eq (count_upd hadd.count _ _)⟩

theorem processLines_tr {input : Nat} {S : List Bytes} {ls : List Bytes} {line : Nat} {d d' : Data}
    (hS : ∀ l ∈ ls, ∀ r k c, parseLine l = .spec r k c → c ∈ S) (hl : line + ls.length < 4294967295)
    (h : Tr (ALit S) (ARe input S) 4 d.root) (hp : processLines none input line ls d = some d') :
    Tr (ALit S) (ARe input S) 4 d'.root ∧ count d'.root ≤ count d.root + ls.length := by
  induction ls generalizing line d with
  | nil => simp only [processLines, Option.some.injEq] at hp; subst hp; exact ⟨h, by omega⟩
  | cons l ls ih =>
    rw [processLines] at hp
    simp only [List.length_cons] at hl ⊢
    have hS' : ∀ x ∈ ls, ∀ r k c, parseLine x = .spec r k c → c ∈ S := fun x hx => hS x (List.mem_cons_of_mem _ hx)
    cases hpl : parseLine l with
    | ub => rw [hpl] at hp; simp at hp
    | err => rw [hpl] at hp; simp at hp
    | skip =>
      rw [hpl] at hp
      have := ih hS' (by omega) h hp
      exact ⟨this.1, by omega⟩
    | spec r k c =>
      rw [hpl] at hp
      simp only at hp
      cases hi : insertSpec none d r k c input (line + 1) with
      | none => rw [hi] at hp; simp at hp
      | some d1 =>
        rw [hi] at hp
        obtain ⟨h1, h2, h3⟩ := parseLine_nul hpl
        obtain ⟨z1, z2, z3, z4⟩ := parseLine_sizes hpl
        obtain ⟨i1, i2⟩ := insert_tr h1 z1 z3 ⟨h2, z2, z4, hS l List.mem_cons_self r k c hpl⟩ h3 (by omega) (by omega) h hi
        have := ih hS' (by omega) i1 hp
        exact ⟨this.1, by omega⟩

/-! ## Sorting -/

theorem sort_some {q : Qsort} (hq : Sorts q) {n : Node} (h : Some_ n) : Some_ (sortNode q n) := by
  have hne : ∀ {α : Type} (cmp : α → α → Int) (l : List α), l ≠ [] → q.sort cmp l ≠ [] := by
    intro α cmp l hl hs
    have := (hq cmp l).1
    rw [hs] at this
    exact hl this.nil_eq.symm
  rcases h with h | h | h
  · left; rw [sortNode_lits]; exact hne _ _ h
  · right; left; rw [sortNode_res]; exact h
  · right; right; rw [sortNode_children]
    exact hne _ _ (by intro hx; exact h (by simpa using hx))

theorem sort_tr {q : Qsort} (hq : Sorts q) {A : Lit → Prop} {B : Re → Prop} {k : Nat} {n : Node} (h : Tr A B k n) :
    Tr A B k (sortNode q n) := by
  induction h with
  | mk lits res kids stems some_ ih =>
    rw [sortNode]
    have hmem : ∀ {cs : List Node} x, x ∈ q.sort cmpNode (sortNodes q cs) → ∃ y ∈ cs, x = sortNode q y := by
      intro cs x hx
      have := (hq cmpNode (sortNodes q cs)).1.mem_iff.1 hx
      rw [sortNodes_map] at this
      obtain ⟨y, hy, rfl⟩ := List.mem_map.1 this
      exact ⟨y, hy, rfl⟩
    refine .mk (fun l hl => lits l ((hq cmpLit _).1.mem_iff.1 hl)) res ?_ ?_ ?_
    · intro x hx; obtain ⟨y, hy, rfl⟩ := hmem x hx; exact ih y hy
    · intro x hx; obtain ⟨y, hy, rfl⟩ := hmem x hx; rw [sortNode_stem]; exact stems y hy
    · intro x hx; obtain ⟨y, hy, rfl⟩ := hmem x hx; exact sort_some hq (some_ y hy)

theorem fine_of_tr {input : Nat} {S : List Bytes} {k : Nat} {n : Node} {top : Bool} (h : Tr (ALit S) (ARe input S) k n)
    (hs : n.stem = [] ↔ top = true) (h0 : 0 ∉ n.stem) (hsome : top = true ∨ Some_ n)
    (hstrict : ∀ x, Within n x → Strict x) (hroomy : ∀ x, Within n x → Roomy x) (hsmall : ∀ x, Within n x → Small x)
    (j : Nat) : Fine (k + j) top n := by
  induction h generalizing top with
  | @mk k s ls rs cs lits res kids stems some_ ih =>
    rw [Nat.add_right_comm]
    refine .mk hs h0 (fun l hl => (lits l hl).ok) (fun r hr => (res r hr).ok) (hroomy _ (.here _)) (hsmall _ (.here _)) ?_
      (hstrict _ (.here _)) ?_
    · intro c hc
      refine ih c hc ?_ (stems c hc).2.1 (Or.inr (some_ c hc)) (fun x hx => hstrict x (.child hc hx))
        (fun x hx => hroomy x (.child hc hx)) (fun x hx => hsmall x (.child hc hx))
      simp [(stems c hc).1]
    · rcases hsome with h | h
      · exact Or.inl h
      · exact Or.inr h

theorem perm_sum {l m : List Nat} (h : l.Perm m) : l.sum = m.sum := by
  induction h with
  | nil => rfl
  | cons x _ ih => simp only [List.sum_cons, ih]
  | swap x y l => simp only [List.sum_cons]; omega
  | trans _ _ h1 h2 => rw [h1, h2]

mutual
theorem count_sort {q : Qsort} (hq : Sorts q) (n : Node) : count (sortNode q n) = count n := by
  cases n with
  | mk s ls rs cs =>
    rw [sortNode, count, count, (hq cmpLit ls).1.length_eq, counts_sum, counts_sum cs, perm_sum ((hq cmpNode _).1.map count)]
    rw [counts_sort hq cs]
theorem counts_sort {q : Qsort} (hq : Sorts q) (cs : List Node) : ((sortNodes q cs).map count).sum = (cs.map count).sum := by
  cases cs with
  | nil => rfl
  | cons c cs =>
    rw [sortNodes, List.map_cons, List.map_cons, List.sum_cons, List.sum_cons, count_sort hq c, counts_sort hq cs]
end

theorem lits_within_sort {q : Qsort} (hq : Sorts q) {n : Node} : ∀ x, Within (sortNode q n) x → SortedL x.lits := by
  intro x hx
  generalize hm : sortNode q n = m at hx
  induction hx generalizing n with
  | here m => subst hm; rw [sortNode_lits]; exact (hq cmpLit _).2 cmpLit_consistent
  | child hc hw ih =>
    subst hm
    rw [sortNode_children] at hc
    have := (hq cmpNode _).1.mem_iff.1 hc
    obtain ⟨y, hy, rfl⟩ := List.mem_map.1 this
    exact ih rfl

theorem wf_within_sort {q : Qsort} (hq : Sorts q) {n : Node} (h : WF n) : ∀ x, Within (sortNode q n) x → Strict x := by
  intro x hx
  generalize hm : sortNode q n = m at hx
  induction hx generalizing n with
  | here m => subst hm; exact strict_sort hq h
  | child hc hw ih =>
    subst hm
    rw [sortNode_children] at hc
    have := (hq cmpNode _).1.mem_iff.1 hc
    obtain ⟨y, hy, rfl⟩ := List.mem_map.1 this
    exact ih (h.sub y hy) rfl

theorem tr_ctx {A : Lit → Prop} {B : Re → Prop} {k : Nat} {n : Node} (h : Tr A B k n) {c : Bytes} (hc : HasCtx n c) :
    (∃ l, A l ∧ l.ctx = c) ∨ ∃ r, B r ∧ r.ctx = c := by
  induction h with
  | mk lits res kids stems some_ ih =>
    rcases (within_iff _ _ _ _ _).1 hc with hc | hc | ⟨x, hx, hc⟩
    · obtain ⟨l, hl, rfl⟩ := List.mem_map.1 hc; exact Or.inl ⟨l, lits l hl, rfl⟩
    · obtain ⟨r, hr, rfl⟩ := List.mem_map.1 hc; exact Or.inr ⟨r, res r hr, rfl⟩
    · exact ih x hx hc

end Verif.CompFc
