import Verif.CompFc.Load
/-! # Lookups do not use the line numbers of literals -/
namespace Verif.CompFc
open Verif.FileLabel
open Spec

theorem litCmp_keep (pm : Bool) (l : Lit) (key : Bytes) : litCmp pm (keepLit l) key = litCmp pm l key := rfl

theorem firstMatch_keep (pm : Bool) (a : Array Lit) (key : Bytes) (m : Nat) :
    firstMatch pm (a.map keepLit) key m = firstMatch pm a key m := by
  induction m with
  | zero => rfl
  | succ m ih =>
    rw [firstMatch, firstMatch, Array.getElem?_map]
    cases h : a[m]? with
    | none => rfl
    | some l =>
      simp only [Option.map_some, litCmp_keep]
      rw [ih]
      rfl

theorem searchLitLoop_keep (pm : Bool) (a : Array Lit) (key : Bytes) (lower upper : Nat) :
    searchLitLoop pm (a.map keepLit) key lower upper = searchLitLoop pm a key lower upper := by
  induction hk : upper + 1 - lower using Nat.strongRecOn generalizing lower upper with
  | _ k ih =>
    rw [searchLitLoop]
    conv => rhs; rw [searchLitLoop]
    split
    · simp only [Array.getElem?_map]
      cases h : a[lower + (upper - lower) / 2]? with
      | none => simp only [Option.map_none]
      | some l =>
        simp only [Option.map_some, litCmp_keep, firstMatch_keep]
        by_cases h0 : litCmp pm l key = 0
        · rw [if_pos h0, if_pos h0]
        · rw [if_neg h0, if_neg h0]
          by_cases h1 : litCmp pm l key < 0
          · refine (if_pos h1).trans (Eq.trans ?_ (if_pos h1).symm)
            exact ih _ (by omega) _ _ rfl
          · refine (if_neg h1).trans (Eq.trans ?_ (if_neg h1).symm)
            split
            · rfl
            · exact ih _ (by omega) _ _ rfl
    · rfl

theorem searchLit_keep (pm : Bool) (a : Array Lit) (key : Bytes) :
    searchLit pm (a.map keepLit) key = searchLit pm a key := by
  unfold searchLit
  rw [Array.size_map, searchLitLoop_keep]

theorem litLoop_keep (pm : Bool) (key : Bytes) (kind : Nat) (ls : List Lit) :
    litLoop pm key kind (ls.map keepLit) = litLoop pm key kind ls := by
  induction ls with
  | nil => rfl
  | cons l ls ih =>
    rw [List.map_cons, litLoop.eq_def]
    conv => rhs; rw [litLoop.eq_def]
    cases ls with
    | nil => rfl
    | cons l' ls =>
      simp only [List.map_cons] at ih ⊢
      rw [ih]
      rfl

theorem searchChildLoop_keep (i : Nat) (a : Array Node) (key : Bytes) (lower upper : Nat) :
    searchChildLoop (a.map (keep i)) key lower upper = (searchChildLoop a key lower upper).map (keep i) := by
  induction hk : upper + 1 - lower using Nat.strongRecOn generalizing lower upper with
  | _ k ih =>
    rw [searchChildLoop]
    conv => rhs; rw [searchChildLoop]
    split
    · simp only [Array.getElem?_map]
      cases h : a[lower + (upper - lower) / 2]? with
      | none => simp only [Option.map_none]
      | some l =>
        simp only [Option.map_some, keep_stem]
        split
        · rfl
        · split
          · exact ih _ (by omega) _ _ rfl
          · split
            · rfl
            · exact ih _ (by omega) _ _ rfl
    · rfl

theorem searchChild_keep (i : Nat) (a : Array Node) (key : Bytes) :
    searchChild (a.map (keep i)) key = (searchChild a key).map (keep i) := by
  unfold searchChild
  rw [Array.size_map, searchChildLoop_keep]
  split <;> rfl

theorem keep_children (i : Nat) (n : Node) : (keep i n).children = n.children.map (keep i) := by
  cases n; rw [keep, keeps_map]; rfl

theorem keep_lits (i : Nat) (n : Node) : (keep i n).lits = n.lits.map keepLit := by cases n; rw [keep]; rfl

theorem keep_res (i : Nat) (n : Node) : (keep i n).res = n.res.map (keepRe i) := by cases n; rw [keep]; rfl

theorem deepest_keep (i : Nat) (n : Node) (ps : List Node) (p : Bytes) :
    deepest (keep i n) (ps.map (keep i)) p = (deepest n ps p).map (keep i) := by
  induction hk : p.length using Nat.strongRecOn generalizing n ps p with
  | _ k ih =>
    rw [deepest.eq_def]
    conv => rhs; rw [deepest.eq_def]
    split
    · rfl
    · split
      · rfl
      · split
        · rfl
        · rename_i seg q hc
          have hlen := cut_length hc
          simp only [List.length_cons] at hk
          split
          · rfl
          · rw [keep_children, List.map_toArray.symm, searchChild_keep]
            cases h : searchChild n.children.toArray seg with
            | none => rfl
            | some c =>
              simp only [Option.map_some]
              exact ih q.length (by omega) c (n :: ps) q rfl

/-- All the expressions are of one input file. -/
def Input (i : Nat) (n : Node) : Prop := ∀ m, Within n m → ∀ r ∈ m.res, r.inputno = i

theorem keep_res_same {i : Nat} {n : Node} (h : ∀ r ∈ n.res, r.inputno = i) : (keep i n).res = n.res := by
  rw [keep_res]
  conv => rhs; rw [← List.map_id n.res]
  apply List.map_congr_left
  intro r hr
  have := h r hr
  cases r
  simp only [keepRe, id] at this ⊢
  rw [this]

theorem nodesLoop_keep {i : Nat} (eng : Engine) (pm : Bool) (key : Bytes) (kind : Nat) (ch : Option Re) (ns : List Node)
    (h : ∀ n ∈ ns, ∀ r ∈ n.res, r.inputno = i) :
    nodesLoop eng pm key kind ch (ns.map (keep i)) = nodesLoop eng pm key kind ch ns := by
  induction ns generalizing ch with
  | nil => rfl
  | cons n ns ih =>
    rw [List.map_cons, nodesLoop, nodesLoop, keep_res_same (h n List.mem_cons_self)]
    split
    · rfl
    · exact ih _ (fun x hx => h x (List.mem_cons_of_mem _ hx))

theorem searchChildLoop_mem {a : Array Node} {key : Bytes} {lower upper : Nat} {c : Node}
    (h : searchChildLoop a key lower upper = some c) : c ∈ a := by
  induction hk : upper + 1 - lower using Nat.strongRecOn generalizing lower upper with
  | _ k ih =>
    rw [searchChildLoop] at h
    split at h
    · simp only at h
      split at h
      · simp at h
      · rename_i l hl
        split at h
        · simp only [Option.some.injEq] at h; subst h; exact Array.mem_of_getElem? hl
        · split at h
          · exact ih _ (by omega) h rfl
          · split at h
            · simp at h
            · exact ih _ (by omega) h rfl
    · simp at h

theorem deepest_within (root n : Node) (ps : List Node) (p : Bytes) (hn : Within root n) (hps : ∀ x ∈ ps, Within root x) :
    ∀ x ∈ deepest n ps p, Within root x := by
  induction hk : p.length using Nat.strongRecOn generalizing n ps p with
  | _ k ih =>
    have hhere : ∀ x ∈ n :: ps, Within root x := by
      intro x hx
      rcases List.mem_cons.1 hx with rfl | hx
      · exact hn
      · exact hps x hx
    rw [deepest.eq_def]
    split
    · exact hhere
    · split
      · exact hhere
      · split
        · exact hhere
        · rename_i seg q hc
          have hlen := cut_length hc
          simp only [List.length_cons] at hk
          split
          · exact hhere
          · split
            · exact hhere
            · rename_i c hcc
              refine ih q.length (by omega) c (n :: ps) q ?_ hhere rfl
              have : c ∈ n.children := by
                unfold searchChild at hcc
                split at hcc
                · simp at hcc
                · have := searchChildLoop_mem hcc
                  simpa using this
              clear hhere ih hps hcc
              induction hn with
              | here m => exact .child this (.here _)
              | child hx _ ih2 => exact .child hx (ih2 this)

theorem lookupAll_keep {i : Nat} (eng : Engine) (d : Data) (h : Input i d.root) (subs dist : List Sub) (key : Bytes) (kind : Nat)
    (pm : Bool) : lookupAll eng ⟨keep i d.root, d.num⟩ subs dist key kind pm = lookupAll eng d subs dist key kind pm := by
  unfold lookupAll
  simp only
  split
  · rfl
  · split
    · rfl
    · generalize subKey subs dist (chop (dedup key)) = k
      have hd := deepest_keep i d.root [] k
      rw [List.map_nil] at hd
      rw [hd]
      unfold checkNode
      have h1 : litPart pm k kind ((deepest d.root [] k).map (keep i)) = litPart pm k kind (deepest d.root [] k) := by
        cases deepest d.root [] k with
        | nil => rfl
        | cons n ns =>
          rw [List.map_cons, litPart, litPart, keep_lits, List.map_toArray.symm, searchLit_keep]
          split
          · rfl
          · rw [List.map_drop.symm, litLoop_keep]
      rw [h1, nodesLoop_keep eng pm k kind none _ (fun n hn => h n (deepest_within d.root d.root [] k (.here _) (by simp) n hn))]

end Verif.CompFc
