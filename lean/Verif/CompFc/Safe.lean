import Verif.CompFc.Lemmas
import Verif.FileLabel.Search
/-! # What the reader does with any bytes -/
namespace Verif.CompFc
open Verif.FileLabel (Node Lit Re Data strcmp)
open Spec

theorem bind_eq {α β : Type} (p : P α) (f : α → P β) (s : Bytes) :
    (p >>= f) s = match p s with
      | .ok a r => f a r
      | .bad => .bad
      | .oob => .oob := rfl

/-- Only PCRE goes outside of the mapping, and what follows the reader is part of
the mapping. -/
def Safe {α : Type} (decode : Bytes → Dec) (p : P α) : Prop :=
  ∀ s, (p s = .oob → ∃ t, t <:+ s ∧ decode t = .outside) ∧ ∀ a r, p s = .ok a r → r <:+ s

theorem safe_bind {α β : Type} {decode : Bytes → Dec} {p : P α} {f : α → P β} (hp : Safe decode p)
    (hf : ∀ a, Safe decode (f a)) : Safe decode (p >>= f) := by
  intro s
  rw [bind_eq]
  cases h : p s with
  | ok a r =>
    have hr := (hp s).2 a r h
    refine ⟨?_, ?_⟩
    · intro ho
      obtain ⟨t, ht, hd⟩ := (hf a r).1 ho
      exact ⟨t, ht.trans hr, hd⟩
    · intro b r' hb
      exact ((hf a r).2 b r' hb).trans hr
  | bad => exact ⟨nofun, nofun⟩
  | oob => exact ⟨fun _ => (hp s).1 h, nofun⟩

theorem safe_ret {α : Type} (decode : Bytes → Dec) (a : α) : Safe decode (ret a) := by
  intro s
  refine ⟨nofun, ?_⟩
  intro b r h
  simp only [ret, R.ok.injEq] at h
  rw [← h.2]; exact List.suffix_refl _

theorem safe_next (decode : Bytes → Dec) (n : Nat) : Safe decode (next n) := by
  intro s
  unfold next
  split
  · exact ⟨nofun, nofun⟩
  · refine ⟨nofun, ?_⟩
    intro a r h
    simp only [R.ok.injEq] at h
    rw [← h.2]; exact List.drop_suffix _ _

theorem safe_num (decode : Bytes → Dec) (k : Nat) : Safe decode (num k) :=
  safe_bind (safe_next _ _) (fun _ => safe_ret _ _)

theorem safe_bad {α : Type} (decode : Bytes → Dec) : Safe decode (fun _ => R.bad : P α) := fun _ => ⟨nofun, nofun⟩

theorem safe_refuse_bind {β : Type} {decode : Bytes → Dec} {c : Bool} {f : Unit → P β} (hf : c = false → Safe decode (f ())) :
    Safe decode (refuse c >>= f) := by
  intro s
  rw [bind_eq]
  cases c with
  | true => exact ⟨nofun, nofun⟩
  | false => exact hf rfl s

theorem safe_room (decode : Bytes → Dec) (n k : Nat) : Safe decode (room n k) := by
  intro s
  unfold room
  split
  · exact ⟨nofun, nofun⟩
  · refine ⟨nofun, ?_⟩
    intro a r h
    simp only [R.ok.injEq] at h
    rw [← h.2]; exact List.suffix_refl _

theorem safe_str (decode : Bytes → Dec) {n : Nat} (h0 : n ≠ 0) : Safe decode (str n) := by
  intro s
  unfold str
  by_cases hn : n > s.length
  · rw [if_pos hn]; exact ⟨nofun, nofun⟩
  · rw [if_neg hn, if_neg h0]
    have h1 : 0 < s.length := by omega
    have h2 : n - 1 < s.length := by omega
    rw [List.getElem?_eq_getElem h1, List.getElem?_eq_getElem h2]
    simp only
    split
    · exact ⟨nofun, nofun⟩
    · rename_i hc
      have hz : (0 : Byte) ∈ s := by
        have : s[n - 1] = 0 := by
          by_cases hx : s[n - 1] = 0
          · exact hx
          · exact absurd (Or.inr hx) hc
        rw [← this]; exact List.getElem_mem h2
      have : strAt s = some (s.takeWhile (· ≠ 0)) := by unfold strAt; rw [if_pos hz]
      rw [this]
      refine ⟨nofun, ?_⟩
      intro a r h
      simp only [R.ok.injEq] at h
      rw [← h.2]; exact List.drop_suffix _ _

theorem safe_rep {α : Type} {decode : Bytes → Dec} {p : P α} (hp : Safe decode p) (n : Nat) : Safe decode (rep p n) := by
  induction n with
  | zero => exact safe_ret _ _
  | succ n ih => exact safe_bind hp (fun _ => safe_bind ih (fun _ => safe_ret _ _))

theorem safe_rdCtx (decode : Bytes → Dec) (check : Bytes → Option Bytes) : Safe decode (rdCtx check) := by
  unfold rdCtx
  refine safe_bind (safe_num _ _) fun n => safe_refuse_bind fun _ => safe_bind (safe_room _ _ _) fun _ =>
    safe_bind (safe_next _ _) fun b => ?_
  simp only
  split
  · exact safe_ret _ _
  · split
    · exact safe_bad _
    · exact safe_ret _ _

theorem safe_rdTable (decode : Bytes → Dec) (check : Bytes → Option Bytes) : Safe decode (rdTable check) :=
  safe_bind (safe_num _ _) fun _ => safe_bind (safe_room _ _ _) fun _ => safe_rep (safe_rdCtx _ _) _

theorem safe_rdId (decode : Bytes → Dec) (t : List Bytes) : Safe decode (rdId t) := by
  unfold rdId
  refine safe_bind (safe_num _ _) fun i => safe_refuse_bind fun h => ?_
  simp only [Bool.or_eq_false_iff, beq_eq_false_iff_ne, decide_eq_false_iff_not] at h
  have : i - 1 < t.length := by omega
  rw [List.getElem?_eq_getElem this]
  exact safe_ret _ _

theorem safe_rdStr (decode : Bytes → Dec) : Safe decode rdStr := by
  unfold rdStr
  refine safe_bind (safe_num _ _) fun n => safe_refuse_bind fun h => ?_
  simp only [decide_eq_false_iff_not] at h
  exact safe_bind (safe_str _ (by omega)) fun _ => safe_ret _ _

theorem safe_rdLit (decode : Bytes → Dec) (t : List Bytes) : Safe decode (rdLit t) :=
  safe_bind (safe_rdId _ _) fun _ => safe_bind (safe_rdStr _) fun _ => safe_bind (safe_rdStr _) fun _ =>
    safe_refuse_bind fun _ => safe_bind (safe_num _ _) fun _ => safe_ret _ _

theorem safe_rdRegex (decode : Bytes → Dec) (pre : Bool) : Safe decode (rdRegex decode pre) := by
  unfold rdRegex
  refine safe_bind (safe_num _ _) fun n => safe_bind ?_ fun _ => safe_bind (safe_next _ _) fun _ => safe_ret _ _
  intro s
  unfold rdDecode
  split
  · split
    · refine ⟨nofun, ?_⟩
      intro a r h
      simp only [R.ok.injEq] at h
      rw [← h.2]; exact List.suffix_refl _
    · exact ⟨nofun, nofun⟩
    · rename_i h; exact ⟨fun _ => ⟨s, List.suffix_refl _, h⟩, nofun⟩
  · refine ⟨nofun, ?_⟩
    intro a r h
    simp only [R.ok.injEq] at h
    rw [← h.2]; exact List.suffix_refl _

theorem safe_rdRe (decode : Bytes → Dec) (pre : Bool) (input : Nat) (t : List Bytes) : Safe decode (rdRe decode pre input t) :=
  safe_bind (safe_rdId _ _) fun _ => safe_bind (safe_num _ _) fun _ => safe_refuse_bind fun _ => safe_bind (safe_rdStr _) fun _ =>
    safe_bind (safe_num _ _) fun _ => safe_refuse_bind fun _ => safe_bind (safe_num _ _) fun _ =>
      safe_bind (safe_rdRegex _ _) fun _ => safe_ret _ _

theorem safe_rdStem (decode : Bytes → Dec) (top : Bool) : Safe decode (rdStem top) := by
  unfold rdStem
  refine safe_bind (safe_num _ _) fun n => safe_refuse_bind fun h => safe_refuse_bind fun _ => ?_
  split
  · exact safe_bind (safe_next _ _) fun _ => safe_ret _ _
  · simp only [beq_eq_false_iff_ne] at h
    exact safe_str _ h

theorem safe_rdKids {decode : Bytes → Dec} {p : P Node} (hp : Safe decode p) (n : Nat) (prev : Option Bytes) :
    Safe decode (rdKids p n prev) := by
  induction n generalizing prev with
  | zero => exact safe_ret _ _
  | succ n ih => exact safe_bind hp fun _ => safe_refuse_bind fun _ => safe_bind (ih _) fun _ => safe_ret _ _

theorem safe_rdNode (decode : Bytes → Dec) (pre : Bool) (input : Nat) (t : List Bytes) (k : Nat) (top : Bool) :
    Safe decode (rdNode decode pre input t k top) := by
  induction k generalizing top with
  | zero => exact safe_bad _
  | succ k ih =>
    exact safe_bind (safe_rdStem _ _) fun _ => safe_bind (safe_num _ _) fun _ => safe_refuse_bind fun _ =>
      safe_bind (safe_room _ _ _) fun _ => safe_bind (safe_rep (safe_rdLit _ _) _) fun _ =>
      safe_bind (safe_num _ _) fun _ => safe_refuse_bind fun _ =>
      safe_bind (safe_room _ _ _) fun _ => safe_bind (safe_rep (safe_rdRe _ _ _ _) _) fun _ =>
      safe_bind (safe_num _ _) fun _ => safe_refuse_bind fun _ =>
      safe_bind (safe_room _ _ _) fun _ => safe_bind (safe_rdKids (ih false) _ _) fun _ =>
      safe_refuse_bind fun _ => safe_ret _ _

theorem safe_rdHead (decode : Bytes → Dec) (want : Bytes) : Safe decode (rdHead want) := by
  unfold rdHead
  refine safe_bind (safe_num _ _) fun n => ?_
  split
  · intro s
    simp only
    split
    · refine ⟨nofun, ?_⟩
      intro a r h
      simp only [R.ok.injEq] at h
      rw [← h.2]; exact List.suffix_refl _
    · refine ⟨nofun, ?_⟩
      intro a r h
      simp only [R.ok.injEq] at h
      rw [← h.2]; exact List.drop_suffix _ _
  · exact safe_bind (safe_room _ _ _) fun _ => safe_bind (safe_next _ _) fun _ => safe_ret _ _

theorem safe_load (lib : Lib) (decode : Bytes → Dec) (check : Bytes → Option Bytes) (input : Nat) :
    Safe decode (load lib decode check input) :=
  safe_bind (safe_num _ _) fun _ => safe_refuse_bind fun _ => safe_bind (safe_num _ _) fun _ => safe_refuse_bind fun _ =>
    safe_bind (safe_rdHead _ _) fun _ => safe_bind (safe_rdHead _ _) fun _ => safe_bind (safe_num _ _) fun _ =>
    safe_bind (safe_rdTable _ _) fun _ => safe_bind (safe_rdNode _ _ _ _ _ _) fun _ => safe_ret _ _

/-! ## The trees it accepts -/

/-- What holds of the value. -/
def Post {α : Type} (p : P α) (Q : α → Prop) : Prop := ∀ s a r, p s = .ok a r → Q a

theorem post_bind {α β : Type} {p : P α} {f : α → P β} {A : α → Prop} {B : β → Prop} (hp : Post p A)
    (hf : ∀ a, A a → Post (f a) B) : Post (p >>= f) B := by
  intro s b r h
  rw [bind_eq] at h
  cases hs : p s with
  | ok a r' => rw [hs] at h; exact hf a (hp s a r' hs) r' b r h
  | bad => rw [hs] at h; simp at h
  | oob => rw [hs] at h; simp at h

theorem post_any {α : Type} (p : P α) : Post p (fun _ => True) := fun _ _ _ _ => trivial

theorem post_ret {α : Type} {a : α} {A : α → Prop} (h : A a) : Post (ret a) A := by
  intro s b r hb
  simp only [ret, R.ok.injEq] at hb
  exact hb.1 ▸ h

theorem post_refuse (c : Bool) : Post (refuse c) (fun _ => c = false) := by
  intro s a r h
  unfold refuse at h
  cases c with
  | true => simp at h
  | false => rfl

theorem leVal_bound (k : Nat) : Post (num k) (fun n => n < 256 ^ k) := by
  intro s a r h
  unfold num at h
  rw [bind_eq] at h
  unfold next at h
  split at h
  · rename_i hx
    split at hx
    · simp at hx
    · simp only [R.ok.injEq] at hx
      simp only [ret, R.ok.injEq] at h
      rw [← h.1, ← hx.1]
      unfold beVal
      have hl := leVal_lt (s.take k).reverse
      rw [List.length_reverse, List.length_take, Nat.min_eq_left (by omega)] at hl
      exact hl
  · simp at h
  · simp at h

theorem post_rep {α : Type} {p : P α} {A : α → Prop} (h : Post p A) (n : Nat) :
    Post (rep p n) (fun xs => xs.length = n ∧ ∀ x ∈ xs, A x) := by
  induction n with
  | zero => exact post_ret ⟨rfl, by simp⟩
  | succ n ih =>
    refine post_bind h fun x hx => post_bind ih fun xs hxs => post_ret ⟨by simp [hxs.1], ?_⟩
    intro y hy
    rcases List.mem_cons.1 hy with rfl | hy
    · exact hx
    · exact hxs.2 y hy

theorem post_str (n : Nat) : Post (str n) Text := by
  intro s a r h
  unfold str at h
  split at h
  · simp at h
  · split at h
    · simp at h
    · split at h
      · rename_i x z hx hz
        split at h
        · simp at h
        · rename_i hc
          split at h
          · simp at h
          · rename_i t ht
            simp only [R.ok.injEq] at h
            rw [← h.1]
            unfold strAt at ht
            split at ht
            · simp only [Option.some.injEq] at ht
              rw [← ht]
              cases s with
              | nil => simp at hx
              | cons b bs =>
                simp only [List.getElem?_cons_zero, Option.some.injEq] at hx
                subst hx
                have hb : b ≠ 0 := fun x => hc (Or.inl x)
                refine ⟨?_, ?_⟩
                · simp [hb]
                · intro hm
                  have : ∀ (l : Bytes) (b : Byte), b ∈ l.takeWhile (fun b => decide (b ≠ 0)) → b ≠ 0 := by
                    intro l
                    induction l with
                    | nil => simp
                    | cons c cs ih =>
                      intro b hb
                      rw [List.takeWhile_cons] at hb
                      split at hb
                      · rename_i h1
                        rcases List.mem_cons.1 hb with rfl | hb
                        · simpa using h1
                        · exact ih b hb
                      · simp at hb
                  exact this _ _ hm rfl
            · simp at ht
      · simp at h

theorem post_rdId (t : List Bytes) : Post (rdId t) (fun c => c ∈ t) := by
  unfold rdId
  refine post_bind (post_any _) fun i _ => post_bind (post_any _) fun _ _ => ?_
  split
  · intro s a r h; simp at h
  · rename_i c hc; exact post_ret (List.mem_of_getElem? hc)

theorem post_rdStr : Post rdStr (fun x => Text x.2) := by
  unfold rdStr
  exact post_bind (post_any _) fun _ _ => post_bind (post_any _) fun _ _ => post_bind (post_str _) fun _ h => post_ret h

theorem post_rdLit (t : List Bytes) : Post (rdLit t) (LitIn t) := by
  unfold rdLit
  refine post_bind (post_rdId t) fun c hc => post_bind post_rdStr fun r hr => post_bind post_rdStr fun m hm =>
    post_bind (post_refuse _) fun _ hn => post_bind (leVal_bound 1) fun k hk => post_ret ⟨hc, hr, hm, ?_, hk⟩
  simpa using hn

theorem post_rdRe (decode : Bytes → Dec) (pre : Bool) (input : Nat) (t : List Bytes) :
    Post (rdRe decode pre input t) (ReIn t input) := by
  unfold rdRe
  refine post_bind (post_rdId t) fun c hc => post_bind (leVal_bound 4) fun l hl => post_bind (post_refuse _) fun _ hn =>
    post_bind post_rdStr fun r hr => post_bind (post_any _) fun n _ => post_bind (post_refuse _) fun _ hp =>
    post_bind (leVal_bound 1) fun k hk => post_bind (post_any _) fun _ _ => post_ret ?_
  simp only [Bool.or_eq_false_iff, beq_eq_false_iff_ne] at hn
  refine ⟨hc, hr, by simpa using hp, hk, (by show 0 < l; omega), ?_, rfl⟩
  have : l < 4294967296 := hl
  show l < 4294967295
  omega

theorem post_rdStem (top : Bool) : Post (rdStem top) (fun s => if top then s = [] else Text s) := by
  unfold rdStem
  refine post_bind (post_any _) fun n _ => post_bind (post_any _) fun _ _ => post_bind (post_any _) fun _ _ => ?_
  cases top with
  | true => exact post_bind (post_any _) fun _ _ => post_ret rfl
  | false => exact post_str n

theorem post_rdKids {p : P Node} {A : Node → Prop} (hp : Post p A) (n : Nat) (prev : Option Bytes) :
    Post (rdKids p n prev) (fun cs => cs.length = n ∧ (∀ c ∈ cs, A c) ∧ (∀ s, prev = some s → ∀ c ∈ cs, strcmp s c.stem < 0) ∧
      cs.Pairwise (fun a b => strcmp a.stem b.stem < 0)) := by
  induction n generalizing prev with
  | zero => exact post_ret ⟨rfl, by simp, by simp, .nil⟩
  | succ n ih =>
    unfold rdKids
    refine post_bind hp fun c hc => post_bind (post_refuse _) fun _ hn => post_bind (ih (some c.stem)) fun cs hcs => ?_
    obtain ⟨h1, h2, h3, h4⟩ := hcs
    have h3' : ∀ x ∈ cs, strcmp c.stem x.stem < 0 := h3 c.stem rfl
    refine post_ret ⟨by simp [h1], ?_, ?_, List.pairwise_cons.2 ⟨h3', h4⟩⟩
    · intro x hx
      rcases List.mem_cons.1 hx with rfl | hx
      · exact hc
      · exact h2 x hx
    · intro s hs x hx
      subst hs
      have hsc : strcmp s c.stem < 0 := by
        simp only [Option.any_some, decide_eq_false_iff_not] at hn; omega
      rcases List.mem_cons.1 hx with rfl | hx
      · exact hsc
      · exact FileLabel.strcmp_lt_trans hsc (Int.le_of_lt (h3' x hx))

theorem post_rdNode (decode : Bytes → Dec) (pre : Bool) (input : Nat) (t : List Bytes) (k : Nat) (top : Bool) :
    Post (rdNode decode pre input t k top) (Shape t input k top) := by
  induction k generalizing top with
  | zero => intro s a r h; simp [rdNode] at h
  | succ k ih =>
    unfold rdNode
    refine post_bind (post_rdStem top) fun s hs => post_bind (post_any _) fun nl _ => post_bind (post_any _) fun _ _ =>
      post_bind (post_any _) fun _ _ => post_bind (post_rep (post_rdLit t) nl) fun ls hls =>
      post_bind (post_any _) fun nr _ => post_bind (post_any _) fun _ _ =>
      post_bind (post_any _) fun _ _ => post_bind (post_rep (post_rdRe decode pre input t) nr) fun rs hrs =>
      post_bind (post_any _) fun nc _ => post_bind (post_any _) fun _ _ =>
      post_bind (post_any _) fun _ _ => post_bind (post_rdKids (ih false) nc none) fun cs hcs =>
      post_bind (post_refuse _) fun _ hn => post_ret ?_
    refine .mk hs hls.2 hrs.2 hcs.2.1 hcs.2.2.2 ?_
    cases top with
    | true => exact Or.inl rfl
    | false =>
      right
      by_contra hc
      simp only [ne_eq, not_or, Decidable.not_not] at hc
      obtain ⟨rfl, rfl, rfl⟩ := hc
      rw [← hls.1, ← hrs.1, ← hcs.1] at hn
      simp at hn

end Verif.CompFc
