import Verif.Sidtab.Lemmas
import Verif.Sidtab.Load

namespace Verif.Sidtab
open Verif.Policy Verif.Mls

theorem nodes_nodup {s : Sidtab} (hi : Inv s) : (nodes s).Pairwise (fun a b => a.1 ≠ b.1) := by
  unfold nodes
  rw [List.pairwise_flatMap]
  constructor
  · intro i _
    exact (hi.sorted i).imp (fun h => by omega)
  · have : (List.range size).Pairwise (· ≠ ·) := List.nodup_range
    refine this.imp ?_
    intro i j hij a ha b hb hab
    exact hij (by rw [← hi.bucket i a ha, ← hi.bucket j b hb, hab])

theorem cloneInto_spec : ∀ (l : List (Nat × Context)) (t : Sidtab), Inv t →
    l.Pairwise (fun a b => a.1 ≠ b.1) → (∀ n ∈ l, lookup t n.1 = none) →
    (∀ n ∈ l, 0 < n.1 ∧ n.1 < 2 ^ 32 - 1 ∧ WFRange n.2.range) →
    ∃ t', cloneInto l t = some t' ∧ Inv t' ∧ t'.shutdown = t.shutdown ∧ t'.nel = t.nel + l.length ∧
      (∀ x c, lookup t' x = some c ↔ (x, c) ∈ l ∨ lookup t x = some c) ∧
      t.nextSid ≤ t'.nextSid ∧ (∀ N, t.nextSid ≤ N → (∀ n ∈ l, n.1 < N) → t'.nextSid ≤ N) := by
  intro l
  induction l with
  | nil => intro t hi _ _ _; exact ⟨t, rfl, hi, rfl, rfl, by simp, Nat.le_refl _, fun N h _ => h⟩
  | cons n l ih =>
    intro t hi hp hno hok
    obtain ⟨h0, h1, h2⟩ := hok n (by simp)
    obtain ⟨i1, i2⟩ := insert_spec hi n.1 n.2
    unfold cloneInto
    cases hins : insert t n.1 n.2 with
    | none => exact absurd (hno n (by simp)) (i1.mp hins)
    | some t1 =>
      have hi1 := inv_insert hi h0 h1 h2 hins
      have hl := lookup_insert hi hi1 hins
      obtain ⟨e1, e2, e3, _⟩ := i2 t1 hins
      rw [List.pairwise_cons] at hp
      obtain ⟨t', a1, a2, a3, a4, a5, a6, a7⟩ := ih t1 hi1 hp.2
        (fun m hm => by rw [hl, if_neg (fun h => hp.1 m hm h.symm)]; exact hno m (by simp [hm]))
        (fun m hm => hok m (by simp [hm]))
      have hnext : t.nextSid ≤ t1.nextSid ∧ (∀ N, t.nextSid ≤ N → n.1 < N → t1.nextSid ≤ N) := by
        rw [e1]
        split
        · rw [Nat.mod_eq_of_lt (by omega)]; exact ⟨by omega, fun N _ h => h⟩
        · exact ⟨Nat.le_refl _, fun N h _ => h⟩
      refine ⟨t', a1, a2, by rw [a3, e3], by rw [a4, e2, List.length_cons]; omega, ?_, by omega, ?_⟩
      · intro x c
        rw [a5, hl, List.mem_cons]
        by_cases hx : x = n.1
        · have hn : lookup t x = none := by rw [hx]; exact hno n (by simp)
          rw [if_pos hx, hn]
          constructor
          · rintro (h | h)
            · exact Or.inl (Or.inr h)
            · left; left; simp only [Option.some.injEq] at h; rw [← h, hx]
          · rintro ((h | h) | h)
            · right; rw [← h]
            · exact Or.inl h
            · simp at h
        · rw [if_neg hx]
          constructor
          · rintro (h | h)
            · exact Or.inl (Or.inr h)
            · exact Or.inr h
          · rintro ((h | h) | h)
            · exact absurd (by rw [← h]) hx
            · exact Or.inl h
            · exact Or.inr h
      · intro N hN hall
        exact a7 N (hnext.2 N hN (hall n (by simp))) (fun m hm => hall m (by simp [hm]))

theorem mapRemove_spec {s : Sidtab} (hi : Inv s) (f : Context → Option Context)
    (hf : ∀ c c', WFRange c.range → f c = some c' → WFRange c'.range) :
    Inv (mapRemove s f) ∧ ∀ x, lookup (mapRemove s f) x = (lookup s x).bind f := by
  have hmem : ∀ i n, n ∈ (mapRemove s f).htable i → ∃ m ∈ s.htable i, n.1 = m.1 ∧ f m.2 = some n.2 := by
    intro i n hn
    unfold mapRemove at hn
    simp only at hn
    split at hn
    · obtain ⟨m, hm, h⟩ := List.mem_filterMap.mp hn
      rw [Option.map_eq_some_iff] at h
      obtain ⟨c, h1, h2⟩ := h
      exact ⟨m, hm, by rw [← h2], by rw [← h2]; exact h1⟩
    · rename_i hge
      have := hi.bucket i n hn
      have := Nat.mod_lt n.1 (show 0 < 128 by decide)
      exact absurd (show i < size by unfold size; omega) hge
  have hinv : Inv (mapRemove s f) := by
    refine ⟨?_, ?_, ?_, hi.next, ?_⟩
    · intro i
      unfold mapRemove
      simp only
      split
      · rw [List.pairwise_filterMap]
        refine (hi.sorted i).imp ?_
        intro a b hab a' ha b' hb
        rw [Option.map_eq_some_iff] at ha hb
        obtain ⟨_, _, rfl⟩ := ha
        obtain ⟨_, _, rfl⟩ := hb
        exact hab
      · exact hi.sorted i
    · intro i n hn
      obtain ⟨m, hm, h1, _⟩ := hmem i n hn
      rw [h1]; exact hi.bucket i m hm
    · intro i n hn
      obtain ⟨m, hm, h1, _⟩ := hmem i n hn
      rw [h1]; exact hi.small i m hm
    · intro i n hn
      obtain ⟨m, hm, _, h2⟩ := hmem i n hn
      exact hf _ _ (hi.wf i m hm) h2
  refine ⟨hinv, fun x => ?_⟩
  apply Option.ext
  intro c
  rw [lookup_iff hinv, Option.bind_eq_some_iff]
  constructor
  · intro h
    obtain ⟨m, hm, h1, h2⟩ := hmem _ _ h
    refine ⟨m.2, ?_, h2⟩
    rw [lookup_iff hi]
    simp only at h1
    rw [h1]; rw [h1] at hm; exact hm
  · rintro ⟨d, h1, h2⟩
    rw [lookup_iff hi] at h1
    unfold mapRemove
    simp only
    have hlt : hash x < size := Nat.mod_lt _ (by decide)
    rw [if_pos hlt]
    exact List.mem_filterMap.mpr ⟨_, h1, by simp [h2]⟩

theorem nel_inv {s : Sidtab} (h : s.nel = (nodes s).length) (hi : Inv s) {sid c s'} (hins : insert s sid c = some s') :
    s'.nel = (nodes s').length := by
  obtain ⟨_, hsp⟩ := insert_spec hi sid c
  obtain ⟨_, hn, _, w1, w2, e1, e2, _, _, e5⟩ := hsp s' hins
  rw [hn, h]
  unfold nodes
  simp only [List.length_flatMap]
  have hm : hash sid ∈ List.range size := by rw [List.mem_range]; exact Nat.mod_lt _ (by decide)
  have hnd : (List.range size).Nodup := List.nodup_range
  generalize List.range size = L at hm hnd
  have hout : ∀ L : List Nat, hash sid ∉ L → (L.map fun a => (s'.htable a).length) = L.map fun a => (s.htable a).length := by
    intro L hL
    apply List.map_congr_left
    intro i hi
    rw [e5 i (fun h => hL (h ▸ hi))]
  induction L with
  | nil => simp at hm
  | cons i L ih =>
    rw [List.nodup_cons] at hnd
    rw [List.map_cons, List.map_cons, List.sum_cons, List.sum_cons]
    by_cases hie : i = hash sid
    · rw [hie] at hnd ⊢
      rw [hout L hnd.1, e1, e2]
      simp only [List.length_append, List.length_cons]; omega
    · rw [e5 i hie]
      have := ih ((List.mem_cons.mp hm).resolve_left (fun h => hie h.symm)) hnd.2
      omega

end Verif.Sidtab
