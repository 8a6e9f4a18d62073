import Verif.CilOrder.Lemmas

/-! # Statements that extend the order are accepted -/

namespace Verif.CilOrder

theorem insertItems_ok {new : List Nat} : ∀ {pre ord : List Nat}, new.Nodup → (∀ x ∈ new, x ∉ ord) →
    insertItems pre ord new = (true, pre ++ new, new.reverse ++ ord) := by
  induction new with
  | nil => intro pre ord _ _; simp [insertItems]
  | cons n ns ih =>
    intro pre ord hn ho
    rw [List.nodup_cons] at hn
    rw [insertItems, if_neg (ho n (by simp)), ih hn.2 fun x hx h => ?_]
    · simp
    · rcases List.mem_cons.1 h with rfl | h
      · exact hn.1 hx
      · exact ho x (by simp [hx]) h

theorem sublist_after {n : Nat} {l before after : List Nat} (hb : n ∉ before)
    (h : (n :: l).Sublist (before ++ n :: after)) : l.Sublist after := by
  induction before with
  | nil =>
    exact List.cons_sublist_cons.1 h
  | cons b bs ih =>
    simp at hb
    cases h with
    | cons _ h => exact ih hb.2 h
    | cons_cons _ _ => exact absurd rfl hb.1

theorem mergeLoop_ok {l : List Nat} : ∀ {pre post ord new : List Nat}, Inv ⟨pre ++ post, ord⟩ → l.Sublist post →
    (new = [] ∨ l.getLast? = post.getLast?) → new.Nodup → (∀ x ∈ new, x ∉ ord) →
    mergeLoop pre post ord [] (l ++ new) = (true, ⟨pre ++ post ++ new, new.reverse ++ ord⟩) := by
  induction l with
  | nil =>
    intro pre post ord new hi _ hl hn ho
    rcases new with _ | ⟨n, ns⟩
    · simp [mergeLoop]
    · simp only [List.getLast?_nil, reduceCtorEq, false_or] at hl
      have hp : post = [] := List.getLast?_eq_none_iff.1 hl.symm
      subst hp
      rw [List.nil_append, mergeLoop, if_pos rfl, insertItems_ok hn ho]
      simp
  | cons n l ih =>
    intro pre post ord new hi hs hl hn ho
    have hmem : n ∈ post := hs.subset (by simp)
    rw [List.cons_append, mergeLoop, if_neg (by rintro rfl; cases hmem)]
    rcases hsp : splitAt n post with _ | ⟨before, after⟩
    · exact absurd hmem (splitAt_none.1 hsp)
    · obtain ⟨rfl, hnb⟩ := splitAt_some hsp
      simp only [insertItems, if_pos]
      rw [ih (by simpa using hi) (sublist_after hnb hs) ?_ hn ho]
      · simp
      · rcases hl with hl | hl
        · exact .inl hl
        · refine .inr ?_
          have hnd : (n :: after).Nodup := by
            have h1 : (pre ++ (before ++ n :: after)).Nodup := hi.nodup
            have h2 := (List.nodup_append.1 h1).2.1
            exact (List.nodup_append.1 h2).2.1
          rw [List.nodup_cons] at hnd
          rw [List.getLast?_append, List.getLast?_cons, List.getLast?_cons] at hl
          simp at hl
          rcases hl1 : l.getLast? with _ | x <;> rcases ha1 : after.getLast? with _ | y
          · rfl
          · rw [hl1, ha1] at hl
            simp at hl
            exact absurd (hl ▸ List.mem_of_getLast? ha1) hnd.1
          · rw [hl1, ha1] at hl
            simp at hl
            subst hl
            have : x ∈ l := List.mem_of_getLast? hl1
            exact absurd ((sublist_after hnb hs).subset this) hnd.1
          · rw [hl1, ha1] at hl
            simpa using hl

theorem round_append {a b : List (Bool × List Nat)} : ∀ {s s1 s2 : State} {a1 b1 c1 c2},
    round s a = (s1, a1, c1) → round s1 b = (s2, b1, c2) → round s (a ++ b) = (s2, a1 ++ b1, c1 || c2) := by
  induction a with
  | nil => intro s s1 s2 a1 b1 c1 c2 h1 h2; cases h1; simp [h2]
  | cons p a ih =>
    intro s s1 s2 a1 b1 c1 c2 h1 h2
    rcases p with ⟨_ | _, l⟩
    · rw [round] at h1
      rw [List.cons_append, round]
      rcases hm : merge s l with ⟨ok, s0⟩
      rw [hm] at h1
      simp only at h1 ⊢
      rcases hr : round s0 a with ⟨s', a', c'⟩
      rw [hr] at h1
      cases h1
      rw [ih hr h2]
      simp [Bool.or_assoc]
    · rw [round] at h1
      rw [List.cons_append, round]
      rcases hr : round s a with ⟨s', a', c'⟩
      rw [hr] at h1
      cases h1
      rw [ih hr h2]
      rfl

theorem justified_mono {ls ms : List (List Nat)} {c : List Nat} (h : Justified ls c) (hs : ∀ l ∈ ls, l ∈ ms) :
    Justified ms c := by
  intro a x b he
  obtain ⟨⟨l, hl, h1⟩, ⟨m, hm, h2⟩⟩ := h a x b he
  exact ⟨⟨l, hs l hl, h1⟩, ⟨m, hs m hm, h2⟩⟩

theorem justified_extends {ls : List (List Nat)} {c s new : List Nat} (h : Justified ls c)
    (hs : s.getLast? = c.getLast?) : Justified (ls ++ [s ++ new]) (c ++ new) := by
  have key : ∀ a' x b, new = a' ++ x :: b →
      (∃ l ∈ ls ++ [s ++ new], ∃ p q, l = p ++ x :: q ∧ p.getLast? = (c ++ a').getLast?) ∧
      (∃ l ∈ ls ++ [s ++ new], ∃ p q, l = p ++ x :: q ∧ q.head? = b.head?) := by
    intro a' x b he
    refine ⟨⟨s ++ new, by simp, s ++ a', b, by simp [he], ?_⟩, ⟨s ++ new, by simp, s ++ a', b, by simp [he], rfl⟩⟩
    rw [List.getLast?_append, List.getLast?_append, hs]
  intro a x b he
  rcases List.append_eq_append_iff.1 he with ⟨a', rfl, h2⟩ | ⟨c', rfl, h2⟩
  · exact key a' x b h2
  · rcases c' with _ | ⟨y, c'⟩
    · have := key [] x b h2.symm
      simpa using this
    · simp at h2
      obtain ⟨rfl, rfl⟩ := h2
      have hj := justified_mono h (ms := ls ++ [s ++ new]) (fun l hl => by simp [hl]) a x c' rfl
      refine ⟨hj.1, ?_⟩
      rcases c' with _ | ⟨z, c'⟩
      · rw [List.getLast?_append] at hs
        simp at hs
        rw [List.getLast?_eq_some_iff] at hs
        obtain ⟨s', rfl⟩ := hs
        exact ⟨s' ++ [x] ++ new, by simp, s', new, by simp, by simp⟩
      · obtain ⟨l, hl, p, q, h1, h2⟩ := hj.2
        exact ⟨l, hl, p, q, h1, by rw [h2]; simp⟩

theorem extending_round {ls : List (List Nat)} {c : List Nat} (h : Extending ls c) :
    Justified ls c ∧ ∃ ord ch, round ⟨[], []⟩ (ls.map (false, ·)) = (⟨c, ord⟩, ls.map (true, ·), ch) ∧ Inv ⟨c, ord⟩ := by
  induction h with
  | nil => exact ⟨by simp [Justified], [], false, rfl, ⟨by simp, by simp⟩⟩
  | @repeats ls c l h hs ih =>
    obtain ⟨hj, ord, ch, hr, hi⟩ := ih
    refine ⟨justified_mono hj (by simp +contextual), ord, ch || (true || false), ?_, hi⟩
    rw [List.map_append, List.map_append]
    refine round_append hr ?_
    have := mergeLoop_ok (pre := []) (post := c) (ord := ord) (l := l) (new := []) hi hs (.inl rfl) (by simp) (by simp)
    simp only [List.append_nil, List.nil_append, List.reverse_nil] at this
    show round ⟨c, ord⟩ [(false, l)] = _
    rw [round, merge, this]
    rfl
  | @«extends» ls c s new h hs hl hn hf ih =>
    obtain ⟨hj, ord, ch, hr, hi⟩ := ih
    have hf' : ∀ x ∈ new, x ∉ ord := fun x hx ho => hf x hx ((hi.mem x).2 ho)
    refine ⟨justified_extends hj hl, new.reverse ++ ord, ch || (true || false), ?_, ⟨?_, fun x => ?_⟩⟩
    · rw [List.map_append, List.map_append]
      refine round_append hr ?_
      have := mergeLoop_ok (pre := []) (post := c) (ord := ord) (l := s) (new := new) hi hs (.inr hl) hn hf'
      simp only [List.nil_append] at this
      show round ⟨c, ord⟩ [(false, s ++ new)] = _
      rw [round, merge, this]
      rfl
    · refine List.nodup_append.2 ⟨hi.nodup, hn, ?_⟩
      rintro a ha b hb rfl
      exact hf a hb ha
    · have := hi.mem x
      simp at this ⊢
      rw [this]; tauto

end Verif.CilOrder
