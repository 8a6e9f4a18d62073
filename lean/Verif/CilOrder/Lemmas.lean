import Verif.CilOrder.Spec
import Verif.Prelude

/-! # Lemmas on the merging of order statements -/

namespace Verif.CilOrder

theorem insertItems_spec {items : List Nat} : ∀ {pre ord : List Nat} {ok pre' ord'},
    insertItems pre ord items = (ok, pre', ord') →
    ∃ done rest, items = done ++ rest ∧ pre' = pre ++ done ∧ (∀ x, x ∈ ord' ↔ x ∈ done ∨ x ∈ ord) ∧
      done.Nodup ∧ (∀ x ∈ done, x ∉ ord) ∧ (ok = true ↔ rest = []) ∧
      (∀ r rs, rest = r :: rs → r ∈ done ∨ r ∈ ord) := by
  induction items with
  | nil =>
    intro pre ord ok pre' ord' h
    cases h
    exact ⟨[], [], by simp⟩
  | cons i is ih =>
    intro pre ord ok pre' ord' h
    rw [insertItems] at h
    split at h
    · rename_i hi
      cases h
      exact ⟨[], i :: is, by simp [hi]⟩
    · rename_i hi
      obtain ⟨done, rest, h1, h2, h3, h4, h5, h6, h7⟩ := ih h
      refine ⟨i :: done, rest, by simp [h1], by simp [h2], fun x => ?_, ?_, ?_, h6, ?_⟩
      · rw [h3]; simp; tauto
      · refine List.nodup_cons.2 ⟨fun hd => ?_, h4⟩
        exact h5 i hd (by simp)
      · intro x hx
        rcases List.mem_cons.1 hx with rfl | hx
        · exact hi
        · exact fun hxo => h5 x hx (by simp [hxo])
      · intro r rs hr
        rcases h7 r rs hr with h | h
        · exact .inl (by simp [h])
        · rcases List.mem_cons.1 h with rfl | h
          · exact .inl (by simp)
          · exact .inr h

theorem splitAt_none {n : Nat} {l : List Nat} : splitAt n l = none ↔ n ∉ l := by
  induction l with
  | nil => simp [splitAt]
  | cons o os ih =>
    rw [splitAt]
    by_cases h : n = o
    · simp [h]
    · rw [if_neg h]
      rcases hs : splitAt n os with _ | ⟨a, b⟩
      · simp only [true_iff]
        simp [h, ih.1 hs]
      · simp only [reduceCtorEq, false_iff, not_not]
        have : ¬ (n ∉ os) := fun hh => by rw [ih.2 hh] at hs; cases hs
        simp only [not_not] at this
        exact List.mem_cons_of_mem _ this

theorem splitAt_some {n : Nat} {l : List Nat} : ∀ {a b}, splitAt n l = some (a, b) → l = a ++ n :: b ∧ n ∉ a := by
  induction l with
  | nil => intro a b h; cases h
  | cons o os ih =>
    intro a b h
    rw [splitAt] at h
    by_cases hn : n = o
    · rw [if_pos hn] at h; cases h; simp [hn]
    · rw [if_neg hn] at h
      rcases hs : splitAt n os with _ | ⟨a', b'⟩
      · rw [hs] at h; cases h
      · rw [hs] at h
        cases h
        obtain ⟨h1, h2⟩ := ih hs
        exact ⟨by simp [h1], by simp [hn, h2]⟩

/-- The flags are those of the symbols in the list, and no symbol is in it twice. -/
structure Inv (s : State) : Prop where
  nodup : s.list.Nodup
  mem : ∀ x, x ∈ s.list ↔ x ∈ s.ordered

theorem mergeLoop_spec {news : List Nat} : ∀ {pre post ord skip done : List Nat} {ok s'},
    mergeLoop pre post ord skip news = (ok, s') → Inv ⟨pre ++ post, ord⟩ → (post = [] → skip = []) →
    done.Sublist pre →
    Inv s' ∧ (pre ++ post).Sublist s'.list ∧ (∀ x ∈ s'.list, x ∈ pre ++ post ∨ x ∈ skip ++ news) ∧
      (ok = true → (done ++ skip ++ news).Sublist s'.list) := by
  induction news with
  | nil =>
    intro pre post ord skip done ok s' h hi hp hd
    cases h
    refine ⟨hi, List.Sublist.refl _, fun x hx => .inl hx, fun hs => ?_⟩
    rw [List.isEmpty_iff.1 hs]
    simpa using hd.trans (List.sublist_append_left _ _)
  | cons n ns ih =>
    intro pre post ord skip done ok s' h hi hp hd
    rw [mergeLoop] at h
    split at h
    · rename_i hpost
      subst hpost
      rcases hins : insertItems pre ord (n :: ns) with ⟨ok', pre', ord'⟩
      rw [hins] at h
      cases h
      obtain ⟨ins, rest, h1, h2, h3, h4, h5, h6, -⟩ := insertItems_spec hins
      subst h2
      rw [hp rfl]
      have hm : ∀ x, x ∈ pre ↔ x ∈ ord := by simpa using hi.mem
      refine ⟨⟨?_, fun x => ?_⟩, by simp, ?_, fun hok => ?_⟩
      · refine List.nodup_append.2 ⟨by simpa using hi.nodup, h4, ?_⟩
        rintro a ha b hb rfl
        exact h5 a hb ((hm a).1 ha)
      · show x ∈ pre ++ ins ↔ x ∈ ord'
        rw [List.mem_append, h3, hm]; tauto
      · intro x hx
        rcases List.mem_append.1 hx with hx | hx
        · exact .inl (by simp [hx])
        · exact .inr (by rw [h1]; simp [hx])
      · rw [h6.1 hok, List.append_nil] at h1
        rw [← h1]
        simpa using hd
    · rename_i hpost
      split at h
      · rename_i hs
        obtain ⟨h1, h2, h3, h4⟩ := ih h hi (fun hh => absurd hh hpost) hd
        refine ⟨h1, h2, fun x hx => ?_, fun hok => ?_⟩
        · rcases h3 x hx with h | h
          · exact .inl h
          · exact .inr (by simpa using h)
        · simpa using h4 hok
      · rename_i before after hs
        obtain ⟨rfl, hn⟩ := splitAt_some hs
        rcases hins : insertItems (pre ++ before) ord skip with ⟨ok', pre', ord'⟩
        rw [hins] at h
        obtain ⟨ins, rest, h1, h2, h3, h4, h5, h6, -⟩ := insertItems_spec hins
        subst h2
        have hm := hi.mem
        simp only at hm
        have hinv : Inv ⟨pre ++ before ++ ins ++ n :: after, ord'⟩ := by
          refine ⟨?_, fun x => ?_⟩
          · have hno : ∀ x ∈ ins, x ∉ pre ++ (before ++ n :: after) := fun x hx hh => h5 x hx ((hm x).1 hh)
            have hnd := hi.nodup
            have hp : (pre ++ before ++ ins ++ n :: after).Perm (ins ++ (pre ++ (before ++ n :: after))) := by
              have h1 : (pre ++ before ++ ins ++ n :: after).Perm (ins ++ (pre ++ before) ++ n :: after) :=
                List.Perm.append_right _ List.perm_append_comm
              simpa [List.append_assoc] using h1
            rw [hp.nodup_iff]
            refine List.nodup_append.2 ⟨h4, hnd, ?_⟩
            rintro a ha b hb rfl
            exact hno a ha hb
          · have := hm x
            show x ∈ pre ++ before ++ ins ++ n :: after ↔ x ∈ ord'
            rw [h3, ← hm]
            simp; tauto
        have hsub : (pre ++ (before ++ n :: after)).Sublist (pre ++ before ++ ins ++ n :: after) := by
          have : (pre ++ (before ++ n :: after)) = (pre ++ before) ++ n :: after := by simp
          rw [this]
          exact List.Sublist.append (List.sublist_append_left _ _) (List.Sublist.refl _)
        have hmem : ∀ x ∈ pre ++ before ++ ins ++ n :: after, x ∈ pre ++ (before ++ n :: after) ∨ x ∈ skip := by
          intro x hx
          have : x ∈ ins → x ∈ skip := fun hh => by rw [h1]; simp [hh]
          simp at hx ⊢; tauto
        simp only at h
        split at h
        · rename_i hok
          have hr := h6.1 hok
          rw [hr, List.append_nil] at h1
          subst h1
          obtain ⟨a1, a2, a3, a4⟩ := ih (done := done ++ skip ++ [n]) h (by simpa using hinv) (fun _ => rfl)
            (by
              rw [show pre ++ before ++ skip ++ [n] = (pre ++ before) ++ (skip ++ [n]) by simp,
                show done ++ skip ++ [n] = done ++ (skip ++ [n]) by simp]
              exact List.Sublist.append (hd.trans (List.sublist_append_left _ _)) (List.Sublist.refl _))
          refine ⟨a1, hsub.trans (by simpa using a2), fun x hx => ?_, fun hk => ?_⟩
          · rcases a3 x hx with h | h
            · rcases hmem x (by simpa using h) with h | h
              · exact .inl h
              · exact .inr (by simp [h])
            · exact .inr (by simp at h; simp [h])
          · simpa using a4 hk
        · rename_i hok
          cases h
          refine ⟨hinv, hsub, fun x hx => ?_, fun hk => by cases hk⟩
          rcases hmem x hx with h | h
          · exact .inl h
          · exact .inr (by simp [h])

theorem merge_spec {s s' : State} {new : List Nat} {ok} (h : merge s new = (ok, s')) (hi : Inv s) :
    Inv s' ∧ s.list.Sublist s'.list ∧ (∀ x ∈ s'.list, x ∈ s.list ∨ x ∈ new) ∧
      (ok = true → new.Sublist s'.list) := by
  have := mergeLoop_spec (done := []) h (by simpa using hi) (fun _ => rfl) (List.Sublist.refl _)
  simpa using this

/-- The statements flagged as merged are subsequences of the list. -/
def Merged (s : State) (ls : List (Bool × List Nat)) : Prop := ∀ p ∈ ls, p.1 = true → p.2.Sublist s.list

/-- The statements still to be merged. -/
def waiting (ls : List (Bool × List Nat)) : Nat := ls.countP (!·.1)

theorem round_spec {ls : List (Bool × List Nat)} : ∀ {s s' : State} {ls' ch},
    round s ls = (s', ls', ch) → Inv s → Merged s ls →
    Inv s' ∧ s.list.Sublist s'.list ∧ ls'.map (·.2) = ls.map (·.2) ∧ Merged s' ls' ∧
      (∀ x ∈ s'.list, x ∈ s.list ∨ ∃ l ∈ ls.map (·.2), x ∈ l) ∧
      (ch = true → waiting ls' < waiting ls) ∧ waiting ls' ≤ waiting ls := by
  induction ls with
  | nil =>
    intro s s' ls' ch h hi hm
    cases h
    exact ⟨hi, List.Sublist.refl _, rfl, hm, fun x hx => .inl hx, by simp, by simp⟩
  | cons p ls ih =>
    rcases p with ⟨b, l⟩
    intro s s' ls' ch h hi hm
    rcases b with _ | _
    · rw [round] at h
      rcases hmg : merge s l with ⟨ok, s1⟩
      rw [hmg] at h
      simp only at h
      rcases hr : round s1 ls with ⟨s2, ls2, ch2⟩
      rw [hr] at h
      cases h
      obtain ⟨a1, a2, a3, a4⟩ := merge_spec hmg hi
      obtain ⟨b1, b2, b3, b4, b5, b6, b7⟩ := ih hr a1 (fun p hp hb => (hm p (by simp [hp]) hb).trans a2)
      refine ⟨b1, a2.trans b2, by simp [b3], ?_, ?_, ?_, ?_⟩
      · intro p hp hb
        rcases List.mem_cons.1 hp with rfl | hp
        · exact (a4 hb).trans b2
        · exact b4 p hp hb
      · intro x hx
        rcases b5 x hx with h | ⟨l', hl', hx⟩
        · rcases a3 x h with h | h
          · exact .inl h
          · exact .inr ⟨l, by simp, h⟩
        · exact .inr ⟨l', List.mem_cons_of_mem _ hl', hx⟩
      · intro hc
        unfold waiting at *
        rcases ok with _ | _
        · simp at hc
          simp [b6 hc]
        · simp only [List.countP_cons]
          simp
          omega
      · unfold waiting at *
        rcases ok with _ | _ <;> simp [List.countP_cons] <;> omega
    · rw [round] at h
      rcases hr : round s ls with ⟨s2, ls2, ch2⟩
      rw [hr] at h
      cases h
      obtain ⟨b1, b2, b3, b4, b5, b6, b7⟩ := ih hr hi (fun p hp hb => hm p (by simp [hp]) hb)
      refine ⟨b1, b2, by simp [b3], ?_, ?_, ?_, ?_⟩
      · intro p hp hb
        rcases List.mem_cons.1 hp with rfl | hp
        · exact (hm _ (by simp) rfl).trans b2
        · exact b4 p hp hb
      · intro x hx
        rcases b5 x hx with h | ⟨l', hl', hx⟩
        · exact .inl h
        · exact .inr ⟨l', List.mem_cons_of_mem _ hl', hx⟩
      · intro hc
        unfold waiting at *
        simpa using b6 hc
      · unfold waiting at *
        simpa using b7

theorem rounds_spec {fuel : Nat} : ∀ {s s' : State} {ls : List (Bool × List Nat)},
    rounds fuel s ls = some s' → Inv s → Merged s ls →
    Inv s' ∧ s.list.Sublist s'.list ∧ (∀ l ∈ ls.map (·.2), l.Sublist s'.list) ∧
      (∀ x ∈ s'.list, x ∈ s.list ∨ ∃ l ∈ ls.map (·.2), x ∈ l) := by
  induction fuel with
  | zero => intro s s' ls h; cases h
  | succ fuel ih =>
    intro s s' ls h hi hm
    rw [rounds] at h
    rcases hr : round s ls with ⟨s1, ls1, ch⟩
    rw [hr] at h
    simp only at h
    obtain ⟨b1, b2, b3, b4, b5, -⟩ := round_spec hr hi hm
    split at h
    · rename_i hall
      cases h
      refine ⟨b1, b2, fun l hl => ?_, b5⟩
      rw [← b3] at hl
      obtain ⟨p, hp, rfl⟩ := List.mem_map.1 hl
      exact b4 p hp (List.all_eq_true.1 hall p hp)
    · split at h
      · obtain ⟨c1, c2, c3, c4⟩ := ih h b1 b4
        rw [b3] at c3 c4
        refine ⟨c1, b2.trans c2, c3, fun x hx => ?_⟩
        rcases c4 x hx with h | h
        · exact b5 x h
        · exact .inr h
      · cases h

/-- More passes than there are statements to be merged do not change the outcome. -/
theorem rounds_fuel {fuel : Nat} : ∀ {s : State} {ls : List (Bool × List Nat)}, Inv s → Merged s ls →
    waiting ls < fuel → ∀ k, rounds (fuel + k) s ls = rounds fuel s ls := by
  induction fuel with
  | zero => intro s ls _ _ h; omega
  | succ fuel ih =>
    intro s ls hi hm h k
    rw [show fuel + 1 + k = fuel + k + 1 by omega, rounds, rounds]
    rcases hr : round s ls with ⟨s1, ls1, ch⟩
    obtain ⟨b1, b2, b3, b4, b5, b6, -⟩ := round_spec hr hi hm
    simp only
    split
    · rfl
    · split
      · rename_i hc
        exact ih b1 b4 (by have := b6 hc; omega) k
      · rfl

/-! ### The check of the result -/

abbrev Triple := Option Nat × Nat × Option Nat

/-- A neighbour before the item is justified. -/
def PrevOk (ts : List Triple) (prev : Option Nat) (x : Nat) : Prop := ∃ t ∈ ts, x = t.2.1 ∧ prev = t.1

/-- A neighbour after the item is justified. -/
def NextOk (ts : List Triple) (x : Nat) (next : List Nat) : Prop := ∃ t ∈ ts, x = t.2.1 ∧ next.head? = t.2.2

/-- All items are justified. -/
def AllOk (ts : List Triple) (prev : Option Nat) : List Nat → Prop
  | [] => True
  | x :: xs => PrevOk ts prev x ∧ NextOk ts x xs ∧ AllOk ts (some x) xs

structure COk (ts : List Triple) (c : Check) : Prop where
  prev : c.foundPrev = true → PrevOk ts c.prev c.cur
  next : c.foundNext = true → NextOk ts c.cur c.next
  both : ¬ (c.foundPrev = true ∧ c.foundNext = true)

def Check.all (ts : List Triple) (c : Check) : Prop := AllOk ts c.prev (c.cur :: c.next)

/-- Decreases with each pass. -/
def Check.size (c : Check) : Nat :=
  3 * (c.next.length + 1) - (if c.foundPrev then 1 else 0) - (if c.foundNext then 1 else 0)

theorem Check.size_pos (c : Check) : 0 < c.size := by
  unfold Check.size; split <;> split <;> omega

theorem checkItem_spec {ts : List Triple} {c : Check} (ok : COk ts c) {t} (ht : t ∈ ts) :
    (checkItem c t = none ∧ c.all ts) ∨
    ∃ c', checkItem c t = some c' ∧ COk ts c' ∧ (c'.all ts ↔ c.all ts) ∧
      ((c' = c ∧ ¬ (c.cur = t.2.1 ∧ (c.foundPrev = false ∧ c.prev = t.1 ∨
          c.foundNext = false ∧ c.next.head? = t.2.2))) ∨
        (c'.change = true ∧ c'.size < c.size)) := by
  obtain ⟨prev, cur, next, fp, fn, ch⟩ := c
  obtain ⟨tp, tc, tn⟩ := t
  obtain ⟨h1, h2, h3⟩ := ok
  simp only at h1 h2 h3
  unfold checkItem
  simp only
  split
  · rename_i hc
    subst hc
    by_cases hp : fp = false ∧ prev = tp
    · obtain ⟨rfl, rfl⟩ := hp
      have hP : PrevOk ts prev cur := ⟨_, ht, rfl, rfl⟩
      by_cases hn : fn = true ∨ next.head? = tn
      · have hN : NextOk ts cur next := by
          rcases hn with hn | hn
          · exact h2 hn
          · exact ⟨_, ht, rfl, hn⟩
        have : (fn || (!fn && next.head? == tn)) = true := by
          rcases hn with hn | hn
          · simp [hn]
          · simp [hn]
        simp only [this, Bool.not_false, beq_self_eq_true, Bool.and_true, Bool.or_true, if_pos]
        rcases next with _ | ⟨x, xs⟩
        · exact .inl ⟨rfl, hP, hN, trivial⟩
        · refine .inr ⟨_, rfl, ⟨by simp, by simp, by simp⟩, ?_, .inr ⟨by simp, ?_⟩⟩
          · constructor
            · exact fun h => ⟨hP, hN, h⟩
            · exact fun h => h.2.2
          · simp only [Check.size, List.length_cons]
            rcases fn with _ | _ <;> simp <;> omega
      · simp only [not_or, Bool.not_eq_true] at hn
        obtain ⟨rfl, hn⟩ := hn
        have hb : (next.head? == tn) = false := by simp [hn]
        simp only [hb, Bool.not_false, beq_self_eq_true, Bool.and_true, Bool.or_true, Bool.and_false,
          Bool.or_false, Bool.true_and, Bool.false_eq_true, if_false]
        refine .inr ⟨_, rfl, ⟨fun _ => hP, by simp, by simp⟩, Iff.rfl, .inr ⟨rfl, ?_⟩⟩
        simp [Check.size]
        omega
    · have hbp : (!fp && prev == tp) = false := by
        rcases fp with _ | _
        · simp at hp; simp [hp]
        · rfl
      by_cases hn : fn = false ∧ next.head? = tn
      · obtain ⟨rfl, rfl⟩ := hn
        have hN : NextOk ts cur next := ⟨_, ht, rfl, rfl⟩
        rcases fp with _ | _
        · have hpf : ¬ prev = tp := by simpa using hp
          have hpb : (prev == tp) = false := by simp [hpf]
          simp only [hpb, Bool.not_false, beq_self_eq_true, Bool.and_true, Bool.or_true, Bool.or_false,
            Bool.false_eq_true, if_false, Bool.and_false]
          refine .inr ⟨_, rfl, ⟨by simp, fun _ => hN, by simp⟩, Iff.rfl, .inr ⟨by simp, ?_⟩⟩
          simp [Check.size]
          omega
        · have hP := h1 rfl
          simp only [Bool.not_false, beq_self_eq_true, Bool.and_true, Bool.or_true, Bool.true_or, if_pos]
          rcases next with _ | ⟨x, xs⟩
          · exact .inl ⟨rfl, hP, hN, trivial⟩
          · refine .inr ⟨_, rfl, ⟨by simp, by simp, by simp⟩, ?_, .inr ⟨by simp, ?_⟩⟩
            · constructor
              · exact fun h => ⟨hP, hN, h⟩
              · exact fun h => h.2.2
            · simp only [Check.size, List.length_cons]
              simp; omega
      · have hbn : (!fn && next.head? == tn) = false := by
          rcases fn with _ | _
          · simp at hn; simp [hn]
          · rfl
        simp only [hbp, hbn, Bool.or_false]
        have hnb : ¬ ((fp && fn) = true) := by simpa using h3
        rw [if_neg hnb]
        refine .inr ⟨_, rfl, ⟨h1, h2, h3⟩, Iff.rfl, .inl ⟨rfl, ?_⟩⟩
        rintro ⟨-, h | h⟩
        · exact hp h
        · exact hn h
  · rename_i hc
    refine .inr ⟨_, rfl, ⟨h1, h2, h3⟩, Iff.rfl, .inl ⟨rfl, ?_⟩⟩
    exact fun h => hc h.1

theorem checkItem_change {c c' : Check} {t} (h : checkItem c t = some c') (hc : c.change = true) : c'.change = true := by
  unfold checkItem at h
  split at h
  · simp only at h
    split at h
    · split at h
      · cases h
      · cases h; simp [hc]
    · cases h; simp [hc]
  · cases h; exact hc

theorem checkPass_spec {ts us : List Triple} : ∀ {c : Check}, COk ts c → (∀ t ∈ us, t ∈ ts) →
    (checkPass c us = none ∧ c.all ts) ∨
    ∃ c', checkPass c us = some c' ∧ COk ts c' ∧ (c'.all ts ↔ c.all ts) ∧
      ((c' = c ∧ ∀ t ∈ us, ¬ (c.cur = t.2.1 ∧ (c.foundPrev = false ∧ c.prev = t.1 ∨
          c.foundNext = false ∧ c.next.head? = t.2.2))) ∨
        (c'.change = true ∧ c'.size < c.size)) := by
  induction us with
  | nil =>
    intro c ok _
    exact .inr ⟨c, rfl, ok, Iff.rfl, .inl ⟨rfl, by simp⟩⟩
  | cons t us ih =>
    intro c ok hsub
    rw [checkPass]
    rcases checkItem_spec ok (hsub t (by simp)) with ⟨h, ha⟩ | ⟨c1, h, ok1, ha, hd⟩
    · rw [h]; exact .inl ⟨rfl, ha⟩
    · rw [h]
      simp only
      rcases ih ok1 (fun t ht => hsub t (by simp [ht])) with ⟨h', ha'⟩ | ⟨c2, h', ok2, ha', hd'⟩
      · exact .inl ⟨h', ha.1 ha'⟩
      · refine .inr ⟨c2, h', ok2, ha'.trans ha, ?_⟩
        rcases hd with ⟨rfl, hd⟩ | ⟨hd1, hd2⟩
        · rcases hd' with ⟨rfl, hd'⟩ | ⟨hd1', hd2'⟩
          · refine .inl ⟨rfl, fun u hu => ?_⟩
            rcases List.mem_cons.1 hu with rfl | hu
            · exact hd
            · exact hd' u hu
          · exact .inr ⟨hd1', hd2'⟩
        · rcases hd' with ⟨rfl, -⟩ | ⟨hd1', hd2'⟩
          · exact .inr ⟨hd1, hd2⟩
          · exact .inr ⟨hd1', by omega⟩

theorem checkLoop_spec {ts : List Triple} {fuel : Nat} : ∀ {rc : Bool} {c : Check}, COk ts c → c.size ≤ fuel →
    ∃ b, checkLoop ts fuel rc c = some b ∧ (b = true ↔ rc = true ∧ c.all ts) := by
  induction fuel with
  | zero => intro rc c _ h; have := c.size_pos; omega
  | succ fuel ih =>
    intro rc c ok hf
    rw [checkLoop]
    have ok' : COk ts { c with change := false } := ⟨ok.1, ok.2, ok.3⟩
    rcases checkPass_spec ok' (fun t ht => ht) with ⟨h, ha⟩ | ⟨c1, h, ok1, ha, hd⟩
    · rw [h]
      exact ⟨rc, rfl, fun hb => ⟨hb, ha⟩, fun hb => hb.1⟩
    · rw [h]
      simp only
      have ha : c1.all ts ↔ c.all ts := ha
      rcases hd with ⟨rfl, hd⟩ | ⟨hd1, hd2⟩
      · simp only at hd
        rw [if_neg (by simp)]
        have hno : ¬ c.all ts := by
          rintro ⟨⟨t, ht, h1, h2⟩, ⟨u, hu, h3, h4⟩, -⟩
          apply ok.both
          constructor
          · by_contra hc
            exact hd t ht ⟨h1, .inl ⟨by simpa using hc, h2⟩⟩
          · by_contra hc
            exact hd u hu ⟨h3, .inr ⟨by simpa using hc, h4⟩⟩
        simp only
        rcases hn : c.next with _ | ⟨x, xs⟩
        · exact ⟨false, rfl, by simp, fun hb => absurd hb.2 hno⟩
        · simp only
          obtain ⟨b, hb1, hb2⟩ := ih (rc := false) (c := ⟨some c.cur, x, xs, false, false, false⟩)
            ⟨by simp, by simp, by simp⟩ (by
              have : c.size ≤ fuel + 1 := hf
              unfold Check.size at *
              rw [hn] at this
              simp at this ⊢
              split at this <;> split at this <;> first | omega | (rename_i h5 h6; exact absurd ⟨h5, h6⟩ ok.both))
          refine ⟨b, hb1, fun h => ?_, fun h => absurd h.2 hno⟩
          have := hb2.1 h
          simp at this
      · rw [if_pos hd1]
        obtain ⟨b, hb1, hb2⟩ := ih (rc := rc) ok1 (by
          have : ({ c with change := false } : Check).size = c.size := rfl
          omega)
        exact ⟨b, hb1, by rw [hb2, ha]⟩

theorem mem_triples {l : List Nat} : ∀ {prev : Option Nat} {t : Triple}, t ∈ triples prev l ↔
    ∃ a b, l = a ++ t.2.1 :: b ∧ t.1 = (a.getLast?).or prev ∧ t.2.2 = b.head? := by
  induction l with
  | nil => intro prev t; simp [triples]
  | cons o os ih =>
    intro prev t
    rw [triples, List.mem_cons, ih]
    constructor
    · rintro (rfl | ⟨a, b, h1, h2, h3⟩)
      · exact ⟨[], os, by simp⟩
      · refine ⟨o :: a, b, by simp [← h1], ?_, h3⟩
        rw [h2, List.getLast?_cons]
        cases a.getLast? <;> rfl
    · rintro ⟨a, b, h1, h2, h3⟩
      rcases a with _ | ⟨o', a⟩
      · simp at h1 h2
        obtain ⟨rfl, rfl⟩ := h1
        exact .inl (by rw [← h2, ← h3])
      · simp at h1
        obtain ⟨rfl, rfl⟩ := h1
        refine .inr ⟨a, b, rfl, ?_, h3⟩
        rw [h2, List.getLast?_cons]
        cases a.getLast? <;> rfl

theorem allOk_iff {lists : List (List Nat)} {l : List Nat} : ∀ {prev : Option Nat},
    AllOk (lists.flatMap (triples none)) prev l ↔ ∀ a x b, l = a ++ x :: b →
    (∃ l ∈ lists, ∃ p q, l = p ++ x :: q ∧ p.getLast? = (a.getLast?).or prev) ∧
    (∃ l ∈ lists, ∃ p q, l = p ++ x :: q ∧ q.head? = b.head?) := by
  have hP : ∀ {prev x}, PrevOk (lists.flatMap (triples none)) prev x ↔
      ∃ l ∈ lists, ∃ p q, l = p ++ x :: q ∧ p.getLast? = prev := by
    intro prev x
    unfold PrevOk
    constructor
    · rintro ⟨t, ht, rfl, rfl⟩
      obtain ⟨l, hl, ht⟩ := List.mem_flatMap.1 ht
      obtain ⟨a, b, h1, h2, h3⟩ := mem_triples.1 ht
      exact ⟨l, hl, a, b, h1, by simp [h2]⟩
    · rintro ⟨l, hl, p, q, h1, h2⟩
      exact ⟨(prev, x, q.head?), List.mem_flatMap.2 ⟨l, hl, mem_triples.2 ⟨p, q, h1, by simp [h2], rfl⟩⟩, rfl, rfl⟩
  have hN : ∀ {x xs}, NextOk (lists.flatMap (triples none)) x xs ↔
      ∃ l ∈ lists, ∃ p q, l = p ++ x :: q ∧ q.head? = xs.head? := by
    intro x xs
    unfold NextOk
    constructor
    · rintro ⟨t, ht, rfl, h⟩
      obtain ⟨l, hl, ht⟩ := List.mem_flatMap.1 ht
      obtain ⟨a, b, h1, h2, h3⟩ := mem_triples.1 ht
      exact ⟨l, hl, a, b, h1, by rw [h, h3]⟩
    · rintro ⟨l, hl, p, q, h1, h2⟩
      exact ⟨(p.getLast?, x, q.head?), List.mem_flatMap.2 ⟨l, hl, mem_triples.2 ⟨p, q, h1, by simp, rfl⟩⟩, rfl, h2.symm⟩
  induction l with
  | nil => intro prev; simp [AllOk]
  | cons y ys ih =>
    intro prev
    rw [AllOk, hP, hN, ih]
    constructor
    · rintro ⟨h1, h2, h3⟩ a x b he
      rcases a with _ | ⟨z, a⟩
      · simp at he
        obtain ⟨rfl, rfl⟩ := he
        exact ⟨by simpa using h1, h2⟩
      · simp at he
        obtain ⟨rfl, he⟩ := he
        have := h3 a x b he
        rw [List.getLast?_cons]
        refine ⟨?_, this.2⟩
        have h4 := this.1
        cases hg : a.getLast? <;> rw [hg] at h4 <;> simpa using h4
    · intro h
      refine ⟨by simpa using (h [] y ys rfl).1, (h [] y ys rfl).2, fun a x b he => ?_⟩
      have := h (y :: a) x b (by simp [he])
      refine ⟨?_, this.2⟩
      have h4 := this.1
      rw [List.getLast?_cons] at h4
      cases hg : a.getLast? <;> rw [hg] at h4 <;> simpa using h4

/-- The check accepts exactly the lists in which every item is justified. -/
theorem verify_spec (complete : List Nat) (lists : List (List Nat)) :
    ∃ b, verify complete lists = some b ∧ (b = true ↔ Justified lists complete) := by
  rcases complete with _ | ⟨x, xs⟩
  · exact ⟨true, rfl, by simp [Justified]⟩
  · obtain ⟨b, h1, h2⟩ := checkLoop_spec (ts := lists.flatMap (triples none)) (fuel := 3 * (xs.length + 1))
      (rc := true) (c := ⟨none, x, xs, false, false, false⟩) ⟨by simp, by simp, by simp⟩ (by simp [Check.size])
    refine ⟨b, h1, h2.trans ?_⟩
    unfold Check.all
    rw [allOk_iff]
    simp [Justified]

/-! ### Unordered symbols -/

theorem insertUnordered_spec {us : List Nat} : ∀ {s : State}, Inv s →
    ∃ s', insertUnordered s us = some s' ∧ Inv s' ∧ s'.list = s.list ++ (us.filter (· ∉ s.list)).eraseDups := by
  induction us with
  | nil => intro s hi; exact ⟨s, rfl, hi, by simp⟩
  | cons u us ih =>
    intro s hi
    rw [insertUnordered]
    by_cases hu : u ∈ s.list
    · rw [if_pos hu]
      obtain ⟨s', h1, h2, h3⟩ := ih hi
      exact ⟨s', h1, h2, by rw [h3, List.filter_cons]; simp [hu]⟩
    · rw [if_neg hu, if_neg (by rwa [← hi.mem])]
      have hi' : Inv ⟨s.list ++ [u], u :: s.ordered⟩ := by
        refine ⟨?_, fun x => ?_⟩
        · refine List.nodup_append.2 ⟨hi.nodup, by simp, ?_⟩
          rintro a ha b hb rfl
          simp at hb; subst hb; exact hu ha
        · have := hi.mem x
          simp [this]; tauto
      obtain ⟨s', h1, h2, h3⟩ := ih hi'
      refine ⟨s', h1, h2, ?_⟩
      rw [h3, List.filter_cons]
      simp only [hu, not_false_eq_true, decide_true, if_pos, List.eraseDups_cons, List.append_assoc,
        List.cons_append, List.nil_append]
      rw [List.filter_filter]
      congr 4
      funext x
      by_cases h : x = u <;> simp [h, Bool.and_comm]

/-! ### Uniqueness -/

theorem idxOf_lt {L : List Nat} (hn : L.Nodup) {x y : Nat} (h : [x, y].Sublist L) : L.idxOf x < L.idxOf y := by
  induction L with
  | nil => cases h
  | cons a L ih =>
    rw [List.nodup_cons] at hn
    cases h with
    | cons _ h =>
      have hx : x ∈ L := h.subset (by simp)
      have hy : y ∈ L := h.subset (by simp)
      have h1 : a ≠ x := fun hh => hn.1 (hh ▸ hx)
      have h2 : a ≠ y := fun hh => hn.1 (hh ▸ hy)
      rw [List.idxOf_cons, List.idxOf_cons]
      rw [beq_eq_false_iff_ne.2 h1, beq_eq_false_iff_ne.2 h2]
      have := ih hn.2 h
      simp only [cond_false]
      omega
    | cons_cons _ h =>
      have hy : y ∈ L := h.subset (by simp)
      have h2 : x ≠ y := fun hh => hn.1 (hh ▸ hy)
      rw [List.idxOf_cons, List.idxOf_cons, beq_eq_false_iff_ne.2 h2]
      simp

theorem chain_of_adjacent {R : Nat → Nat → Prop} (tr : ∀ a b c, R a b → R b c → R a c) : ∀ {l : List Nat},
    (∀ a x y b, l = a ++ x :: y :: b → R x y) → l.Pairwise R := by
  intro l
  induction l with
  | nil => intro _; exact .nil
  | cons x xs ih =>
    intro h
    have hx := ih fun a y z b he => h (x :: a) y z b (by simp [he])
    refine List.pairwise_cons.2 ⟨fun y hy => ?_, hx⟩
    rcases xs with _ | ⟨z, zs⟩
    · cases hy
    · have h1 := h [] x z zs rfl
      rcases List.mem_cons.1 hy with rfl | hy
      · exact h1
      · exact tr _ _ _ h1 ((List.pairwise_cons.1 hx).1 y hy)

theorem unique {lists : List (List Nat)} {c L : List Nat} (hc : Agrees lists c) (hj : Justified lists c)
    (hL : Agrees lists L) : L = c := by
  have hperm : L.Perm c := (List.perm_ext_iff_of_nodup hL.nodup hc.nodup).2 fun x => by rw [hL.mem, hc.mem]
  have pc : c.Pairwise fun x y => L.idxOf x < L.idxOf y := by
    refine chain_of_adjacent (fun a b c h1 h2 => by omega) fun a x y b he => ?_
    obtain ⟨-, l, hl, p, q, h1, h2⟩ := hj a x (y :: b) he
    rcases q with _ | ⟨z, q⟩
    · simp at h2
    · simp at h2
      subst h2
      refine idxOf_lt hL.nodup (List.Sublist.trans ?_ (hL.sub l hl))
      rw [h1]
      exact List.Sublist.trans (List.sublist_append_left _ q) (by
        show ([x, z] ++ q).Sublist _
        exact List.sublist_append_right _ _)
  have pL : L.Pairwise fun x y => L.idxOf x < L.idxOf y :=
    List.pairwise_iff_forall_sublist.2 fun h => idxOf_lt hL.nodup h
  exact hperm.eq_of_pairwise (fun a b _ _ h1 h2 => by omega) pL pc

end Verif.CilOrder
