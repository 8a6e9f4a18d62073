import Verif.LocalFile.Lemmas

/-! Each kind of records is read back. -/

namespace Verif.LocalFile
open Verif.Context Verif.Login

theorem vis58 : Vis 58 := by unfold Vis; decide
theorem num01 {n : Int} (h : n = 0 ∨ n = 1) : Num n := by unfold Num; omega
theorem vis61 : Vis 61 := by unfold Vis; decide
theorem vis59 : Vis 59 := by unfold Vis; decide
theorem vis45 : Vis 45 := by unfold Vis; decide

theorem word_no10 {w : Bytes} (h : Word w) : (10 : UInt8) ∉ w := fun hm => (h.2 10 hm).2 (by unfold Space; decide)

theorem noComment_cons {c : UInt8} {x : Bytes} (h : NoComment (c :: x)) : c ≠ 35 := by
  rintro rfl
  exact h x rfl

theorem line_no10 {w : Bytes} (h : Line w) : (10 : UInt8) ∉ w := h.2.1

/-! ## Logins -/

theorem seuser_line (r : Seuser) (h : r.Good) : 10 ∉ r.print ∧ ∃ c x, r.print = c :: x ∧ Vis c ∧ c ≠ 35 ∧ c ≠ 58 := by
  obtain ⟨name, sename, mls⟩ := r
  obtain ⟨h1, h2, h3, h4, h5, h6⟩ := h
  dsimp only at *
  refine ⟨?_, ?_⟩
  · unfold Seuser.print
    cases mls with
    | none => simp [line_no10 h1, line_no10 h4, colon]
    | some m => simp [line_no10 h1, line_no10 h4, word_no10 (h6 m rfl), colon]
  · obtain ⟨c, x, rfl, hc⟩ := line_cons h1
    exact ⟨c, _, rfl, hc, noComment_cons h3, fun h => h2 (by simp [h])⟩

theorem seuser_format : Format Seuser.parse Seuser.print Seuser.Good (· ≠ 58) where
  line := seuser_line
  last := fun s h => last_of s h
  step := by
    intro r ls s hg hb hf
    obtain ⟨-, c, x, hp, hv, h35, -⟩ := seuser_line r hg
    obtain ⟨name, sename, mls⟩ := r
    obtain ⟨h1, h2, h3, h4, h5, h6⟩ := hg
    dsimp only at *
    rw [hp] at hb
    have e := start_of hv h35 hb (f := do
      let name ← fetchString colon true
      skipSpace
      assertCh colon
      skipSpace
      let sename ← fetchString colon true
      skipSpace
      if (← optionalCh colon) = false then pure (some (⟨name, sename, none⟩ : Seuser))
      else do
        skipSpace
        let mls ← fetchString 32 false
        assertSpace
        pure (some (⟨name, sename, some mls⟩ : Seuser)))
    cases mls with
    | none =>
      refine ⟨nextLine ls, e.trans ?_, before_nextLine ls⟩
      rw [← hp]
      show _ = Out.ok _ _
      unfold Seuser.print
      simp only [List.append_nil]
      step (fetch_line h1 h2 (by rintro c x ⟨⟩; rfl))
      step (skip_vis vis58)
      step ch_ok
      have := skip_line (t := []) (more := ls) h4
      rw [List.append_nil] at this
      step this
      have := fetch_line (r := []) (more := ls) h4 h5 (by simp)
      rw [List.append_nil] at this
      step this
      step skip_end
      have : optionalCh colon (nextLine ls) = .ok false (nextLine ls) := by
        unfold optionalCh
        cases hc : (nextLine ls).cur with
        | none => rfl
        | some p =>
          cases p with
          | nil => exact absurd hc (nextLine_ne ls)
          | cons c p =>
            dsimp only
            rw [if_pos (hf c p hc)]
      step this
      rfl
    | some m =>
      have hm := h6 m rfl
      refine ⟨nextLine ls, e.trans ?_, before_nextLine ls⟩
      rw [← hp]
      unfold Seuser.print
      dsimp only
      step (fetch_line h1 h2 (by rintro c x ⟨⟩; rfl))
      step (skip_vis vis58)
      step ch_ok
      step (skip_line h4)
      step (fetch_line h4 h5 (by rintro c x ⟨⟩; rfl))
      step (skip_vis vis58)
      step optCh_yes
      rw [if_neg (by simp)]
      have := skip_word (t := []) (more := ls) hm
      rw [List.append_nil] at this
      step this
      step (fetch_word_end hm (word_no32 hm))
      step space_end
      rfl

/-! ## Booleans -/

theorem boolean_line (r : Boolean) (h : r.Good) : 10 ∉ r.print ∧ ∃ c x, r.print = c :: x ∧ Vis c ∧ c ≠ 35 ∧ True := by
  obtain ⟨name, value⟩ := r
  obtain ⟨h1, h2, h3, h4⟩ := h
  dsimp only at *
  have hn : Num value := num01 h4
  refine ⟨?_, ?_⟩
  · unfold Boolean.print
    simp [word_no10 h1, (decInt_word hn).2.2]
  · obtain ⟨c, x, rfl, hc⟩ := word_cons h1
    exact ⟨c, _, rfl, hc, noComment_cons h3, trivial⟩

theorem boolValue_ok {n : Int} {ls : List Bytes} (h : n = 0 ∨ n = 1) : boolValue (At (decInt n) ls) = .ok n (At [] ls) := by
  have hn : Num n := num01 h
  have hc : ∃ c, decInt n = [c] ∧ (c = 48 ∨ c = 49) := by
    rcases h with rfl | rfl
    · exact ⟨48, by decide +kernel, Or.inl rfl⟩
    · exact ⟨49, by decide +kernel, Or.inr rfl⟩
  obtain ⟨c, hc, hc'⟩ := hc
  have key : ∀ d str, (d = 116 ∨ d = 84 ∨ d = 102 ∨ d = 70) → optionalStr (d :: str) (At (decInt n) ls) = .ok false (At (decInt n) ls) := by
    intro d str hd
    rw [hc]
    exact optStr_no (by rcases hc' with rfl | rfl <;> rcases hd with rfl | rfl | rfl | rfl <;> decide)
  unfold boolValue
  step (key 116 _ (by decide))
  rw [if_neg (by simp)]
  step (key 84 _ (by decide))
  rw [if_neg (by simp)]
  step (key 102 _ (by decide))
  rw [if_neg (by simp)]
  step (key 70 _ (by decide))
  rw [if_neg (by simp)]
  have := fetchInt_ok (d := 32) (r := []) (more := ls) hn (Or.inl rfl) (by simp)
  rwa [List.append_nil] at this

theorem boolean_format : Format Boolean.parse Boolean.print Boolean.Good (fun _ => True) where
  line := boolean_line
  last := fun s h => last_of s h
  step := by
    intro r ls s hg hb hf
    obtain ⟨-, c, x, hp, hv, h35, -⟩ := boolean_line r hg
    obtain ⟨name, value⟩ := r
    obtain ⟨h1, h2, h3, h4⟩ := hg
    dsimp only at *
    rw [hp] at hb
    refine ⟨nextLine ls, (start_of hv h35 hb).trans ?_, before_nextLine ls⟩
    rw [← hp]
    unfold Boolean.print
    step (fetch_word h1 h2 (by rintro c x ⟨⟩; exact Or.inl rfl))
    step (skip_vis vis61)
    step ch_ok
    have hw := (decInt_word (n := value) (num01 h4)).1
    have := skip_word (t := []) (more := ls) hw
    rw [List.append_nil] at this
    step this
    step (boolValue_ok h4)
    rw [if_neg (by omega)]
    step space_end
    rfl

theorem word_all {w : Bytes} (h : w ≠ [] ∧ (w.all fun c => c != 0 && !isSpace c) = true) : Word w := by
  refine ⟨h.1, fun c hc => ?_⟩
  have := List.all_eq_true.1 h.2 c hc
  simp only [Bool.and_eq_true, bne_iff_ne, Bool.not_eq_true'] at this
  exact ⟨this.1, not_isSpace_iff.1 this.2⟩

/-- The same in other spellings. -/
theorem boolValue_spelled {w : Bytes} {t : String} {n : Int} {ls : List Bytes} (h : Spells t n) (hw : w.map (·.toNat) = t.toList.map Char.toNat) :
    boolValue (At w ls) = .ok n (At [] ls) ∧ Word w := by
  have hw' : w = (t.toList.map fun c => UInt8.ofNat c.toNat) := by
    have h1 : w = (w.map (·.toNat)).map UInt8.ofNat := by
      rw [List.map_map]
      conv => lhs; rw [← List.map_id w]
      exact List.map_congr_left fun c _ => (UInt8.ofNat_toNat).symm
    rw [h1, hw, List.map_map]
    rfl
  subst hw'
  have no : ∀ {c d : UInt8} {str x : Bytes}, c ≠ d → optionalStr (d :: str) (At (c :: x) ls) = .ok false (At (c :: x) ls) := fun h => optStr_no h
  have yes : ∀ str : Bytes, optionalStr str (At str ls) = .ok true (At [] ls) := fun str => by
    have := optStr_yes (str := str) (t := []) (more := ls)
    rwa [List.append_nil] at this
  cases h with
  | one => 
    refine ⟨?_, word_all (by decide +kernel)⟩
    have e : (("1".toList).map fun c => UInt8.ofNat c.toNat) = decInt 1 := by decide +kernel
    rw [e]
    exact boolValue_ok (n := 1) (Or.inr rfl)
  | zero => 
    refine ⟨?_, word_all (by decide +kernel)⟩
    have e : (("0".toList).map fun c => UInt8.ofNat c.toNat) = decInt 0 := by decide +kernel
    rw [e]
    exact boolValue_ok (n := 0) (Or.inl rfl)
  | true =>
    refine ⟨?_, word_all (by decide +kernel)⟩
    unfold boolValue
    step (yes [116, 114, 117, 101])
    rfl
  | TRUE =>
    refine ⟨?_, word_all (by decide +kernel)⟩
    show boolValue (At [84, 82, 85, 69] ls) = _
    unfold boolValue
    step (no (c := 84) (d := 116) (by decide))
    rw [if_neg (by simp)]
    step (yes [84, 82, 85, 69])
    rfl
  | false =>
    refine ⟨?_, word_all (by decide +kernel)⟩
    show boolValue (At [102, 97, 108, 115, 101] ls) = _
    unfold boolValue
    step (no (c := 102) (d := 116) (by decide))
    rw [if_neg (by simp)]
    step (no (c := 102) (d := 84) (by decide))
    rw [if_neg (by simp)]
    step (yes [102, 97, 108, 115, 101])
    rfl
  | FALSE =>
    refine ⟨?_, word_all (by decide +kernel)⟩
    show boolValue (At [70, 65, 76, 83, 69] ls) = _
    unfold boolValue
    step (no (c := 70) (d := 116) (by decide))
    rw [if_neg (by simp)]
    step (no (c := 70) (d := 84) (by decide))
    rw [if_neg (by simp)]
    step (no (c := 70) (d := 102) (by decide))
    rw [if_neg (by simp)]
    step (yes [70, 65, 76, 83, 69])
    rfl

/-- A file of booleans that was written by hand. -/
theorem boolean_format_spelled (sp : Boolean → Bytes) : Format Boolean.parse (fun r => r.name ++ 61 :: sp r)
    (fun r => r.Good ∧ ∃ t, Spells t r.value ∧ (sp r).map (·.toNat) = t.toList.map Char.toNat) (fun _ => True) where
  line := by
    rintro ⟨name, value⟩ ⟨⟨h1, h2, h3, h4⟩, t, h5, h6⟩
    dsimp only at *
    have hw := (boolValue_spelled (ls := []) h5 h6).2
    refine ⟨by simp [word_no10 h1, word_no10 hw], ?_⟩
    obtain ⟨c, x, rfl, hc⟩ := word_cons h1
    exact ⟨c, _, rfl, hc, noComment_cons h3, trivial⟩
  last := fun s h => last_of s h
  step := by
    rintro ⟨name, value⟩ ls s ⟨⟨h1, h2, h3, h4⟩, t, h5, h6⟩ hb hf
    dsimp only at *
    obtain ⟨c, x, rfl, hv⟩ := word_cons h1
    refine ⟨nextLine ls, (start_of hv (noComment_cons h3) hb).trans ?_, before_nextLine ls⟩
    obtain ⟨hval, hw⟩ := boolValue_spelled (ls := ls) h5 h6
    step (fetch_word h1 h2 (by rintro c x ⟨⟩; exact Or.inl rfl))
    step (skip_vis vis61)
    step ch_ok
    have := skip_word (t := []) (more := ls) hw
    rw [List.append_nil] at this
    step this
    step hval
    rw [if_neg (by omega)]
    step space_end
    rfl

/-! ## File contexts -/

theorem good_con_word (con : Option Con) (h : ∀ c, con = some c → c.Good) :
    ∃ w : Bytes, conText con = w ∧ Word w ∧ conFromString w = some con ∧
      parseType w = none := by
  cases con with
  | none =>
    refine ⟨_, rfl, ⟨by simp [conText], ?_⟩, by decide +kernel, by decide +kernel⟩
    unfold Space conText
    decide
  | some c =>
    refine ⟨_, rfl, (conToString_word (h c rfl)).1, conFromString_ok (h c rfl), ?_⟩
    have h58 : (58 : UInt8) ∈ (conToString c).map lower := by
      refine List.mem_map.2 ⟨58, ?_, by decide⟩
      unfold conToString
      cases c.mls <;> simp [colon]
    have key : ∀ lit : Bytes, 58 ∉ lit → ¬ (caseEq (conToString c) lit = true) := by
      intro lit hl he
      unfold caseEq at he
      rw [beq_iff_eq] at he
      exact hl (he ▸ h58)
    show parseType (conToString c) = none
    unfold parseType
    repeat rw [if_neg (key _ (by decide))]

theorem fcontext_line (r : Fcontext) (h : r.Good) : 10 ∉ r.print ∧ ∃ c x, r.print = c :: x ∧ Vis c ∧ c ≠ 35 ∧ True := by
  obtain ⟨expr, type, con⟩ := r
  obtain ⟨h1, h2, h3⟩ := h
  dsimp only at *
  obtain ⟨w, hw, hw1, -⟩ := good_con_word con h3
  refine ⟨?_, ?_⟩
  · unfold Fcontext.print
    dsimp only
    rw [hw]
    have ht : (10 : UInt8) ∉ typeStr type := by cases type <;> decide
    simp [word_no10 h1, word_no10 hw1, ht]
  · obtain ⟨c, x, rfl, hc⟩ := word_cons h1
    exact ⟨c, _, rfl, hc, noComment_cons h2, trivial⟩

theorem finish_ok {expr w : Bytes} {type : FType} {con : Option Con} {ls : List Bytes} (h : conFromString w = some con) :
    Fcontext.finish expr type w (At [] ls) = .ok (some ⟨expr, type, con⟩) (nextLine ls) := by
  unfold Fcontext.finish
  rw [h]
  dsimp only
  step space_end
  rfl

theorem fcontext_format : Format Fcontext.parse Fcontext.print Fcontext.Good (fun _ => True) where
  line := fcontext_line
  last := fun s h => last_of s h
  step := by
    intro r ls s hg hb hf
    obtain ⟨-, c, x, hp, hv, h35, -⟩ := fcontext_line r hg
    obtain ⟨expr, type, con⟩ := r
    obtain ⟨h1, h2, h3⟩ := hg
    dsimp only at *
    obtain ⟨w, hw, hw1, hw2, hw3⟩ := good_con_word con h3
    rw [hp] at hb
    refine ⟨nextLine ls, (start_of hv h35 hb).trans ?_, before_nextLine ls⟩
    rw [← hp]
    unfold Fcontext.print
    dsimp only
    rw [hw]
    by_cases ht : type = .all
    · subst ht
      step (fetch_word_32 h1)
      have : assertSpace (At (32 :: (typeStr .all ++ 32 :: w)) ls) = .ok () (At w ls) := by
        obtain ⟨c, x, rfl, hc⟩ := word_cons hw1
        exact space_spaces (ws := [32, 32, 32]) (by decide) hc
      step this
      step (fetch_word_end hw1 (word_no32 hw1))
      rw [hw3]
      exact finish_ok hw2
    · have hword : Word (typeStr type) := by
        refine ⟨by cases type <;> simp [typeStr], ?_⟩
        unfold Space
        cases type
        · exact absurd rfl ht
        all_goals decide
      have hty : parseType (typeStr type) = some type := by
        cases type
        · exact absurd rfl ht
        all_goals decide
      step (fetch_word_32 h1)
      step (space_word hword)
      step (fetch_word_32 hword)
      rw [hty]
      dsimp only
      have := space_word (t := []) (more := ls) hw1
      rw [List.append_nil] at this
      step this
      step (fetch_word_end hw1 (word_no32 hw1))
      exact finish_ok hw2

/-! ## Ports and so on -/

theorem printRange_word {low high : Int} (h1 : Num low) (h2 : Num high) : 10 ∉ printRange low high := by
  unfold printRange
  split
  · exact (decInt_word h1).2.2
  · simp [(decInt_word h1).2.2, (decInt_word h2).2.2]

theorem parseRange_ok {low high : Int} {w : Bytes} {ls : List Bytes} (h1 : Num low) (h2 : Num high) (hw : Word w) (h45 : low = high → ∀ x, w ≠ 45 :: x) :
    parseRange (At (printRange low high ++ 32 :: w) ls) = .ok (low, high) (At w ls) := by
  obtain ⟨c, x, rfl, hc⟩ := word_cons hw
  unfold parseRange printRange
  split
  · rename_i he
    subst he
    step (fetchInt_ok h1 (Or.inr rfl) (by rintro c x ⟨⟩; exact Or.inr rfl))
    step noeof_at
    step (deref_cons (c := 32) (r := c :: x ++ [0, 0]))
    dsimp only
    rw [if_pos (by decide)]
    step (space_32 hc)
    step (optCh_no (fun h => h45 rfl x (by rw [h])))
    rfl
  · rw [show decInt low ++ [32, 45, 32] ++ decInt high ++ 32 :: c :: x = decInt low ++ 32 :: 45 :: 32 :: (decInt high ++ 32 :: c :: x) by simp]
    step (fetchInt_ok h1 (Or.inr rfl) (by rintro c x ⟨⟩; exact Or.inr rfl))
    step noeof_at
    step (deref_cons (c := 32) (r := 45 :: 32 :: (decInt high ++ 32 :: c :: x) ++ [0, 0]))
    dsimp only
    rw [if_pos (by decide)]
    step (space_32 vis45)
    step optCh_yes
    rw [if_pos rfl]
    have : skipSpace (At (32 :: (decInt high ++ 32 :: c :: x)) ls) = .ok () (At (decInt high ++ 32 :: c :: x) ls) := by
      obtain ⟨c', x', hd, hc'⟩ := word_cons (decInt_word h2).1
      rw [hd]
      exact skip_32 hc'
    step this
    step (fetchInt_ok h2 (Or.inl rfl) (by rintro c x ⟨⟩; exact Or.inl rfl))
    step (space_32 hc)
    rfl


theorem con_noDash {low high : Int} {c : Con} (h : NoDash low high c) : low = high → ∀ x, conToString c ≠ 45 :: x := by
  intro he x hx
  have h1 := h he
  unfold conToString at hx
  cases hu : c.user with
  | nil => cases hm : c.mls <;> (rw [hu, hm] at hx; simp [colon] at hx)
  | cons a u =>
    rw [hu] at hx
    have : a = 45 := by cases hm : c.mls <;> (rw [hm] at hx; simp at hx; exact hx.1)
    exact h1 u (by rw [hu, this])

/-- The start of a line with a keyword. -/
theorem keyword {str w r : Bytes} (hs : 10 ∉ str) (hw : 10 ∉ w) (hr : 10 ∉ r) (h1 : ∃ c x, str = c :: x ∧ Vis c ∧ c ≠ 35) :
    10 ∉ str ++ w ++ 32 :: r ∧ ∃ c x, str ++ w ++ 32 :: r = c :: x ∧ Vis c ∧ c ≠ 35 ∧ True := by
  obtain ⟨c, x, rfl, hc, h35⟩ := h1
  refine ⟨?_, c, _, by rw [List.cons_append, List.cons_append], hc, h35, trivial⟩
  simp only [List.mem_append, List.mem_cons, not_or] at hs ⊢
  exact ⟨⟨hs, hw⟩, by decide, hr⟩

theorem proto_word {p : Proto} (h : p ≠ .other) : Word (protoStr p) ∧ parseProto (protoStr p) = some p ∧ 10 ∉ protoStr p := by
  refine ⟨⟨by cases p <;> simp [protoStr], ?_⟩, ?_, ?_⟩
  · unfold Space
    cases p <;> decide
  · cases p
    case other => exact absurd rfl h
    all_goals decide
  · cases p <;> decide

theorem port_line (r : Port) (h : r.Good) : 10 ∉ r.print ∧ ∃ c x, r.print = c :: x ∧ Vis c ∧ c ≠ 35 ∧ True := by
  obtain ⟨proto, low, high, con⟩ := r
  obtain ⟨h1, h2, h3, h4, h5⟩ := h
  dsimp only at *
  refine keyword (by decide) (proto_word h1).2.2 ?_ ⟨112, _, rfl, by unfold Vis; decide, by decide⟩
  simp [printRange_word h2 h3, (conToString_word h5).2]

theorem port_format : Format Port.parse Port.print Port.Good (fun _ => True) where
  line := port_line
  last := fun s h => last_of s h
  step := by
    intro r ls s hg hb hf
    obtain ⟨-, c, x, hp, hv, h35, -⟩ := port_line r hg
    obtain ⟨proto, low, high, con⟩ := r
    obtain ⟨h1, h2, h3, h4, h5⟩ := hg
    dsimp only at *
    obtain ⟨p1, p2, -⟩ := proto_word h1
    have hw := (conToString_word h5).1
    rw [hp] at hb
    refine ⟨nextLine ls, (start_of hv h35 hb).trans ?_, before_nextLine ls⟩
    rw [← hp]
    unfold Port.print
    dsimp only
    rw [show [112, 111, 114, 116, 99, 111, 110, 32] ++ protoStr proto ++ 32 :: (printRange low high ++ 32 :: conToString con) =
      [112, 111, 114, 116, 99, 111, 110] ++ 32 :: (protoStr proto ++ 32 :: (printRange low high ++ 32 :: conToString con)) by simp]
    step str_ok
    step (space_word p1)
    step (fetch_word_32 p1)
    rw [p2]
    dsimp only
    have : assertSpace (At (32 :: (printRange low high ++ 32 :: conToString con)) ls) = .ok () (At (printRange low high ++ 32 :: conToString con) ls) := by
      obtain ⟨c', x', hd, hc'⟩ := word_cons (decInt_word h2).1
      have : ∃ y, printRange low high = c' :: y := by
        unfold printRange
        rw [hd]
        split
        · exact ⟨_, rfl⟩
        · exact ⟨_, by rw [List.cons_append, List.cons_append]⟩
      obtain ⟨y, hy⟩ := this
      rw [hy]
      exact space_32 hc'
    step this
    step (parseRange_ok h2 h3 hw (con_noDash h4))
    dsimp only
    step (fetch_word_end hw (word_no32 hw))
    step (someCon_ok h5)
    step space_end
    rfl

theorem space_range {low high : Int} {t : Bytes} {ls : List Bytes} (h : Num low) :
    assertSpace (At (32 :: (printRange low high ++ t)) ls) = .ok () (At (printRange low high ++ t) ls) := by
  obtain ⟨c', x', hd, hc'⟩ := word_cons (decInt_word h).1
  have : ∃ y, printRange low high = c' :: y := by
    unfold printRange
    rw [hd]
    split
    · exact ⟨_, rfl⟩
    · exact ⟨_, by rw [List.cons_append, List.cons_append]⟩
  obtain ⟨y, hy⟩ := this
  rw [hy]
  exact space_32 hc'

theorem space_word_end {w : Bytes} {ls : List Bytes} (h : Word w) : assertSpace (At (32 :: w) ls) = .ok () (At w ls) := by
  have := space_word (t := []) (more := ls) h
  rwa [List.append_nil] at this

theorem iface_line (r : Iface) (h : r.Good) : 10 ∉ r.print ∧ ∃ c x, r.print = c :: x ∧ Vis c ∧ c ≠ 35 ∧ True := by
  obtain ⟨name, ifcon, msgcon⟩ := r
  obtain ⟨h1, h2, h3⟩ := h
  dsimp only at *
  refine keyword (by decide) (word_no10 h1) ?_ ⟨110, _, rfl, by unfold Vis; decide, by decide⟩
  simp [(conToString_word h2).2, (conToString_word h3).2]

theorem iface_format : Format Iface.parse Iface.print Iface.Good (fun _ => True) where
  line := iface_line
  last := fun s h => last_of s h
  step := by
    intro r ls s hg hb hf
    obtain ⟨-, c, x, hp, hv, h35, -⟩ := iface_line r hg
    obtain ⟨name, ifcon, msgcon⟩ := r
    obtain ⟨h1, h2, h3⟩ := hg
    dsimp only at *
    have w2 := (conToString_word h2).1
    have w3 := (conToString_word h3).1
    rw [hp] at hb
    refine ⟨nextLine ls, (start_of hv h35 hb).trans ?_, before_nextLine ls⟩
    rw [← hp]
    unfold Iface.print
    dsimp only
    rw [show [110, 101, 116, 105, 102, 99, 111, 110, 32] ++ name ++ 32 :: (conToString ifcon ++ 32 :: conToString msgcon) =
      [110, 101, 116, 105, 102, 99, 111, 110] ++ 32 :: (name ++ 32 :: (conToString ifcon ++ 32 :: conToString msgcon)) by simp]
    step str_ok
    step (space_word h1)
    step (fetch_word_32 h1)
    step (space_word w2)
    step (fetch_word_32 w2)
    step (someCon_ok h2)
    step (space_word_end w3)
    step (fetch_word_end w3 (word_no32 w3))
    step (someCon_ok h3)
    step space_end
    rfl

theorem ibendport_line (r : Ibendport) (h : r.Good) : 10 ∉ r.print ∧ ∃ c x, r.print = c :: x ∧ Vis c ∧ c ≠ 35 ∧ True := by
  obtain ⟨name, port, con⟩ := r
  obtain ⟨h1, h2, h3⟩ := h
  dsimp only at *
  refine keyword (by decide) (word_no10 h1) ?_ ⟨105, _, rfl, by unfold Vis; decide, by decide⟩
  simp [(conToString_word h3).2, (decInt_word h2).2.2]

theorem ibendport_format : Format Ibendport.parse Ibendport.print Ibendport.Good (fun _ => True) where
  line := ibendport_line
  last := fun s h => last_of s h
  step := by
    intro r ls s hg hb hf
    obtain ⟨-, c, x, hp, hv, h35, -⟩ := ibendport_line r hg
    obtain ⟨name, port, con⟩ := r
    obtain ⟨h1, h2, h3⟩ := hg
    dsimp only at *
    have w3 := (conToString_word h3).1
    rw [hp] at hb
    refine ⟨nextLine ls, (start_of hv h35 hb).trans ?_, before_nextLine ls⟩
    rw [← hp]
    unfold Ibendport.print
    dsimp only
    rw [show [105, 98, 101, 110, 100, 112, 111, 114, 116, 99, 111, 110, 32] ++ name ++ 32 :: (decInt port ++ 32 :: conToString con) =
      [105, 98, 101, 110, 100, 112, 111, 114, 116, 99, 111, 110] ++ 32 :: (name ++ 32 :: (decInt port ++ 32 :: conToString con)) by simp]
    step str_ok
    step (space_word h1)
    step (fetch_word_32 h1)
    step (space_word (decInt_word h2).1)
    step (fetchInt_ok h2 (Or.inl rfl) (by rintro c x ⟨⟩; exact Or.inl rfl))
    step (space_word_end w3)
    step (fetch_word_end w3 (word_no32 w3))
    step (someCon_ok h3)
    step space_end
    rfl

theorem readAddr_ok {A : Type} {f : AddrFns A} {a : A} {s : St} (h : f.Good a) : readAddr f (f.show_ a) s = .ok a s := by
  unfold readAddr
  rw [h.2]
  rfl

theorem v6_word (v6 : Bool) : Word (v6Str v6) := by
  refine ⟨by cases v6 <;> simp [v6Str], ?_⟩
  unfold Space
  cases v6 <;> decide

theorem node_line {A : Type} (f : Bool → AddrFns A) (r : Node A) (h : r.Good f) :
    10 ∉ r.print f ∧ ∃ c x, r.print f = c :: x ∧ Vis c ∧ c ≠ 35 ∧ True := by
  obtain ⟨v6, addr, mask, con⟩ := r
  obtain ⟨h1, h2, h3⟩ := h
  dsimp only at *
  refine keyword (by decide) (word_no10 (v6_word v6)) ?_ ⟨110, _, rfl, by unfold Vis; decide, by decide⟩
  simp [(conToString_word h3).2, word_no10 h1.1, word_no10 h2.1]

theorem node_format {A : Type} (f : Bool → AddrFns A) : Format (Node.parse f) (Node.print f) (Node.Good f) (fun _ => True) where
  line := node_line f
  last := fun s h => last_of s h
  step := by
    intro r ls s hg hb hf
    obtain ⟨-, c, x, hp, hv, h35, -⟩ := node_line f r hg
    obtain ⟨v6, addr, mask, con⟩ := r
    obtain ⟨h1, h2, h3⟩ := hg
    dsimp only at *
    have w3 := (conToString_word h3).1
    rw [hp] at hb
    refine ⟨nextLine ls, (start_of hv h35 hb).trans ?_, before_nextLine ls⟩
    rw [← hp]
    unfold Node.print
    dsimp only
    rw [show [110, 111, 100, 101, 99, 111, 110, 32] ++ v6Str v6 ++ 32 :: ((f v6).show_ addr ++ 32 :: ((f v6).show_ mask ++ 32 :: conToString con)) =
      [110, 111, 100, 101, 99, 111, 110] ++ 32 :: (v6Str v6 ++ 32 :: ((f v6).show_ addr ++ 32 :: ((f v6).show_ mask ++ 32 :: conToString con))) by simp]
    step str_ok
    step (space_word (v6_word v6))
    step (fetch_word_32 (v6_word v6))
    have e1 : ¬ (caseEq (v6Str v6) [105, 112, 118, 52] = false ∧ caseEq (v6Str v6) [105, 112, 118, 54] = false) := by cases v6 <;> decide
    have e2 : (!caseEq (v6Str v6) [105, 112, 118, 52]) = v6 := by cases v6 <;> decide
    rw [if_neg e1, e2]
    step (space_word h1.1)
    step (fetch_word_32 h1.1)
    step (readAddr_ok h1)
    step (space_word h2.1)
    step (fetch_word_32 h2.1)
    step (readAddr_ok h2)
    step (space_word_end w3)
    step (fetch_word_end w3 (word_no32 w3))
    step (someCon_ok h3)
    step space_end
    rfl

theorem ibpkey_line {A : Type} (f : AddrFns A) (r : Ibpkey A) (h : r.Good f) :
    10 ∉ r.print f ∧ ∃ c x, r.print f = c :: x ∧ Vis c ∧ c ≠ 35 ∧ True := by
  obtain ⟨pre, low, high, con⟩ := r
  obtain ⟨h1, h2, h3, h4, h5⟩ := h
  dsimp only at *
  refine keyword (by decide) (word_no10 h1.1) ?_ ⟨105, _, rfl, by unfold Vis; decide, by decide⟩
  simp [(conToString_word h5).2, printRange_word h2 h3]

theorem ibpkey_format {A : Type} (f : AddrFns A) : Format (Ibpkey.parse f) (Ibpkey.print f) (Ibpkey.Good f) (fun _ => True) where
  line := ibpkey_line f
  last := fun s h => last_of s h
  step := by
    intro r ls s hg hb hf
    obtain ⟨-, c, x, hp, hv, h35, -⟩ := ibpkey_line f r hg
    obtain ⟨pre, low, high, con⟩ := r
    obtain ⟨h1, h2, h3, h4, h5⟩ := hg
    dsimp only at *
    have hw := (conToString_word h5).1
    rw [hp] at hb
    refine ⟨nextLine ls, (start_of hv h35 hb).trans ?_, before_nextLine ls⟩
    rw [← hp]
    unfold Ibpkey.print
    dsimp only
    rw [show [105, 98, 112, 107, 101, 121, 99, 111, 110, 32] ++ f.show_ pre ++ 32 :: (printRange low high ++ 32 :: conToString con) =
      [105, 98, 112, 107, 101, 121, 99, 111, 110] ++ 32 :: (f.show_ pre ++ 32 :: (printRange low high ++ 32 :: conToString con)) by simp]
    step str_ok
    step (space_word h1.1)
    step (fetch_word_32 h1.1)
    step (readAddr_ok h1)
    step (space_range h2)
    step (parseRange_ok h2 h3 hw (con_noDash h4))
    dsimp only
    step (fetch_word_end hw (word_no32 hw))
    step (someCon_ok h5)
    step space_end
    rfl

/-! ## Users -/

theorem addRole_new {roles : List Bytes} {x : Bytes} (h : x ∉ roles) : addRole roles x = roles ++ [x] := by
  unfold addRole
  rw [if_neg (by simpa using h)]

theorem roles_loop {t : Bytes} {ls : List Bytes} : ∀ {rs : List Bytes} {n : Nat} {acc : List Bytes}, rs ≠ [] →
    (∀ x ∈ rs, Word x ∧ 59 ∉ x ∧ 125 ∉ x) → (acc ++ rs).Nodup → rs.length ≤ n →
    rolesLoop n true acc (At ((rs.flatMap fun x => x ++ [32]) ++ 125 :: t) ls) = .ok (acc ++ rs, false) (At t ls)
  | [], _, _, h, _, _, _ => absurd rfl h
  | x :: rs, 0, _, _, _, _, h => by cases h
  | x :: rs, n + 1, acc, _, hw, hnd, hn => by
    obtain ⟨hx, h59, h125⟩ := hw x (by simp)
    have hw' : ∀ y ∈ rs, Word y ∧ 59 ∉ y ∧ 125 ∉ y := fun y hy => hw y (List.mem_cons_of_mem _ hy)
    have hnx : x ∉ acc := by
      intro hm
      have := List.nodup_append.1 hnd
      exact this.2.2 x hm x (by simp) rfl
    unfold rolesLoop
    have e : ((x :: rs).flatMap fun x => x ++ [32]) ++ 125 :: t = x ++ 32 :: ((rs.flatMap fun x => x ++ [32]) ++ 125 :: t) := by simp
    rw [e]
    generalize hR : (rs.flatMap fun x => x ++ [32]) ++ 125 :: t = R
    step (skip_word hx)
    step noeof_at
    have tw : (x ++ 32 :: R ++ [0, 0]).takeWhile (fun c => c != 0 && c != 59 && c != 125 && !isSpace c) = x := by
      rw [List.append_assoc]
      refine takeWhile_eq ?_ ?_
      · intro c hc
        have := hx.2 c hc
        have i := not_isSpace_iff.2 this.2
        have a : c ≠ 59 := fun h => h59 (h ▸ hc)
        have b : c ≠ 125 := fun h => h125 (h ▸ hc)
        simp [this.1, i, a, b]
      · intro c y hy
        simp at hy
        rw [← hy.1]
        decide
    rw [tw]
    have hd : (x ++ 32 :: R ++ [0, 0]).drop x.length = 32 :: (R ++ [0, 0]) := by rw [List.append_assoc, drop_length_append]; rfl
    rw [hd]
    step (deref_cons)
    dsimp only
    have hset : setPtr (R ++ [0, 0]) (At (x ++ 32 :: R) ls) = .ok () (At R ls) := rfl
    step hset
    rw [if_neg (by decide), addRole_new hnx]
    cases rs with
    | nil =>
      simp only [List.flatMap_nil, List.nil_append] at hR
      subst hR
      step (skip_vis (by unfold Vis; decide))
      step (optCh_no (by decide))
      rw [if_neg (by simp)]
      step optCh_yes
      rfl
    | cons y rs =>
      obtain ⟨hy, y59, y125⟩ := hw' y (by simp)
      obtain ⟨c, z, rfl, hc⟩ := word_cons hy
      have hR' : ∃ u, R = c :: u := ⟨_, by rw [← hR]; simp only [List.flatMap_cons, List.cons_append, List.append_assoc]; rfl⟩
      obtain ⟨u, hu⟩ := hR'
      have ih := roles_loop (t := t) (ls := ls) (rs := (c :: z) :: rs) (n := n) (acc := acc ++ [x]) (by simp) hw' (by simpa using hnd) (by simpa using hn)
      rw [hR] at ih
      rw [hu] at ih ⊢
      step (skip_vis hc)
      step (optCh_no (fun h => y59 (by simp [h])))
      rw [if_neg (by simp)]
      step (optCh_no (fun h => y125 (by simp [h])))
      rw [if_pos ⟨rfl, rfl⟩, ih]
      simp

/-- What follows the roles. -/
def mlsText : Option Bytes → Option Bytes → Bytes
  | some l, some g => [108, 101, 118, 101, 108, 32] ++ l ++ [32, 114, 97, 110, 103, 101, 32] ++ g
  | _, _ => []

theorem user_print (r : User) : r.print = [117, 115, 101, 114] ++ 32 :: (r.name ++ 32 :: ([114, 111, 108, 101, 115] ++ 32 :: 123 :: 32 ::
    ((r.roles.flatMap fun x => x ++ [32]) ++ 125 :: 32 :: (mlsText r.level r.range ++ [59])))) := by
  unfold User.print mlsText
  cases r.level <;> cases r.range <;> simp

theorem user_line (r : User) (h : r.Good) : 10 ∉ r.print ∧ ∃ c x, r.print = c :: x ∧ Vis c ∧ c ≠ 35 ∧ True := by
  rw [user_print]
  obtain ⟨h1, h2, h3, h4, h5⟩ := h
  refine ⟨?_, 117, _, rfl, by unfold Vis; decide, by decide, trivial⟩
  have hr : (10 : UInt8) ∉ r.roles.flatMap fun x => x ++ [32] := by
    intro hm
    obtain ⟨x, hx, hm⟩ := List.mem_flatMap.1 hm
    simp at hm
    exact word_no10 (h4 x hx).1 hm
  have hm : (10 : UInt8) ∉ mlsText r.level r.range := by
    rcases h5 with ⟨e1, e2⟩ | ⟨l, g, e1, e2, hl, hg, -⟩
    · rw [e1, e2]; simp [mlsText]
    · rw [e1, e2]; simp [mlsText, word_no10 hl, line_no10 hg]
  simp [word_no10 h1, hm]
  intro x hx
  exact word_no10 (h4 x hx).1

theorem userMls_ok {l g : Option Bytes} {ls : List Bytes} (h : l = none ∧ g = none ∨ ∃ a b, l = some a ∧ g = some b ∧ Word a ∧ Line b ∧ 59 ∉ b) :
    ∃ m, userMls (At (32 :: (mlsText l g ++ [59])) ls) = .ok m (At [59] ls) ∧ m.map (·.1) = l ∧ m.map (·.2) = g := by
  unfold userMls
  rcases h with ⟨rfl, rfl⟩ | ⟨a, b, rfl, rfl, ha, hb, h59⟩
  · refine ⟨none, ?_, rfl, rfl⟩
    step (skip_32 (c := 59) (t := []) vis59)
    step (optStr_no (c := 59) (t := []) (by decide))
    rfl
  · refine ⟨some (a, b), ?_, rfl, rfl⟩
    rw [show 32 :: (mlsText (some a) (some b) ++ [59]) = 32 :: ([108, 101, 118, 101, 108] ++ 32 :: (a ++ 32 :: ([114, 97, 110, 103, 101] ++ 32 :: (b ++ [59])))) by
      simp [mlsText]]
    step (skip_32 (by unfold Vis; decide))
    step (optStr_yes (str := [108, 101, 118, 101, 108]))
    rw [if_pos rfl]
    step (space_word ha)
    step (fetch_word_32 ha)
    step (space_32 (by unfold Vis; decide))
    step (str_ok (str := [114, 97, 110, 103, 101]))
    step (space_line hb)
    step (fetch_line hb h59 (by rintro c x ⟨⟩; rfl))
    rfl

theorem size_flatMap {t : Bytes} (rs : List Bytes) : rs.length ≤ ((rs.flatMap fun x => x ++ [32]) ++ t).length := by
  induction rs with
  | nil => simp
  | cons x rs ih =>
    simp only [List.flatMap_cons, List.length_append, List.length_cons, List.length_nil] at ih ⊢
    omega

theorem user_format : Format User.parse User.print User.Good (fun _ => True) where
  line := user_line
  last := fun s h => last_of s h
  step := by
    intro r ls s hg hb hf
    obtain ⟨-, c, x, hp, hv, h35, -⟩ := user_line r hg
    have hp' := user_print r
    obtain ⟨name, roles, level, range⟩ := r
    obtain ⟨h1, h2, h3, h4, h5⟩ := hg
    dsimp only at *
    obtain ⟨m, hm, m1, m2⟩ := userMls_ok (ls := ls) h5
    rw [hp] at hb
    refine ⟨At [] ls, (start_of hv h35 hb).trans ?_, before_at ls⟩
    rw [← hp, hp']
    step str_ok
    step (space_word h1)
    step (fetch_word_32 h1)
    step (space_32 (by unfold Vis; decide))
    step (str_ok (str := [114, 111, 108, 101, 115]))
    step (space_32 (by unfold Vis; decide))
    step optCh_yes
    have hl : (fun s => rolesLoop (s.size + 1) true [] s : Parser (List Bytes × Bool)) (At (32 :: ((roles.flatMap fun x => x ++ [32]) ++ 125 :: 32 :: (mlsText level range ++ [59]))) ls) =
        .ok (roles, false) (At (32 :: (mlsText level range ++ [59])) ls) := by
      dsimp only
      have hloop := fun n hn => roles_loop (t := 32 :: (mlsText level range ++ [59])) (ls := ls) (rs := roles) (n := n + 1) (acc := []) h2 h4 h3 hn
      have hs : ∀ n, rolesLoop (n + 1) true [] (At (32 :: ((roles.flatMap fun x => x ++ [32]) ++ 125 :: 32 :: (mlsText level range ++ [59]))) ls) =
          rolesLoop (n + 1) true [] (At ((roles.flatMap fun x => x ++ [32]) ++ 125 :: 32 :: (mlsText level range ++ [59])) ls) := by
        intro n
        cases roles with
        | nil => exact absurd rfl h2
        | cons y rs =>
          obtain ⟨c, z, rfl, hc⟩ := word_cons (h4 y (by simp)).1
          unfold rolesLoop
          have a := skip_32 (c := c) (t := z ++ 32 :: ((rs.flatMap fun x => x ++ [32]) ++ 125 :: 32 :: (mlsText level range ++ [59]))) (more := ls) hc
          have b := skip_vis (c := c) (t := z ++ 32 :: ((rs.flatMap fun x => x ++ [32]) ++ 125 :: 32 :: (mlsText level range ++ [59]))) (more := ls) hc
          have e : (((c :: z) :: rs).flatMap fun x => x ++ [32]) ++ 125 :: 32 :: (mlsText level range ++ [59]) =
            c :: (z ++ 32 :: ((rs.flatMap fun x => x ++ [32]) ++ 125 :: 32 :: (mlsText level range ++ [59]))) := by simp
          rw [e]
          refine (bind_ok a).trans (Eq.symm ?_)
          exact bind_ok b
      rw [hs, hloop _ ?_]
      · simp
      · have := size_flatMap (t := 125 :: 32 :: (mlsText level range ++ [59])) roles
        unfold St.size At
        simp only [List.length_append, List.length_cons] at this ⊢
        omega
    step hl
    dsimp only
    rw [if_neg (by simp)]
    step hm
    step (skip_vis vis59)
    step ch_ok
    rw [m1, m2]
    rfl

theorem extra_print (r : UserExtra) : r.print = [117, 115, 101, 114] ++ 32 :: (r.name ++ 32 :: ([112, 114, 101, 102, 105, 120] ++ 32 :: (r.prefix_ ++ [59]))) := by
  unfold UserExtra.print
  simp

theorem extra_line (r : UserExtra) (h : r.Good) : 10 ∉ r.print ∧ ∃ c x, r.print = c :: x ∧ Vis c ∧ c ≠ 35 ∧ True := by
  rw [extra_print]
  obtain ⟨h1, h2, h3⟩ := h
  refine ⟨?_, 117, _, rfl, by unfold Vis; decide, by decide, trivial⟩
  simp [word_no10 h1, line_no10 h2]

theorem extra_format : Format UserExtra.parse UserExtra.print UserExtra.Good (fun _ => True) where
  line := extra_line
  last := fun s h => last_of s h
  step := by
    intro r ls s hg hb hf
    obtain ⟨-, c, x, hp, hv, h35, -⟩ := extra_line r hg
    have hp' := extra_print r
    obtain ⟨name, pre⟩ := r
    obtain ⟨h1, h2, h3⟩ := hg
    dsimp only at *
    rw [hp] at hb
    refine ⟨At [] ls, (start_of hv h35 hb).trans ?_, before_at ls⟩
    rw [← hp, hp']
    step str_ok
    step (space_word h1)
    step (fetch_word_32 h1)
    step (space_32 (by unfold Vis; decide))
    step (str_ok (str := [112, 114, 101, 102, 105, 120]))
    step (space_line h2)
    step (fetch_line h2 h3 (by rintro c x ⟨⟩; rfl))
    step (skip_vis vis59)
    step ch_ok
    rfl

end Verif.LocalFile
