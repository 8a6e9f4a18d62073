import Verif.FileLabel.Lookup
/-!
# Words, lines, paths and substitutions
-/
namespace Verif.FileLabel
open Spec

/-! ## Words -/

theorem wordsFrom_nil_drop (s : Bytes) : wordsFrom [] s = wordsFrom [] (s.dropWhile isspace) := by
  induction s with
  | nil => rfl
  | cons b s ih =>
    by_cases hb : isspace b = true
    · rw [List.dropWhile_cons_of_pos hb, ← ih, wordsFrom, if_pos hb, if_pos rfl]
    · rw [List.dropWhile_cons_of_neg hb]

theorem wordsFrom_word (w s : Bytes) (h : w ++ s.takeWhile (fun b => !isspace b) ≠ []) :
    wordsFrom w s = (w ++ s.takeWhile (fun b => !isspace b)) :: words (s.dropWhile (fun b => !isspace b)) := by
  induction s generalizing w with
  | nil => simp only [List.takeWhile_nil, List.append_nil] at h; simp [wordsFrom, words, h]
  | cons b s ih =>
    rw [wordsFrom]
    by_cases hb : isspace b = true
    · have e1 : (b :: s).takeWhile (fun b => !isspace b) = [] := by simp [hb]
      have e2 : (b :: s).dropWhile (fun b => !isspace b) = b :: s := by simp [hb]
      rw [e1, List.append_nil] at h
      rw [e1, e2, List.append_nil, if_pos hb, if_neg h]
      rw [words, wordsFrom, if_pos hb, if_pos rfl]
    · have e1 : (b :: s).takeWhile (fun b => !isspace b) = b :: s.takeWhile (fun b => !isspace b) := by simp [hb]
      have e2 : (b :: s).dropWhile (fun b => !isspace b) = s.dropWhile (fun b => !isspace b) := by simp [hb]
      rw [if_neg hb, ih (w ++ [b]) (by simp), e1, e2]
      simp

theorem head_dropWhile_space {s : Bytes} {b : Byte} (h : (s.dropWhile isspace).head? = some b) : isspace b = false := by
  induction s with
  | nil => simp at h
  | cons a s ih =>
    rw [List.dropWhile_cons] at h
    split at h
    · exact ih h
    · rename_i ha
      simp only [List.head?_cons, Option.some.injEq] at h
      rw [← h]; simpa using ha

theorem mem_takeWhile_sat {p : Byte → Bool} {s : Bytes} {b : Byte} (h : b ∈ s.takeWhile p) : p b = true := by
  induction s with
  | nil => simp at h
  | cons a s ih =>
    rw [List.takeWhile_cons] at h
    split at h
    · rcases List.mem_cons.1 h with rfl | h
      · assumption
      · exact ih h
    · simp at h

theorem takeWhile_drop_nil {s : Bytes} :
    (s.dropWhile isspace).takeWhile (fun b => !isspace b) = [] ↔ s.dropWhile isspace = [] := by
  cases h : s.dropWhile isspace with
  | nil => simp
  | cons b t =>
    have := head_dropWhile_space (s := s) (b := b) (by rw [h]; rfl)
    simp [this]

theorem words_eq (s : Bytes) : words s =
    if (s.dropWhile isspace).takeWhile (fun b => !isspace b) = [] then []
    else (s.dropWhile isspace).takeWhile (fun b => !isspace b) ::
      words ((s.dropWhile isspace).dropWhile (fun b => !isspace b)) := by
  split
  · rename_i h
    rw [takeWhile_drop_nil] at h
    rw [words, wordsFrom_nil_drop, h]; rfl
  · rename_i h
    rw [words, wordsFrom_nil_drop, wordsFrom_word [] _ (by simpa using h), List.nil_append]

theorem words_nil_iff (s : Bytes) : words s = [] ↔ s.dropWhile isspace = [] := by
  rw [words_eq]
  split
  · rename_i h; rw [takeWhile_drop_nil] at h; simp [h]
  · rename_i h; rw [takeWhile_drop_nil] at h; simp [h]

/-! ## Lines -/

/-- The first word and the rest. -/
def fw (s : Bytes) : Bytes := (s.dropWhile isspace).takeWhile (fun b => !isspace b)
/-- The rest. -/
def fr (s : Bytes) : Bytes := (s.dropWhile isspace).dropWhile (fun b => !isspace b)

theorem words_fw (s : Bytes) : words s = if fw s = [] then [] else fw s :: words (fr s) := words_eq s

theorem fw_nil {s : Bytes} : fw s = [] ↔ s.dropWhile isspace = [] := takeWhile_drop_nil

theorem fr_nil_of_fw_nil {s : Bytes} (h : fw s = []) : fr s = [] := by
  rw [fw_nil] at h; rw [fr, h]; rfl

theorem split_fw (s : Bytes) : s = s.takeWhile isspace ++ fw s ++ fr s := by
  rw [List.append_assoc, fw, fr, List.takeWhile_append_dropWhile, List.takeWhile_append_dropWhile]

theorem readEntry_bad {s : Bytes} (h : badWord (fw s)) : readEntry s = none := by
  unfold readEntry
  simp only
  change (if (fw s).any (fun b => decide (128 ≤ b.toNat)) = true then none
    else if (fw s).length ≥ 65535 then none else some (fw s, fr s)) = _
  by_cases h1 : (fw s).any (fun b => decide (128 ≤ b.toNat)) = true
  · rw [if_pos h1]
  · rw [if_neg h1]
    rcases h with h | h
    · exact absurd (by simpa using h) h1
    · rw [if_pos h]

theorem readEntry_good {s : Bytes} (h : ¬ badWord (fw s)) : readEntry s = some (fw s, fr s) := by
  unfold badWord at h
  rw [not_or] at h
  unfold readEntry
  simp only
  change (if (fw s).any (fun b => decide (128 ≤ b.toNat)) = true then none
    else if (fw s).length ≥ 65535 then none else some (fw s, fr s)) = _
  rw [if_neg (by simpa using h.1), if_neg h.2]

theorem badWord_nil : ¬ badWord [] := by unfold badWord; simp

theorem getLast_fw {s : Bytes} (h : fw s ≠ []) (hr : fr s = []) : ∃ b, s.getLast? = some b ∧ isspace b = false := by
  rw [split_fw s, hr, List.append_nil, List.getLast?_append_of_ne_nil _ h]
  refine ⟨(fw s).getLast h, List.getLast?_eq_some_getLast h, ?_⟩
  have hmem : (fw s).getLast h ∈ fw s := List.getLast_mem h
  have := mem_takeWhile_sat hmem
  simpa using this

theorem getLast_space {s : Bytes} (h : s ≠ []) (hw : fw s = []) : ∃ b, s.getLast? = some b ∧ isspace b = true := by
  have h2 := split_fw s
  rw [hw, fr_nil_of_fw_nil hw, List.append_nil, List.append_nil] at h2
  refine ⟨s.getLast h, List.getLast?_eq_some_getLast h, ?_⟩
  have hmem : s.getLast h ∈ s := List.getLast_mem h
  have hall : ∀ b ∈ s, isspace b = true := by
    rw [h2]; intro b hb; exact mem_takeWhile_sat hb
  exact hall _ hmem

theorem getLast_fr {s : Bytes} (h : fr s ≠ []) : s.getLast? = (fr s).getLast? := by
  conv_lhs => rw [split_fw s]
  rw [List.getLast?_append_of_ne_nil _ h]

theorem kindOf_names (t : Bytes) (k : Nat) : kindOf t = some k ↔ (t, k) ∈ kindNames := by
  unfold kindOf kindNames
  split
  · rename_i a b
    simp only [List.mem_cons, List.not_mem_nil, or_false, Prod.mk.injEq, List.cons.injEq, and_true]
    by_cases ha : a = dash
    · subst ha
      simp only [ne_eq, not_true_eq_false, if_false, true_and]
      repeat' split
      all_goals first
        | (rename_i h; subst h; simp; omega)
        | (simp only [reduceCtorEq, false_iff]; simp [*])
    · simp [ha]
  · rename_i h
    constructor
    · simp
    · intro h'
      simp only [List.mem_cons, List.not_mem_nil, or_false, Prod.mk.injEq] at h'
      rcases h' with h' | h' | h' | h' | h' | h' | h' <;> exact absurd h'.1 (h _ _)

/-- From the entries to the meaning of a line. -/
def lineOf : Items → Line
  | .ub => .ub
  | .err => .err
  | .ok 0 _ => .skip
  | .ok 1 _ => .err
  | .ok 2 args => .spec (args.getD 0 []) 0 (args.getD 1 [])
  | .ok _ args =>
    match kindOf (args.getD 1 []) with
    | none => .err
    | some k => .spec (args.getD 0 []) k (args.getD 2 [])

theorem parseLine_lineOf (l : Bytes) : parseLine l = lineOf (readEntries l) := rfl

theorem readEntries_nil {l : Bytes} (h : (text l).dropWhile isspace = []) : readEntries l = .ok 0 [] := by
  unfold readEntries
  simp only
  change (match (text l).dropWhile isspace with
    | [] => Items.ok 0 []
    | b :: _ => if b = hash then .ok 0 [] else entriesLoop 0 [] ((text l).dropWhile isspace)) = _
  rw [h]

theorem readEntries_cons {l S : Bytes} {b : Byte} (h : (text l).dropWhile isspace = S) (hb : S.head? = some b) :
    readEntries l = if b = hash then .ok 0 [] else entriesLoop 0 [] S := by
  unfold readEntries
  simp only
  change (match (text l).dropWhile isspace with
    | [] => Items.ok 0 []
    | b :: _ => if b = hash then .ok 0 [] else entriesLoop 0 [] ((text l).dropWhile isspace)) = _
  rw [h]
  cases S with
  | nil => simp at hb
  | cons c S => simp only [List.head?_cons, Option.some.injEq] at hb; subst hb; rfl

/-- The outcome of a line. -/
theorem parseLine_cases (l : Bytes) :
    (Means l (parseLine l) ∧ ¬ (Trailing l ∧ ∃ r c, words (text l) = [r, c] ∧ r.head? ≠ some 35 ∧
        ∀ x ∈ [r, c], ¬ badWord x)) ∨
    (parseLine l = .ub ∧ Trailing l ∧ ∃ r c, words (text l) = [r, c] ∧ r.head? ≠ some 35 ∧
        ∀ x ∈ [r, c], ¬ badWord x) := by
  have hw0 : words (text l) = words ((text l).dropWhile isspace) := wordsFrom_nil_drop _
  rw [parseLine_lineOf]
  generalize hs : (text l).dropWhile isspace = s at hw0
  cases s with
  | nil =>
    left
    rw [readEntries_nil hs]
    refine ⟨.blank (by rw [hw0]; rfl), ?_⟩
    rintro ⟨_, r, c, h, _⟩
    rw [hw0] at h
    simp [words, wordsFrom] at h
  | cons b s' =>
    have hb : isspace b = false := by
      exact head_dropWhile_space (s := text l) (by rw [hs]; rfl)
    have hdrop : (b :: s').dropWhile isspace = b :: s' := by simp [hb]
    have hfw : (fw (b :: s')).head? = some b := by rw [fw, hdrop]; simp [hb]
    have hfwne : fw (b :: s') ≠ [] := by intro h; rw [h] at hfw; simp at hfw
    have hlast : (text l).getLast? = (b :: s').getLast? := by
      have : text l = (text l).takeWhile isspace ++ (b :: s') := by
        rw [← hs, List.takeWhile_append_dropWhile]
      rw [this, List.getLast?_append_of_ne_nil _ (by simp)]
    rw [readEntries_cons hs rfl]
    generalize hS : b :: s' = S at *
    have hSne : S ≠ [] := by rw [← hS]; simp
    have hw1 : words (text l) = fw S :: words (fr S) := by rw [hw0, words_fw, if_neg hfwne]
    by_cases hcm : b = hash
    · rw [if_pos hcm]
      left
      refine ⟨.comment (fw S) (words (fr S)) hw1 (by rw [hfw, hcm]), ?_⟩
      rintro ⟨_, r, c, h, h35, _⟩
      rw [hw1] at h
      simp only [List.cons.injEq] at h
      rw [← h.1, hfw, hcm] at h35
      exact h35 rfl
    · rw [if_neg hcm]
      have h35 : (fw S).head? ≠ some 35 := by rw [hfw]; simpa using hcm
      rw [entriesLoop, if_neg (by omega), if_neg (by simp), if_neg hSne]
      by_cases hb1 : badWord (fw S)
      · rw [readEntry_bad hb1]
        left
        refine ⟨.bad (fw S) (words (fr S)) hw1 h35 ⟨fw S, by simp, hb1⟩, ?_⟩
        rintro ⟨_, r, c, h, _, hbad⟩
        rw [hw1] at h
        simp only [List.cons.injEq] at h
        exact hbad r (by simp) (h.1 ▸ hb1)
      · rw [readEntry_good hb1]
        simp only [if_neg hfwne, List.nil_append, Nat.zero_add]
        rw [entriesLoop, if_neg (by omega), if_neg (by simp)]
        by_cases hr1 : fr S = []
        · rw [if_pos hr1]
          left
          have hw2 : words (text l) = [fw S] := by rw [hw1, hr1]; rfl
          refine ⟨.one (fw S) hw2 h35, ?_⟩
          rintro ⟨_, r, c, h, _⟩
          rw [hw2] at h; simp at h
        · rw [if_neg hr1]
          by_cases hb2 : badWord (fw (fr S))
          · rw [readEntry_bad hb2]
            have hne2 : fw (fr S) ≠ [] := by intro h; rw [h] at hb2; exact badWord_nil hb2
            have hw2 : words (text l) = fw S :: fw (fr S) :: words (fr (fr S)) := by
              rw [hw1, words_fw (fr S), if_neg hne2]
            left
            refine ⟨.bad (fw S) _ hw2 h35 ⟨fw (fr S), by simp, hb2⟩, ?_⟩
            rintro ⟨_, r, c, h, _, hbad⟩
            rw [hw2] at h
            simp only [List.cons.injEq] at h
            exact hbad c (by simp) (h.2.1 ▸ hb2)
          · rw [readEntry_good hb2]
            simp only
            by_cases hne2 : fw (fr S) = []
            · rw [if_pos hne2, fr_nil_of_fw_nil hne2]
              rw [entriesLoop, if_neg (by omega), if_neg (by simp), if_pos rfl]
              left
              have hw2 : words (text l) = [fw S] := by rw [hw1, words_fw (fr S), if_pos hne2]
              refine ⟨.one (fw S) hw2 h35, ?_⟩
              rintro ⟨_, r, c, h, _⟩
              rw [hw2] at h; simp at h
            · rw [if_neg hne2]
              have hw2 : words (text l) = fw S :: fw (fr S) :: words (fr (fr S)) := by
                rw [hw1, words_fw (fr S), if_neg hne2]
              have hl2 : (text l).getLast? = (fr S).getLast? := by rw [hlast, getLast_fr hr1]
              have hgood : ∀ x ∈ [fw S, fw (fr S)], ¬ badWord x := by
                intro x hx
                simp only [List.mem_cons, List.not_mem_nil, or_false] at hx
                rcases hx with rfl | rfl
                · exact hb1
                · exact hb2
              rw [entriesLoop, if_neg (by omega), if_neg (by simp)]
              by_cases hr2 : fr (fr S) = []
              · rw [if_pos hr2]
                left
                have hw3 : words (text l) = [fw S, fw (fr S)] := by rw [hw2, hr2]; rfl
                refine ⟨.two (fw S) (fw (fr S)) hw3 h35 hgood, ?_⟩
                rintro ⟨⟨x, hx, hsp⟩, _⟩
                obtain ⟨y, hy, hny⟩ := getLast_fw hne2 hr2
                rw [hl2, hy] at hx
                simp only [Option.some.injEq] at hx
                rw [hx, hsp] at hny
                simp at hny
              · rw [if_neg hr2]
                by_cases hb3 : badWord (fw (fr (fr S)))
                · rw [readEntry_bad hb3]
                  have hne3 : fw (fr (fr S)) ≠ [] := by intro h; rw [h] at hb3; exact badWord_nil hb3
                  have hw3 : words (text l) = fw S :: fw (fr S) :: fw (fr (fr S)) :: words (fr (fr (fr S))) := by
                    rw [hw2, words_fw (fr (fr S)), if_neg hne3]
                  left
                  refine ⟨.bad (fw S) _ hw3 h35 ⟨fw (fr (fr S)), by simp, hb3⟩, ?_⟩
                  rintro ⟨_, r, c, h, _⟩
                  rw [hw3] at h
                  simp at h
                · rw [readEntry_good hb3]
                  simp only
                  by_cases hne3 : fw (fr (fr S)) = []
                  · rw [if_pos hne3, entriesLoop, if_neg (by omega), if_pos (by simp)]
                    right
                    have hw3 : words (text l) = [fw S, fw (fr S)] := by
                      rw [hw2, words_fw (fr (fr S)), if_pos hne3]
                    refine ⟨rfl, ?_, fw S, fw (fr S), hw3, h35, hgood⟩
                    obtain ⟨x, hx, hsp⟩ := getLast_space hr2 hne3
                    exact ⟨x, by rw [hl2, getLast_fr hr2, hx], hsp⟩
                  · rw [if_neg hne3, entriesLoop, if_pos (by omega)]
                    have hw3 : words (text l) = fw S :: fw (fr S) :: fw (fr (fr S)) :: words (fr (fr (fr S))) := by
                      rw [hw2, words_fw (fr (fr S)), if_neg hne3]
                    have hgood3 : ∀ x ∈ [fw S, fw (fr S), fw (fr (fr S))], ¬ badWord x := by
                      intro x hx
                      simp only [List.mem_cons, List.not_mem_nil, or_false] at hx
                      rcases hx with rfl | rfl | rfl
                      · exact hb1
                      · exact hb2
                      · exact hb3
                    left
                    refine ⟨?_, ?_⟩
                    · change Means l (match kindOf (fw (fr S)) with
                        | none => .err
                        | some k => .spec (fw S) k (fw (fr (fr S))))
                      cases hk : kindOf (fw (fr S)) with
                      | none =>
                        exact .badKind _ _ _ _ hw3 h35 hgood3 (fun k hk' => by
                          rw [← kindOf_names, hk] at hk'; simp at hk')
                      | some k => exact .three _ _ _ k _ hw3 h35 hgood3 ((kindOf_names _ _).1 hk)
                    · rintro ⟨_, r, c, h, _⟩
                      rw [hw3] at h
                      simp at h

end Verif.FileLabel
