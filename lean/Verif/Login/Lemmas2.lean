import Verif.Login.Lemmas

namespace Verif.Login
open Verif.Context

/-! ## Words -/

theorem words_eq (s : Bytes) : words s =
    if s.dropWhile isSpace = [] then []
    else (s.dropWhile isSpace).takeWhile (fun c => !isSpace c) ::
      words ((s.dropWhile isSpace).drop (((s.dropWhile isSpace).takeWhile fun c => !isSpace c).length + 1)) := by
  rw [words]

theorem words_space {c : UInt8} {x : Bytes} (h : isSpace c = true) : words (c :: x) = words x := by
  rw [words_eq (c :: x), words_eq x, List.dropWhile_cons, if_pos h]

theorem words_nil {s : Bytes} (h : ∀ c ∈ s, isSpace c = true) : words s = [] := by
  have := dropWhile_eq (r := []) h (by simp)
  rw [List.append_nil] at this
  rw [words_eq, if_pos this]

theorem words_word {pre w rest : Bytes} (hp : ∀ c ∈ pre, isSpace c = true) (hne : w ≠ []) (hw : ∀ c ∈ w, isSpace c = false)
    (hr : ∀ c x, rest = c :: x → isSpace c = true) : words (pre ++ w ++ rest) = w :: words rest := by
  have h1 : (pre ++ w ++ rest).dropWhile isSpace = w ++ rest := by
    rw [List.append_assoc]
    refine dropWhile_eq hp ?_
    intro c x hx
    cases w with
    | nil => exact absurd rfl hne
    | cons a w => simp at hx; rw [← hx.1]; exact hw a (by simp)
  have h2 : (w ++ rest).takeWhile (fun c => !isSpace c) = w :=
    takeWhile_eq (fun c hc => by simp [hw c hc]) (fun c x hx => by simp [hr c x hx])
  rw [words_eq, h1, h2, if_neg (by simp [hne])]
  congr 1
  cases rest with
  | nil => rw [List.append_nil, List.drop_eq_nil_of_le (Nat.le_succ _)]
  | cons c x =>
    rw [words_space (hr c x rfl), show w ++ c :: x = (w ++ [c]) ++ x by simp, ← List.length_singleton (a := c), ← List.length_append,
      drop_length_append]

theorem wordsOf_words : ∀ (n : Nat) (s : Bytes), s.length ≤ n → WordsOf s (words s)
  | n, s, hn => by
    obtain ⟨pre, st, p1, p2, p3, -, -⟩ := span_spec isSpace s
    cases st with
    | nil =>
      rw [List.append_nil] at p1
      subst p1
      rw [words_nil p2]
      exact .nil fun c hc => isSpace_iff.1 (p2 c hc)
    | cons a st =>
      obtain ⟨w, r, q1, q2, q3, -, -⟩ := span_spec (fun c => !isSpace c) (a :: st)
      have hw : ∀ c ∈ w, isSpace c = false := fun c hc => by simpa using q2 c hc
      have hr : ∀ c x, r = c :: x → isSpace c = true := fun c x hx => by simpa using q3 c x hx
      have hne : w ≠ [] := by
        rintro rfl
        have := hr a st (by simpa using q1.symm)
        rw [p3 a st rfl] at this
        cases this
      rw [p1, q1, ← List.append_assoc, words_word p2 hne hw hr]
      refine .word (fun c hc => isSpace_iff.1 (p2 c hc)) hne (fun c hc => not_isSpace_iff.1 (hw c hc))
        (fun c x hx => isSpace_iff.1 (hr c x hx)) ?_
      cases n with
      | zero => rw [p1] at hn; simp at hn
      | succ n =>
        refine wordsOf_words n r ?_
        have h1 := congrArg List.length p1
        have h2 := congrArg List.length q1
        have : 0 < w.length := List.length_pos_iff.2 hne
        simp at h1 h2
        omega

theorem wordsOf_iff {s : Bytes} {ws : List Bytes} : WordsOf s ws ↔ ws = words s := by
  constructor
  · intro h
    induction h with
    | nil h => exact (words_nil fun c hc => isSpace_iff.2 (h c hc)).symm
    | word h1 h2 h3 h4 _ ih =>
      rw [words_word (fun c hc => isSpace_iff.2 (h1 c hc)) h2 (fun c hc => not_isSpace_iff.2 (h3 c hc))
        (fun c x hx => isSpace_iff.2 (h4 c x hx)), ih]
  · rintro rfl
    exact wordsOf_words _ _ (Nat.le_refl _)

theorem wordsOf_newline {s : Bytes} {ws : List Bytes} (h : WordsOf s ws) : WordsOf (s ++ [10]) ws := by
  have h10 : Space 10 := by unfold Space; decide
  induction h with
  | nil h =>
    refine .nil ?_
    intro c hc
    rcases List.mem_append.1 hc with hc | hc
    · exact h c hc
    · rw [List.mem_singleton.1 hc]; exact h10
  | @word pre w rest ws h1 h2 h3 h4 _ ih =>
    rw [List.append_assoc]
    refine .word h1 h2 h3 ?_ ih
    intro c x hx
    cases rest with
    | nil => simp at hx; rw [← hx.1]; exact h10
    | cons d r => simp at hx; exact hx.1 ▸ h4 d r rfl

theorem words_newline (s : Bytes) : words (s ++ [10]) = words s :=
  (wordsOf_iff.1 (wordsOf_newline (wordsOf_iff.2 rfl))).symm

/-! ## The line about a role and a type -/

/-- A line as `lines` makes them. -/
def IsLine (l : Bytes) : Prop := 10 ∉ l ∨ ∃ a, l = a ++ [10] ∧ 10 ∉ a

theorem isLine_of_linesOf {bs : Bytes} {ls : List Bytes} (h : LinesOf bs ls) : ∀ l ∈ ls, IsLine l := by
  induction h with
  | nil => simp
  | last h1 h2 => intro l hl; rw [List.mem_singleton] at hl; subst hl; exact Or.inl h2
  | line h1 _ ih =>
    intro l hl
    rcases List.mem_cons.1 hl with rfl | hl
    · exact Or.inr ⟨_, rfl, h1⟩
    · exact ih l hl

/-- The text that is searched. -/
def body (l : Bytes) : Bytes := cstr (if l.getLast? = some nl then l.dropLast else l)

theorem body_spec {l : Bytes} (h : IsLine l) : 10 ∉ body l ∧ (cstr l = body l ∨ cstr l = body l ++ [10]) := by
  unfold body
  have sub : ∀ {x : Bytes}, 10 ∉ x → 10 ∉ cstr x := fun hx hm => hx (List.takeWhile_subset _ hm)
  rcases h with h | ⟨a, rfl, h⟩
  · have : ¬ l.getLast? = some nl := fun hl => h (List.mem_of_getLast? hl)
    rw [if_neg this]
    exact ⟨sub h, Or.inl rfl⟩
  · rw [if_pos (by simp), List.dropLast_concat]
    refine ⟨sub h, ?_⟩
    obtain ⟨w, r, h1, h2, h3, h4, -⟩ := span_spec (· != 0) a
    have e1 : cstr a = w := h4
    cases r with
    | nil =>
      right
      rw [e1, h1, List.append_nil]
      unfold cstr
      have := takeWhile_eq (p := (· != 0)) (w := w ++ [10]) (r := []) (by
        intro c hc
        rcases List.mem_append.1 hc with hc | hc
        · exact h2 c hc
        · rw [List.mem_singleton.1 hc]; rfl) (by simp)
      simpa using this
    | cons c r =>
      left
      rw [e1, h1]
      unfold cstr
      rw [List.append_assoc]
      exact takeWhile_eq h2 (by rintro d x ⟨⟩; exact h3 c r rfl)

theorem lineMatch_eq (l : Bytes) : lineMatch l =
    let start := (body l).dropWhile isSpace
    let word := start.takeWhile (fun c => !isSpace c)
    let after := start.drop word.length
    if start = [] ∨ after = [] then none
    else
      let linerole := start.takeWhile (fun c => !isSpace c && c != colon)
      let s := start.drop linerole.length
      if s.head? ≠ some colon then none
      else
        let s := s.drop 1
        let linetype := s.takeWhile (fun c => !isSpace c && c != colon)
        if s.drop linetype.length = [] then none
        else some (linerole, linetype, after.drop 1) := rfl

theorem lineMatch_of {l role type pre word x : Bytes} {c : UInt8} (hb : body l = pre ++ word ++ c :: x) (hp : ∀ d ∈ pre, isSpace d = true)
    (hw : ∀ d ∈ word, isSpace d = false) (hc : isSpace c = true) (h1 : 58 ∉ role) (h2 : 58 ∉ type)
    (h : word = role ++ 58 :: type ∨ ∃ y, word = role ++ 58 :: (type ++ 58 :: y)) : lineMatch l = some (role, type, x) := by
  obtain ⟨y, hy, hyw⟩ : ∃ y, word = role ++ 58 :: (type ++ y) ∧ (y = [] ∨ ∃ z, y = 58 :: z) := by
    rcases h with h | ⟨y, h⟩
    · exact ⟨[], by simpa using h, Or.inl rfl⟩
    · exact ⟨58 :: y, h, Or.inr ⟨y, rfl⟩⟩
  have hc58 : (c != colon) = true := by
    rw [bne_iff_ne]; rintro rfl; revert hc; decide
  have hst : (body l).dropWhile isSpace = word ++ c :: x := by
    rw [hb, List.append_assoc]
    refine dropWhile_eq hp ?_
    intro d z hz
    rw [hy] at hz
    have : d ∈ word := by
      rw [hy]
      cases role with
      | nil => simp at hz; simp [hz.1]
      | cons a r => simp at hz; simp [hz.1]
    exact hw d this
  have hword : (word ++ c :: x).takeWhile (fun c => !isSpace c) = word :=
    takeWhile_eq (fun d hd => by simp [hw d hd]) (by rintro d z ⟨⟩; simp [hc])
  have hrole : (word ++ c :: x).takeWhile (fun c => !isSpace c && c != colon) = role := by
    rw [hy, List.append_assoc]
    refine takeWhile_eq (fun d hd => ?_) (by rintro d z ⟨⟩; rfl)
    have hd' : d ∈ word := by rw [hy]; simp [hd]
    have : d ≠ 58 := by rintro rfl; exact h1 hd
    simp [hw d hd', this]
  have hdrop : (word ++ c :: x).drop role.length = 58 :: (type ++ (y ++ c :: x)) := by
    rw [hy, List.append_assoc, drop_length_append]; simp
  have htype : (type ++ (y ++ c :: x)).takeWhile (fun c => !isSpace c && c != colon) = type := by
    refine takeWhile_eq (fun d hd => ?_) ?_
    · have hd' : d ∈ word := by rw [hy]; simp [hd]
      have : d ≠ 58 := by rintro rfl; exact h2 hd
      simp [hw d hd', this]
    · intro d z hz
      rcases hyw with rfl | ⟨z', rfl⟩
      · simp at hz; simp [← hz.1, hc]
      · simp at hz; simp [← hz.1]
  rw [lineMatch_eq]
  simp only [hst, hword, hrole, hdrop, drop_length_append, List.drop_succ_cons, List.drop_zero, htype]
  rw [if_neg (by simp), if_neg (by simp), if_neg (by simp)]

theorem of_lineMatch {l role type x : Bytes} (h : lineMatch l = some (role, type, x)) :
    58 ∉ role ∧ 58 ∉ type ∧ ∃ pre word c, body l = pre ++ word ++ c :: x ∧ (∀ d ∈ pre, isSpace d = true) ∧
      (∀ d ∈ word, isSpace d = false) ∧ isSpace c = true ∧ (word = role ++ 58 :: type ∨ ∃ y, word = role ++ 58 :: (type ++ 58 :: y)) := by
  rw [lineMatch_eq] at h
  obtain ⟨pre, st, p1, p2, p3, -, p5⟩ := span_spec isSpace (body l)
  obtain ⟨word, af, q1, q2, q3, q4, -⟩ := span_spec (fun c => !isSpace c) st
  obtain ⟨ro, s, r1, r2, r3, r4, -⟩ := span_spec (fun c => !isSpace c && c != colon) st
  simp only [p5, q4, r4] at h
  have e1 : st.drop word.length = af := by rw [q1, drop_length_append]
  have e2 : st.drop ro.length = s := by rw [r1, drop_length_append]
  rw [e1, e2] at h
  split at h
  · cases h
  · rename_i hne
    rw [not_or] at hne
    split at h
    · cases h
    · rename_i hs
      rw [Classical.not_not] at hs
      cases s with
      | nil => cases hs
      | cons z s =>
        simp at hs
        subst hs
        simp only [List.drop_succ_cons, List.drop_zero] at h
        obtain ⟨ty, s', t1, t2, t3, t4, -⟩ := span_spec (fun c => !isSpace c && c != colon) s
        rw [t4] at h
        have e3 : s.drop ty.length = s' := by rw [t1, drop_length_append]
        rw [e3] at h
        split at h
        · cases h
        · rename_i hs'
          simp only [Option.some.injEq, Prod.mk.injEq] at h
          obtain ⟨rfl, rfl, rfl⟩ := h
          cases af with
          | nil => exact absurd rfl hne.2
          | cons c x =>
            have hw : ∀ d ∈ word, isSpace d = false := fun d hd => by simpa using q2 d hd
            have hc : isSpace c = true := by simpa using q3 c x rfl
            refine ⟨fun hm => by simpa using r2 58 hm, fun hm => by simpa using t2 58 hm, pre, word, c, by rw [p1, q1]; simp, p2, hw, hc, ?_⟩
            -- st = word ++ c :: x = ro ++ 58 :: (ty ++ s')
            have hst : word ++ c :: x = ro ++ 58 :: (ty ++ s') := by rw [← q1, r1, t1]
            cases s' with
            | nil => exact absurd rfl hs'
            | cons d s' =>
              have hd := t3 d s' rfl
              simp only [Bool.and_eq_false_iff, Bool.not_eq_false', bne_eq_false_iff_eq] at hd
              have hns : ∀ e ∈ ro ++ 58 :: ty, isSpace e = false := by
                intro e he
                rcases List.mem_append.1 he with he | he
                · have := r2 e he; simp at this; exact this.1
                · rcases List.mem_cons.1 he with rfl | he
                  · decide
                  · have := t2 e he; simp at this; exact this.1
              by_cases hds : isSpace d = true
              · left
                have := congrArg (List.takeWhile fun c => !isSpace c) hst
                rw [takeWhile_eq (fun e he => by simp [hw e he]) (by rintro e z ⟨⟩; simp [hc]),
                  show ro ++ 58 :: (ty ++ d :: s') = (ro ++ 58 :: ty) ++ d :: s' by simp,
                  takeWhile_eq (fun e he => by simp [hns e he]) (by rintro e z ⟨⟩; simp [hds])] at this
                exact this
              · right
                have hd' : d = 58 := by rcases hd with h | h; exact absurd h hds; exact h
                subst hd'
                obtain ⟨w2, r2', u1, u2, u3, -, -⟩ := span_spec (fun c => !isSpace c) s'
                have := congrArg (List.takeWhile fun c => !isSpace c) hst
                rw [takeWhile_eq (fun e he => by simp [hw e he]) (by rintro e z ⟨⟩; simp [hc]), u1,
                  show ro ++ 58 :: (ty ++ 58 :: (w2 ++ r2')) = (ro ++ 58 :: (ty ++ 58 :: w2)) ++ r2' by simp,
                  takeWhile_eq (fun e he => by
                    rw [show ro ++ 58 :: (ty ++ 58 :: w2) = (ro ++ 58 :: ty) ++ (58 :: w2) by simp] at he
                    rcases List.mem_append.1 he with he | he
                    · simp [hns e he]
                    · rcases List.mem_cons.1 he with rfl | he
                      · rfl
                      · exact u2 e he) u3] at this
                exact ⟨w2, this⟩

theorem lineMatch_of_about {l role type rest : Bytes} (hl : IsLine l) (h1 : 58 ∉ role) (h2 : 58 ∉ type) (h : About role type l rest) :
    ∃ x, lineMatch l = some (role, type, x) ∧ words rest = words x := by
  obtain ⟨s, pre, word, hs, he, hp, hw, hwo, ⟨c, x, rfl, hc⟩, hn⟩ := h
  rw [textOf_iff] at hs
  obtain ⟨hb, hcs⟩ := body_spec hl
  have hp' : ∀ d ∈ pre, isSpace d = true := fun d hd => isSpace_iff.2 (hp d hd)
  have hw' : ∀ d ∈ word, isSpace d = false := fun d hd => not_isSpace_iff.2 (hw d hd)
  have hc' := isSpace_iff.2 hc
  rcases hcs with hcs | hcs
  · exact ⟨x, lineMatch_of (by rw [← hcs, ← hs, he]) hp' hw' hc' h1 h2 hwo, words_space hc'⟩
  · rw [← hs, he] at hcs
    rcases List.eq_nil_or_concat x with rfl | ⟨x', y, rfl⟩
    · have : (pre ++ word ++ [c]).getLast? = (body l ++ [10]).getLast? := by rw [hcs]
      simp at this
      rw [this] at hn
      exact absurd rfl hn
    · have h3 : (pre ++ word ++ c :: x') ++ [y] = body l ++ [10] := by rw [← hcs]; simp
      obtain ⟨h4, h5⟩ := List.append_inj' h3 rfl
      simp at h5
      subst h5
      refine ⟨x', lineMatch_of h4.symm hp' hw' hc' h1 h2 hwo, ?_⟩
      rw [words_space hc', List.concat_eq_append, words_newline]

theorem about_of_lineMatch {l role type x : Bytes} (hl : IsLine l) (h : lineMatch l = some (role, type, x)) : ∃ rest, About role type l rest := by
  obtain ⟨-, -, pre, word, c, h1, h2, h3, h4, h5⟩ := of_lineMatch h
  obtain ⟨hb, hcs⟩ := body_spec hl
  have hp' : ∀ d ∈ pre, Space d := fun d hd => isSpace_iff.1 (h2 d hd)
  have hw' : ∀ d ∈ word, ¬ Space d := fun d hd => not_isSpace_iff.1 (h3 d hd)
  rcases hcs with hcs | hcs
  · refine ⟨c :: x, _, pre, word, textOf_iff.2 rfl, by rw [hcs, h1], hp', hw', h5, ⟨c, x, rfl, isSpace_iff.1 h4⟩, ?_⟩
    intro hx
    apply hb
    rw [h1, hx]
    simp
  · refine ⟨c :: (x ++ [10]), _, pre, word, textOf_iff.2 rfl, by rw [hcs, h1]; simp, hp', hw', h5, ⟨c, _, rfl, isSpace_iff.1 h4⟩, ?_⟩
    intro hx
    simp at hx

theorem findLine_none {role type : Bytes} (h1 : 58 ∉ role) (h2 : 58 ∉ type) : ∀ {ls : List Bytes}, (∀ l ∈ ls, IsLine l) →
    (∀ l ∈ ls, ∀ r, ¬ About role type l r) → findLine role type ls = none
  | [], _, _ => rfl
  | l :: ls, hi, hn => by
    unfold findLine
    have ih := findLine_none h1 h2 (fun x hx => hi x (List.mem_cons_of_mem _ hx)) (fun x hx => hn x (List.mem_cons_of_mem _ hx))
    cases hm : lineMatch l with
    | none => exact ih
    | some m =>
      obtain ⟨r, t, x⟩ := m
      dsimp only
      rw [if_neg, ih]
      rintro ⟨rfl, rfl⟩
      obtain ⟨rest, hr⟩ := about_of_lineMatch (hi l (by simp)) hm
      exact hn l (by simp) rest hr

theorem findLine_first {role type l rest : Bytes} (h1 : 58 ∉ role) (h2 : 58 ∉ type) : ∀ {ls : List Bytes}, (∀ l ∈ ls, IsLine l) →
    First (fun l => ∃ r, About role type l r) ls l → About role type l rest →
    ∃ x, findLine role type ls = some x ∧ words x = words rest := by
  intro ls hi hfirst ha
  obtain ⟨pre, post, he, -, hp⟩ := hfirst
  subst he
  induction pre with
  | nil =>
    obtain ⟨x, hx, hw⟩ := lineMatch_of_about (hi l (by simp)) h1 h2 ha
    refine ⟨x, ?_, hw.symm⟩
    show findLine role type (l :: post) = some x
    unfold findLine
    rw [hx]
    simp
  | cons a pre ih =>
    obtain ⟨x, hx, hw⟩ := ih (fun y hy => hp y (List.mem_cons_of_mem _ hy)) (fun y hy => hi y (List.mem_cons_of_mem _ hy))
    refine ⟨x, ?_, hw⟩
    show findLine role type (a :: (pre ++ l :: post)) = some x
    unfold findLine
    cases hm : lineMatch a with
    | none => exact hx
    | some m =>
      obtain ⟨r, t, y⟩ := m
      dsimp only
      rw [if_neg, hx]
      rintro ⟨rfl, rfl⟩
      exact hp a (by simp) (about_of_lineMatch (hi a (by simp)) hm)

/-- The words for a role and a type. -/
def wordsFor (file : Option Bytes) (role type : Bytes) : List Bytes :=
  match file with
  | none => []
  | some bs => match findLine role type (lines bs) with
    | none => []
    | some rest => words rest

theorem wordsFor_of_listed {file : Option Bytes} {role type : Bytes} {ws : List Bytes} (h1 : 58 ∉ role) (h2 : 58 ∉ type)
    (h : Listed file role type ws) : wordsFor file role type = ws := by
  unfold wordsFor
  rcases h with ⟨bs, ls, l, rest, rfl, hl, hf, ha, hw⟩ | ⟨rfl, hn⟩
  · have hls := linesOf_iff.1 hl
    subst hls
    obtain ⟨x, hx, hx2⟩ := findLine_first h1 h2 (isLine_of_linesOf hl) hf ha
    dsimp only
    rw [hx]
    dsimp only
    rw [hx2]
    exact (wordsOf_iff.1 hw).symm
  · cases file with
    | none => rfl
    | some bs =>
      dsimp only
      rw [findLine_none h1 h2 (isLine_of_linesOf (linesOf_iff.2 rfl)) (hn bs _ rfl (linesOf_iff.2 rfl))]

theorem listed_exists (file : Option Bytes) (role type : Bytes) : ∃ ws, Listed file role type ws := by
  cases file with
  | none => exact ⟨[], Or.inr ⟨rfl, by simp⟩⟩
  | some bs =>
    by_cases h : ∃ l ∈ lines bs, ∃ r, About role type l r
    · have : ∃ l, First (fun l => ∃ r, About role type l r) (lines bs) l := by
        generalize lines bs = ls at h
        induction ls with
        | nil => simp at h
        | cons a ls ih =>
          by_cases ha : ∃ r, About role type a r
          · exact ⟨a, [], ls, rfl, ha, by simp⟩
          · have : ∃ l ∈ ls, ∃ r, About role type l r := by
              obtain ⟨l, hl, hr⟩ := h
              rcases List.mem_cons.1 hl with rfl | hl
              · exact absurd hr ha
              · exact ⟨l, hl, hr⟩
            obtain ⟨l, pre, post, h1, h2, h3⟩ := ih this
            refine ⟨l, a :: pre, post, by rw [h1]; rfl, h2, ?_⟩
            intro x hx
            rcases List.mem_cons.1 hx with rfl | hx
            · exact ha
            · exact h3 x hx
      obtain ⟨l, hl⟩ := this
      obtain ⟨rest, hr⟩ : ∃ r, About role type l r := by
        obtain ⟨_, _, _, hr, _⟩ := hl
        exact hr
      exact ⟨words rest, Or.inl ⟨bs, _, l, rest, rfl, linesOf_iff.2 rfl, hl, hr, wordsOf_iff.2 rfl⟩⟩
    · refine ⟨[], Or.inr ⟨rfl, ?_⟩⟩
      rintro bs' ls ⟨⟩ hl l hm r hr
      rw [linesOf_iff] at hl
      subst hl
      exact h ⟨l, hm, r, hr⟩

end Verif.Login
