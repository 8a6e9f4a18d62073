import Verif.CilParse.Spec
import Verif.Prelude

/-! Lemmas: tokens and comments. -/

namespace Verif.CilParse
open CilCond (Tree)

theorem lex_none {b : Bool} {l : List Char} (h : next b l = none) : lex b l = [] := by
  rw [lex]; split
  · rfl
  · rename_i h'; rw [h] at h'; cases h'

theorem lex_some {b b' : Bool} {l r : List Char} {t : Tok} (h : next b l = some (t, b', r)) : lex b l = t :: lex b' r := by
  rw [lex]; split
  · rename_i h'; rw [h] at h'; cases h'
  · rename_i h'; rw [h] at h'; cases h'; rfl

theorem lex_congr {b b' : Bool} {l l' : List Char} (h : next b l = next b' l') : lex b l = lex b' l' := by
  cases hn : next b' l' with
  | none => rw [lex_none (h.trans hn), lex_none hn]
  | some x => obtain ⟨t, c, r⟩ := x; rw [lex_some (h.trans hn), lex_some hn]

theorem symbolChar_ne {c : Char} (h : symbolChar c = true) :
    c ≠ '\n' ∧ c ≠ '\r' ∧ c ≠ ';' ∧ c ≠ '(' ∧ c ≠ ')' ∧ c ≠ ' ' ∧ c ≠ '\t' ∧ c ≠ '"' := by
  refine ⟨?_, ?_, ?_, ?_, ?_, ?_, ?_, ?_⟩ <;> · rintro rfl; revert h; decide

/-- No line marks from here on; `bol` is whether a line starts here. -/
structure NoMk (bol : Bool) (l : List Char) : Prop where
  here : bol = true → ¬ [';', ';', '*'] <+: l
  later : ¬ ['\n', ';', ';', '*'] <:+: l

theorem NoMk.of_false {b : Bool} {a l : List Char} (h : NoMk b (a ++ l)) : NoMk false l :=
  ⟨(fun h => by cases h), fun h' => h.later (h'.trans (List.suffix_append _ _).isInfix)⟩

theorem NoMk.newline {b : Bool} {l : List Char} (h : NoMk b ('\n' :: l)) : NoMk true l :=
  ⟨fun _ h' => h.later (List.IsPrefix.isInfix (by obtain ⟨r, hr⟩ := h'; exact ⟨r, by rw [← hr]; rfl⟩)),
    fun h' => h.later (h'.trans (List.suffix_cons _ _).isInfix)⟩

theorem noMk_start {l : List Char} (h : NoMarks l) : NoMk true l := by
  constructor
  · rintro - ⟨r, hr⟩
    exact (h [] r (by rw [← hr]; rfl)).1 rfl
  · rintro ⟨a, b, hab⟩
    have := (h (a ++ ['\n']) b (by rw [← hab]; simp)).2
    simp at this

/-- Run the parser on a text. -/
def run (skip bol : Bool) (l : List Char) (st : St) : Res := parse skip (lex bol l) st

theorem run_nil (b : Bool) (st : St) : run false b [] st = if st.parens > 0 then .err else if st.marks ≠ 0 then .err else .ok st.cur := by
  unfold run; rw [lex_none (by rw [next]), parse]

theorem run_newline (b : Bool) (l : List Char) (st : St) : run false b ('\n' :: l) st = run false true l st := by
  unfold run; rw [lex_some (by rw [next, if_pos rfl]), parse]

theorem run_white {c : Char} (hc : c = ' ' ∨ c = '\t') (b : Bool) (l : List Char) (st : St) : run false b (c :: l) st = run false false l st := by
  unfold run
  have : next b (c :: l) = next false l := by
    rw [next]
    rcases hc with rfl | rfl <;> rfl
  rw [lex_congr this]

theorem run_open (b : Bool) (l : List Char) (st : St) : run false b ('(' :: l) st =
    if st.parens + 1 > MAX_DEPTH then .err else run false false l { st.open with parens := st.parens + 1 } := by
  unfold run; rw [lex_some (t := .oparen) (b' := false) (r := l) (by rw [next]; rfl), parse]

theorem run_close (b : Bool) (l : List Char) (st : St) : run false b (')' :: l) st =
    if st.parens = 0 then .err else match st.close with
      | none => .ub
      | some st => run false false l { st with parens := st.parens - 1 } := by
  unfold run; rw [lex_some (t := .cparen) (b' := false) (r := l) (by rw [next]; rfl), parse]; rfl

theorem run_comment {b : Bool} {l : List Char} (h : NoMk b (';' :: l)) (st : St) : run false b (';' :: l) st = run true false l st := by
  unfold run
  have : next b (';' :: l) = some (.comment, false, l) := by
    rw [next, if_neg (by decide), if_neg (by decide), if_pos rfl, if_neg]
    rintro ⟨h1, h2⟩
    refine h.here h1 ⟨l.drop 2, ?_⟩
    conv => rhs; rw [← List.take_append_drop 2 l, h2]
    rfl
  rw [lex_some this, parse]

theorem next_symbol {c : Char} (hc : symbolChar c = true) (b : Bool) (l : List Char) : next b (c :: l) =
    some (.symbol (String.ofList (c :: l.takeWhile symbolChar)), false, l.dropWhile symbolChar) := by
  obtain ⟨h1, h2, h3, h4, h5, -⟩ := symbolChar_ne hc
  rw [next, if_neg h1, if_neg h2, if_neg h3, if_neg h4, if_neg h5, if_pos hc]

theorem run_symbol {c : Char} (hc : symbolChar c = true) (b : Bool) (l : List Char) (st : St) : run false b (c :: l) st =
    if st.parens = 0 then .err else run false false (l.dropWhile symbolChar) (st.add (String.ofList (c :: l.takeWhile symbolChar))) := by
  unfold run; rw [lex_some (next_symbol hc b l), parse]

theorem next_quote (b : Bool) (l : List Char) : next b ('"' :: l) = match quoted l with
    | some (s, r) => some (.qstring (String.ofList s), false, r)
    | none => some (.unknown, false, l) := by
  rw [next]; rfl

theorem run_quote (b : Bool) (l : List Char) (st : St) : run false b ('"' :: l) st = match quoted l with
    | some (s, r) => if st.parens = 0 then .err else run false false r (st.add (String.ofList s))
    | none => .err := by
  unfold run
  have := next_quote b l
  cases h : quoted l with
  | none => rw [h] at this; rw [lex_some this, parse]
  | some x => obtain ⟨s, r⟩ := x; rw [h] at this; rw [lex_some this, parse]

theorem quoted_iff {l s r : List Char} : quoted l = some (s, r) ↔ l = s ++ '"' :: r ∧ '"' ∉ s ∧ '\n' ∉ s ∧ '\x00' ∉ s := by
  induction l generalizing s with
  | nil => rw [quoted]; simp
  | cons c l ih =>
    rw [quoted]
    by_cases h1 : c = '"'
    · subst h1
      rw [if_pos rfl]
      cases s with
      | nil =>
        simp
      | cons d s =>
        simp only [Option.some.injEq, Prod.mk.injEq, List.nil_eq, reduceCtorEq, false_and, List.cons_append, List.cons.injEq, false_iff]
        rintro ⟨⟨rfl, -⟩, h, -⟩
        exact h List.mem_cons_self
    · rw [if_neg h1]
      by_cases h2 : c = '\n' ∨ c = '\x00'
      · rw [if_pos h2]
        simp only [reduceCtorEq, false_iff]
        rintro ⟨h, h3, h4, h5⟩
        cases s with
        | nil => rw [List.nil_append] at h; cases h; exact h1 rfl
        | cons d s =>
          cases h
          rcases h2 with rfl | rfl
          · exact h4 List.mem_cons_self
          · exact h5 List.mem_cons_self
      · rw [if_neg h2]
        have h2' : c ≠ '\n' ∧ c ≠ '\x00' := ⟨fun h => h2 (.inl h), fun h => h2 (.inr h)⟩
        cases s with
        | nil =>
          simp only [Option.map_eq_some_iff, Prod.mk.injEq, reduceCtorEq, false_and, and_false, exists_false, List.nil_append, List.cons.injEq,
            h1]
        | cons d s =>
          simp only [Option.map_eq_some_iff, Prod.mk.injEq, List.cons.injEq, List.cons_append, Prod.exists, List.mem_cons, not_or]
          constructor
          · rintro ⟨s', r', h3, ⟨rfl, rfl⟩, rfl⟩
            obtain ⟨a1, a2, a3, a4⟩ := ih.1 h3
            exact ⟨⟨rfl, a1⟩, ⟨Ne.symm h1, a2⟩, ⟨Ne.symm h2'.1, a3⟩, Ne.symm h2'.2, a4⟩
          · rintro ⟨⟨rfl, a1⟩, ⟨-, a2⟩, ⟨-, a3⟩, -, a4⟩
            exact ⟨s, r, ih.2 ⟨a1, a2, a3, a4⟩, ⟨rfl, rfl⟩, rfl⟩

/-! ### Comments -/

/-- What is after a comment: nothing, or the next line. -/
def EndOfLine (l : List Char) : Prop := l = [] ∨ ∃ l', l = '\n' :: l'

theorem suffix_of_append {tail a r : List Char} {body : List Char} (h : a ++ r = body ++ tail) (ha : ∀ c ∈ a, c ≠ '\n')
    (he : EndOfLine tail) : ∃ body', r = body' ++ tail ∧ body = a ++ body' := by
  induction a generalizing body with
  | nil => exact ⟨body, h, rfl⟩
  | cons c a ih =>
    cases body with
    | nil =>
      rcases he with rfl | ⟨l', rfl⟩
      · cases h
      · cases h
        exact absurd rfl (ha '\n' List.mem_cons_self)
    | cons d body =>
      simp only [List.cons_append, List.cons.injEq] at h
      obtain ⟨rfl, h⟩ := h
      obtain ⟨b', h1, h2⟩ := ih h fun x hx => ha x (List.mem_cons_of_mem _ hx)
      exact ⟨b', h1, by rw [h2]; rfl⟩

theorem next_body {tail : List Char} (he : EndOfLine tail) : ∀ {body : List Char} (b : Bool), '\n' ∉ body → '\r' ∉ body →
    next b (body ++ tail) = next false tail ∨ (∃ b', next b (body ++ tail) = next b' tail) ∨
    ∃ t b' body', next b (body ++ tail) = some (t, b', body' ++ tail) ∧ t ≠ .newline ∧ body'.length < body.length ∧ ∀ c ∈ body', c ∈ body
  | [], b, _, _ => .inr (.inl ⟨b, rfl⟩)
  | c :: body, b, hn, hr => by
    have hc : c ≠ '\n' ∧ '\n' ∉ body := by simp at hn; exact ⟨fun h => hn.1 h.symm, hn.2⟩
    have hc' : c ≠ '\r' ∧ '\r' ∉ body := by simp at hr; exact ⟨fun h => hr.1 h.symm, hr.2⟩
    have keep : ∀ t b', t ≠ .newline → next b (c :: (body ++ tail)) = some (t, b', body ++ tail) →
        next b (c :: body ++ tail) = next false tail ∨ (∃ b', next b (c :: body ++ tail) = next b' tail) ∨
    ∃ t b' body', next b (c :: body ++ tail) = some (t, b', body' ++ tail) ∧ t ≠ .newline ∧ body'.length < (c :: body).length ∧ ∀ x ∈ body', x ∈ c :: body :=
      fun t b' ht h => .inr (.inr ⟨t, b', body, h, ht, by simp, fun x hx => List.mem_cons_of_mem _ hx⟩)
    by_cases h3 : c = ';'
    · subst h3
      by_cases hm : b = true ∧ (body ++ tail).take 2 = [';', '*']
      · have : next b (';' :: (body ++ tail)) = some (.linemark, false, (body ++ tail).drop 2) := by
          rw [next, if_neg (by decide), if_neg (by decide), if_pos rfl, if_pos hm]
        have hsplit : [';', '*'] ++ (body ++ tail).drop 2 = body ++ tail := by
          conv => rhs; rw [← List.take_append_drop 2 (body ++ tail), hm.2]
        obtain ⟨body', h1, h2⟩ := suffix_of_append hsplit (by decide) he
        refine .inr (.inr ⟨.linemark, false, body', by rw [← h1]; exact this, by decide, ?_, ?_⟩)
        · rw [h2]; simp; omega
        · intro x hx; rw [h2]; simp [hx]
      · refine keep .comment false (by decide) ?_
        rw [next, if_neg (by decide), if_neg (by decide), if_pos rfl, if_neg hm]
    by_cases h4 : c = '('
    · subst h4; exact keep .oparen false (by decide) (by rw [next]; rfl)
    by_cases h5 : c = ')'
    · subst h5; exact keep .cparen false (by decide) (by rw [next]; rfl)
    by_cases h6 : symbolChar c = true
    · have := next_symbol h6 b (body ++ tail)
      obtain ⟨body', h1, h2⟩ := suffix_of_append (List.takeWhile_append_dropWhile (p := symbolChar) (l := body ++ tail))
        (fun x hx => (symbolChar_ne (List.all_eq_true.1 List.all_takeWhile x hx)).1) he
      refine .inr (.inr ⟨_, _, body', by rw [← h1]; exact this, by simp, ?_, ?_⟩)
      · rw [h2]; simp; omega
      · intro x hx; rw [h2]; simp [hx]
    by_cases h7 : c = ' ' ∨ c = '\t'
    · have : next b (c :: body ++ tail) = next false (body ++ tail) := by
        rw [List.cons_append, next, if_neg hc.1, if_neg hc'.1, if_neg h3, if_neg h4, if_neg h5, if_neg h6, if_pos h7]
      rcases next_body he (body := body) false hc.2 hc'.2 with h | ⟨b', h⟩ | ⟨t, b', body', h, ht, hl, hx⟩
      · exact .inl (this.trans h)
      · exact .inr (.inl ⟨b', this.trans h⟩)
      · exact .inr (.inr ⟨t, b', body', this.trans h, ht, by simp; omega, fun x hx' => List.mem_cons_of_mem _ (hx x hx')⟩)
    have base : next b (c :: (body ++ tail)) = if c = '"' then
        match quoted (body ++ tail) with
        | some (s, r) => some (.qstring (String.ofList s), false, r)
        | none => some (.unknown, false, body ++ tail)
        else some (.unknown, false, body ++ tail) := by
      rw [next, if_neg hc.1, if_neg hc'.1, if_neg h3, if_neg h4, if_neg h5, if_neg h6, if_neg h7]
      rfl
    by_cases h8 : c = '"'
    · rw [if_pos h8] at base
      cases hq : quoted (body ++ tail) with
      | none => rw [hq] at base; exact keep .unknown false (by decide) base
      | some x =>
        obtain ⟨s, r⟩ := x
        rw [hq] at base
        obtain ⟨a1, a2, a3, a4⟩ := quoted_iff.1 hq
        have h0 : (s ++ ['"']) ++ r = body ++ tail := by rw [a1]; simp
        obtain ⟨body', h1, h2⟩ := suffix_of_append h0 (by
          intro x hx
          rcases List.mem_append.1 hx with hx | hx
          · rintro rfl; exact a3 hx
          · rw [List.mem_singleton.1 hx]; decide) he
        refine .inr (.inr ⟨_, _, body', by rw [← h1]; exact base, by simp, ?_, ?_⟩)
        · rw [h2]; simp; omega
        · intro x hx; rw [h2]; simp [hx]
    · rw [if_neg h8] at base
      exact keep .unknown false (by decide) base

theorem next_eol {tail : List Char} (he : EndOfLine tail) (b b' : Bool) : next b tail = next b' tail := by
  rcases he with rfl | ⟨l', rfl⟩
  · rw [next, next]
  · rw [next, next, if_pos rfl, if_pos rfl]

theorem parse_skip {t : Tok} (h : t ≠ .newline) (l : List Tok) (st : St) : parse true (t :: l) st = parse true l st := by
  cases t <;> first | exact absurd rfl h | rw [parse]
  all_goals simp

/-- A comment goes on to the end of the line. -/
theorem run_body {tail : List Char} (he : EndOfLine tail) (st : St) : ∀ (n : Nat) {body : List Char} (b : Bool), body.length ≤ n → '\n' ∉ body →
    '\r' ∉ body → run true b (body ++ tail) st = run true false tail st
  | n, body, b, hn, h1, h2 => by
    rcases next_body he b h1 h2 with h | ⟨b', h⟩ | ⟨t, b', body', h, ht, hl, hx⟩
    · unfold run; rw [lex_congr h]
    · unfold run; rw [lex_congr (h.trans (next_eol he b' false))]
    · cases n with
      | zero => omega
      | succ n =>
        have := run_body he st n (body := body') b' (by omega) (fun h => h1 (hx _ h)) (fun h => h2 (hx _ h))
        rw [← this]
        unfold run
        rw [lex_some h, parse_skip ht]

theorem run_skip_newline (b : Bool) (l : List Char) (st : St) : run true b ('\n' :: l) st = run false true l st := by
  unfold run; rw [lex_some (t := .newline) (b' := true) (r := l) (by rw [next, if_pos rfl]), parse]

theorem run_skip_nil (b : Bool) (st : St) : run true b [] st = if st.parens > 0 then .err else if st.marks ≠ 0 then .err else .ok st.cur := by
  unfold run; rw [lex_none (by rw [next]), parse]

end Verif.CilParse
