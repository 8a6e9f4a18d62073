import Verif.CilParse.Lemmas

/-! Lemmas: the parser reads what the grammar writes, and nothing else. -/

namespace Verif.CilParse
open CilCond (Tree)

/-! ### What is written is read -/

theorem takeWhile_symbol {s l : List Char} (hs : ∀ c ∈ s, symbolChar c = true) (hl : NoSymbolNext l) :
    (s ++ l).takeWhile symbolChar = s ∧ (s ++ l).dropWhile symbolChar = l := by
  induction s with
  | nil =>
    cases l with
    | nil => exact ⟨rfl, rfl⟩
    | cons c l =>
      have := hl c l rfl
      simp [this]
  | cons c s ih =>
    have h1 := hs c List.mem_cons_self
    obtain ⟨h2, h3⟩ := ih fun x hx => hs x (List.mem_cons_of_mem _ hx)
    simp [h1, h2, h3]

theorem noSymbolNext_append {a l : List Char} (ha : NoSymbolNext a) (hl : NoSymbolNext l) : NoSymbolNext (a ++ l) := by
  intro c l' h
  cases a with
  | nil => exact hl c l' h
  | cons d a => cases h; exact ha c a rfl

theorem run_writes {ts : List Tree} {inner : List Char} (h : Writes ts inner) : ∀ (l : List Char) (st : St) (bol : Bool), NoSymbolNext l →
    NoMk bol (inner ++ l) → '\r' ∉ inner → st.parens + depths ts ≤ MAX_DEPTH → (0 < st.parens ∨ ∀ t ∈ ts, IsList t) →
    ∃ bol', NoMk bol' l ∧ run false bol (inner ++ l) st = run false bol' l { st with cur := st.cur ++ ts } := by
  induction h with
  | nil =>
    intro l st bol _ hm _ _ _
    exact ⟨bol, hm, by simp⟩
  | @white c ts l' hc h ih =>
    intro l st bol hl hm hr hd ha
    have hr' : '\r' ∉ l' := fun h => hr (List.mem_cons_of_mem _ h)
    rcases hc with hc | hc | rfl
    · obtain ⟨b, h1, h2⟩ := ih l st false hl (NoMk.of_false (a := [c]) hm) hr' hd ha
      exact ⟨b, h1, by rw [List.cons_append, run_white (.inl hc), h2]⟩
    · obtain ⟨b, h1, h2⟩ := ih l st false hl (NoMk.of_false (a := [c]) hm) hr' hd ha
      exact ⟨b, h1, by rw [List.cons_append, run_white (.inr hc), h2]⟩
    · obtain ⟨b, h1, h2⟩ := ih l st true hl (NoMk.newline hm) hr' hd ha
      exact ⟨b, h1, by rw [List.cons_append, run_newline, h2]⟩
  | @comment body ts l' hb h ih =>
    intro l st bol hl hm hr hd ha
    have e : (';' :: body ++ '\n' :: l') ++ l = ';' :: (body ++ '\n' :: (l' ++ l)) := by simp
    rw [e] at hm ⊢
    have hr1 : '\r' ∉ body := fun h => hr (by simp [h])
    have hr2 : '\r' ∉ l' := fun h => hr (by simp [h])
    have hm' : NoMk false ('\n' :: (l' ++ l)) := NoMk.of_false (a := ';' :: body) (by simpa using hm)
    obtain ⟨b, h1, h2⟩ := ih l st true hl hm'.newline hr2 hd ha
    refine ⟨b, h1, ?_⟩
    rw [run_comment hm, run_body (.inr ⟨_, rfl⟩) st _ false (Nat.le_refl _) hb hr1, run_skip_newline, h2]
  | @symbol s ts l' hs hc hl' h ih =>
    intro l st bol hl hm hr hd ha
    cases s with
    | nil => exact absurd rfl hs
    | cons c s =>
      have hp : 0 < st.parens := by
        rcases ha with ha | ha
        · exact ha
        · obtain ⟨x, hx⟩ := ha _ List.mem_cons_self
          cases hx
      have e : (c :: s ++ l') ++ l = c :: (s ++ (l' ++ l)) := by simp
      rw [e] at hm ⊢
      have hcs : ∀ x ∈ s, symbolChar x = true := fun x hx => hc x (List.mem_cons_of_mem _ hx)
      obtain ⟨t1, t2⟩ := takeWhile_symbol hcs (noSymbolNext_append hl' hl)
      have hd' : st.parens + depths ts ≤ MAX_DEPTH := by
        rw [depths, depth] at hd; omega
      obtain ⟨b, h1, h2⟩ := ih l (st.add (String.ofList (c :: s))) false hl (NoMk.of_false (a := c :: s) (by simpa using hm))
        (fun h => hr (by simp [h])) hd' (.inl hp)
      refine ⟨b, h1, ?_⟩
      rw [run_symbol (hc c List.mem_cons_self), if_neg (by omega), t1, t2, h2]
      simp [St.add]
  | @string s ts l' hs h ih =>
    intro l st bol hl hm hr hd ha
    have hp : 0 < st.parens := by
      rcases ha with ha | ha
      · exact ha
      · obtain ⟨x, hx⟩ := ha _ List.mem_cons_self
        cases hx
    have e : ('"' :: s ++ '"' :: l') ++ l = '"' :: (s ++ '"' :: (l' ++ l)) := by simp
    rw [e] at hm ⊢
    have hd' : st.parens + depths ts ≤ MAX_DEPTH := by
      rw [depths, depth] at hd; omega
    have hq : quoted (s ++ '"' :: (l' ++ l)) = some (s, l' ++ l) := quoted_iff.2 ⟨rfl, hs⟩
    obtain ⟨b, h1, h2⟩ := ih l (st.add (String.ofList s)) false hl (NoMk.of_false (a := '"' :: s ++ ['"']) (by simpa using hm))
      (fun h => hr (by simp [h])) hd' (.inl hp)
    refine ⟨b, h1, ?_⟩
    rw [run_quote, hq]
    simp only
    rw [if_neg (by omega), h2]
    simp [St.add]
  | @list sub ts inner l' hw h ih1 ih =>
    intro l st bol hl hm hr hd ha
    have e : ('(' :: inner ++ ')' :: l') ++ l = '(' :: (inner ++ ')' :: (l' ++ l)) := by simp
    rw [e] at hm ⊢
    have hd1 : st.parens + 1 + depths sub ≤ MAX_DEPTH ∧ st.parens + depths ts ≤ MAX_DEPTH := by
      rw [depths, depth] at hd; omega
    have hns : NoSymbolNext (')' :: (l' ++ l)) := by
      intro c x hx; cases hx; decide
    obtain ⟨b, h1, h2⟩ := ih1 (')' :: (l' ++ l)) { st.open with parens := st.parens + 1 } false hns
      (NoMk.of_false (a := ['(']) hm) (fun h => hr (by simp [h])) hd1.1 (.inl (Nat.succ_pos _))
    obtain ⟨b2, h3, h4⟩ := ih l { st with cur := st.cur ++ [.list sub] } false hl
      (NoMk.of_false (a := [')']) h1) (fun h => hr (by simp [h])) hd1.2 (by
        rcases ha with ha | ha
        · exact .inl ha
        · exact .inr fun t ht => ha t (List.mem_cons_of_mem _ ht))
    refine ⟨b2, h3, ?_⟩
    rw [run_open, if_neg (by omega), h2, run_close]
    have : ({ st.open with parens := st.parens + 1, cur := [] ++ sub } : St).close =
        some { st with cur := st.cur ++ [.list sub], parens := st.parens + 1 } := rfl
    simp only [St.open, List.nil_append] at this ⊢
    rw [if_neg (by omega), this]
    simp only [Nat.add_sub_cancel]
    rw [h4]
    simp

/-! ### What is read is written -/

/-- The text closes the open lists, and gives the result. -/
def Rest : List (List Tree) → List Tree → List Char → List Tree → Prop
  | [], cur, l, r => ∃ ts, r = cur ++ ts ∧ WritesFile ts l
  | u :: up, cur, l, r => ∃ ts inner l', l = inner ++ ')' :: l' ∧ Writes ts inner ∧ Rest up (u ++ [.list (cur ++ ts)]) l' r

/-- Something is put before the text. -/
theorem rest_cons {up : List (List Tree)} {cur : List Tree} {l pre : List Char} {r new : List Tree}
    (hw : ∀ ts l', (NoSymbolNext l → NoSymbolNext l') → Writes ts l' → Writes (new ++ ts) (pre ++ l')) (h : Rest up (cur ++ new) l r) :
    Rest up cur (pre ++ l) r := by
  cases up with
  | nil =>
    obtain ⟨ts, h1, h2⟩ := h
    refine ⟨new ++ ts, by rw [h1]; simp, ?_⟩
    rcases h2 with h2 | ⟨l', body, rfl, hb, h2⟩
    · exact .inl (hw ts l id h2)
    · refine .inr ⟨pre ++ l', body, by simp, hb, hw ts l' (fun hn => ?_) h2⟩
      intro c x hx
      exact hn c (x ++ ';' :: body) (by rw [hx]; rfl)
  | cons u up =>
    obtain ⟨ts, inner, l', rfl, h2, h3⟩ := h
    refine ⟨new ++ ts, pre ++ inner, l', by simp, hw ts inner (fun hn => ?_) h2, by simpa using h3⟩
    intro c x hx
    exact hn c (x ++ ')' :: l') (by rw [hx]; rfl)

theorem split_line (l : List Char) : (∃ body l', l = body ++ '\n' :: l' ∧ '\n' ∉ body) ∨ '\n' ∉ l := by
  induction l with
  | nil => exact .inr (by simp)
  | cons c l ih =>
    by_cases hc : c = '\n'
    · subst hc; exact .inl ⟨[], l, rfl, by simp⟩
    · rcases ih with ⟨body, l', rfl, hb⟩ | h
      · exact .inl ⟨c :: body, l', rfl, by simp; exact ⟨Ne.symm hc, hb⟩⟩
      · exact .inr (by simp; exact ⟨Ne.symm hc, h⟩)

theorem dropWhile_next (l : List Char) : NoSymbolNext (l.dropWhile symbolChar) := by
  induction l with
  | nil => intro c l' h; cases h
  | cons d l ih =>
    intro c l' h
    by_cases hd : symbolChar d = true
    · rw [List.dropWhile_cons, if_pos hd] at h; exact ih c l' h
    · rw [List.dropWhile_cons, if_neg hd] at h; cases h; simpa using hd

theorem run_rest : ∀ (n : Nat) (l : List Char) (bol : Bool) (st : St) (r : List Tree), l.length ≤ n → '\r' ∉ l → NoMk bol l → st.marks = 0 →
    st.parens = st.up.length → run false bol l st = .ok r → Rest st.up st.cur l r
  | n, [], bol, st, r, _, _, _, hk, hp, h => by
    rw [run_nil] at h
    split at h
    · cases h
    · split at h
      · cases h
      · cases h
        have : st.up = [] := by
          cases hu : st.up with
          | nil => rfl
          | cons a b => rw [hu] at hp; simp at hp; omega
        rw [this]
        exact ⟨[], by simp, .inl .nil⟩
  | 0, c :: l, _, _, _, hn, _, _, _, _, _ => by simp at hn
  | n + 1, c :: l, bol, st, r, hn, hr, hm, hk, hp, h => by
    have hn' : l.length ≤ n := by simpa using hn
    have hr' : '\r' ∉ l := fun h => hr (List.mem_cons_of_mem _ h)
    have hm' : NoMk false l := NoMk.of_false (a := [c]) hm
    by_cases h1 : c = '\n'
    · subst h1
      rw [run_newline] at h
      have ih := run_rest n l true st r hn' hr' hm.newline hk hp h
      exact rest_cons (pre := ['\n']) (new := []) (fun ts l' _ hw => .white (.inr (.inr rfl)) hw) (by simpa using ih)
    by_cases h2 : c = '\r'
    · subst h2; exact absurd List.mem_cons_self hr
    by_cases h3 : c = ';'
    · subst h3
      rw [run_comment hm] at h
      rcases split_line l with ⟨body, l', rfl, hb⟩ | hb
      · have hr1 : '\r' ∉ body := fun h => hr' (by simp [h])
        rw [run_body (.inr ⟨_, rfl⟩) st _ false (Nat.le_refl _) hb hr1, run_skip_newline] at h
        have ih := run_rest n l' true st r (by simp at hn'; omega) (fun h => hr' (by simp [h])) (NoMk.of_false (a := body) hm').newline hk hp h
        have e : ';' :: (body ++ '\n' :: l') = (';' :: body ++ ['\n']) ++ l' := by simp
        rw [e]
        refine rest_cons (new := []) (fun ts l' _ hw => ?_) (by simpa using ih)
        have := Writes.comment hb hw
        simpa using this
      · have hb' := run_body (tail := []) (.inl rfl) st _ false (Nat.le_refl _) hb hr'
        rw [List.append_nil] at hb'
        rw [hb', run_skip_nil] at h
        split at h
        · cases h
        · split at h
          · cases h
          · cases h
            have : st.up = [] := by
              cases hu : st.up with
              | nil => rfl
              | cons a b => rw [hu] at hp; simp at hp; omega
            rw [this]
            exact ⟨[], by simp, .inr ⟨[], l, rfl, hb, .nil⟩⟩
    by_cases h4 : c = '('
    · subst h4
      rw [run_open] at h
      split at h
      · cases h
      · have ih := run_rest n l false { st.open with parens := st.parens + 1 } r hn' hr' hm' hk (by simp [St.open, hp]) h
        obtain ⟨ts, inner, l', e, hw, hrest⟩ := ih
        have hrest' : Rest st.up (st.cur ++ [.list ts]) l' r := by simpa [St.open] using hrest
        rw [e]
        have e2 : '(' :: (inner ++ ')' :: l') = ('(' :: inner ++ [')']) ++ l' := by simp
        rw [e2]
        refine rest_cons (new := [.list ts]) (fun ts' l'' _ hw' => ?_) hrest'
        have := Writes.list hw hw'
        simpa using this
    by_cases h5 : c = ')'
    · subst h5
      rw [run_close] at h
      split at h
      · cases h
      · cases hu : st.up with
        | nil => rw [hu] at hp; simp at hp; contradiction
        | cons u up =>
          have hc : st.close = some { st with cur := u ++ [.list st.cur], up := up } := by unfold St.close; rw [hu]
          rw [hc] at h
          simp only at h
          have ih := run_rest n l false _ r hn' hr' hm' (by exact hk) (by simp [hp, hu]) h
          exact ⟨[], [], l, rfl, .nil, by simpa using ih⟩
    by_cases h6 : symbolChar c = true
    · rw [run_symbol h6] at h
      split at h
      · cases h
      · have hlen := (List.dropWhile_sublist (l := l) symbolChar).length_le
        have e : l = l.takeWhile symbolChar ++ l.dropWhile symbolChar := List.takeWhile_append_dropWhile.symm
        have ih := run_rest n (l.dropWhile symbolChar) false (st.add (String.ofList (c :: l.takeWhile symbolChar))) r (by omega)
          (fun h => hr' ((List.dropWhile_sublist _).subset h)) (by rw [e] at hm'; exact NoMk.of_false hm') hk (by simp [St.add, hp]) h
        have e2 : c :: l = (c :: l.takeWhile symbolChar) ++ l.dropWhile symbolChar := by rw [List.cons_append, List.takeWhile_append_dropWhile]
        rw [e2]
        refine rest_cons (new := [.atom (String.ofList (c :: l.takeWhile symbolChar))]) (fun ts l' hns hw => ?_) ih
        refine Writes.symbol (by simp) ?_ (hns (dropWhile_next l)) hw
        intro x hx
        rcases List.mem_cons.1 hx with rfl | hx
        · exact h6
        · exact List.all_eq_true.1 List.all_takeWhile x hx
    by_cases h7 : c = ' ' ∨ c = '\t'
    · rw [run_white h7] at h
      have ih := run_rest n l false st r hn' hr' hm' hk hp h
      exact rest_cons (pre := [c]) (new := []) (fun ts l' _ hw => .white (by tauto) hw) (by simpa using ih)
    by_cases h8 : c = '"'
    · subst h8
      rw [run_quote] at h
      cases hq : quoted l with
      | none => rw [hq] at h; cases h
      | some x =>
        obtain ⟨s, l'⟩ := x
        rw [hq] at h
        simp only at h
        split at h
        · cases h
        · obtain ⟨rfl, hs⟩ := quoted_iff.1 hq
          have ih := run_rest n l' false (st.add (String.ofList s)) r (by simp at hn'; omega) (fun h => hr' (by simp [h]))
            (NoMk.of_false (a := s ++ ['"']) (by simpa using hm')) hk (by simp [St.add, hp]) h
          have e : '"' :: (s ++ '"' :: l') = ('"' :: s ++ ['"']) ++ l' := by simp
          rw [e]
          refine rest_cons (new := [.atom (String.ofList s)]) (fun ts l'' _ hw => ?_) ih
          have := Writes.string hs hw
          simpa using this
    · have : next bol (c :: l) = some (.unknown, false, l) := by
        rw [next, if_neg h1, if_neg h2, if_neg h3, if_neg h4, if_neg h5, if_neg h6, if_neg h7, if_neg h8]
      unfold run at h
      rw [lex_some this, parse] at h
      cases h

/-! ### The depth, and safety -/

theorem depths_append (a b : List Tree) : depths (a ++ b) = max (depths a) (depths b) := by
  induction a with
  | nil => simp [depths]
  | cons t a ih => rw [List.cons_append, depths, depths, ih]; omega

/-- Nothing is deeper than allowed, and only lists are outside of all lists. -/
def Bounded : List (List Tree) → List Tree → Prop
  | [], cur => depths cur ≤ MAX_DEPTH ∧ ∀ t ∈ cur, IsList t
  | u :: up, cur => depths cur + (up.length + 1) ≤ MAX_DEPTH ∧ Bounded up u

theorem Bounded.add {up : List (List Tree)} {cur : List Tree} (h : Bounded up cur) (hu : up ≠ []) (s : String) : Bounded up (cur ++ [.atom s]) := by
  cases up with
  | nil => exact absurd rfl hu
  | cons u up => exact ⟨by rw [depths_append]; simp only [depths, depth]; have := h.1; omega, h.2⟩

theorem Bounded.close {u : List Tree} {up : List (List Tree)} {cur : List Tree} (h : Bounded (u :: up) cur) : Bounded up (u ++ [.list cur]) := by
  obtain ⟨h1, h2⟩ := h
  cases up with
  | nil =>
    refine ⟨?_, ?_⟩
    · rw [depths_append]; simp only [depths, depth]; have := h2.1; simp only [List.length_nil] at h1; omega
    · intro t ht
      rcases List.mem_append.1 ht with ht | ht
      · exact h2.2 t ht
      · exact ⟨cur, List.mem_singleton.1 ht⟩
  | cons v up =>
    refine ⟨?_, h2.2⟩
    rw [depths_append]; simp only [depths, depth]; have := h2.1; simp only [List.length_cons] at h1; omega

/-- Tokens without line marks. -/
theorem parse_bounded : ∀ (l : List Tok) (skip : Bool) (st : St) (r : List Tree), .linemark ∉ l ∨ skip = true ∧ .linemark ∉ l.dropWhile (· ≠ .newline) →
    st.parens = st.up.length → Bounded st.up st.cur → parse skip l st = .ok r → depths r ≤ MAX_DEPTH ∧ ∀ t ∈ r, IsList t
  | [], skip, st, r, _, hp, hb, h => by
    have : st.up = [] := by
      cases hu : st.up with
      | nil => rfl
      | cons a b =>
        rw [hu] at hp
        simp only [List.length_cons] at hp
        rw [parse, if_pos (by omega)] at h
        cases h
    rw [parse] at h
    split at h
    · cases h
    · split at h
      · cases h
      · cases h
        rw [this] at hb
        exact hb
  | t :: l, true, st, r, hm, hp, hb, h => by
    by_cases ht : t = .newline
    · subst ht
      rw [parse] at h
      refine parse_bounded l false st r (.inl ?_) hp hb h
      rcases hm with hm | ⟨-, hm⟩
      · exact fun h => hm (List.mem_cons_of_mem _ h)
      · simpa using hm
    · rw [parse_skip ht] at h
      refine parse_bounded l true st r ?_ hp hb h
      rcases hm with hm | ⟨-, hm⟩
      · exact .inl fun h => hm (List.mem_cons_of_mem _ h)
      · refine .inr ⟨rfl, ?_⟩
        rw [List.dropWhile_cons, if_pos (by simpa using ht)] at hm
        exact hm
  | t :: l, false, st, r, hm, hp, hb, h => by
    have hm : .linemark ∉ t :: l := by
      rcases hm with hm | ⟨h, -⟩
      · exact hm
      · cases h
    have hm' : .linemark ∉ l := fun h => hm (List.mem_cons_of_mem _ h)
    cases t with
    | linemark => exact absurd List.mem_cons_self hm
    | unknown => rw [parse] at h; cases h
    | newline => rw [parse] at h; exact parse_bounded l false st r (.inl hm') hp hb h
    | comment => rw [parse] at h; exact parse_bounded l true st r (.inl hm') hp hb h
    | symbol s =>
      rw [parse] at h
      split at h
      · cases h
      · refine parse_bounded l false (st.add s) r (.inl hm') hp (hb.add ?_ s) h
        intro hu; rw [hu] at hp; simp at hp; contradiction
    | qstring s =>
      rw [parse] at h
      split at h
      · cases h
      · refine parse_bounded l false (st.add s) r (.inl hm') hp (hb.add ?_ s) h
        intro hu; rw [hu] at hp; simp at hp; contradiction
    | oparen =>
      rw [parse] at h
      split at h
      · cases h
      · exact parse_bounded l false { st.open with parens := st.parens + 1 } r (.inl hm') (by simp [St.open, hp])
          ⟨by simp only [St.open, depths]; omega, hb⟩ h
    | cparen =>
      rw [parse] at h
      split at h
      · cases h
      · cases hu : st.up with
        | nil => rw [hu] at hp; simp at hp; contradiction
        | cons u up =>
          have hc : st.close = some { st with cur := u ++ [.list st.cur], up := up } := by unfold St.close; rw [hu]
          rw [hc] at h
          simp only at h
          rw [hu] at hb
          exact parse_bounded l false _ r (.inl hm') (by simp [hp, hu]) hb.close h

/-- What the lexer takes is a part of the text, and it ends with the end of a line if it is at the start of one. -/
theorem next_suffix : ∀ {l : List Char} {bol : Bool} {t : Tok} {b : Bool} {r : List Char}, next bol l = some (t, b, r) →
    (∃ a, l = a ++ r ∧ (b = true → a.getLast? = some '\n')) ∧ (NoMk bol l → t ≠ .linemark)
  | [], _, _, _, _, h => by rw [next] at h; cases h
  | c :: l, bol, t, b, r, h => by
    rw [next] at h
    split at h
    · rename_i hc; cases h; exact ⟨⟨[c], rfl, fun _ => by rw [hc]; rfl⟩, fun _ => by simp⟩
    split at h
    · cases h; exact ⟨⟨[c], rfl, nofun⟩, fun _ => by simp⟩
    split at h
    · rename_i hc
      split at h
      · rename_i h2
        cases h
        refine ⟨⟨c :: l.take 2, by simp [List.take_append_drop], nofun⟩, fun hm => absurd ?_ (hm.here h2.1)⟩
        refine ⟨l.drop 2, ?_⟩
        rw [hc]
        conv => rhs; rw [← List.take_append_drop 2 l, h2.2]
        rfl
      · cases h; exact ⟨⟨[c], rfl, nofun⟩, fun _ => by simp⟩
    split at h
    · cases h; exact ⟨⟨[c], rfl, nofun⟩, fun _ => by simp⟩
    split at h
    · cases h; exact ⟨⟨[c], rfl, nofun⟩, fun _ => by simp⟩
    split at h
    · cases h
      exact ⟨⟨c :: l.takeWhile symbolChar, by rw [List.cons_append, List.takeWhile_append_dropWhile], nofun⟩, fun _ => by simp⟩
    split at h
    · obtain ⟨⟨a, h1, h2⟩, h3⟩ := next_suffix h
      refine ⟨⟨c :: a, by rw [h1]; rfl, fun hb => ?_⟩, fun hm => h3 (NoMk.of_false (a := [c]) hm)⟩
      rw [List.getLast?_cons, h2 hb]; rfl
    split at h
    · split at h
      · rename_i s' r' hq
        cases h
        obtain ⟨rfl, -⟩ := quoted_iff.1 hq
        exact ⟨⟨c :: s' ++ ['"'], by simp, nofun⟩, fun _ => by simp⟩
      · cases h; exact ⟨⟨[c], rfl, nofun⟩, fun _ => by simp⟩
    · cases h; exact ⟨⟨[c], rfl, nofun⟩, fun _ => by simp⟩

theorem lex_noMark : ∀ (n : Nat) (bol : Bool) (l : List Char), l.length ≤ n → NoMk bol l → Tok.linemark ∉ lex bol l
  | n, bol, l, hn, hm => by
    cases hx : next bol l with
    | none => rw [lex_none hx]; simp
    | some x =>
      obtain ⟨t, b, r⟩ := x
      have hlen := next_length hx
      obtain ⟨⟨a, h1, h2⟩, h3⟩ := next_suffix hx
      rw [lex_some hx]
      have hr : NoMk b r := by
        cases b with
        | false => rw [h1] at hm; exact NoMk.of_false hm
        | true =>
          obtain ⟨a', ha'⟩ := List.getLast?_eq_some_iff.1 (h2 rfl)
          rw [h1, ha', List.append_assoc] at hm
          exact (NoMk.of_false hm).newline
      match n, hn with
      | 0, hn => omega
      | n + 1, hn =>
        have ih := lex_noMark n b r (by omega) hr
        intro hmem
        rcases List.mem_cons.1 hmem with h | h
        · exact h3 hm h.symm
        · exact ih h

/-- The parser never leaves the node of the file. -/
theorem parse_safe : ∀ (n : Nat) (l : List Tok) (skip : Bool) (st : St), l.length ≤ n → st.up.length = st.parens + st.marks → parse skip l st ≠ .ub
  | n, [], skip, st, _, _ => by
    rw [parse]; split
    · simp
    · split <;> simp
  | 0, t :: l, _, _, hn, _ => by simp at hn
  | n + 1, t :: l, true, st, hn, hp => by
    by_cases ht : t = .newline
    · subst ht; rw [parse]; exact parse_safe n l false st (by simpa using hn) hp
    · rw [parse_skip ht]; exact parse_safe n l true st (by simpa using hn) hp
  | n + 1, t :: l, false, st, hn, hp => by
    have hn' : l.length ≤ n := by simpa using hn
    cases t with
    | unknown => rw [parse]; simp
    | newline => rw [parse]; exact parse_safe n l false st hn' hp
    | comment => rw [parse]; exact parse_safe n l true st hn' hp
    | symbol s => rw [parse]; split; · simp
                  · exact parse_safe n l false (st.add s) hn' hp
    | qstring s => rw [parse]; split; · simp
                   · exact parse_safe n l false (st.add s) hn' hp
    | oparen =>
      rw [parse]; split; · simp
      · exact parse_safe n l false _ hn' (by simp only [St.open, List.length_cons, hp]; omega)
    | cparen =>
      rw [parse]; split; · simp
      · cases hu : st.up with
        | nil => rw [hu] at hp; simp only [List.length_nil] at hp; omega
        | cons u up =>
          have hc : st.close = some { st with cur := u ++ [.list st.cur], up := up } := by unfold St.close; rw [hu]
          rw [hc]
          rw [hu] at hp
          simp only [List.length_cons] at hp
          exact parse_safe n l false _ hn' (by simp only; omega)
    | linemark =>
      unfold parse
      split <;> rename_i heq <;> try (cases heq; done)
      all_goals try simp only [reduceCtorEq, ne_eq, not_false_eq_true]
      · rename_i h; cases h
      · rename_i st _ _ _ l' _
        split; · simp
        rename_i h0
        cases hu : st.up with
        | nil => rw [hu] at hp; simp only [List.length_nil] at hp; omega
        | cons u up =>
          have hc : st.close = some { st with cur := u ++ [.list st.cur], up := up } := by unfold St.close; rw [hu]
          rw [hc]
          rw [hu] at hp
          simp only [List.length_cons] at hp
          cases heq
          cases l' with
          | nil => simp
          | cons t l' =>
            cases t with
            | newline =>
              simp only [List.length_cons] at hn'
              exact parse_safe n l' false _ (by omega) (by simp only; omega)
            | _ => simp
      · rename_i st _ _ _ ty line file l' _ _
        cases heq
        simp only [List.length_cons] at hn'
        split; · simp
        split; · simp
        cases file with
        | symbol f => exact parse_safe n l' false _ (by omega) (by simp only [St.add, St.open, List.length_cons, hp]; omega)
        | qstring f => exact parse_safe n l' false _ (by omega) (by simp only [St.add, St.open, List.length_cons, hp]; omega)
        | _ => simp

/-! ### Trees can be compared, for the examples -/

mutual
def treeEq : (a b : Tree) → Decidable (a = b)
  | .atom s, .atom t => if h : s = t then isTrue (by rw [h]) else isFalse (by intro h'; cases h'; exact h rfl)
  | .atom _, .list _ => isFalse nofun
  | .list _, .atom _ => isFalse nofun
  | .list a, .list b =>
    match treesEq a b with
    | isTrue h => isTrue (by rw [h])
    | isFalse h => isFalse (by intro h'; cases h'; exact h rfl)
def treesEq : (a b : List Tree) → Decidable (a = b)
  | [], [] => isTrue rfl
  | [], _ :: _ => isFalse nofun
  | _ :: _, [] => isFalse nofun
  | a :: as, b :: bs =>
    match treeEq a b, treesEq as bs with
    | isTrue h, isTrue h' => isTrue (by rw [h, h'])
    | isFalse h, _ => isFalse (by intro h'; cases h'; exact h rfl)
    | _, isFalse h => isFalse (by intro h'; cases h'; exact h rfl)
end

instance : DecidableEq Tree := treeEq

deriving instance DecidableEq for Res

end Verif.CilParse
