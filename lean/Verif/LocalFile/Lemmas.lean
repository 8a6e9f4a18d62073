import Verif.LocalFile.Spec
import Verif.Login.Lemmas4
import Verif.Prelude

/-! Lemmas about the parser of local files. -/

namespace Verif.LocalFile
open Verif.Context Verif.Login

theorem bind_ok {α β : Type} {p : Parser α} {f : α → Parser β} {s s' : St} {a : α} (h : p s = .ok a s') : (p >>= f) s = f a s' := by
  show Parser.bind p f s = _
  unfold Parser.bind
  rw [h]

/-- On a line with a newline, before the text. -/
def At (t : Bytes) (more : List Bytes) : St := ⟨some (t ++ [0, 0]), more⟩

/-- Run the first part of a parser. -/
macro "step" t:term : tactic => `(tactic| refine (bind_ok $t).trans ?_)

theorem noeof_at {t : Bytes} {more : List Bytes} : noeof (At t more) = .ok (t ++ [0, 0]) (At t more) := rfl

theorem deref_cons {c : UInt8} {r : Bytes} {s : St} : deref (c :: r) s = .ok (c, r) s := rfl

theorem pure_ok {α : Type} {a : α} {s : St} : (pure a : Parser α) s = .ok a s := rfl

/-- A byte that is neither white space nor NUL. -/
def Vis (c : UInt8) : Prop := c ≠ 0 ∧ isSpace c = false

theorem skip_vis {c : UInt8} {t : Bytes} {more : List Bytes} (h : Vis c) : skipSpace (At (c :: t) more) = .ok () (At (c :: t) more) := by
  unfold skipSpace At
  have e : (c :: t ++ [0, 0]).dropWhile isSpace = c :: (t ++ [0, 0]) := by
    rw [List.cons_append, List.dropWhile_cons, if_neg (by simp [h.2])]
  dsimp only
  rw [e]
  dsimp only
  rw [if_pos h.1]
  rfl

theorem dropWhile_spaces {ws r : Bytes} (h : ∀ c ∈ ws, isSpace c = true) : (ws ++ r).dropWhile isSpace = r.dropWhile isSpace := by
  induction ws with
  | nil => rfl
  | cons a ws ih =>
    rw [List.cons_append, List.dropWhile_cons, if_pos (h a (by simp)), ih fun c hc => h c (List.mem_cons_of_mem _ hc)]

theorem skip_spaces {ws t : Bytes} {more : List Bytes} (h : ∀ c ∈ ws, isSpace c = true) :
    skipSpace (At (ws ++ t) more) = skipSpace (At t more) := by
  unfold skipSpace At
  simp only [List.append_assoc]
  rw [dropWhile_spaces h]

theorem skip_end {more : List Bytes} : skipSpace (At [] more) = .ok () (nextLine more) := rfl

theorem skip_32 {c : UInt8} {t : Bytes} {more : List Bytes} (h : Vis c) : skipSpace (At (32 :: c :: t) more) = .ok () (At (c :: t) more) := by
  rw [show 32 :: c :: t = [32] ++ (c :: t) from rfl, skip_spaces (by decide), skip_vis h]

theorem space_spaces {ws t : Bytes} {c : UInt8} {more : List Bytes} (h : ∀ c ∈ ws, isSpace c = true) (hc : Vis c) :
    assertSpace (At (32 :: ws ++ c :: t) more) = .ok () (At (c :: t) more) := by
  have h1 : assertSpace (At (32 :: ws ++ c :: t) more) = skipSpace (At (32 :: ws ++ c :: t) more) := rfl
  rw [h1, skip_spaces (by simpa [show isSpace 32 = true from rfl] using h), skip_vis hc]

theorem space_32 {c : UInt8} {t : Bytes} {more : List Bytes} (hc : Vis c) : assertSpace (At (32 :: c :: t) more) = .ok () (At (c :: t) more) :=
  space_spaces (ws := []) (by simp) hc

theorem space_end {more : List Bytes} : assertSpace (At [] more) = .ok () (nextLine more) := rfl

theorem ch_ok {c : UInt8} {t : Bytes} {more : List Bytes} : assertCh c (At (c :: t) more) = .ok () (At t more) := by
  unfold assertCh
  step noeof_at
  step (deref_cons (c := c) (r := t ++ [0, 0]))
  dsimp only
  rw [if_neg (by simp)]
  rfl

theorem str_ok {str t : Bytes} {more : List Bytes} : assertStr str (At (str ++ t) more) = .ok () (At t more) := by
  unfold assertStr
  step noeof_at
  have hd : ∃ c r, str ++ t ++ [0, 0] = c :: r := by
    cases h : str ++ t ++ [0, 0] with
    | nil => simp at h
    | cons c r => exact ⟨c, r, rfl⟩
  obtain ⟨c, r, hd⟩ := hd
  have hd' : deref (str ++ t ++ [0, 0]) (At (str ++ t) more) = .ok (c, r) (At (str ++ t) more) := by rw [hd]; rfl
  step hd'
  rw [if_pos (by simp)]
  unfold setPtr At
  simp

theorem fetch_ok {d : UInt8} {sp : Bool} {w r : Bytes} {more : List Bytes} (h1 : w ≠ [])
    (h2 : ∀ c ∈ w, c ≠ 0 ∧ (sp = true ∨ isSpace c = false) ∧ c ≠ d)
    (h3 : ∀ c x, r = c :: x → c = d ∨ sp = false ∧ isSpace c = true) :
    fetchString d sp (At (w ++ r) more) = .ok w (At r more) := by
  unfold fetchString
  step noeof_at
  have e1 : (w ++ r ++ [0, 0]).takeWhile (fun c => c != 0 && (sp || !isSpace c) && c != d) = w := by
    rw [List.append_assoc]
    refine takeWhile_eq ?_ ?_
    · intro c hc
      obtain ⟨a, b, e⟩ := h2 c hc
      rcases b with b | b <;> simp [a, b, e]
    · intro c x hx
      cases r with
      | nil =>
        simp at hx
        rw [← hx.1]
        rfl
      | cons c' x' =>
        simp at hx
        rw [← hx.1]
        rcases h3 c' x' rfl with h | h
        · simp [h]
        · simp [h]
  rw [e1]
  have e2 : (w ++ r ++ [0, 0]).drop w.length = r ++ [0, 0] := by rw [List.append_assoc, drop_length_append]
  rw [e2]
  obtain ⟨c, x, hd⟩ : ∃ c x, r ++ [0, 0] = c :: x := by
    cases r with
    | nil => exact ⟨0, [0], rfl⟩
    | cons c x => exact ⟨c, x ++ [0, 0], rfl⟩
  have hd' : deref (r ++ [0, 0]) (At (w ++ r) more) = .ok (c, x) (At (w ++ r) more) := by rw [hd]; rfl
  step hd'
  rw [if_neg h1]
  rfl

theorem optCh_no {c ch : UInt8} {t : Bytes} {more : List Bytes} (h : c ≠ ch) : optionalCh ch (At (c :: t) more) = .ok false (At (c :: t) more) := by
  unfold optionalCh At
  simp [h]

theorem optCh_yes {ch : UInt8} {t : Bytes} {more : List Bytes} : optionalCh ch (At (ch :: t) more) = .ok true (At t more) := by
  unfold optionalCh At
  simp

theorem optStr_yes {str t : Bytes} {more : List Bytes} : optionalStr str (At (str ++ t) more) = .ok true (At t more) := by
  unfold optionalStr At
  cases h : str ++ t ++ [0, 0] with
  | nil => simp at h
  | cons c r =>
    dsimp only
    rw [← h, if_pos (by simp)]
    simp

theorem optStr_no {c d : UInt8} {str t : Bytes} {more : List Bytes} (h : c ≠ d) :
    optionalStr (d :: str) (At (c :: t) more) = .ok false (At (c :: t) more) := by
  unfold optionalStr At
  simp [h]

/-! ## Words -/

theorem vis_of {c : UInt8} (h : c ≠ 0 ∧ ¬ Space c) : Vis c := ⟨h.1, not_isSpace_iff.2 h.2⟩

theorem word_cons {w : Bytes} (h : Word w) : ∃ c x, w = c :: x ∧ Vis c := by
  cases w with
  | nil => exact absurd rfl h.1
  | cons c x => exact ⟨c, x, rfl, vis_of (h.2 c (by simp))⟩

theorem line_cons {w : Bytes} (h : Line w) : ∃ c x, w = c :: x ∧ Vis c := by
  obtain ⟨h0, -, c, x, rfl, hc⟩ := h
  exact ⟨c, x, rfl, vis_of ⟨fun h => h0 (by simp [h]), hc⟩⟩

/-- White space before a word. -/
theorem space_word {w t : Bytes} {more : List Bytes} (h : Word w) : assertSpace (At (32 :: (w ++ t)) more) = .ok () (At (w ++ t) more) := by
  obtain ⟨c, x, rfl, hc⟩ := word_cons h
  exact space_32 hc

theorem space_line {w t : Bytes} {more : List Bytes} (h : Line w) : assertSpace (At (32 :: (w ++ t)) more) = .ok () (At (w ++ t) more) := by
  obtain ⟨c, x, rfl, hc⟩ := line_cons h
  exact space_32 hc

theorem skip_word {w t : Bytes} {more : List Bytes} (h : Word w) : skipSpace (At (w ++ t) more) = .ok () (At (w ++ t) more) := by
  obtain ⟨c, x, rfl, hc⟩ := word_cons h
  exact skip_vis hc

theorem skip_line {w t : Bytes} {more : List Bytes} (h : Line w) : skipSpace (At (w ++ t) more) = .ok () (At (w ++ t) more) := by
  obtain ⟨c, x, rfl, hc⟩ := line_cons h
  exact skip_vis hc

/-- A word up to white space, the delimiter or the end of the line. -/
theorem fetch_word {d : UInt8} {w r : Bytes} {more : List Bytes} (h : Word w) (hd : d ∉ w)
    (h3 : ∀ c x, r = c :: x → c = d ∨ isSpace c = true) : fetchString d false (At (w ++ r) more) = .ok w (At r more) :=
  fetch_ok h.1 (fun c hc => ⟨(h.2 c hc).1, Or.inr (not_isSpace_iff.2 (h.2 c hc).2), fun he => hd (he ▸ hc)⟩)
    (fun c x hx => (h3 c x hx).imp id fun h => ⟨rfl, h⟩)

theorem word_no32 {w : Bytes} (h : Word w) : (32 : UInt8) ∉ w := fun hm => (h.2 32 hm).2 (Or.inl rfl)

/-- A word before a blank. -/
theorem fetch_word_32 {w t : Bytes} {more : List Bytes} (h : Word w) : fetchString 32 false (At (w ++ 32 :: t) more) = .ok w (At (32 :: t) more) :=
  fetch_word h (word_no32 h) (by rintro c x ⟨⟩; exact Or.inl rfl)

/-- A word at the end of a line. -/
theorem fetch_word_end {d : UInt8} {w : Bytes} {more : List Bytes} (h : Word w) (hd : d ∉ w) :
    fetchString d false (At w more) = .ok w (At [] more) := by
  have := fetch_word (r := []) (more := more) h hd (by simp)
  rwa [List.append_nil] at this

theorem fetch_line {d : UInt8} {w r : Bytes} {more : List Bytes} (h : Line w) (hd : d ∉ w) (h3 : ∀ c x, r = c :: x → c = d) :
    fetchString d true (At (w ++ r) more) = .ok w (At r more) :=
  fetch_ok (by obtain ⟨-, -, c, x, rfl, -⟩ := h; simp) (fun c hc => ⟨fun h0 => h.1 (h0 ▸ hc), Or.inl rfl, fun he => hd (he ▸ hc)⟩)
    (fun c x hx => Or.inl (h3 c x hx))

/-! ## Numbers -/

theorem dec_spec : ∀ (n : Nat), (∀ c ∈ dec n, 48 ≤ c ∧ c ≤ 57) ∧ dec n ≠ [] ∧ digitsVal (dec n) = n := by
  intro n
  induction n using Nat.strongRecOn with
  | _ n ih =>
    have hd : ∀ k, k < 10 → (48 : UInt8) ≤ UInt8.ofNat (48 + k) ∧ UInt8.ofNat (48 + k) ≤ 57 ∧ (UInt8.ofNat (48 + k)).toNat - 48 = k := by
      decide
    rw [dec]
    split
    · rename_i h
      obtain ⟨h1, h2, h3⟩ := hd n h
      refine ⟨?_, by simp, ?_⟩
      · intro c hc
        rw [List.mem_singleton.1 hc]
        exact ⟨h1, h2⟩
      · unfold digitsVal; rw [List.foldl_cons, List.foldl_nil, h3]; omega
    · rename_i h
      obtain ⟨i1, i2, i3⟩ := ih (n / 10) (by omega)
      obtain ⟨h1, h2, h3⟩ := hd (n % 10) (Nat.mod_lt _ (by omega))
      refine ⟨?_, by simp, ?_⟩
      · intro c hc
        rcases List.mem_append.1 hc with hc | hc
        · exact i1 c hc
        · rw [List.mem_singleton.1 hc]
          exact ⟨h1, h2⟩
      · unfold digitsVal at i3 ⊢
        rw [List.foldl_append, i3]
        simp only [List.foldl_cons, List.foldl_nil, h3]
        omega

theorem digit_vis {c : UInt8} (h : 48 ≤ c ∧ c ≤ 57) : c ≠ 0 ∧ ¬ Space c ∧ isDigit c = true ∧ c ≠ 45 ∧ c ≠ 32 ∧ c ≠ 10 := by
  obtain ⟨h1, h2⟩ := h
  rw [UInt8.le_iff_toNat_le] at h1 h2
  have k : ∀ d : UInt8, d.toNat < 48 → c ≠ d := by rintro d hd rfl; simp at h1; omega
  refine ⟨k 0 (by decide), ?_, ?_, k 45 (by decide), k 32 (by decide), k 10 (by decide)⟩
  · rintro (h | ⟨-, h⟩)
    · exact k 32 (by decide) h
    · rw [UInt8.le_iff_toNat_le] at h
      simp at h h1
      omega
  · unfold isDigit
    simp only [Bool.and_eq_true, decide_eq_true_eq, UInt8.le_iff_toNat_le]
    exact ⟨h1, h2⟩

theorem decInt_eq {n : Int} (h : Num n) : decInt n = dec n.toNat := by
  unfold decInt
  rw [if_neg (by have := h.1; omega)]

theorem decInt_word {n : Int} (h : Num n) : Word (decInt n) ∧ (45 : UInt8) ∉ decInt n ∧ (10 : UInt8) ∉ decInt n := by
  rw [decInt_eq h]
  obtain ⟨h1, h2, -⟩ := dec_spec n.toNat
  refine ⟨⟨h2, fun c hc => ?_⟩, fun hc => ?_, fun hc => ?_⟩
  · exact ⟨(digit_vis (h1 c hc)).1, (digit_vis (h1 c hc)).2.1⟩
  · exact (digit_vis (h1 _ hc)).2.2.2.1 rfl
  · exact (digit_vis (h1 _ hc)).2.2.2.2.2 rfl

theorem toInt_eq {n : Int} (h : Num n) : toInt (digitsVal (decInt n)) = n := by
  rw [decInt_eq h, (dec_spec _).2.2]
  obtain ⟨h1, h2⟩ := h
  unfold toInt
  have e : min n.toNat (2 ^ 63 - 1) % 2 ^ 32 = n.toNat := by
    rw [Nat.min_eq_left (by omega), Nat.mod_eq_of_lt (by omega)]
  simp only [e]
  rw [if_pos (by omega)]
  omega

theorem fetchInt_ok {d : UInt8} {n : Int} {r : Bytes} {more : List Bytes} (h : Num n) (hd : d = 32 ∨ d = 45)
    (h3 : ∀ c x, r = c :: x → c = d ∨ isSpace c = true) : fetchInt d (At (decInt n ++ r) more) = .ok n (At r more) := by
  obtain ⟨h1, h2, -⟩ := decInt_word h
  unfold fetchInt
  step (fetch_word h1 (by rcases hd with rfl | rfl; exacts [word_no32 h1, h2]) h3)
  obtain ⟨e1, e2, -⟩ := dec_spec n.toNat
  rw [← decInt_eq h] at e1 e2
  have e4 : (decInt n).all isDigit = true := by
    rw [List.all_eq_true]
    intro c hc
    exact (digit_vis (e1 c hc)).2.2.1
  have e5 : ¬ ((decInt n).head?.map isDigit ≠ some true) := by
    cases hw : decInt n with
    | nil => exact absurd hw e2
    | cons c x =>
      have := (digit_vis (e1 c (by rw [hw]; simp))).2.2.1
      simp [this]
  rw [if_neg e5, if_neg (by rw [e4]; simp), toInt_eq h]
  rfl

/-! ## Contexts -/

theorem conToString_word {c : Con} (h : c.Good) : Word (conToString c) ∧ (10 : UInt8) ∉ conToString c := by
  obtain ⟨-, -, -, h⟩ := h
  have hu := h c.user (Or.inl rfl)
  have hr := h c.role (Or.inr (Or.inl rfl))
  have ht := h c.type (Or.inr (Or.inr (Or.inl rfl)))
  have h58 : (58 : UInt8) ≠ 0 ∧ ¬ Space 58 := ⟨by decide, by unfold Space; decide⟩
  have key : ∀ x ∈ conToString c, x ≠ 0 ∧ ¬ Space x := by
    intro x hx
    unfold conToString at hx
    cases hm : c.mls with
    | none =>
      rw [hm] at hx
      simp only [List.mem_append, List.mem_cons] at hx
      rcases hx with hx | rfl | hx | rfl | hx
      exacts [hu x hx, h58, hr x hx, h58, ht x hx]
    | some m =>
      have hg := h m (Or.inr (Or.inr (Or.inr hm)))
      rw [hm] at hx
      simp only [List.mem_append, List.mem_cons] at hx
      rcases hx with hx | rfl | hx | rfl | hx | rfl | hx
      exacts [hu x hx, h58, hr x hx, h58, ht x hx, h58, hg x hx]
  refine ⟨⟨?_, key⟩, fun h10 => (key 10 h10).2 (by unfold Space; decide)⟩
  unfold conToString
  cases c.mls <;> simp

theorem conFromString_ok {c : Con} (h : c.Good) : conFromString (conToString c) = some (some c) := by
  obtain ⟨h1, h2, h3, -⟩ := h
  have tw : ∀ {a r : Bytes}, 58 ∉ a → (a ++ 58 :: r).takeWhile (· != colon) = a := fun ha =>
    takeWhile_eq (fun c hc => by simp; rintro rfl; exact ha hc) (by rintro c y ⟨⟩; rfl)
  have dr : ∀ {a r : Bytes}, (a ++ 58 :: r).drop a.length = 58 :: r := by intro a r; simp
  have dr1 : ∀ {a r : Bytes}, (a ++ 58 :: r).drop (a.length + 1) = r := by
    intro a r
    rw [show a ++ 58 :: r = (a ++ [58]) ++ r by simp, show a.length + 1 = (a ++ [58]).length by simp, drop_length_append]
  have nn : ∀ {a r : Bytes}, a ++ 58 :: r ≠ ([60, 60, 110, 111, 110, 101, 62, 62] : Bytes) := by
    intro a r h
    have : (58 : UInt8) ∈ ([60, 60, 110, 111, 110, 101, 62, 62] : Bytes) := by rw [← h]; simp
    revert this
    decide
  unfold conFromString conToString
  cases hm : c.mls with
  | none =>
    have e1 : c.type.takeWhile (· != colon) = c.type := by
      have := takeWhile_eq (p := (· != colon)) (w := c.type) (r := []) (fun c hc => by simp; rintro rfl; exact h3 hc) (by simp)
      rwa [List.append_nil] at this
    simp only [show colon = (58 : UInt8) from rfl] at tw e1 ⊢
    rw [if_neg nn]
    simp only [tw h1, dr, dr1, tw h2, e1]
    simp only [reduceCtorEq, if_false, List.drop_length, if_true]
    rw [← hm]
  | some m =>
    simp only [show colon = (58 : UInt8) from rfl] at tw ⊢
    rw [if_neg nn]
    simp only [tw h1, dr, dr1, tw h2, tw h3]
    simp only [reduceCtorEq, if_false]
    rw [← hm]

theorem someCon_ok {c : Con} {s : St} (h : c.Good) : someCon (conToString c) s = .ok c s := by
  unfold someCon
  rw [conFromString_ok h]
  rfl

/-! ## Files -/

/-- The parser stands before lines. -/
def Before (s : St) (ls : List Bytes) : Prop := skipSpace s = .ok () (nextLine ls)

theorem nextLine_at {c : UInt8} {x : Bytes} {ls : List Bytes} (h : Vis c) (h35 : c ≠ 35) : nextLine ((c :: x ++ [10]) :: ls) = At (c :: x) ls := by
  unfold nextLine
  have e : loadLine (c :: x ++ [10]) = c :: x ++ [0, 0] := by
    unfold loadLine
    rw [if_pos (by rw [List.getLast?_append]; rfl), List.dropLast_concat]
  have e2 : (c :: x ++ [0, 0]).dropWhile isSpace = c :: x ++ [0, 0] := by
    rw [List.cons_append, List.dropWhile_cons, if_neg (by simp [h.2])]
  rw [e]
  dsimp only
  rw [e2, if_pos (by simp [h.1, h35])]
  rfl

theorem nextLine_cur : ∀ (ls : List Bytes) (p : Bytes), (nextLine ls).cur = some p → p.dropWhile isSpace = p ∧ p.head? ≠ some 0
  | [], p, h => by cases h
  | l :: ls, p, h => by
    unfold nextLine at h
    dsimp only at h
    split at h
    · rename_i hc
      injection h with h
      subst h
      refine ⟨?_, hc.1⟩
      obtain ⟨pre, st, p1, p2, p3, -, p5⟩ := span_spec isSpace (loadLine l)
      rw [p5]
      have := dropWhile_eq (p := isSpace) (w := []) (r := st) (by simp) p3
      simpa using this
    · exact nextLine_cur ls p h

theorem loadLine_ne (l : Bytes) : (loadLine l).dropWhile isSpace ≠ [] := by
  intro h
  have : ∀ c ∈ loadLine l, isSpace c = true := by
    intro c hc
    obtain ⟨pre, st, p1, p2, -, -, p5⟩ := span_spec isSpace (loadLine l)
    rw [p5] at h
    rw [p1, h, List.append_nil] at hc
    exact p2 c hc
  have h0 : (0 : UInt8) ∈ loadLine l := by unfold loadLine; split <;> simp
  exact absurd (this 0 h0) (by decide)

theorem nextLine_ne : ∀ (ls : List Bytes), (nextLine ls).cur ≠ some []
  | [], h => by cases h
  | l :: ls, h => by
    unfold nextLine at h
    dsimp only at h
    split at h
    · injection h with h
      exact loadLine_ne l h
    · exact nextLine_ne ls h

theorem nextLine_more : ∀ (ls : List Bytes), (nextLine ls).cur = none → (nextLine ls).more = []
  | [], _ => rfl
  | l :: ls, h => by
    unfold nextLine at h ⊢
    dsimp only at h ⊢
    split at h
    · cases h
    · rename_i hn
      rw [if_neg hn]
      exact nextLine_more ls h

/-- Where the next line was read the parser still stands before it. -/
theorem before_nextLine (ls : List Bytes) : Before (nextLine ls) ls := by
  unfold Before skipSpace
  cases hc : (nextLine ls).cur with
  | none =>
    dsimp only
    have hm := nextLine_more ls hc
    rw [hm]
    show Out.ok () (⟨none, []⟩ : St) = _
    rw [← hc, ← hm]
  | some p =>
    obtain ⟨h1, h2⟩ := nextLine_cur ls p hc
    dsimp only
    rw [h1]
    cases p with
    | nil => exact absurd hc (nextLine_ne ls)
    | cons c r =>
      dsimp only
      rw [if_pos (by simpa using h2)]
      show Out.ok () (⟨some (c :: r), (nextLine ls).more⟩ : St) = _
      rw [← hc]

theorem before_none (ls : List Bytes) : Before ⟨none, ls⟩ ls := rfl

theorem before_at (ls : List Bytes) : Before (At [] ls) ls := rfl

/-- A format that is read back. -/
structure Format {α : Type} (parse : Parser (Option α)) (print : α → Bytes) (good : α → Prop) (first : UInt8 → Prop) : Prop where
  line : ∀ r, good r → 10 ∉ print r ∧ ∃ c x, print r = c :: x ∧ Vis c ∧ c ≠ 35 ∧ first c
  step : ∀ r ls s, good r → Before s ((print r ++ [10]) :: ls) → (∀ c p, (nextLine ls).cur = some (c :: p) → first c) →
    ∃ s', parse s = .ok (some r) s' ∧ Before s' ls
  last : ∀ s, Before s [] → ∃ s', parse s = .ok none s'

theorem last_of {α : Type} {f : Parser (Option α)} (s : St) (h : Before s []) :
    ∃ s', (skipSpace >>= fun _ => fun s => if s.cur = none then .ok none s else f s : Parser (Option α)) s = .ok none s' := by
  refine ⟨nextLine [], ?_⟩
  step h
  rfl

theorem start_of {α : Type} {f : Parser (Option α)} {c : UInt8} {x : Bytes} {ls : List Bytes} {s : St} (hc : Vis c) (h35 : c ≠ 35)
    (h : Before s ((c :: x ++ [10]) :: ls)) :
    (skipSpace >>= fun _ => fun s => if s.cur = none then .ok none s else f s : Parser (Option α)) s = f (At (c :: x) ls) := by
  step h
  rw [nextLine_at hc h35]
  rfl

variable {α : Type} {parse : Parser (Option α)} {print : α → Bytes} {good : α → Prop} {first : UInt8 → Prop}

theorem first_of_lines (F : Format parse print good first) : ∀ {rs : List α}, (∀ r ∈ rs, good r) →
    ∀ c p, (nextLine (rs.map fun r => print r ++ [10])).cur = some (c :: p) → first c
  | [], _, c, p, h => by cases h
  | r :: rs, hg, c, p, h => by
    obtain ⟨-, c', x, hp, hv, h35, hf⟩ := F.line r (hg r (by simp))
    rw [List.map_cons, hp, nextLine_at hv h35] at h
    unfold At at h
    simp at h
    rw [← h.1]
    exact hf

theorem cacheLoop_ok (F : Format parse print good first) : ∀ {rs : List α} {n : Nat} {s : St} {acc : List α}, (∀ r ∈ rs, good r) →
    rs.length < n → Before s (rs.map fun r => print r ++ [10]) → ∃ s', cacheLoop parse n acc s = .ok (rs.reverse ++ acc) s'
  | [], 0, _, _, _, h, _ => by cases h
  | [], n + 1, s, acc, _, _, hb => by
    obtain ⟨s', h⟩ := F.last s hb
    exact ⟨s', by unfold cacheLoop; rw [h]; rfl⟩
  | r :: rs, 0, _, _, _, h, _ => by cases h
  | r :: rs, n + 1, s, acc, hg, hn, hb => by
    have hg' : ∀ r ∈ rs, good r := fun x hx => hg x (List.mem_cons_of_mem _ hx)
    obtain ⟨s1, h1, h2⟩ := F.step r _ s (hg r (by simp)) hb (first_of_lines F hg')
    obtain ⟨s', h3⟩ := cacheLoop_ok F (n := n) (acc := r :: acc) hg' (by simpa using hn) h2
    exact ⟨s', by unfold cacheLoop; rw [h1]; dsimp only; rw [h3]; simp⟩

theorem lines_prints {rest : Bytes} : ∀ {rs : List α}, (∀ r ∈ rs, 10 ∉ print r) →
    lines ((rs.flatMap fun r => print r ++ [nl]) ++ rest) = (rs.map fun r => print r ++ [10]) ++ lines rest
  | [], _ => rfl
  | r :: rs, h => by
    rw [List.flatMap_cons]
    have e : print r ++ [nl] ++ (rs.flatMap fun r => print r ++ [nl]) ++ rest = print r ++ 10 :: ((rs.flatMap fun r => print r ++ [nl]) ++ rest) := by
      simp [nl]
    rw [e, lines_line (h r (by simp)), lines_prints fun x hx => h x (List.mem_cons_of_mem _ hx)]
    rfl

theorem nextLine_header (ls : List Bytes) : nextLine (lines header ++ ls) = nextLine ls := by
  have : lines header = [("# This file is auto-generated by libsemanage\n".toUTF8.toList : Bytes), "# Do not edit directly.\n".toUTF8.toList, [10]] := by
    decide +kernel
  rw [this]
  have e : ∀ (l : Bytes) (x : Bytes), (loadLine l).dropWhile isSpace = 35 :: x → ∀ ls, nextLine (l :: ls) = nextLine ls := by
    intro l x h ls
    rw [nextLine]
    simp only [h]
    rw [if_neg (by simp)]
  have h1 : (loadLine ("# This file is auto-generated by libsemanage\n".toUTF8.toList)).dropWhile isSpace = 35 :: (loadLine ("# This file is auto-generated by libsemanage\n".toUTF8.toList)).tail := by
    decide +kernel
  have h2 : (loadLine ("# Do not edit directly.\n".toUTF8.toList)).dropWhile isSpace = 35 :: (loadLine ("# Do not edit directly.\n".toUTF8.toList)).tail := by
    decide +kernel
  show nextLine (_ :: _ :: [10] :: ls) = _
  rw [e _ _ h1, e _ _ h2]
  rfl

theorem size_lines (ls : List Bytes) : ls.length ≤ (ls.map fun l => l.length + 3).sum := by
  induction ls with
  | nil => exact Nat.le_refl _
  | cons l ls ih => simp only [List.map_cons, List.sum_cons, List.length_cons]; omega

theorem lines_append {a : Bytes} (h : WholeLines a) (r : Bytes) : lines (a ++ r) = lines a ++ lines r := by
  induction a with
  | nil => rfl
  | cons c a ih =>
    have hw : a = [] ∧ c = 10 ∨ (∃ x, a = x ++ [10]) := by
      rcases h with h | ⟨x, h⟩
      · cases h
      · cases x with
        | nil => simp at h; exact Or.inl ⟨h.2, h.1⟩
        | cons d x => simp at h; exact Or.inr ⟨x, h.2⟩
    rcases hw with ⟨rfl, rfl⟩ | ⟨x, hx⟩
    · rfl
    · have ih' := ih (Or.inr ⟨x, hx⟩)
      have lc : ∀ (c : UInt8) (y : Bytes), lines (c :: y) = if c = nl then [c] :: lines y else match lines y with | [] => [[c]] | l :: ls => (c :: l) :: ls := fun _ _ => rfl
      rw [List.cons_append, lc, lc, ih']
      split
      · rfl
      · have hne : lines a ≠ [] := by
          have h1 := (linesOf_iff (bs := a)).2 rfl
          intro h2
          rw [h2] at h1
          generalize ha : a = a' at h1
          cases h1
          rw [hx] at ha
          simp at ha
        cases hl : lines a with
        | nil => exact absurd hl hne
        | cons y ys => rfl

/-- A list of good records is read back. -/
theorem roundtrip (F : Format parse print good first) {l : List α} (h : ∀ r ∈ l, good r) : cache parse (some (flush print l)) = .ok l := by
  unfold cache flush
  have hl : lines (header ++ l.reverse.flatMap fun r => print r ++ [nl]) = lines header ++ l.reverse.map fun r => print r ++ [10] := by
    rw [lines_append (Or.inr ⟨header.dropLast, by decide +kernel⟩)]
    have := lines_prints (rest := []) (rs := l.reverse) (print := print) fun r hr => (F.line r (h r (List.mem_reverse.1 hr))).1
    rw [List.append_nil] at this
    rw [this]
    show _ = _ ++ _
    rw [show lines [] = [] from rfl, List.append_nil]
  simp only [Option.map_some, Option.getD_some, hl]
  have hb : Before ⟨none, lines header ++ l.reverse.map fun r => print r ++ [10]⟩ (l.reverse.map fun r => print r ++ [10]) := by
    unfold Before
    show Out.ok () (nextLine _) = _
    rw [nextLine_header]
  obtain ⟨s', hs⟩ := cacheLoop_ok F (rs := l.reverse) (acc := [])
    (n := (⟨none, lines header ++ l.reverse.map fun r => print r ++ [10]⟩ : St).size + 1) (fun r hr => h r (List.mem_reverse.1 hr)) (by
      have := size_lines (lines header ++ l.reverse.map fun r => print r ++ [10])
      unfold St.size
      simp only [List.length_append, List.length_map] at this
      dsimp only
      omega) hb
  rw [hs]
  simp

end Verif.LocalFile
