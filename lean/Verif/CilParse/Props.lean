import Verif.CilParse.Lemmas2

/-!
# C80: the parser of CIL reads a text as its grammar says

The parser does not leave the file's node, whatever the text.  A text that has neither carriage returns nor line
marks is accepted exactly if it writes statements, and they are the ones that are read.
-/

namespace Verif.CilParse
open CilCond (Tree)

/-- **C80**, first part.  No text makes the parser leave the node of the file. -/
theorem C80_safe (text : List Char) : parser text ≠ .ub := parse_safe _ _ _ _ (Nat.le_refl _) rfl

/-- The text is not one of parentheses only. -/
example : parser "(a ;;* lme
 (b) \"c\") )".toList = .err ∧ parser ";;* lms 1 f\n(a)\n;;* lme\n".toList = .ok [.list [.atom "<src_info>", .atom "lms", .atom "1", .atom "f", .list [.atom "a"]]] := by
  constructor <;> decide +kernel

/-- The characters of symbols are the letters and digits of ASCII and these others. -/
theorem C80_symbols (c : Char) : symbolChar c = true ↔
    ('0' ≤ c ∧ c ≤ '9') ∨ ('a' ≤ c ∧ c ≤ 'z') ∨ ('A' ≤ c ∧ c ≤ 'Z') ∨ c ∈ "[].@=/*-_$%+!|&^:~`#{}'<>?,".toList := by
  have : "[].@=/*-_$%+!|&^:~`#{}'<>?,".toList = specChars := by decide +kernel
  rw [this, symbolChar, Bool.or_eq_true, Bool.or_eq_true, List.contains_iff_mem, Char.isAlpha, Bool.or_eq_true, Char.isDigit, Char.isUpper, Char.isLower]
  simp only [Char.le_def, ge_iff_le, Bool.and_eq_true, decide_eq_true_eq]
  tauto

/-- **C80**, second part.  Without carriage returns and line marks, the parser reads exactly what the text
writes: statements that are lists, nested up to the limit. -/
theorem C80_parser_partial (text : List Char) (hr : '\r' ∉ text) (hm : NoMarks text) (ts : List Tree) :
    parser text = .ok ts ↔ WritesFile ts text ∧ (∀ t ∈ ts, IsList t) ∧ depths ts ≤ 4096 := by
  have hk := noMk_start hm
  constructor
  · intro h
    have h1 := run_rest _ text true ⟨[], [], 0, 0⟩ ts (Nat.le_refl _) hr hk rfl rfl h
    obtain ⟨ts', h2, h3⟩ := h1
    rw [List.nil_append] at h2
    subst h2
    have h4 := parse_bounded (lex true text) false ⟨[], [], 0, 0⟩ ts (.inl (lex_noMark _ _ _ (Nat.le_refl _) hk)) rfl ⟨Nat.zero_le _, nofun⟩ h
    exact ⟨h3, h4.2, h4.1⟩
  · rintro ⟨hw, hl, hd⟩
    rcases hw with hw | ⟨l', body, rfl, hb, hw⟩
    · obtain ⟨b, -, h⟩ := run_writes hw [] ⟨[], [], 0, 0⟩ true nofun (by rw [List.append_nil]; exact hk) hr
        (by show 0 + depths ts ≤ 4096; omega) (.inr hl)
      rw [List.append_nil] at h
      show run false true text _ = _
      rw [h, run_nil]
      simp
    · obtain ⟨b, hk', h⟩ := run_writes hw (';' :: body) ⟨[], [], 0, 0⟩ true (by intro c l h; cases h; decide) hk (fun h => hr (by simp [h]))
        (by show 0 + depths ts ≤ 4096; omega) (.inr hl)
      show run false true _ _ = _
      rw [h, run_comment hk']
      have := run_body (tail := []) (.inl rfl) { cur := [] ++ ts, up := [], parens := 0, marks := 0 } _ false (Nat.le_refl _) hb
        (fun h => hr (by simp [h]))
      rw [List.append_nil] at this
      rw [this, run_skip_nil]
      simp

/-- A text has at most one meaning. -/
theorem C80_unambiguous_partial (text : List Char) (hr : '\r' ∉ text) (hm : NoMarks text) (ts ts' : List Tree)
    (h : WritesFile ts text ∧ (∀ t ∈ ts, IsList t) ∧ depths ts ≤ 4096) (h' : WritesFile ts' text ∧ (∀ t ∈ ts', IsList t) ∧ depths ts' ≤ 4096) :
    ts = ts' := by
  have h1 := (C80_parser_partial text hr hm ts).2 h
  rw [(C80_parser_partial text hr hm ts').2 h'] at h1
  cases h1; rfl

/-- A text with a comment, a string and a nested list. -/
def exText : List Char := "(allow a_t (file;c)\"\n (\"read me\" write)))\n; \"end".toList

def exTrees : List Tree := [.list [.atom "allow", .atom "a_t", .list [.atom "file", .list [.atom "read me", .atom "write"]]]]

example : '\r' ∉ exText ∧ parser exText = .ok exTrees := by decide +kernel

theorem exText_noMarks : NoMarks exText := by
  intro a b h
  exfalso
  have : ';' :: ';' :: '*' :: b <:+ exText := ⟨a, h.symm⟩
  have h2 : ∀ n ≤ exText.length, (exText.drop n).take 3 ≠ [';', ';', '*'] := by decide +kernel
  refine h2 a.length (by rw [h]; simp) ?_
  rw [h, List.drop_left]; rfl

/-- The grammar writes it. -/
example : WritesFile exTrees exText ∧ (∀ t ∈ exTrees, IsList t) ∧ depths exTrees ≤ 4096 :=
  (C80_parser_partial exText (by decide +kernel) exText_noMarks exTrees).1 (by decide +kernel)

/-- Why carriage returns are left out: they end lines, but a quote in a comment takes the following lines with it,
up to the next quote.  The same text with the other end of lines is read as it is written. -/
theorem C80_carriage_return_refuted :
    parser "; 6\"\r(block b)\r; 6\"\r".toList = .ok [] ∧
    parser "; 6\"\n(block b)\n; 6\"\n".toList = .ok [.list [.atom "block", .atom "b"]] := by
  decide +kernel

/-- Why line marks are left out: a line mark and a parenthesis need not end in the order they began, and each
takes the end of the other for its own. -/
theorem C80_line_marks_refuted :
    parser "(block b\n;;* lms 1 f\n)(block c\n;;* lme\n)".toList =
      .ok [.list [.atom "block", .atom "b", .list [.atom "<src_info>", .atom "lms", .atom "1", .atom "f"], .list [.atom "block", .atom "c"]]] := by
  decide +kernel

end Verif.CilParse
