import Verif.CilCond.Model

/-!
# Model of the parser of CIL

libsepol/cil/src/cil_lexer.l and cil_parser.c.  A text is a list of characters, each a byte.  Positions in the
text (numbers of lines) are left out of the tree, and so is the interning of strings; allocation succeeds.
-/

namespace Verif.CilParse
open CilCond (Tree)

/-! ### The lexer -/

/-- Tokens, cil_lexer.h:35-43, without the end of the file. -/
inductive Tok where
  | oparen
  | cparen
  | symbol (s : String)
  | qstring (s : String)
  | comment
  | linemark
  | newline
  | unknown
deriving DecidableEq

/-- `spec_char`, cil_lexer.l:47. -/
def specChars : List Char :=
  ['[', ']', '.', '@', '=', '/', '*', '-', '_', '$', '%', '+', '!', '|', '&', '^', ':', '~', '`', '#', '{', '}', '\'', '<', '>', '?', ',']

/-- The characters of `symbol`, cil_lexer.l:45-48. -/
def symbolChar (c : Char) : Bool := c.isDigit || c.isAlpha || specChars.contains c

/-- The rest of `qstring` after its first character, cil_lexer.l:51: what is before the next quote, and what is
after it; `none` if there is none on the line. -/
def quoted : List Char → Option (List Char × List Char)
  | [] => none
  | c :: l =>
    if c = '"' then some ([], l)
    else if c = '\n' ∨ c = '\x00' then none
    else (quoted l).map fun r => (c :: r.1, r.2)

/-- `yylex` of the rules in cil_lexer.l:56-66; `none` is the end of the file.  `bol` is whether the text starts a
line, which it does at first and after `\n`.  The value of a quoted string is without its quotes, which the parser
takes away (cil_parser.c:236-238). -/
def next : Bool → List Char → Option (Tok × Bool × List Char)
  | _, [] => none
  | bol, c :: l =>
    if c = '\n' then some (.newline, true, l)
    else if c = '\r' then some (.newline, false, l)
    else if c = ';' then
      if bol ∧ l.take 2 = [';', '*'] then some (.linemark, false, l.drop 2) else some (.comment, false, l)
    else if c = '(' then some (.oparen, false, l)
    else if c = ')' then some (.cparen, false, l)
    else if symbolChar c then some (.symbol (String.ofList (c :: l.takeWhile symbolChar)), false, l.dropWhile symbolChar)
    else if c = ' ' ∨ c = '\t' then next false l
    else if c = '"' then
      match quoted l with
      | some (s, r) => some (.qstring (String.ofList s), false, r)
      | none => some (.unknown, false, l)
    else some (.unknown, false, l)

theorem quoted_length {l s r : List Char} (h : quoted l = some (s, r)) : r.length < l.length := by
  induction l generalizing s with
  | nil => cases h
  | cons c l ih =>
    rw [quoted] at h
    split at h
    · cases h; simp
    · split at h
      · cases h
      · obtain ⟨⟨s', r'⟩, h1, h2⟩ := Option.map_eq_some_iff.1 h
        cases h2
        have := ih h1
        simp only [List.length_cons] at this ⊢
        exact Nat.lt_succ_of_lt this

theorem next_length : ∀ {l : List Char} {bol : Bool} {t : Tok} {b : Bool} {r : List Char}, next bol l = some (t, b, r) → r.length < l.length
  | [], _, _, _, _, h => by rw [next] at h; cases h
  | c :: l, bol, t, b, r, h => by
    rw [next] at h
    split at h
    · cases h; simp
    split at h
    · cases h; simp
    split at h
    · split at h
      · cases h; simp; omega
      · cases h; simp
    split at h
    · cases h; simp
    split at h
    · cases h; simp
    split at h
    · cases h
      have := (List.dropWhile_sublist (l := l) symbolChar).length_le
      simp only [List.length_cons]
      omega
    split at h
    · have := next_length h
      simp only [List.length_cons]
      omega
    split at h
    · split at h
      · rename_i s' r' hq
        cases h
        have := quoted_length hq
        simp only [List.length_cons]
        omega
      · cases h; simp
    · cases h; simp

/-- All tokens of a text. -/
def lex (bol : Bool) (l : List Char) : List Tok :=
  match h : next bol l with
  | none => []
  | some (t, b, r) => t :: lex b r
termination_by l.length
decreasing_by exact next_length h

/-! ### The parser -/

/-- What the parser returns: the children of the node for the file, an error, or undefined behaviour. -/
inductive Res where
  | ok (l : List Tree)
  | err
  | ub

/-- The state of the parser: the children of the current node so far, the children so far of the nodes that it is
in, from the inside to the outside, the number of open parentheses and of active line marks. -/
structure St where
  cur : List Tree
  up : List (List Tree)
  parens : Nat
  marks : Nat

/-- `CIL_PARSER_MAX_EXPR_DEPTH`, cil_parser.c:44. -/
def MAX_DEPTH : Nat := 4096

/-- `create_node` and `insert_node` of a string, cil_parser.c:75-94. -/
def St.add (st : St) (s : String) : St := { st with cur := st.cur ++ [.atom s] }

/-- `create_node` and `insert_node` of a node that becomes the current one. -/
def St.open (st : St) : St := { st with cur := [], up := st.cur :: st.up }

/-- `current = current->parent`; `none` if there is no node for the file around it, which is undefined behaviour
later on. -/
def St.close (st : St) : Option St :=
  match st.up with
  | [] => none
  | u :: up => some { st with cur := u ++ [.list st.cur], up := up }

/-- The loop of `cil_parser`, cil_parser.c:210-290, and `add_hll_linemark`, 96-173; `skip` is whether it is in the
loop over the rest of a comment, 262-264. -/
def parse : Bool → List Tok → St → Res
  | _, [], st => if st.parens > 0 then .err else if st.marks ≠ 0 then .err else .ok st.cur
  | true, .newline :: l, st => parse false l st
  | true, _ :: l, st => parse true l st
  | false, .oparen :: l, st =>
    if st.parens + 1 > MAX_DEPTH then .err else parse false l { st.open with parens := st.parens + 1 }
  | false, .cparen :: l, st =>
    if st.parens = 0 then .err
    else
      match st.close with
      | none => .ub
      | some st => parse false l { st with parens := st.parens - 1 }
  | false, .qstring s :: l, st => if st.parens = 0 then .err else parse false l (st.add s)
  | false, .symbol s :: l, st => if st.parens = 0 then .err else parse false l (st.add s)
  | false, .newline :: l, st => parse false l st
  | false, .comment :: l, st => parse true l st
  | false, .linemark :: .symbol "lme" :: l, st =>
    if st.marks = 0 then .err
    else
      match st.close with
      | none => .ub
      | some st =>
        match l with
        | .newline :: l => parse false l { st with marks := st.marks - 1 }
        | _ => .err
  | false, .linemark :: .symbol ty :: .symbol line :: file :: .newline :: l, st =>
    if ty ≠ "lms" ∧ ty ≠ "lmx" then .err
    else if st.marks + 1 > MAX_DEPTH then .err
    else
      match file with
      | .symbol f | .qstring f =>
        parse false l ({ (((st.open.add "<src_info>").add ty).add line).add f with marks := st.marks + 1 })
      | _ => .err
  | false, .linemark :: _, _ => .err
  | false, .unknown :: _, _ => .err

/-- `cil_parser`, cil_parser.c:193-306, of a text: the statements of the file, which follow the four strings that
`add_cil_path`, 175-191, starts the node for the file with. -/
def parser (text : List Char) : Res := parse false (lex true text) ⟨[], [], 0, 0⟩

end Verif.CilParse
