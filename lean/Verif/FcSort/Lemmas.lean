import Verif.FcSort.SortLemmas
import Verif.FcSort.Spec
/-!
# Parsing, ranking and writing
-/
namespace Verif.FcSort
open Spec

/-! ## Ranking -/

theorem isMeta_special (b : Byte) : special (false, b) = isMeta b := by
  simp only [special, isMeta, Bool.not_false, Bool.true_and]
  have h : ∀ k : Nat, k < 256 → ∀ b : Byte, ((k == b.toNat) = (b == UInt8.ofNat k)) := by
    intro k hk b
    rw [Bool.eq_iff_iff]
    simp only [beq_iff_eq]
    constructor
    · intro h; subst h; simp
    · intro h; subst h; simp; omega
  show ['.', '^', '$', '?', '*', '+', '|', '[', '(', '{'].any _ = _
  simp only [List.any_cons, List.any_nil, Bool.or_false]
  rw [show ('.' : Char).toNat = 46 from rfl, show ('^' : Char).toNat = 94 from rfl,
    show ('$' : Char).toNat = 36 from rfl, show ('?' : Char).toNat = 63 from rfl,
    show ('*' : Char).toNat = 42 from rfl, show ('+' : Char).toNat = 43 from rfl,
    show ('|' : Char).toNat = 124 from rfl, show ('[' : Char).toNat = 91 from rfl,
    show ('(' : Char).toNat = 40 from rfl, show ('{' : Char).toNat = 123 from rfl]
  rw [h 46 (by decide), h 94 (by decide), h 36 (by decide), h 63 (by decide), h 42 (by decide),
    h 43 (by decide), h 124 (by decide), h 91 (by decide), h 40 (by decide), h 123 (by decide)]
  simp only [Bool.or_assoc]
  rfl

theorem isMeta_bslash : isMeta 92 = false := by decide

/-- The result of `semanage_fc_find_meta`: out of bounds exactly when the path
ends in an escape and no special character was found before. -/
theorem findMetaFrom_eq (c esc : Nat) (p : Bytes) :
    findMetaFrom c esc p =
      if isRegex p then some ((c : Int) - esc + stem p)
      else if dangling p then none else some (-1) := by
  unfold isRegex stem
  fun_induction findMetaFrom c esc p with
  | case1 c esc => simp [chars, dangling]
  | case2 c esc b bs h =>
    have hb : b ≠ 92 := by rintro rfl; exact absurd h (by decide)
    have hs : special (false, b) = true := by rw [isMeta_special, h]
    cases bs with
    | nil => simp [chars, hb, hs]
    | cons x bs => simp [chars, hb, hs]
  | case3 c esc h => simp [chars, dangling]
  | case4 c esc x bs h ih =>
    rw [ih]
    have hs : special (true, x) = false := by simp [special]
    simp only [chars, dangling, if_true, List.any_cons, hs, Bool.false_or, List.takeWhile_cons,
      Bool.not_false, List.length_cons]
    split
    · congr 1; push_cast; omega
    · rfl
  | case5 c esc b bs h hb ih =>
    rw [ih]
    have hs : special (false, b) = false := by rw [isMeta_special]; simpa using h
    cases bs with
    | nil => simp [chars, hb, hs, dangling]
    | cons x bs =>
      simp only [chars, dangling, if_neg hb, List.any_cons, hs, Bool.false_or, List.takeWhile_cons,
        Bool.not_false, if_true, List.length_cons]
      split
      · congr 1; push_cast; omega
      · rfl

theorem findMeta_eq (p : Bytes) :
    findMeta p = if isRegex p then some (stem p : Int)
      else if dangling p then none else some (-1) := by
  unfold findMeta; rw [findMetaFrom_eq]; simp

theorem escapes_len (p : Bytes) : p.length = (chars p).length + escapes false p := by
  fun_induction chars p with
  | case1 => rfl
  | case2 => simp [escapes]
  | case3 b hb => simp [escapes, hb]
  | case4 c bs ih =>
    by_cases hc : c = 92
    · subst hc; simp only [escapes, if_true, List.length_cons]; simp; omega
    · simp only [escapes, if_true, if_neg hc, List.length_cons]; simp; omega
  | case5 b c bs hb ih =>
    have : escapes false (b :: c :: bs) = escapes false (c :: bs) := by
      conv => lhs; unfold escapes
      rw [if_neg hb]
    rw [this]; simp only [List.length_cons] at ih ⊢; omega

/-- The node of an entry. -/
def mk (e : Entry) : Node :=
  { path := e.path, fileType := e.ftype, context := e.context, pathLen := e.path.length,
    effLen := len e.path, typeLen := if e.ftype.isSome then 2 else 0,
    contextLen := e.context.length,
    metaPos := if isRegex e.path then (stem e.path : Int) else -1 }

theorem lt_mk (a b : Entry) : lt (mk a) (mk b) ↔ Less a b := by
  rw [lt_iff]
  unfold Less mk
  by_cases ha : isRegex a.path = true <;> by_cases hb : isRegex b.path = true <;>
    simp [ha, hb, Int.natCast_inj]

theorem same_mk (a b : Entry) : same (mk a) (mk b) = decide (Same a b) := by
  have h : (¬ lt (mk a) (mk b) ∧ ¬ lt (mk b) (mk a)) ↔ Same a b := by
    rw [lt_mk, lt_mk]; rfl
  unfold same
  exact decide_eq_decide.2 h

/-! ## Sorting entries -/

/-- The entry of a node. -/
def toE (n : Node) : Entry := ⟨n.path, n.fileType, n.context⟩

theorem toE_mk (e : Entry) : toE (mk e) = e := rfl

theorem sort_mk (es : List Entry) :
    ∃ out, mergeSort ((es.map mk).map (fun n => [n])) = out.map mk ∧ StableSort es out := by
  have hp := mergeSort_perm ((es.map mk).map (fun n => [n]))
  have hs := mergeSort_sorted _ (singles_sorted (es.map mk))
  have hst := fun e => mergeSort_stable e _ (singles_sorted (es.map mk))
  rw [flatten_singles] at hp
  simp only [flatten_singles] at hst
  generalize mergeSort ((es.map mk).map (fun n => [n])) = m at *
  have hm : m = (m.map toE).map mk := by
    rw [List.map_map]
    conv => lhs; rw [← List.map_id m]
    apply List.map_congr_left
    intro n hn
    obtain ⟨e, _, rfl⟩ := List.mem_map.1 (hp.mem_iff.1 hn)
    rfl
  generalize m.map toE = out at hm
  subst hm
  refine ⟨out, rfl, ?_, ?_, ?_⟩
  · have := hp.map toE
    rw [List.map_map, List.map_map] at this
    rwa [show toE ∘ mk = id from rfl, List.map_id, List.map_id] at this
  · have := List.pairwise_map.1 hs
    exact this.imp (fun h h' => h ((lt_mk _ _).2 h'))
  · intro e
    have := hst (mk e)
    rw [List.filter_map, List.filter_map] at this
    have := congrArg (List.map toE) this
    rw [List.map_map, List.map_map, show toE ∘ mk = id from rfl, List.map_id, List.map_id] at this
    have hf : ((fun x => same x (mk e)) ∘ mk) = (fun x => decide (Same x e)) := by
      funext x; exact same_mk x e
    rwa [hf] at this

/-! ## Parsing -/

theorem isspace_iff (b : Byte) : isspace b = (isBlank b || b == 10) := by
  rw [Bool.eq_iff_iff]
  simp only [isspace, isBlank, Bool.or_eq_true, Bool.and_eq_true, beq_iff_eq,
    decide_eq_true_eq]
  constructor
  · rintro (h | h)
    · simp [h]
    · have : b.toNat = 9 ∨ b.toNat = 10 ∨ b.toNat = 11 ∨ b.toNat = 12 ∨ b.toNat = 13 := by omega
      have hb : b = UInt8.ofNat b.toNat := by simp
      rcases this with h | h | h | h | h <;> rw [h] at hb <;> simp [hb]
  · rintro (((((rfl | rfl) | rfl) | rfl) | rfl) | rfl) <;> simp

theorem word_ns {w : Bytes} (h : Word w) : ∀ b ∈ w, isspace b = false := by
  intro b hb
  rw [isspace_iff, (h.2 b hb).1]
  simpa using (h.2 b hb).2.1

theorem blanks_sp {w : Bytes} (h : Blanks w) : ∀ b ∈ w, isspace b = true := by
  intro b hb; rw [isspace_iff, h b hb]; rfl

theorem dropWhile_all {p : Byte → Bool} {a : Bytes} (b : Bytes) (h : ∀ x ∈ a, p x = true) :
    (a ++ b).dropWhile p = b.dropWhile p := by
  induction a with
  | nil => rfl
  | cons x a ih =>
    rw [List.cons_append, List.dropWhile_cons_of_pos (h x (by simp)),
      ih (fun y hy => h y (by simp [hy]))]

theorem takeWhile_all {p : Byte → Bool} {a : Bytes} (b : Bytes) (h : ∀ x ∈ a, p x = true) :
    (a ++ b).takeWhile p = a ++ b.takeWhile p := by
  induction a with
  | nil => rfl
  | cons x a ih =>
    rw [List.cons_append, List.takeWhile_cons_of_pos (h x (by simp)),
      ih (fun y hy => h y (by simp [hy]))]; rfl

/-- What follows a word: white space. -/
def SpHead (s : Bytes) : Prop := ∃ b t, s = b :: t ∧ isspace b = true

theorem spHead_blanks {w : Bytes} (h : Blanks w) (hne : w ≠ []) (s : Bytes) : SpHead (w ++ s) := by
  cases w with
  | nil => exact absurd rfl hne
  | cons b w => exact ⟨b, w ++ s, rfl, blanks_sp h b (by simp)⟩

theorem spHead_rest {r : Bytes} (h : Rest r) : SpHead (r ++ [10]) := by
  cases r with
  | nil => exact ⟨10, [], rfl, by decide⟩
  | cons b r =>
    refine ⟨b, r ++ [10], rfl, ?_⟩
    rw [isspace_iff, h.2 b rfl]; rfl

theorem spHead_blanks_nl {r : Bytes} (h : Blanks r) : SpHead (r ++ [10]) := by
  cases r with
  | nil => exact ⟨10, [], rfl, by decide⟩
  | cons b r => exact spHead_blanks h (by simp) _

theorem word_take {w s : Bytes} (hw : Word w) (hs : SpHead s) :
    (w ++ s).takeWhile (fun b => !isspace b) = w ∧ (w ++ s).dropWhile (fun b => !isspace b) = s := by
  obtain ⟨b, t, rfl, hb⟩ := hs
  have h : ∀ x ∈ w, (fun b => !isspace b) x = true := by intro x hx; simp [word_ns hw x hx]
  rw [takeWhile_all _ h, dropWhile_all _ h]
  simp [hb]

theorem blanks_drop {ws s : Bytes} (hw : Blanks ws) (hs : ∀ b, s.head? = some b → isspace b = false) :
    (ws ++ s).dropWhile isspace = s := by
  rw [dropWhile_all _ (blanks_sp hw)]
  cases s with
  | nil => rfl
  | cons b s => simp [hs b rfl]

theorem blanks_nl_drop {ws : Bytes} (hw : Blanks ws) : (ws ++ [10]).dropWhile isspace = [] := by
  rw [dropWhile_all _ (blanks_sp hw)]; rfl

theorem word_head {w : Bytes} (h : Word w) (s : Bytes) :
    ∀ b, (w ++ s).head? = some b → isspace b = false := by
  intro b hb
  cases w with
  | nil => exact absurd rfl h.1
  | cons x w =>
    simp only [List.cons_append, List.head?_cons, Option.some.injEq] at hb
    subst hb; exact word_ns h x (by simp)

theorem word_strndup {w : Bytes} (h : Word w) : strndup w = w := by
  unfold strndup
  have := takeWhile_all (p := fun b => decide (b ≠ 0)) (a := w) []
    (by intro x hx; simp [(h.2 x hx).2.2])
  simpa using this

/-- A safe path: `semanage_fc_find_meta` stays within it. -/
def Safe (p : Bytes) : Prop := isRegex p = true ∨ dangling p = false

theorem parseContext_eq {p c s : Bytes} (ty : Option Bytes) (hp : Word p) (hc : Word c) (hs : SpHead s)
    (k : Nat) (hk : k = if ty.isSome then 2 else 0) (hsafe : Safe p) :
    parseContext p ty k (c ++ s) = some (.node (mk ⟨p, ty, c⟩)) := by
  unfold parseContext
  simp only [(word_take hc hs).1, word_strndup hp, word_strndup hc, findMeta_eq]
  have hl := escapes_len p
  have hlen : p.length - escapes false p = len p := by unfold len; omega
  rcases hsafe with h | h
  · simp only [h, if_true, hlen, hk]
    simp [mk, h]
  · by_cases h' : isRegex p = true
    · simp only [h', if_true, hlen, hk]
      simp [mk, h']
    · have h' : isRegex p = false := by simpa using h'
      simp only [h, h', hlen, hk]
      simp [mk, h']

/-- Unfolding of the part of `parseLine` after the first white space. -/
theorem parseLine_path {ws1 p s : Bytes} (h1 : Blanks ws1) (hp : Path p) (hs : SpHead s) :
    parseLine (ws1 ++ (p ++ s)) =
      match s.dropWhile isspace with
      | [] => some .skip
      | b :: t =>
        if b = dash then
          if (b :: t).length ≤ 2 then some .skip
          else
            match ((b :: t).drop 2).dropWhile isspace with
            | [] => some .skip
            | u => parseContext p (some (strndup ((b :: t).take 2))) 2 u
        else parseContext p none 0 (b :: t) := by
  have hd : (ws1 ++ (p ++ s)).dropWhile isspace = p ++ s := blanks_drop h1 (word_head hp.1 s)
  have hlen : ¬ (ws1 ++ (p ++ s)).length ≤ 1 := by
    obtain ⟨b, t, rfl, _⟩ := hs
    have := List.length_pos_iff.2 hp.1.1
    simp; omega
  unfold parseLine
  rw [if_neg hlen]
  simp only [hd]
  have hw := word_take hp.1 hs
  obtain ⟨x, p', rfl⟩ : ∃ x p', p = x :: p' := by
    cases p with
    | nil => exact absurd rfl hp.1.1
    | cons x p' => exact ⟨x, p', rfl⟩
  have hx : x ≠ hash := by
    intro h; exact hp.2 (by simp [h])
  rw [List.cons_append] at hw ⊢
  simp only [if_neg hx, hw.1, hw.2]
  rw [if_neg (by simp)]
  cases s.dropWhile isspace with
  | nil => rfl
  | cons b t =>
    show (if b = dash then _ else _) = (if b = dash then _ else _)
    split
    · split
      · rfl
      · cases ((b :: t).drop 2).dropWhile isspace with
        | nil => rfl
        | cons y u => rfl
    · rfl

/-- Safety of the entry of a line. -/
def SafeLine (l : Line) : Prop := ∀ e, l.entry? = some e → Safe e.path

theorem parseLine_line {l : Line} (h : l.WF) (hs : SafeLine l) :
    parseLine (l.bytes ++ [10]) =
      some (match l.entry? with | none => .skip | some e => .node (mk e)) := by
  cases l with
  | blank ws =>
    simp only [Line.bytes, Line.entry?]
    unfold parseLine
    split
    · rfl
    · simp only [blanks_nl_drop h]
  | comment ws text =>
    simp only [Line.bytes, Line.entry?]
    unfold parseLine
    split
    · rfl
    · have : (ws ++ 35 :: text ++ [10]).dropWhile isspace = 35 :: (text ++ [10]) := by
        rw [List.append_assoc, List.cons_append]
        exact blanks_drop h.1 (by intro b hb; simp at hb; subst hb; decide)
      simp only [this, if_true]
  | incomplete ws1 p ws2 =>
    obtain ⟨h1, hp, h2⟩ := h
    simp only [Line.bytes, Line.entry?, List.append_assoc]
    rw [parseLine_path h1 hp (spHead_blanks_nl h2), blanks_nl_drop h2]
  | incompleteType ws1 p ws2 ty ws3 =>
    obtain ⟨h1, hp, h2, hne, ht, h3⟩ := h
    simp only [Line.bytes, Line.entry?, List.append_assoc]
    rw [parseLine_path h1 hp (spHead_blanks h2 hne _), blanks_drop h2 (word_head ht.1 _)]
    obtain ⟨hw, hl, hh⟩ := ht
    match ty, hl with
    | [a, c], _ =>
      simp only [List.head?_cons, Option.some.injEq] at hh
      subst hh
      simp only [List.cons_append, List.nil_append, List.length_cons, List.length_append]
      simp [blanks_nl_drop h3]
  | entry ws1 p ws2 c r =>
    obtain ⟨h1, hp, h2, hne, hc, hcd, hr⟩ := h
    simp only [Line.bytes, Line.entry?, List.append_assoc]
    rw [parseLine_path h1 hp (spHead_blanks h2 hne _), blanks_drop h2 (word_head hc _)]
    obtain ⟨x, c', rfl⟩ : ∃ x c', c = x :: c' := by
      cases c with
      | nil => exact absurd rfl hc.1
      | cons x c' => exact ⟨x, c', rfl⟩
    have hx : x ≠ dash := by intro h; exact hcd (by simp [h])
    simp only [List.cons_append, if_neg hx]
    rw [← List.cons_append]
    exact parseContext_eq none hp.1 hc (spHead_rest hr) 0 rfl (hs _ rfl)
  | typed ws1 p ws2 ty ws3 c r =>
    obtain ⟨h1, hp, h2, hne, ht, h3, hc, hr⟩ := h
    simp only [Line.bytes, Line.entry?, List.append_assoc]
    rw [parseLine_path h1 hp (spHead_blanks h2 hne _), blanks_drop h2 (word_head ht.1 _)]
    obtain ⟨hw, hl, hh⟩ := ht
    match ty, hl with
    | [a, d], _ =>
      simp only [List.head?_cons, Option.some.injEq] at hh
      subst hh
      have hcl := List.length_pos_iff.2 hc.1
      have hd := blanks_drop h3 (word_head hc (r ++ [10]))
      obtain ⟨x, c', rfl⟩ : ∃ x c', c = x :: c' := by
        cases c with
        | nil => exact absurd rfl hc.1
        | cons x c' => exact ⟨x, c', rfl⟩
      simp only [List.cons_append, List.nil_append, if_true] at hd ⊢
      rw [if_neg (by simp only [List.length_cons, List.length_append]; omega)]
      simp only [List.drop_succ_cons, List.drop_zero, hd, List.take_succ_cons, List.take_zero]
      rw [word_strndup hw, ← List.cons_append]
      exact parseContext_eq (some [45, d]) hp.1 hc (spHead_rest hr) 2 rfl (hs _ rfl)

theorem bytes_no_nl {l : Line} (h : l.WF) : 10 ∉ l.bytes := by
  have hb : ∀ {w : Bytes}, Blanks w → 10 ∉ w := by
    intro w hw hm; exact absurd (hw _ hm) (by decide)
  have hw : ∀ {w : Bytes}, Word w → 10 ∉ w := by
    intro w hw hm; exact absurd rfl (hw.2 _ hm).2.1
  cases l with
  | blank ws => exact hb h
  | comment ws text =>
    simp only [Line.bytes, List.mem_append, List.mem_cons, not_or]
    exact ⟨hb h.1, by decide, h.2⟩
  | incomplete ws1 p ws2 =>
    simp only [Line.bytes, List.mem_append, not_or]
    exact ⟨⟨hb h.1, hw h.2.1.1⟩, hb h.2.2⟩
  | incompleteType ws1 p ws2 ty ws3 =>
    simp only [Line.bytes, List.mem_append, not_or]
    exact ⟨⟨⟨⟨hb h.1, hw h.2.1.1⟩, hb h.2.2.1⟩, hw h.2.2.2.2.1.1⟩, hb h.2.2.2.2.2⟩
  | entry ws1 p ws2 c r =>
    obtain ⟨h1, hp, h2, hne, hc, hcd, hr⟩ := h
    simp only [Line.bytes, List.mem_append, not_or]
    exact ⟨⟨⟨⟨hb h1, hw hp.1⟩, hb h2⟩, hw hc⟩, hr.1⟩
  | typed ws1 p ws2 ty ws3 c r =>
    obtain ⟨h1, hp, h2, hne, ht, h3, hc, hr⟩ := h
    simp only [Line.bytes, List.mem_append, not_or]
    exact ⟨⟨⟨⟨⟨⟨hb h1, hw hp.1⟩, hb h2⟩, hw ht.1⟩, hb h3⟩, hw hc⟩, hr.1⟩

theorem strnchr_append {c : Byte} : ∀ {a : Bytes} (s : Bytes), c ∉ a →
    strnchr c (a ++ c :: s) = some a.length
  | [], s, _ => by simp [strnchr]
  | x :: a, s, h => by
    have hx : x ≠ c := by intro e; exact h (by simp [e])
    have := strnchr_append s (fun hm => h (List.mem_cons_of_mem _ hm))
    simp [strnchr, hx, this]

theorem strnchr_none {c : Byte} : ∀ {a : Bytes}, c ∉ a → strnchr c a = none
  | [], _ => rfl
  | x :: a, h => by
    have hx : x ≠ c := by intro e; exact h (by simp [e])
    simp [strnchr, hx, strnchr_none (fun hm => h (List.mem_cons_of_mem _ hm))]

theorem parse_none {buf : Bytes} (h : lineEnd buf = none) : parse buf = some [] := by
  rw [parse]; split
  · rfl
  · rename_i k hk; rw [h] at hk; exact absurd hk (by simp)

theorem parse_some {buf : Bytes} {k : Nat} (h : lineEnd buf = some k) :
    parse buf = match parseLine (buf.take (k + 1)) with
      | none => none
      | some .skip => parse (buf.drop (k + 1))
      | some (.node n) =>
        match parse (buf.drop (k + 1)) with
        | none => none
        | some ns => some (n :: ns) := by
  rw [parse]; split
  · rename_i hk; rw [h] at hk; exact absurd hk (by simp)
  · rename_i k' hk
    have : k' = k := by rw [h] at hk; simpa using hk.symm
    subst this
    rfl

/-- The text after the last newline has no end of line. -/
def NoEnd (tail : Bytes) : Prop := 10 ∉ tail ∧ 13 ∉ tail ∧ 255 ∉ tail

theorem parse_render (ls : List Line) (tail : Bytes) (h : ∀ l ∈ ls, l.WF) (hs : ∀ l ∈ ls, SafeLine l)
    (ht : NoEnd tail) : parse (render ls ++ tail) = some ((entries ls).map mk) := by
  induction ls with
  | nil =>
    refine parse_none ?_
    simp only [render, List.flatMap_nil, List.nil_append]
    unfold lineEnd
    rw [strnchr_none ht.1, strnchr_none ht.2.1, strnchr_none ht.2.2]
  | cons l ls ih =>
    have ih := ih (fun x hx => h x (by simp [hx])) (fun x hx => hs x (by simp [hx]))
    have e : render (l :: ls) ++ tail = l.bytes ++ 10 :: (render ls ++ tail) := by
      simp [render]
    have hl : lineEnd (render (l :: ls) ++ tail) = some l.bytes.length := by
      unfold lineEnd
      rw [e, strnchr_append _ (bytes_no_nl (h l (by simp)))]
    rw [parse_some hl, e]
    have et : (l.bytes ++ 10 :: (render ls ++ tail)).take (l.bytes.length + 1) = l.bytes ++ [10] := by
      rw [List.take_append, List.take_of_length_le (by omega)]
      simp
    have ed : (l.bytes ++ 10 :: (render ls ++ tail)).drop (l.bytes.length + 1) = render ls ++ tail := by
      rw [List.drop_append]
      simp
    rw [et, ed, parseLine_line (h l (by simp)) (hs l (by simp)), ih]
    unfold entries
    cases hle : l.entry? with
    | none => simp [hle]
    | some e => simp [hle]

/-! ## Writing -/

theorem snprintf_zeros (A s : Bytes) (c : Byte) (k n : Nat) (hn : n = s.length + 2 ∨ n > s.length + 2)
    (hk : s.length + 2 ≤ k) :
    snprintf (A ++ List.replicate k 0) A.length n s c =
      some (A ++ (s ++ [c]) ++ List.replicate (k - (s.length + 1)) 0) := by
  unfold snprintf writeAt
  have ht : (s ++ [c]).take (n - 1) = s ++ [c] := by
    rw [List.take_of_length_le]; simp; omega
  rw [ht, if_pos (by simp; omega)]
  congr 1
  rw [List.take_left]
  have : A.length + (s ++ [c] ++ [0]).length = A.length + (s.length + 2) := by simp
  rw [this, List.drop_append]
  simp only [Nat.add_sub_cancel_left, List.drop_replicate]
  rw [List.drop_eq_nil_of_le (by omega), List.nil_append]
  have : k - (s.length + 1) = (k - (s.length + 2)) + 1 := by omega
  rw [this, List.replicate_succ]
  simp

theorem writeNode_mk (A : Bytes) (e : Entry) (k : Nat) (ht : ∀ t, e.ftype = some t → t.length = 2)
    (hk : nodeSize (mk e) + 1 ≤ k) :
    writeNode (A ++ List.replicate k 0) A.length (mk e) =
        some (A ++ e.print ++ List.replicate (k - nodeSize (mk e)) 0, (A ++ e.print).length) ∧
      e.print.length = nodeSize (mk e) := by
  unfold writeNode nodeSize Entry.print at *
  cases hf : e.ftype with
  | none =>
    simp only [mk, hf, Option.isSome_none, Bool.false_eq_true, if_false] at *
    constructor
    · rw [snprintf_zeros A e.path tab k _ (Or.inl (by omega)) (by omega)]
      simp only [Option.bind_eq_bind, Option.bind_some]
      have e1 : A.length + (e.path.length + 1) = (A ++ (e.path ++ [tab])).length := by simp
      rw [e1, snprintf_zeros _ e.context nl _ _ (Or.inl (by omega)) (by omega)]
      simp only [Option.bind_some, Option.some.injEq, Prod.mk.injEq]
      constructor
      · rw [show k - (e.path.length + 1) - (e.context.length + 1) =
          k - (e.path.length + 1 + 0 + (e.context.length + 1)) by omega]
        simp
      · simp; omega
    · simp; omega
  | some t =>
    have h2 := ht t hf
    simp only [mk, hf, Option.isSome_some, if_true] at *
    constructor
    · rw [snprintf_zeros A e.path tab k _ (Or.inl (by omega)) (by omega)]
      simp only [Option.bind_eq_bind, Option.bind_some]
      have e1 : A.length + (e.path.length + 1) = (A ++ (e.path ++ [tab])).length := by simp
      rw [e1, snprintf_zeros _ t tab _ _ (Or.inl (by omega)) (by omega)]
      simp only [Option.bind_some]
      have e2 : (A ++ (e.path ++ [tab])).length + (t.length + 1) =
        (A ++ (e.path ++ [tab]) ++ (t ++ [tab])).length := by simp; omega
      rw [e2, snprintf_zeros _ e.context nl _ _ (Or.inl (by omega)) (by omega)]
      simp only [Option.bind_some, Option.some.injEq, Prod.mk.injEq]
      constructor
      · rw [show k - (e.path.length + 1) - (t.length + 1) - (e.context.length + 1) =
          k - (e.path.length + 1 + (2 + 1) + (e.context.length + 1)) by omega]
        simp
      · simp; omega
    · simp; omega

theorem writeAll_mk (es : List Entry) (A : Bytes) (ht : ∀ e ∈ es, ∀ t, e.ftype = some t → t.length = 2) :
    writeAll (A ++ List.replicate (outSize (es.map mk)) 0) A.length (es.map mk) =
      some (A ++ printAll es ++ [0], (A ++ printAll es).length) ∧
    (printAll es).length + 1 = outSize (es.map mk) := by
  induction es generalizing A with
  | nil => simp [writeAll, outSize, printAll]
  | cons e es ih =>
    have hsz : outSize ((e :: es).map mk) = nodeSize (mk e) + outSize (es.map mk) := by
      simp [outSize]; omega
    have h1 : 1 ≤ outSize (es.map mk) := by simp [outSize]
    obtain ⟨hw, hl⟩ := writeNode_mk A e (outSize ((e :: es).map mk)) (ht e (by simp)) (by omega)
    obtain ⟨ih1, ih2⟩ := ih (A ++ e.print) (fun x hx => ht x (by simp [hx]))
    rw [show outSize ((e :: es).map mk) - nodeSize (mk e) = outSize (es.map mk) by omega] at hw
    constructor
    · simp only [List.map_cons, writeAll] at hw ⊢
      rw [hw]
      simp only []
      rw [ih1]
      simp [printAll]
    · rw [hsz, ← ih2]
      simp [printAll, hl]; omega

/-! ## Arbitrary buffers -/

/-- The recorded lengths are at least those of the strings. -/
def Fits (n : Node) : Prop :=
  n.path.length ≤ n.pathLen ∧ (∀ t, n.fileType = some t → t.length ≤ n.typeLen) ∧
  n.context.length ≤ n.contextLen

theorem writeNode_fits (A : Bytes) (n : Node) (k : Nat) (hf : Fits n) (hk : nodeSize n + 1 ≤ k) :
    ∃ B j, writeNode (A ++ List.replicate k 0) A.length n = some (B ++ List.replicate j 0, B.length) ∧
      k ≤ j + nodeSize n := by
  obtain ⟨hp, ht, hc⟩ := hf
  unfold writeNode nodeSize at *
  have h1 := snprintf_zeros A n.path tab k (n.pathLen + 1 + 1) (by omega) (by omega)
  rw [h1]
  simp only [Option.bind_eq_bind, Option.bind_some]
  -- the rest of the reserved space
  obtain ⟨B, hB, j, hj, hjk⟩ : ∃ B : Bytes, B.length = A.length + (n.pathLen + 1) ∧ ∃ j,
      A ++ (n.path ++ [tab]) ++ List.replicate (k - (n.path.length + 1)) 0 = B ++ List.replicate j 0 ∧
      k = j + (n.pathLen + 1) := by
    refine ⟨A ++ (n.path ++ [tab]) ++ List.replicate (n.pathLen - n.path.length) 0, ?_,
      k - (n.pathLen + 1), ?_, by omega⟩
    · simp; omega
    · rw [List.append_assoc (A ++ (n.path ++ [tab])), ← List.replicate_add]
      congr 2; omega
  rw [hj, ← hB]
  cases hft : n.fileType with
  | none =>
    simp only [hft, Option.isSome_none, Bool.false_eq_true, if_false, Option.bind_some] at hk ⊢
    rw [snprintf_zeros B n.context nl j _ (Or.inl (by omega)) (by omega)]
    refine ⟨B ++ (n.context ++ [nl]), j - (n.context.length + 1), ?_, by omega⟩
    simp only [Option.bind_some, Option.some.injEq, Prod.mk.injEq, true_and]
    simp
  | some t =>
    have ht := ht t hft
    simp only [hft, Option.isSome_some, if_true] at hk ⊢
    rw [snprintf_zeros B t tab j _ (Or.inl (by omega)) (by omega)]
    simp only [Option.bind_some]
    have e2 : B.length + (t.length + 1) = (B ++ (t ++ [tab])).length := by simp
    rw [e2, snprintf_zeros _ n.context nl _ _ (Or.inl (by omega)) (by omega)]
    refine ⟨B ++ (t ++ [tab]) ++ (n.context ++ [nl]),
      j - (t.length + 1) - (n.context.length + 1), ?_, ?_⟩
    · simp only [Option.bind_some, Option.some.injEq, Prod.mk.injEq, true_and]
      simp; omega
    · omega

theorem writeAll_fits (ns : List Node) (A : Bytes) (k : Nat) (hf : ∀ n ∈ ns, Fits n)
    (hk : outSize ns ≤ k) : writeAll (A ++ List.replicate k 0) A.length ns ≠ none := by
  induction ns generalizing A k with
  | nil => simp [writeAll]
  | cons n ns ih =>
    have hsz : outSize (n :: ns) = nodeSize n + outSize ns := by simp [outSize]; omega
    have h1 : 1 ≤ outSize ns := by simp [outSize]
    obtain ⟨B, j, hw, hj⟩ := writeNode_fits A n k (hf n (by simp)) (by omega)
    simp only [writeAll, hw]
    exact ih B j (fun x hx => hf x (by simp [hx])) (by omega)

theorem strndup_len (s : Bytes) : (strndup s).length ≤ s.length :=
  (List.takeWhile_prefix _).length_le

theorem parseContext_fits {r : Bytes} {ty : Option Bytes} {k : Nat} {s : Bytes} {n : Node}
    (hty : ∀ t, ty = some t → t.length ≤ k) (h : parseContext r ty k s = some (.node n)) : Fits n := by
  unfold parseContext at h
  simp only at h
  split at h
  · exact absurd h (by simp)
  · simp only [Option.some.injEq, Parsed.node.injEq] at h
    subst h
    exact ⟨strndup_len _, hty, strndup_len _⟩

theorem parseLine_fits {l : Bytes} {n : Node} (h : parseLine l = some (.node n)) : Fits n := by
  unfold parseLine at h
  simp only at h
  split at h
  · exact absurd h (by simp)
  · split at h
    · exact absurd h (by simp)
    · split at h
      · exact absurd h (by simp)
      · split at h
        · exact absurd h (by simp)
        · split at h
          · exact absurd h (by simp)
          · split at h
            · split at h
              · exact absurd h (by simp)
              · split at h
                · exact absurd h (by simp)
                · refine parseContext_fits ?_ h
                  intro t ht
                  simp only [Option.some.injEq] at ht
                  subst ht
                  exact Nat.le_trans (strndup_len _) (List.length_take_le _ _)
            · exact parseContext_fits (by intro t ht; exact absurd ht (by simp)) h

theorem parse_fits (buf : Bytes) : ∀ ns, parse buf = some ns → ∀ n ∈ ns, Fits n := by
  induction h : buf.length using Nat.strongRecOn generalizing buf with
  | _ m ih =>
    intro ns hns n hn
    cases hl : lineEnd buf with
    | none =>
      rw [parse_none hl] at hns
      simp only [Option.some.injEq] at hns; subst hns; exact absurd hn (by simp)
    | some k =>
      rw [parse_some hl] at hns
      have hlt := lineEnd_lt hl
      have ih := ih (buf.drop (k + 1)).length (by simp; omega) _ rfl
      split at hns
      · exact absurd hns (by simp)
      · exact ih ns hns n hn
      · rename_i n' hn'
        split at hns
        · exact absurd hns (by simp)
        · rename_i ns' hns'
          simp only [Option.some.injEq] at hns; subst hns
          rcases List.mem_cons.1 hn with rfl | hn
          · exact parseLine_fits hn'
          · exact ih ns' hns' n hn

theorem dangling_mem : ∀ p : Bytes, dangling p = true → 92 ∈ p := by
  intro p
  fun_induction dangling p with
  | case1 => simp
  | case2 b => simp; intro h; exact h.symm
  | case3 => simp
  | case4 b c bs hb ih => intro h; exact List.mem_cons_of_mem _ (ih h)

theorem findMeta_some {p : Bytes} (h : 92 ∉ p) : findMeta p ≠ none := by
  rw [findMeta_eq]
  split
  · simp
  · split
    · rename_i hd; exact absurd (dangling_mem p hd) h
    · simp

theorem parseContext_some {r : Bytes} (ty : Option Bytes) (k : Nat) (s : Bytes) (h : 92 ∉ r) :
    parseContext r ty k s ≠ none := by
  unfold parseContext
  have := findMeta_some (p := strndup r)
    (fun hm => h ((List.takeWhile_prefix _).subset hm))
  simp only
  split
  · contradiction
  · simp

theorem parseLine_some {l : Bytes} (h : 92 ∉ l) : parseLine l ≠ none := by
  have hr : 92 ∉ (l.dropWhile isspace).takeWhile (fun b => !isspace b) := fun hm =>
    h ((List.dropWhile_suffix _).subset ((List.takeWhile_prefix _).subset hm))
  unfold parseLine
  simp only
  split
  · simp
  · split
    · simp
    · split
      · simp
      · split
        · simp
        · split
          · simp
          · split
            · split
              · simp
              · split
                · simp
                · exact parseContext_some _ _ _ hr
            · exact parseContext_some _ _ _ hr

theorem parse_total (buf : Bytes) (hb : 92 ∉ buf) : parse buf ≠ none := by
  induction h : buf.length using Nat.strongRecOn generalizing buf with
  | _ m ih =>
    cases hl : lineEnd buf with
    | none => rw [parse_none hl]; simp
    | some k =>
      rw [parse_some hl]
      have hlt := lineEnd_lt hl
      have ih := ih (buf.drop (k + 1)).length (by simp; omega) _
        (fun hm => hb (List.mem_of_mem_drop hm)) rfl
      have hp := parseLine_some (l := buf.take (k + 1)) (fun hm => hb (List.mem_of_mem_take hm))
      split
      · contradiction
      · exact ih
      · split
        · contradiction
        · simp

end Verif.FcSort
