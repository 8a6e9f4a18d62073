import Verif.FcSort.Lemmas
/-!
# C39: file-context entries are sorted stably by specificity
-/
namespace Verif.FcSort
open Spec

/-- A path within which the search for special characters stays: it contains
one, or does not end in the middle of an escape. -/
def PathOk (p : Bytes) : Prop := isRegex p = true ∨ dangling p = false

/-- **C39 (partial).** For every file of lines, each terminated by a newline, of
any of the forms of the grammar, the result is the text of the entries of the
file sorted stably from least to most specific, and a final NUL. Text after the
last newline is ignored.

Missing: paths that end in the middle of an escape, where it reads out of bounds
(`C39_refuted`), and the entry on a last line without a newline, which is lost
(`C39_last_line_refuted`). -/
theorem C39_sort_partial (ls : List Line) (tail : Bytes) (hwf : ∀ l ∈ ls, l.WF)
    (hne : render ls ++ tail ≠ [])
    (htail : 10 ∉ tail ∧ 13 ∉ tail ∧ 255 ∉ tail)
    (hok : ∀ e ∈ entries ls, PathOk e.path) :
    ∃ es, StableSort (entries ls) es ∧
      fcSort (render ls ++ tail) = some (.ok (printAll es ++ [0])) := by
  have hs : ∀ l ∈ ls, SafeLine l := by
    intro l hl e he
    exact hok e (List.mem_filterMap.2 ⟨l, hl, he⟩)
  have hp := parse_render ls tail hwf hs htail
  obtain ⟨out, ho, hst⟩ := sort_mk (entries ls)
  refine ⟨out, hst, ?_⟩
  have hty : ∀ e ∈ out, ∀ t, e.ftype = some t → t.length = 2 := by
    intro e he t ht
    obtain ⟨l, hl, hle⟩ := List.mem_filterMap.1 (hst.1.mem_iff.1 he)
    have hw := hwf l hl
    cases l <;> simp only [Line.entry?, Option.some.injEq, reduceCtorEq] at hle
    · subst hle; exact absurd ht (by simp)
    · subst hle
      simp only [Option.some.injEq] at ht
      subst ht
      exact hw.2.2.2.2.1.2.1
  have hw := writeAll_mk out [] hty
  simp only [List.nil_append, List.length_nil] at hw
  unfold fcSort
  rw [if_neg (by simpa using hne), hp]
  simp only
  rw [ho, hw.1]
  simp only [hw.2, if_true]

/-- Two stable sorts of the same list are equal: `StableSort` determines the
output. -/
theorem C39_unique (inp a b : List Entry) (ha : StableSort inp a) (hb : StableSort inp b) : a = b := by
  have hirr : ∀ e : Entry, Same e e := by
    intro e
    have : ¬ Less e e := by rw [← lt_mk]; exact fun h => lt_asymm h h
    exact ⟨this, this⟩
  -- generalise away the input
  have key : ∀ (a b : List Entry), a.Perm b → a.Pairwise (fun a b => ¬ Less b a) →
      b.Pairwise (fun a b => ¬ Less b a) →
      (∀ e, a.filter (fun x => decide (Same x e)) = b.filter (fun x => decide (Same x e))) → a = b := by
    intro a
    induction a with
    | nil => intro b hp _ _ _; exact hp.nil_eq
    | cons x a ih =>
      intro b hp hsa hsb hf
      cases b with
      | nil => exact absurd hp.eq_nil (by simp)
      | cons y b =>
        -- the heads are equally specific, so they are the first of their class
        have hxy : Same x y := by
          constructor
          · rcases List.mem_cons.1 (hp.mem_iff.1 (List.mem_cons_self (a := x) (l := a))) with rfl | h
            · exact (hirr _).1
            · exact (List.pairwise_cons.1 hsb).1 x h
          · rcases List.mem_cons.1 (hp.mem_iff.2 (List.mem_cons_self (a := y) (l := b))) with rfl | h
            · exact (hirr _).1
            · exact (List.pairwise_cons.1 hsa).1 y h
        have h := hf y
        rw [List.filter_cons_of_pos (by simpa using hxy),
          List.filter_cons_of_pos (by simpa using hirr y)] at h
        have hxy : x = y := (List.cons.inj h).1
        subst hxy
        rw [ih b (hp.cons_inv) (List.pairwise_cons.1 hsa).2 (List.pairwise_cons.1 hsb).2]
        intro e
        have h := hf e
        by_cases hx : Same x e
        · rw [List.filter_cons_of_pos (by simpa using hx),
            List.filter_cons_of_pos (by simpa using hx)] at h
          exact (List.cons.inj h).2
        · rwa [List.filter_cons_of_neg (by simpa using hx),
            List.filter_cons_of_neg (by simpa using hx)] at h
  exact key a b (ha.1.trans hb.1.symm) ha.2.1 hb.2.1 (fun e => (ha.2.2 e).trans (hb.2.2 e).symm)

/-- **C39: sorting is idempotent.** Sorting the output of a successful sort of
such a file gives the same bytes. -/
theorem C39_idempotent (ls : List Line) (tail out : Bytes) (hwf : ∀ l ∈ ls, l.WF)
    (htail : 10 ∉ tail ∧ 13 ∉ tail ∧ 255 ∉ tail)
    (hok : ∀ e ∈ entries ls, PathOk e.path)
    (h : fcSort (render ls ++ tail) = some (.ok out)) :
    fcSort out = some (.ok out) := by
  have hne : render ls ++ tail ≠ [] := by
    intro he; rw [he] at h; simp [fcSort] at h
  obtain ⟨es, hst, he⟩ := C39_sort_partial ls tail hwf hne htail hok
  rw [he] at h
  simp only [Option.some.injEq, Res.ok.injEq] at h
  subst h
  -- the output is again such a file
  let toLine : Entry → Line := fun e =>
    match e.ftype with
    | none => .entry [] e.path [9] e.context []
    | some t => .typed [] e.path [9] t [9] e.context []
  have hmem : ∀ e ∈ es, ∃ l ∈ ls, l.entry? = some e := by
    intro e hm
    exact List.mem_filterMap.1 (hst.1.mem_iff.1 hm)
  have hlwf : ∀ e ∈ es, (toLine e).WF := by
    intro e hm
    obtain ⟨l, hl, hle⟩ := hmem e hm
    have hw := hwf l hl
    have hb0 : Blanks [] := by intro b hb; exact absurd hb (by simp)
    have hb1 : Blanks [9] := by intro b hb; simp at hb; subst hb; decide
    have hr : Rest [] := ⟨by simp, by simp⟩
    cases l <;> simp only [Line.entry?, Option.some.injEq, reduceCtorEq] at hle
    · subst hle
      exact ⟨hb0, hw.2.1, hb1, by simp, hw.2.2.2.2.1, hw.2.2.2.2.2.1, hr⟩
    · subst hle
      exact ⟨hb0, hw.2.1, hb1, by simp, hw.2.2.2.2.1, hb1, hw.2.2.2.2.2.2.1, hr⟩
  have hent : entries (es.map toLine) = es := by
    unfold entries
    rw [List.filterMap_map]
    have : Line.entry? ∘ toLine = some := by
      funext e
      obtain ⟨p, t, c⟩ := e
      cases t <;> rfl
    rw [this, List.filterMap_some]
  have hren : render (es.map toLine) = printAll es := by
    unfold render printAll
    rw [List.flatMap_map]
    congr 1
    funext e
    obtain ⟨p, t, c⟩ := e
    cases t <;> simp [toLine, Line.bytes, Entry.print]
  obtain ⟨es', hst', he'⟩ := C39_sort_partial (es.map toLine) [0]
    (by intro l hl; obtain ⟨e, hm, rfl⟩ := List.mem_map.1 hl; exact hlwf e hm)
    (by simp) (by decide)
    (by rw [hent]; intro e hm; exact hok e (hst.1.mem_iff.1 hm))
  rw [hent] at hst'
  rw [hren] at he'
  have : es' = es := C39_unique es es' es hst' ⟨List.Perm.refl _, hst.2.1, fun _ => rfl⟩
  rw [he', this]

/-- **C39: memory safety.** On any buffer without a backslash, whatever its
bytes, no access is out of bounds. -/
theorem C39_safe (buf : Bytes) (h : 92 ∉ buf) : fcSort buf ≠ none := by
  unfold fcSort
  split
  · simp
  · have hp := parse_total buf h
    split
    · contradiction
    · rename_i ns hns
      have hf : ∀ n ∈ mergeSort (ns.map (fun n => [n])), Fits n := by
        intro n hn
        have := (mergeSort_perm _).mem_iff.1 hn
        rw [flatten_singles] at this
        exact parse_fits buf ns hns n this
      have := writeAll_fits _ [] (outSize (mergeSort (ns.map (fun n => [n])))) hf (Nat.le_refl _)
      simp only [List.nil_append, List.length_nil] at this
      simp only
      split
      · contradiction
      · split <;> simp

/-- The bytes of a string. -/
def b (s : String) : Bytes := s.toList.map (fun c => UInt8.ofNat c.toNat)

/-- **C39 is refuted**: for a path that ends in a backslash the search for
special characters skips the end of the string and reads out of bounds. -/
theorem C39_refuted : ∃ l : Line, l.WF ∧ l.entry? ≠ none ∧ fcSort (l.bytes ++ [10]) = none := by
  refine ⟨.entry [] (b "/a\\") (b " ") (b "x:y:z") [], ?_, by simp [Line.entry?], by decide +kernel⟩
  refine ⟨?_, ⟨⟨by decide, by decide⟩, by decide⟩, by unfold Blanks; decide, by decide,
    ⟨by decide, by decide⟩, by decide, by decide, by decide⟩
  intro b hb; exact absurd hb (by simp)

/-- **C39 is refuted**: an entry on a last line without a newline is dropped
without an error. -/
theorem C39_last_line_refuted : ∃ l : Line, l.WF ∧ l.entry? ≠ none ∧ PathOk (b "/a") ∧
    fcSort l.bytes = some (.ok [0]) := by
  refine ⟨.entry [] (b "/a") (b " ") (b "x:y:z") [], ?_, by simp [Line.entry?], Or.inr (by decide),
    by decide +kernel⟩
  refine ⟨?_, ⟨⟨by decide, by decide⟩, by decide⟩, by unfold Blanks; decide, by decide,
    ⟨by decide, by decide⟩, by decide, by decide, by decide⟩
  intro b hb; exact absurd hb (by simp)

/-! Non-vacuity: a file with a comment, a blank line, an incomplete line, typed
and untyped entries, an escape; and its sorted text. -/

/-- The lines of the example. -/
def exLines : List Line :=
  [.comment [] (b " x"), .typed [] (b "/usr/bin") (b " ") (b "-d") (b " ") (b "A") [],
   .blank (b "  "), .entry (b " ") (b "/usr/b.*") (b "\t") (b "B") (b " junk"),
   .entry [] (b "/.*") (b " ") (b "C") [], .incomplete [] (b "/x") [],
   .entry [] (b "/u\\.r/bin") (b " ") (b "D") [], .entry [] (b "/usr/bin") (b " ") (b "E") []]

example : (∀ l ∈ exLines, l.WF) ∧ render exLines ++ [] ≠ [] ∧
    (∀ e ∈ entries exLines, PathOk e.path) := by
  refine ⟨?_, by decide, ?_⟩
  · intro l hl
    simp only [exLines, List.mem_cons, List.not_mem_nil, or_false] at hl
    rcases hl with rfl | rfl | rfl | rfl | rfl | rfl | rfl | rfl <;>
      simp only [Line.WF, Blanks, Path, Word, Ty, Rest] <;>
      first | decide | (refine ⟨?_, ?_⟩ <;> decide)
  · unfold PathOk; decide

example : fcSort (render exLines) =
    some (.ok (b "/.*\tC\n/usr/b.*\tB\n/u\\.r/bin\tD\n/usr/bin\tE\n/usr/bin\t-d\tA\n" ++ [0])) := by
  decide +kernel

end Verif.FcSort
