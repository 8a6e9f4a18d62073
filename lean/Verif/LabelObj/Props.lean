import Verif.Prelude
import Verif.LabelObj.Model
import Verif.LabelObj.Spec
import Verif.FileLabel.Text
/-! # Properties of the labels of media, X and database objects -/
namespace Verif.LabelObj
open Verif.FileLabel (isspace words_eq)
open Verif.FileLabel.Spec (words text)
open Spec (name)

/-! ## Lines -/

theorem scan_words (k : Nat) (s : Bytes) : scan k s = (words s).take k := by
  induction k generalizing s with
  | zero => simp [scan]
  | succ k ih =>
    rw [scan, words_eq]
    split
    · simp
    · rw [ih, List.take_succ_cons]

theorem text_cstr (l : Bytes) : cstr l = text l := by
  unfold cstr text
  congr 1
  funext b
  by_cases h : b = 0 <;> simp [h]

theorem skipped_words (l : Bytes) : skipped l = match words (text l) with
    | [] => true
    | w :: _ => w.head? == some 35 := by
  unfold skipped
  rw [text_cstr, words_eq]
  cases h : (text l).dropWhile isspace with
  | nil => simp
  | cons b t =>
    have hb : isspace b = false := FileLabel.head_dropWhile_space (s := text l) (b := b) (by rw [h]; rfl)
    simp [hb]

theorem mediaLine_eq (l : Bytes) : mediaLine l = match words (text l) with
    | k :: c :: _ => if k.head? = some 35 then none else some (k, c)
    | _ => none := by
  unfold mediaLine
  rw [scan_words, text_cstr, skipped_words]
  rcases words (text l) with _ | ⟨k, _ | ⟨c, w⟩⟩
  · simp
  · simp
  · by_cases h : k.head? = some 35 <;> simp [h]

theorem xLine_eq (l : Bytes) : xLine l = match words (text l) with
    | t :: k :: c :: _ => if t.head? = some 35 then none else some (t, k, c)
    | _ => none := by
  unfold xLine
  rw [scan_words, text_cstr, skipped_words]
  rcases words (text l) with _ | ⟨t, _ | ⟨k, _ | ⟨c, w⟩⟩⟩
  · simp
  · simp
  · simp
  · by_cases h : t.head? = some 35 <;> simp [h]

theorem str_name : str = name := rfl

theorem xType_eq (t : Bytes) : xType t = if t ∈ Spec.xNames then some (Spec.xNames.idxOf t + 1) else none := by
  by_cases h : t ∈ Spec.xNames
  · rw [if_pos h]
    have : ∀ t ∈ Spec.xNames, xType t = some (Spec.xNames.idxOf t + 1) := by decide +kernel
    exact this t h
  · rw [if_neg h]
    unfold xType
    simp only [Spec.xNames, List.map_cons, List.map_nil, List.mem_cons, List.not_mem_nil, or_false, not_or] at h
    simp only [str_name, h, if_false]

theorem dbType_eq (t : Bytes) : dbType t = if t ∈ Spec.dbNames then some (Spec.dbNames.idxOf t + 1) else none := by
  by_cases h : t ∈ Spec.dbNames
  · rw [if_pos h]
    have : ∀ t ∈ Spec.dbNames, dbType t = some (Spec.dbNames.idxOf t + 1) := by decide +kernel
    exact this t h
  · rw [if_neg h]
    unfold dbType
    simp only [Spec.dbNames, List.map_cons, List.map_nil, List.mem_cons, List.not_mem_nil, or_false, not_or] at h
    simp only [str_name, h, if_false]

theorem xNames_head {t : Bytes} (h : t ∈ Spec.xNames) : t.head? ≠ some 35 := by
  have : ∀ t ∈ Spec.xNames, t.head? ≠ some 35 := by decide +kernel
  exact this t h

/-- An entry of the model for a line of the specification. -/
def ofX (e : Nat × Bytes × Bytes) : Entry := ⟨e.1, e.2.1, e.2.2⟩
def ofMedia (e : Bytes × Bytes) : Entry := ⟨0, e.1, e.2⟩

theorem media_entries (ls : List Bytes) :
    ls.filterMap (fun l => (mediaLine l).bind mediaEntry) = (Spec.media ls).map ofMedia := by
  unfold Spec.media
  rw [List.map_filterMap]
  congr 1
  funext l
  rw [mediaLine_eq]
  rcases words (text l) with _ | ⟨k, _ | ⟨c, w⟩⟩
  · rfl
  · rfl
  · by_cases h : k.head? = some 35 <;> simp [h, mediaEntry, ofMedia]

theorem x_entries (ls : List Bytes) : ls.filterMap (fun l => (xLine l).bind xEntry) = (Spec.x ls).map ofX := by
  unfold Spec.x
  rw [List.map_filterMap]
  congr 1
  funext l
  rw [xLine_eq]
  rcases words (text l) with _ | ⟨t, _ | ⟨k, _ | ⟨c, w⟩⟩⟩
  · rfl
  · rfl
  · rfl
  · by_cases h : t ∈ Spec.xNames
    · simp [xNames_head h, xEntry, xType_eq, h, ofX]
    · by_cases hh : t.head? = some 35
      · simp [hh, h]
      · simp [hh, xEntry, xType_eq, h]

theorem db_entries (ls : List Bytes) : ls.filterMap dbLine = (Spec.db ls).map ofX := by
  unfold Spec.db
  rw [List.map_filterMap]
  congr 1
  funext l
  unfold dbLine
  have : (fun b : UInt8 => b != 35) = fun b => decide (b ≠ 35) := by
    funext b
    by_cases h : b = 35 <;> simp [h]
  rw [scan_words, text_cstr, this]
  rcases words ((text l).takeWhile _) with _ | ⟨t, _ | ⟨k, _ | ⟨c, _ | ⟨w, ws⟩⟩⟩⟩
  · rfl
  · rfl
  · rfl
  · by_cases h : t ∈ Spec.dbNames <;> simp [dbType_eq, h, ofX]
  · rfl

/-! ## The array -/

/-- The specifications that were stored, in the array. -/
structure Holds (es : List Entry) (d : Saved) : Prop where
  nspec : d.nspec = es.length
  fits : d.nspec ≤ d.arr.length
  arr : d.arr.take d.nspec = es.map some

theorem holds_push {es : List Entry} {d : Saved} (h : Holds es d) (e : Entry) (hl : d.nspec < d.arr.length) :
    Holds (es ++ [e]) ⟨d.nspec + 1, d.arr.set d.nspec (some e)⟩ := by
  refine ⟨by simp [h.nspec], by simp; omega, ?_⟩
  show (d.arr.set d.nspec (some e)).take (d.nspec + 1) = _
  rw [List.take_add_one, List.take_set_of_le (Nat.le_refl _), h.arr]
  simp [hl]

theorem count_eq {α : Type} (line : Bytes → Option α) (max n : Nat) (ls : List Bytes)
    (h : n + ls.countP (fun l => (line l).isSome) ≤ max) : count line max n ls = n + ls.countP (fun l => (line l).isSome) := by
  induction ls generalizing n with
  | nil => simp [count]
  | cons l ls ih =>
    rw [List.countP_cons] at h ⊢
    rw [count]
    split
    · by_cases hl : (line l).isSome = true
      · rw [if_pos hl] at h ⊢
        rw [if_pos hl, ih _ (by omega)]; omega
      · rw [if_neg hl] at h ⊢
        rw [if_neg hl, ih _ (by omega)]; omega
    · omega

theorem fill_holds {α : Type} (line : Bytes → Option α) (entry : α → Option Entry) {max : Nat} {ls : List Bytes} {d : Saved}
    {es : List Entry} (h : Holds es d) (hm : d.arr.length = max) (hc : d.nspec + ls.countP (fun l => (line l).isSome) ≤ max) :
    ∃ d', fill line entry max d ls = some d' ∧ Holds (es ++ ls.filterMap (fun l => (line l).bind entry)) d' := by
  induction ls generalizing d es with
  | nil => exact ⟨d, rfl, by simpa using h⟩
  | cons l ls ih =>
    rw [List.countP_cons] at hc
    rw [fill]
    by_cases hn : d.nspec < max
    · rw [if_pos hn]
      cases he : (line l).bind entry with
      | none =>
        simp only [List.filterMap_cons, he]
        exact ih h hm (by split at hc <;> omega)
      | some e =>
        have hl : (line l).isSome = true := by
          obtain ⟨a, ha, -⟩ := Option.bind_eq_some_iff.1 he
          rw [ha]; rfl
        rw [if_pos hl] at hc
        simp only [List.filterMap_cons, he]
        rw [if_pos (by omega)]
        obtain ⟨d', h1, h2⟩ := ih (holds_push h e (by omega)) (by simpa using hm) (by simp; omega)
        exact ⟨d', h1, by simpa using h2⟩
    · rw [if_neg hn]
      refine ⟨d, rfl, ?_⟩
      have h0 : (l :: ls).countP (fun l => (line l).isSome) = 0 := by rw [List.countP_cons]; omega
      have : (l :: ls).filterMap (fun l => (line l).bind entry) = [] := by
        rw [List.filterMap_eq_nil_iff]
        intro a ha
        have := List.countP_eq_zero.1 h0 a ha
        simp only [Option.not_isSome_iff_eq_none] at this
        rw [this]; rfl
      rw [this, List.append_nil]
      exact h

theorem init_holds {α : Type} (line : Bytes → Option α) (entry : α → Option Entry) {max : Nat} {ls : List Bytes}
    (hc : ls.countP (fun l => (line l).isSome) ≤ max) :
    ∃ d, init line entry max ls = some d ∧ Holds (ls.filterMap (fun l => (line l).bind entry)) d := by
  have h0 := count_eq line max 0 ls (by omega)
  rw [Nat.zero_add] at h0
  unfold init
  rw [h0]
  split
  · rename_i hz
    refine ⟨_, rfl, ?_⟩
    have : ls.filterMap (fun l => (line l).bind entry) = [] := by
      rw [List.filterMap_eq_nil_iff]
      intro a ha
      have := List.countP_eq_zero.1 hz a ha
      simp only [Option.not_isSome_iff_eq_none] at this
      rw [this]; rfl
    rw [this]
    exact ⟨rfl, Nat.le_refl _, rfl⟩
  · have := fill_holds line entry (max := ls.countP (fun l => (line l).isSome)) (ls := ls)
      (d := ⟨0, List.replicate (ls.countP (fun l => (line l).isSome)) none⟩) (es := []) ⟨rfl, by simp, rfl⟩ (by simp) (by simp)
    simpa using this

theorem dbFill_holds {ls : List Bytes} {d : Saved} {es : List Entry} (h : Holds es d) (h0 : 0 < d.arr.length)
    (hc : d.nspec + ls.length < 2 ^ 31) : ∃ d', dbFill d ls = some d' ∧ Holds (es ++ ls.filterMap dbLine) d' := by
  induction ls generalizing d es with
  | nil => exact ⟨d, rfl, by simpa using h⟩
  | cons l ls ih =>
    simp only [List.length_cons] at hc
    rw [dbFill]
    generalize hg : (if d.arr.length = d.nspec then
        (d.arr ++ List.replicate d.arr.length none).take (2 * d.arr.length % 2 ^ 32) else d.arr) = arr
    have hh : Holds es ⟨d.nspec, arr⟩ ∧ d.nspec < arr.length := by
      split at hg
      · rename_i hf
        rw [Nat.mod_eq_of_lt (by omega), List.take_of_length_le (by simp; omega)] at hg
        subst hg
        refine ⟨⟨h.nspec, by simp; omega, ?_⟩, by simp; omega⟩
        show (d.arr ++ _).take d.nspec = _
        rw [List.take_append_of_le_length h.fits, h.arr]
      · subst hg
        have := h.fits
        exact ⟨h, by omega⟩
    cases he : dbLine l with
    | none =>
      simp only [List.filterMap_cons, he]
      exact ih hh.1 (by have := hh.2; simp only; omega) (by simp only; omega)
    | some e =>
      simp only [List.filterMap_cons, he]
      rw [if_pos hh.2]
      obtain ⟨d', h1, h2⟩ := ih (holds_push hh.1 e hh.2) (by have := hh.2; simp; omega) (by simp only; omega)
      exact ⟨d', h1, by simpa using h2⟩

/-- What a lookup does if it finds a specification or none. -/
def answer : Option Entry → Ans
  | some e => .found e.ctx
  | none => .noent

theorem search_holds {es : List Entry} {d : Saved} (h : Holds es d) (p : Entry → Bool) (k i : Nat) (hk : i + k = es.length) :
    search p d.arr i k = answer ((es.drop i).find? p) := by
  induction k generalizing i with
  | zero => rw [List.drop_of_length_le (by omega)]; rfl
  | succ k ih =>
    have hi : i < es.length := by omega
    have hget : d.arr[i]? = some (some es[i]) := by
      have := congrArg (·[i]?) h.arr
      simp only [List.getElem?_map, List.getElem?_eq_getElem hi, Option.map_some] at this
      rw [List.getElem?_take, if_pos (by rw [h.nspec]; exact hi)] at this
      exact this
    rw [search, hget, List.drop_eq_getElem_cons hi, List.find?_cons]
    cases hp : p es[i] with
    | true => simp [answer, hp]
    | false => simpa [hp] using ih (i + 1) (by omega)

theorem strneq_iff {a b : Bytes} (ha : (0 : UInt8) ∉ a) : strneq a b (b.length + 1) = true ↔ a = b := by
  unfold strneq
  rw [List.take_of_length_le (l := b ++ [0]) (by simp), beq_iff_eq]
  constructor
  · intro h
    have hl := congrArg List.length h
    simp only [List.length_take, List.length_append, List.length_cons, List.length_nil] at hl
    rcases Nat.lt_or_ge b.length a.length with hlt | hge
    · exfalso
      rw [List.take_append_of_le_length (by omega)] at h
      have : (0 : UInt8) ∈ a.take (b.length + 1) := by rw [h]; simp
      exact ha (List.mem_of_mem_take this)
    · rw [List.take_of_length_le (by simp; omega)] at h
      exact List.append_cancel_right h
  · rintro rfl
    rw [List.take_of_length_le (by simp)]

theorem wordsFrom_noNul {w s : Bytes} (hw : (0 : UInt8) ∉ w) (hs : (0 : UInt8) ∉ s) :
    ∀ x ∈ FileLabel.Spec.wordsFrom w s, (0 : UInt8) ∉ x := by
  induction s generalizing w with
  | nil =>
    intro x hx
    rw [FileLabel.Spec.wordsFrom] at hx
    split at hx
    · simp at hx
    · simp only [List.mem_singleton] at hx; rw [hx]; exact hw
  | cons b s ih =>
    simp only [List.mem_cons, not_or] at hs
    intro x hx
    rw [FileLabel.Spec.wordsFrom] at hx
    split at hx
    · split at hx
      · exact ih (by simp) hs.2 x hx
      · rcases List.mem_cons.1 hx with rfl | hx
        · exact hw
        · exact ih (by simp) hs.2 x hx
    · exact ih (by simp only [List.mem_append, List.mem_singleton, not_or]; exact ⟨hw, hs.1⟩) hs.2 x hx

theorem text_noNul (l : Bytes) : (0 : UInt8) ∉ text l := by
  unfold text
  induction l with
  | nil => simp
  | cons b l ih =>
    rw [List.takeWhile_cons]
    split
    · rename_i h
      simp only [List.mem_cons, not_or]
      exact ⟨fun e => by simp [← e] at h, ih⟩
    · simp

theorem media_noNul {ls : List Bytes} {e : Bytes × Bytes} (he : e ∈ Spec.media ls) : (0 : UInt8) ∉ e.1 := by
  unfold Spec.media at he
  obtain ⟨l, -, h⟩ := List.mem_filterMap.1 he
  have ht : (0 : UInt8) ∉ text l := by
    exact text_noNul l
  have hw := wordsFrom_noNul (w := []) (by simp) ht
  rcases hx : words (text l) with _ | ⟨k, _ | ⟨c, w⟩⟩
  · simp [hx] at h
  · simp [hx] at h
  · rw [hx] at h
    simp only at h
    split at h
    · simp at h
    · simp only [Option.some.injEq] at h
      subst h
      exact hw k (by rw [show FileLabel.Spec.wordsFrom [] (text l) = _ from hx]; simp)

theorem find_congr {α : Type} {p q : α → Bool} {l : List α} (h : ∀ a ∈ l, p a = q a) : l.find? p = l.find? q := by
  induction l with
  | nil => rfl
  | cons a l ih =>
    rw [List.find?_cons, List.find?_cons, h a List.mem_cons_self, ih fun b hb => h b (List.mem_cons_of_mem _ hb)]

theorem pat_eq {es : List (Nat × Bytes × Bytes)} {d : Saved} (h : Holds (es.map ofX) d) (fn : Bytes → Bytes → Bool) (key : Bytes)
    (type : Nat) : patLookup fn d key type =
      match es.find? (fun e => decide (e.1 = type ∧ fn e.2.1 key = true)) with
      | some e => .found e.2.2
      | none => .noent := by
  unfold patLookup
  rw [h.nspec, search_holds h _ _ 0 (by simp), List.drop_zero, List.find?_map]
  have : es.find? ((fun e : Entry => if e.type ≠ type then false else fn e.key key) ∘ ofX) =
      es.find? (fun e => decide (e.1 = type ∧ fn e.2.1 key = true)) := by
    refine find_congr ?_
    intro e _
    by_cases ht : e.1 = type <;> simp [ofX, ht]
  rw [this]
  cases List.find? _ es <;> rfl

/-! ## C115: the first line that applies -/

/-- The label of a medium is the context of the first line that names it or `*`. -/
theorem C115_media (max : Nat) (lines : List Bytes) (hm : lines.length ≤ max) : ∃ d, init mediaLine mediaEntry max lines = some d ∧
    ∀ key : Bytes, mediaLookup d key =
      match (Spec.media lines).find? (fun e => decide (e.1 = key ∨ e.1 = name "*")) with
      | some e => .found e.2
      | none => .noent := by
  obtain ⟨d, hd, h⟩ := init_holds mediaLine mediaEntry (Nat.le_trans List.countP_le_length hm)
  refine ⟨d, hd, fun key => ?_⟩
  rw [media_entries] at h
  unfold mediaLookup
  rw [h.nspec, search_holds h _ _ 0 (by simp), List.drop_zero, List.find?_map]
  have : (Spec.media lines).find? ((fun e : Entry => strneq e.key key (key.length + 1) || strneq e.key (str "*") 2) ∘ ofMedia) =
      (Spec.media lines).find? (fun e => decide (e.1 = key ∨ e.1 = name "*")) := by
    refine find_congr ?_
    intro e he
    rw [Bool.eq_iff_iff]
    simp only [Function.comp_apply, Bool.or_eq_true, decide_eq_true_eq]
    rw [show (ofMedia e).key = e.1 from rfl, strneq_iff (media_noNul he)]
    exact or_congr Iff.rfl (strneq_iff (b := str "*") (media_noNul he))
  rw [this]
  cases List.find? _ (Spec.media lines) <;> rfl

/-- The label of an X object is the context of the first line of its type whose
pattern matches. -/
theorem C115_x (fn : Bytes → Bytes → Bool) (max : Nat) (lines : List Bytes) (hm : lines.length ≤ max) :
    ∃ d, init xLine xEntry max lines = some d ∧ ∀ (key : Bytes) (type : Nat), patLookup fn d key type =
      match (Spec.x lines).find? (fun e => decide (e.1 = type ∧ fn e.2.1 key = true)) with
      | some e => .found e.2.2
      | none => .noent := by
  obtain ⟨d, hd, h⟩ := init_holds xLine xEntry (Nat.le_trans List.countP_le_length hm)
  refine ⟨d, hd, fun key type => ?_⟩
  rw [x_entries] at h
  exact pat_eq h fn key type

/-- The label of a database object is the context of the first line of its type
whose pattern matches. -/
theorem C115_db (fn : Bytes → Bytes → Bool) (lines : List Bytes) (hm : lines.length < 2 ^ 31) :
    ∃ d, dbInit lines = some d ∧ ∀ (key : Bytes) (type : Nat), patLookup fn d key type =
      match (Spec.db lines).find? (fun e => decide (e.1 = type ∧ fn e.2.1 key = true)) with
      | some e => .found e.2.2
      | none => .noent := by
  obtain ⟨d, hd, h⟩ := dbFill_holds (ls := lines) (d := ⟨0, List.replicate 32 none⟩) (es := []) ⟨rfl, by simp, rfl⟩ (by simp)
    (by simpa using hm)
  refine ⟨d, hd, fun key type => ?_⟩
  rw [db_entries, List.nil_append] at h
  exact pat_eq h fn key type

/-- A file for media with a comment, a line of one word and one after `*`. -/
example : (init mediaLine mediaEntry 1000 ([" # cdrom no", "cdrom a b", "floppy", "* d", "disk e"].map (fun l => str l ++ [10]))).map
    (fun d => (mediaLookup d (str "cdrom"), mediaLookup d (str "disk"), mediaLookup d (str "cd"))) =
    some (.found (str "a"), .found (str "d"), .found (str "d")) := by decide +kernel

/-- A file for X with a type that does not exist. -/
example : (init xLine xEntry 1000 ([" property A a", "properties A b", "client A c", "property A d"].map (fun l => str l ++ [10]))).map
    (fun d => (patLookup (· == ·) d (str "A") 1, patLookup (· == ·) d (str "A") 3, patLookup (· == ·) d (str "B") 1)) =
    some (.found (str "a"), .found (str "c"), .noent) := by decide +kernel

/-- A file for databases with more lines than there is room for at first, a comment
and a line with too many words. -/
example : (dbInit (List.replicate 40 (str "db_table x y") ++
    ["db_schema A a b", "db_schema A c # b", "db_schema A d"].map str)).map
    (fun d => (patLookup (· == ·) d (str "A") 2, patLookup (· == ·) d (str "x") 3, patLookup (· == ·) d (str "x") 2)) =
    some (.found (str "c"), .found (str "y"), .noent) := by decide +kernel

end Verif.LabelObj
