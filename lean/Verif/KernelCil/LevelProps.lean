import Verif.KernelCil.LevelLemmas

/-!
# C82: levels are written with the same categories
-/

namespace Verif.KernelCil
open CilParse (Writes)
open CilCond (Tree)
open Policy (Level Range)

/-- C82: if a level is written in CIL, then the text is the one of the level with its sensitivity and exactly its
categories. -/
theorem C82_level_sound {sens cat : Nat → Str} {l : Level} (hw : Ebitmap.WF l.cat) (hs : GoodName (sens (l.sens - 1)))
    (hg : ∀ i, Ebitmap.getBit l.cat i = true → GoodName (cat i)) {text : Str} (h : levelToStr sens cat l = some text) :
    ∃ items, ListOf items l.cat ∧ Writes [levelTree sens cat l.sens items] text := by
  unfold levelToStr at h
  split at h
  · rename_i he
    cases h
    refine ⟨[], ⟨by simp, fun n => ?_⟩, ?_⟩
    · simp [(node_nil hw).1 he n]
    · exact writes_paren (writes_name hs)
  · rename_i he
    obtain ⟨items, h1, h2, h3, -⟩ := catsToStr_writes hw (by simpa using he) hg
    obtain ⟨c, h4, rfl⟩ := Option.map_eq_some_iff.1 h
    refine ⟨items, h2, ?_⟩
    unfold levelTree
    rw [if_neg h1]
    exact writes_paren2 (writes_name hs) (h3 c h4)

/-- C82: a level is written in CIL, unless the name of the last category of some run is longer than the one before. -/
theorem C82_level_partial {sens cat : Nat → Str} {l : Level} (hw : Ebitmap.WF l.cat) (hs : GoodName (sens (l.sens - 1)))
    (hg : ∀ i, Ebitmap.getBit l.cat i = true → GoodName (cat i))
    (hl : ∀ i, Ebitmap.getBit l.cat i = true → Ebitmap.getBit l.cat (i + 1) = true → Ebitmap.getBit l.cat (i + 2) = false →
      (cat (i + 1)).length ≤ (cat i).length) :
    ∃ text items, levelToStr sens cat l = some text ∧ ListOf items l.cat ∧ Writes [levelTree sens cat l.sens items] text := by
  have key : ∃ text, levelToStr sens cat l = some text := by
    unfold levelToStr
    split
    · exact ⟨_, rfl⟩
    · rename_i he
      obtain ⟨items, -, -, -, h⟩ := catsToStr_writes hw (by simpa using he) hg
      obtain ⟨text, h⟩ := h hl
      rw [h]; exact ⟨_, rfl⟩
  obtain ⟨text, h⟩ := key
  obtain ⟨items, h1, h2⟩ := C82_level_sound hw hs hg h
  exact ⟨text, items, h, h1, h2⟩

/-- C82: a range is written in CIL as its two levels. -/
theorem C82_range_sound {sens cat : Nat → Str} {r : Range} (hw1 : Ebitmap.WF r.low.cat) (hw2 : Ebitmap.WF r.high.cat)
    (hs1 : GoodName (sens (r.low.sens - 1))) (hs2 : GoodName (sens (r.high.sens - 1)))
    (hg : ∀ i, Ebitmap.getBit r.low.cat i = true ∨ Ebitmap.getBit r.high.cat i = true → GoodName (cat i)) {text : Str}
    (h : rangeToStr sens cat r = some text) :
    ∃ low high, ListOf low r.low.cat ∧ ListOf high r.high.cat ∧
      Writes [.list [levelTree sens cat r.low.sens low, levelTree sens cat r.high.sens high]] text := by
  unfold rangeToStr at h
  obtain ⟨a, h1, h2⟩ := Option.bind_eq_some_iff.1 h
  obtain ⟨b, h3, rfl⟩ := Option.map_eq_some_iff.1 h2
  obtain ⟨low, h4, h5⟩ := C82_level_sound hw1 hs1 (fun i hi => hg i (.inl hi)) h1
  obtain ⟨high, h6, h7⟩ := C82_level_sound hw2 hs2 (fun i hi => hg i (.inr hi)) h3
  exact ⟨low, high, h4, h6, writes_paren2 h5 h7⟩

/-- C82: in policy.conf every level is written, with its sensitivity and exactly its categories. -/
theorem C82_conf (sens cat : Nat → Str) {l : Level} (hw : Ebitmap.WF l.cat) :
    ∃ items, ListOf items l.cat ∧ levelToConf sens cat l = some (levelConf sens cat l.sens items) := by
  unfold levelToConf
  split
  · rename_i he
    refine ⟨[], ⟨by simp, fun n => ?_⟩, by simp [levelConf]⟩
    simp [(node_nil hw).1 he n]
  · rename_i he
    obtain ⟨items, h1, h2, h3⟩ := catsToConf_eq (cat := cat) hw (by simpa using he)
    refine ⟨items, h2, ?_⟩
    rw [h3, levelConf, if_neg h1]; rfl

/-- C82: in policy.conf every range is written: the low level, and after a dash the high level. -/
theorem C82_range_conf (sens cat : Nat → Str) {r : Range} (hw1 : Ebitmap.WF r.low.cat) (hw2 : Ebitmap.WF r.high.cat) :
    ∃ low high, ListOf low r.low.cat ∧ ListOf high r.high.cat ∧
      rangeToConf sens cat r = some (levelConf sens cat r.low.sens low ++ " - ".toList ++ levelConf sens cat r.high.sens high) := by
  obtain ⟨low, h1, h2⟩ := C82_conf sens cat hw1
  obtain ⟨high, h3, h4⟩ := C82_conf sens cat hw2
  refine ⟨low, high, h1, h3, ?_⟩
  unfold rangeToConf
  rw [h2, h4]
  simp

/-- C82: the kernel's parser of contexts reads what is written for the categories of a level in policy.conf as these
categories. -/
theorem C82_conf_reads {p : Policy.Policy} {sens cat : Nat → Str} {l : Level} (hw : Ebitmap.WF l.cat)
    (hne : ∃ i, Ebitmap.getBit l.cat i = true)
    (hn : ∀ i, Ebitmap.getBit l.cat i = true → p.catName i = some (cat i) ∧ Mls.PlainCat (cat i) ∧ p.cats (cat i) = some (i + 1)) :
    ∃ text, levelToConf sens cat l = some (sens (l.sens - 1) ++ ':' :: text) ∧
      Mls.parseCats p text Ebitmap.init = some (l.cat, none, []) := by
  have inv := (Ebitmap.wf_iff_inv _).1 hw
  have he : l.cat.node.isEmpty = false := by
    obtain ⟨i, hi⟩ := hne
    cases hc : l.cat.node.isEmpty with
    | false => rfl
    | true =>
      have := (node_nil hw).1 hc i
      rw [hi] at this; cases this
  obtain ⟨items, h1, h2, h3⟩ := catsToConf_eq (cat := cat) hw he
  obtain ⟨e, h4, h5⟩ := parse_items (p := p) (cat := cat) items h1 h2.1 (fun it hit n hit' => by
    have hb := (h2.2 n).2 ⟨it, hit, hit'⟩
    obtain ⟨h6, h7, h8⟩ := hn n hb
    exact ⟨⟨Mls.bit_bound inv hb, _, h6, h7, h8⟩, h6⟩) Ebitmap.inv_init
  refine ⟨confItems cat items, ?_, ?_⟩
  · unfold levelToConf
    rw [he, h3]; rfl
  · rw [h4]
    have : e = l.cat := Ebitmap.eq_of_getBit h5.1 inv fun b => by
      rw [Bool.eq_iff_iff, h5.2, h2.2]
      simp [Ebitmap.getBit, Ebitmap.init, Ebitmap.getBitNodes]
    rw [this]

/-! ### Examples -/

/-- The usual names `c0`, `c1` and so on. -/
def exCat (i : Nat) : Str := 'c' :: Nat.toDigits 10 i
def exSens (i : Nat) : Str := 's' :: Nat.toDigits 10 i

/-- `c0.c5,c7,c11,c12`. -/
def exLevel : Level := ⟨1, ⟨[⟨0, 0x18BF#64⟩], 64⟩⟩

theorem exLevel_wf (l : Level) (m : BitVec 64) (hm : m ≠ 0#64) (h : l.cat = ⟨[⟨0, m⟩], 64⟩) : Ebitmap.WF l.cat :=
  (Ebitmap.wf_iff_inv _).2 (h ▸ ⟨⟨by simp, by simp, hm, trivial⟩, rfl, by simp⟩)

theorem exLevel_bits {l : Level} (hw : Ebitmap.WF l.cat) (hh : l.cat.highbit = 64) (P : Nat → Prop)
    (h : ∀ i < 64, Ebitmap.getBit l.cat i = true → P i) : ∀ i, Ebitmap.getBit l.cat i = true → P i := fun i hi =>
  h i (by have := Ebitmap.getBit_lt_high ((Ebitmap.wf_iff_inv _).1 hw) hi; omega) hi

/-- The conditions of the theorems hold of a level with runs of one, two and more categories. -/
example : Ebitmap.WF exLevel.cat ∧ (∀ i, Ebitmap.getBit exLevel.cat i = true → (exCat i).all CilParse.symbolChar = true ∧ exCat i ≠ []) ∧
    (∀ i, Ebitmap.getBit exLevel.cat i = true → Ebitmap.getBit exLevel.cat (i + 1) = true → Ebitmap.getBit exLevel.cat (i + 2) = false →
      (exCat (i + 1)).length ≤ (exCat i).length) ∧
    levelToStr exSens exCat exLevel = some "(s0 ((range c0 c5) c7 c11 c12))".toList ∧
    levelToConf exSens exCat exLevel = some "s0:c0.c5,c7,c11,c12".toList ∧
    rangeToStr exSens exCat ⟨⟨1, Ebitmap.init⟩, exLevel⟩ = some "((s0) (s0 ((range c0 c5) c7 c11 c12)))".toList ∧
    rangeToConf exSens exCat ⟨⟨1, Ebitmap.init⟩, exLevel⟩ = some "s0 - s0:c0.c5,c7,c11,c12".toList := by
  have hw : Ebitmap.WF exLevel.cat := exLevel_wf _ _ (by decide) rfl
  refine ⟨hw, exLevel_bits hw rfl _ (by decide +kernel), exLevel_bits hw rfl _ (by decide +kernel), ?_, ?_, ?_, ?_⟩ <;> decide +kernel

/-- C82: the level `s0:c0.c10` is not written in CIL: the buffer is too small by a character, because the length of
`c9` is taken instead of that of `c10`. -/
theorem C82_level_refuted :
    let l : Level := ⟨1, ⟨[⟨0, 0x7FF#64⟩], 64⟩⟩
    Ebitmap.WF l.cat ∧ levelToStr exSens exCat l = none ∧ levelToConf exSens exCat l = some "s0:c0.c10".toList := by
  refine ⟨exLevel_wf _ _ (by decide) rfl, ?_, ?_⟩ <;> decide +kernel

/-- C82: nor is `s0:c9,c10`. -/
theorem C82_pair_refuted :
    let l : Level := ⟨1, ⟨[⟨0, 0x600#64⟩], 64⟩⟩
    Ebitmap.WF l.cat ∧ levelToStr exSens exCat l = none ∧ levelToConf exSens exCat l = some "s0:c9,c10".toList := by
  refine ⟨exLevel_wf _ _ (by decide) rfl, ?_, ?_⟩ <;> decide +kernel

end Verif.KernelCil
