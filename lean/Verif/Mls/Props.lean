import Verif.Mls.Lemmas2

/-!
# Properties C08 - C11 and C42 - C45: levels, ranges, contexts and their text form
-/

namespace Verif.Mls

open Verif.Policy

/-! ## A concrete policy used to show that hypotheses are met -/

/-- Category names c0, c1, ... -/
def demoCat (i : Nat) : Str := 'c' :: Nat.toDigits 10 i

/-- All 192 categories. -/
def demoAll : Ebitmap := ⟨[⟨0, BitVec.allOnes 64⟩, ⟨64, BitVec.allOnes 64⟩, ⟨128, BitVec.allOnes 64⟩], 192⟩

def demoRange : Range := ⟨⟨1, Ebitmap.init⟩, ⟨2, demoAll⟩⟩

def demoUser : UserDatum := ⟨1, ⟨[⟨0, 3#64⟩], 64⟩, demoRange, ⟨1, Ebitmap.init⟩⟩

def demoRole : RoleDatum := ⟨2, ⟨[⟨0, 1#64⟩], 64⟩, Ebitmap.init⟩

/-- One user `u`, roles `object_r` and `r`, one type `t`, sensitivities `s0`, `s1`,
192 categories `c0` ... `c191`. -/
def demo : Policy where
  mls := true
  nUsers := 1
  nRoles := 2
  nTypes := 1
  nLevels := 2
  nCats := 192
  users := fun n => if n = ['u'] then some demoUser else none
  roles := fun n => if n = ['r'] then some demoRole else none
  types := fun n => if n = ['t'] then some ⟨1, 0, 0⟩ else none
  levels := fun n => if n = ['s', '0'] then some ⟨1, demoAll⟩ else if n = ['s', '1'] then some ⟨2, demoAll⟩ else none
  cats := fun n => ((List.range 192).find? (fun i => demoCat i == n)).map (· + 1)
  userName := fun i => if i = 0 then some ['u'] else none
  roleName := fun i => if i = 1 then some ['r'] else none
  typeName := fun i => if i = 0 then some ['t'] else none
  sensName := fun i => if i = 0 then some ['s', '0'] else if i = 1 then some ['s', '1'] else none
  catName := fun i => if i < 192 then some (demoCat i) else none
  userStruct := fun i => if i = 0 then some demoUser else none
  roleStruct := fun i => if i = 1 then some demoRole else none

/-- Categories c0-c2, c5, c63, c64, c130. -/
def demoSet : Ebitmap := ⟨[⟨0, 0x8000000000000027#64⟩, ⟨64, 1#64⟩, ⟨128, 4#64⟩], 192⟩

/-- Categories c62, c63, c128: a run that ends in front of an empty word. -/
def gapSet : Ebitmap := ⟨[⟨0, 0xC000000000000000#64⟩, ⟨128, 1#64⟩], 192⟩

def demoCtx : Context := ⟨1, 2, 1, ⟨⟨1, demoSet⟩, ⟨2, demoSet⟩⟩⟩

theorem demoAll_wf : Ebitmap.WF demoAll := ⟨by decide, by decide, by decide, by decide, by decide⟩
theorem demoSet_wf : Ebitmap.WF demoSet := ⟨by decide, by decide, by decide, by decide, by decide⟩
theorem gapSet_wf : Ebitmap.WF gapSet := ⟨by decide, by decide, by decide, by decide, by decide⟩

theorem demo_wf : WFPolicy demo where
  levelWF := by
    intro n lev h
    simp only [demo] at h
    split at h
    · cases h; exact demoAll_wf
    · split at h
      · cases h; exact demoAll_wf
      · cases h
  levelCats := by
    intro n lev h b hb
    have hall : Ebitmap.getBit demoAll b = true → b < 192 := fun h =>
      Ebitmap.getBit_lt_high ((Ebitmap.wf_iff_inv _).1 demoAll_wf) h
    simp only [demo] at h
    split at h
    · cases h; exact hall hb
    · split at h
      · cases h; exact hall hb
      · cases h
  userRange := by
    intro i d h
    simp only [demo] at h
    split at h
    · cases h; exact ⟨wf_of_inv Ebitmap.inv_init, demoAll_wf⟩
    · cases h
  catVal := by
    intro n v h
    simp only [demo, Option.map_eq_some_iff] at h
    obtain ⟨i, hi, rfl⟩ := h
    have := List.mem_of_find?_eq_some hi
    rw [List.mem_range] at this
    omega

theorem demoCat_ok : ∀ i < 192, demo.cats (demoCat i) = some (i + 1) ∧
    ∀ c ∈ demoCat i, c ≠ ',' ∧ c ≠ '-' ∧ c ≠ '.' ∧ c ≠ '\x00' := by decide +kernel

theorem demo_names : CNames demo where
  user := by intro i n h; simp only [demo] at h; split at h <;> cases h; decide
  role := by intro i n h; simp only [demo] at h; split at h <;> cases h; decide
  type := by intro i n h; simp only [demo] at h; split at h <;> cases h; decide
  sens := by
    intro i n h; simp only [demo] at h
    split at h
    · cases h; decide
    · split at h <;> cases h; decide
  cat := by
    intro i n h; simp only [demo] at h
    split at h <;> cases h
    rename_i hi
    intro hm
    exact ((demoCat_ok i hi).2 _ hm).2.2.2 rfl

theorem demo_named (e : Ebitmap) (hw : Ebitmap.WF e) (hh : e.highbit ≤ 192) (s : Nat) (hs : s = 1 ∨ s = 2) :
    Named demo ⟨s, e⟩ where
  sens := by
    rcases hs with rfl | rfl
    · exact ⟨Nat.succ_ne_zero 0, ['s', '0'], ⟨1, demoAll⟩, rfl, by unfold PlainSens; decide, rfl, rfl⟩
    · exact ⟨Nat.succ_ne_zero 1, ['s', '1'], ⟨2, demoAll⟩, rfl, by unfold PlainSens; decide, rfl, rfl⟩
  cats := by
    intro b hb
    have hb' : b < 192 := Nat.lt_of_lt_of_le (Ebitmap.getBit_lt_high ((Ebitmap.wf_iff_inv _).1 hw) hb) hh
    obtain ⟨h1, h2⟩ := demoCat_ok b hb'
    exact ⟨demoCat b, by simp [demo, hb'], fun c hc => ⟨(h2 c hc).1, (h2 c hc).2.1, (h2 c hc).2.2.1⟩, h1⟩

theorem demoSet_noGap (s : Nat) : NoGapAfterFullWord ⟨s, demoSet⟩ := by
  intro b hb h63 _
  have hb' : b < 192 := Ebitmap.getBit_lt_high ((Ebitmap.wf_iff_inv _).1 demoSet_wf) hb
  have : b = 63 ∨ b = 127 ∨ b = 191 := by omega
  rcases this with rfl | rfl | rfl
  · exact ⟨64, (by decide : Ebitmap.getBit demoSet 64 = true), by decide⟩
  · exact absurd (show Ebitmap.getBit demoSet 127 = true from hb) (by decide)
  · exact absurd (show Ebitmap.getBit demoSet 191 = true from hb) (by decide)

/-! ## C08: dominance -/

/-- C08: `mls_level_dom` is exactly "sensitivity at least as high and category superset",
`mls_level_eq` exactly equality of sensitivity and category set. -/
theorem C08_dom_eq_spec {a b : Level} (ha : WFLevel a) (hb : WFLevel b) :
    (levelDom a b = true ↔ Dominates a b) ∧ (levelEq a b = true ↔ Same a b) :=
  ⟨levelDom_iff ha hb, levelEq_iff ha hb⟩

/-- C08: `mls_level_dom` is a partial order with respect to `mls_level_eq`. -/
theorem C08_partial_order {a b c : Level} (ha : WFLevel a) (hb : WFLevel b) (hc : WFLevel c) :
    levelDom a a = true ∧
    (levelDom a b = true → levelDom b c = true → levelDom a c = true) ∧
    (levelDom a b = true → levelDom b a = true → levelEq a b = true) ∧
    (levelEq a b = true → levelDom a b = true ∧ levelDom b a = true) := by
  rw [levelDom_iff ha ha, levelDom_iff ha hb, levelDom_iff hb hc, levelDom_iff ha hc, levelDom_iff hb ha,
    levelEq_iff ha hb]
  refine ⟨⟨Nat.le_refl _, fun _ h => h⟩, fun h1 h2 => ⟨Nat.le_trans h2.1 h1.1, fun x hx => h1.2 x (h2.2 x hx)⟩,
    fun h1 h2 => ⟨Nat.le_antisymm h2.1 h1.1, fun x => ⟨h2.2 x, h1.2 x⟩⟩, fun h => ?_⟩
  exact ⟨⟨by rw [h.1]; exact Nat.le_refl _, fun x => (h.2 x).2⟩, ⟨by rw [h.1]; exact Nat.le_refl _, fun x => (h.2 x).1⟩⟩

/-- C08: incomparability and betweenness. -/
theorem C08_incomp_between {a b c : Level} (ha : WFLevel a) (hb : WFLevel b) (hc : WFLevel c) :
    (levelIncomp a b = true ↔ ¬ Dominates a b ∧ ¬ Dominates b a) ∧
    (levelBetween a b c = true ↔ Dominates a b ∧ Dominates c a) := by
  unfold levelIncomp levelBetween
  rw [← levelDom_iff ha hb, ← levelDom_iff hb ha, ← levelDom_iff hc ha]
  simp

/-- C08: `mls_range_contains` is inclusion of ranges; it is reflexive and transitive. -/
theorem C08_range_contains {r1 r2 r3 : Range} (h1 : WFRange r1) (h2 : WFRange r2) (h3 : WFRange r3) :
    (rangeContains r1 r2 = true ↔ Dominates r2.low r1.low ∧ Dominates r1.high r2.high) ∧
    rangeContains r1 r1 = true ∧
    (rangeContains r1 r2 = true → rangeContains r2 r3 = true → rangeContains r1 r3 = true) := by
  unfold rangeContains
  refine ⟨?_, ?_, ?_⟩
  · rw [Bool.and_eq_true, levelDom_iff h2.1 h1.1, levelDom_iff h1.2 h2.2]
  · rw [(C08_partial_order h1.1 h1.1 h1.1).1, (C08_partial_order h1.2 h1.2 h1.2).1]; rfl
  · simp only [Bool.and_eq_true]
    rintro ⟨a1, a2⟩ ⟨b1, b2⟩
    exact ⟨(C08_partial_order h3.1 h2.1 h1.1).2.1 b1 a1, (C08_partial_order h1.2 h2.2 h3.2).2.1 a2 b2⟩

/-- Non-vacuity: two well-formed comparable levels, and two incomparable ones. -/
example : WFLevel ⟨2, demoSet⟩ ∧ WFLevel ⟨1, gapSet⟩ ∧ levelDom ⟨2, demoSet⟩ ⟨1, demoSet⟩ = true ∧
    levelIncomp ⟨2, demoSet⟩ ⟨1, gapSet⟩ = true ∧ levelDom ⟨1, demoSet⟩ ⟨2, demoSet⟩ = false :=
  ⟨demoSet_wf, gapSet_wf, by decide +kernel⟩

/-! ## C09: validity -/

/-- C09: `policydb_context_isvalid` accepts exactly the authorised contexts. -/
theorem C09_valid_iff_authorised {p : Policy} (hp : WFPolicy p) {c : Context} (hw : WFRange c.range) :
    isValid p c = true ↔ Authorised p c := isValid_iff hp hw

/-- Non-vacuity: a valid context, and one rejected only because the role is not authorised. -/
example : WFPolicy demo ∧ WFRange demoCtx.range ∧ isValid demo demoCtx = true ∧
    isValid demo { demoCtx with role := 3 } = false :=
  ⟨demo_wf, ⟨demoSet_wf, demoSet_wf⟩, by decide +kernel⟩

/-! ## C10: MLS text -/

theorem sid_round {p : Policy} (hm : p.mls = true) {r : Range} (hw : WFRange r)
    (hl : Named p r.low) (hh : Named p r.high) (gl : NoGapAfterFullWord r.low) (gh : NoGapAfterFullWord r.high) :
    ∃ t, sidToContext p r = some (':' :: t) ∧ fromString p t = some r := by
  by_cases he : levelEq r.low r.high = true
  · have heq : r.low = r.high := same_eq hw.1 hw.2 ((levelEq_iff hw.1 hw.2).1 he)
    obtain ⟨t, h1, h2⟩ := level_round (tail := []) hw.1 hl gl (.inl rfl) (fun c => c == ':' || c == '-')
      (by decide) (.inl rfl) (fun n h => plainSens_low h)
    refine ⟨t, by simp [sidToContext, hm, h1, he], ?_⟩
    rw [List.append_nil] at h2
    unfold fromString contextToSid
    dsimp only [emptyRange]
    rw [h2]
    simp only [hm, delim, levelCpy_eq]
    cases r; simp only at heq; simp [heq]
  · obtain ⟨th, g1, g2⟩ := level_round (tail := []) hw.2 hh gh (.inl rfl) (· == ':')
      (by decide) (.inl rfl) (fun n h => plainSens_high h)
    obtain ⟨t, h1, h2⟩ := level_round (tail := '-' :: th) hw.1 hl gl (.inr ⟨th, rfl⟩) (fun c => c == ':' || c == '-')
      (by decide) (.inr (by decide)) (fun n h => plainSens_low h)
    refine ⟨t ++ '-' :: th, by simp [sidToContext, hm, h1, he, g1], ?_⟩
    rw [List.append_nil] at g2
    unfold fromString contextToSid
    dsimp only [emptyRange]
    rw [h2]
    dsimp only [delim] at g2 ⊢
    rw [g2]
    simp [hm]

/-- C10 (partial): printing a range and parsing the text gives back the same range, for
every category set in which no run of categories ends at a word boundary in
front of an empty word.  Missing: without that condition the claim is false,
see `C10_wrong_categories`. -/
theorem C10_round_trip_partial {p : Policy} (hm : p.mls = true) {r : Range} (hw : WFRange r)
    (hl : Named p r.low) (hh : Named p r.high) (gl : NoGapAfterFullWord r.low) (gh : NoGapAfterFullWord r.high) :
    ∃ t, toString p r = some t ∧ fromString p t = some r := by
  obtain ⟨t, h1, h2⟩ := sid_round hm hw hl hh gl gh
  exact ⟨t, by simp [toString, h1], h2⟩

/-- C10 (partial): in particular the round trip holds whenever only the first 128
categories are used. -/
theorem C10_round_trip_128_partial {p : Policy} (hm : p.mls = true) {r : Range} (hw : WFRange r)
    (hl : Named p r.low) (hh : Named p r.high) (gl : ∀ b, HasCat r.low b → b < 128)
    (gh : ∀ b, HasCat r.high b → b < 128) :
    ∃ t, toString p r = some t ∧ fromString p t = some r := by
  have small : ∀ l : Level, (∀ b, HasCat l b → b < 128) → NoGapAfterFullWord l := by
    rintro l h b hb h63 ⟨c, hbc, hc⟩
    have h1 := h b hb
    have h2 := h c hc
    exact ⟨c, hc, by omega⟩
  exact C10_round_trip_partial hm hw hl hh (small _ gl) (small _ gh)

/-- Non-vacuity of the hypotheses: a range with runs inside and across words. -/
example : demo.mls = true ∧ WFRange demoCtx.range ∧ Named demo demoCtx.range.low ∧ Named demo demoCtx.range.high ∧
    NoGapAfterFullWord demoCtx.range.low ∧ NoGapAfterFullWord demoCtx.range.high ∧
    toString demo demoCtx.range = some
      "s0:c0.c2,c5,c63,c64,c130-s1:c0.c2,c5,c63,c64,c130".toList :=
  ⟨rfl, ⟨demoSet_wf, demoSet_wf⟩, demo_named _ demoSet_wf (by decide) 1 (.inl rfl),
    demo_named _ demoSet_wf (by decide) 2 (.inr rfl), demoSet_noGap 1, demoSet_noGap 2, by decide +kernel⟩

/-- C10: a category interval `a.b` whose end does not lie behind its start is rejected. -/
theorem C10_reversed_interval_rejected {p : Policy} (hm : p.mls = true) {s a b : Str} (hs : PlainSens s)
    (ha : PlainCat a) (hb : PlainCat b) {v w : Nat} (hv : p.cats a = some v) (hw : p.cats b = some w) (h : w ≤ v) :
    fromString p (s ++ ':' :: (a ++ '.' :: b)) = none := by
  unfold fromString contextToSid
  have h1 : scan (fun c => c == ':' || c == '-') (s ++ ':' :: (a ++ '.' :: b)) = (s, ':' :: (a ++ '.' :: b)) :=
    scan_append (plainSens_low hs) (by simp)
  have hstop : ∀ c ∈ a ++ '.' :: b, (c == ',' || c == '-') = false := by
    intro c hc
    rcases List.mem_append.1 hc with h | h
    · exact plainCat_stop ha c h
    · rcases List.mem_cons.1 h with h | h
      · subst h; decide
      · exact plainCat_stop hb c h
  have h2 : scan (fun c => c == ',' || c == '-') (a ++ '.' :: b) = (a ++ '.' :: b, []) := by
    have := scan_append (stop := fun c => c == ',' || c == '-') (a := a ++ '.' :: b) (b := []) hstop (by simp)
    simpa using this
  have h3 : scan (· == '.') (a ++ '.' :: b) = (a, '.' :: b) := scan_append (plainCat_dot ha) (by simp)
  have h4 : ∀ e, addToken p (a ++ '.' :: b) e = none := by
    intro e
    rw [addToken, h3, hv, Option.bind_some]
    cases Ebitmap.setBit e (pred32 v) true with
    | none => rfl
    | some e' => rw [Option.bind_some, addRange, hw, Option.bind_some, if_pos h]
  have h5 : ∀ e, parseCats p (a ++ '.' :: b) e = none := by
    intro e; rw [parseCats_eq, h2, h4]; rfl
  dsimp only
  rw [h1]
  simp only [hm, delim, parseLevel, if_true, h5]
  cases p.levels s <;> simp

example : fromString demo "s0:c5.c5".toList = none ∧ fromString demo "s0:c5.c4".toList = none ∧
    (fromString demo "s0:c5.c6".toList).isSome = true := by decide +kernel

/-- The context of the counterexample: categories c62, c63 and c128. -/
def gapCtx : Context := ⟨1, 2, 1, ⟨⟨1, gapSet⟩, ⟨1, gapSet⟩⟩⟩

/-- C10 refuted in general: there are a policy with unambiguous names and a valid
context whose printed range parses to a different, larger category set: the
categories c62, c63, c128 print as `s0:c62.c128`. -/
theorem C10_wrong_categories :
    ∃ (p : Policy) (c : Context), WFPolicy p ∧ Authorised p c ∧ WFRange c.range ∧
      Named p c.range.low ∧ Named p c.range.high ∧
      toString p c.range = some "s0:c62.c128".toList ∧
      ∃ r, fromString p "s0:c62.c128".toList = some r ∧ HasCat r.low 100 ∧ ¬ HasCat c.range.low 100 := by
  refine ⟨demo, gapCtx, demo_wf, (C09_valid_iff_authorised (c := gapCtx) demo_wf ⟨gapSet_wf, gapSet_wf⟩).1 (by decide +kernel),
    ⟨gapSet_wf, gapSet_wf⟩, demo_named _ gapSet_wf (by decide) 1 (.inl rfl),
    demo_named _ gapSet_wf (by decide) 1 (.inl rfl), by decide +kernel, ?_⟩
  have h : (fromString demo "s0:c62.c128".toList).map (fun r => Ebitmap.getBit r.low.cat 100) = some true := by
    decide +kernel
  obtain ⟨r, h1, h2⟩ := Option.map_eq_some_iff.1 h
  exact ⟨r, h1, h2, by unfold HasCat; decide +kernel⟩

/-! ## C11: security context text -/

/-- C11 (round trip, partial as C10): a valid context printed by `context_to_string` is
read back by `context_from_string` as the same context. -/
theorem C11_round_trip_partial {p : Policy} {c : Context} (hv : isValid p c = true) (hc : CNames p)
    (hw : WFRange c.range) (hn : IdsNamed p c)
    (hm : p.mls = true → Named p c.range.low ∧ Named p c.range.high ∧ NoGapAfterFullWord c.range.low ∧
      NoGapAfterFullWord c.range.high)
    (hnm : p.mls = false → c.range = emptyRange) :
    ∃ t, contextToString p c = some t ∧ contextFromString p t = .ok c := by
  obtain ⟨u, ud, hu, huc, hul, huv⟩ := hn.user
  obtain ⟨r, rd, hr, hrc, hrl, hrv⟩ := hn.role
  obtain ⟨t, td, ht, htc, htl, htv, htf⟩ := hn.type
  have hpos : c.user ≠ 0 ∧ c.role ≠ 0 ∧ c.type ≠ 0 := by
    unfold isValid at hv
    split at hv; · cases hv
    split at hv; · cases hv
    split at hv; · cases hv
    refine ⟨?_, ?_, ?_⟩ <;> omega
  have tw := takeWhile_nul
  have hcolon : ∀ s : Str, ':' ∈ s → s ≠ noneStr := by
    rintro s hs rfl; revert hs; decide
  have nu := hc.user _ _ hu
  have nr := hc.role _ _ hr
  have nt := hc.type _ _ ht
  cases hmls : p.mls with
  | false =>
    have he := hnm hmls
    have hctx : (⟨c.user, c.role, c.type, emptyRange⟩ : Context) = c := by cases c; simp only at he; simp [he]
    refine ⟨u ++ ':' :: (r ++ ':' :: (t ++ [])), by simp [contextToString, nameOf, hpos, hu, hr, ht, sidToContext, hmls], ?_⟩
    unfold contextFromString
    rw [if_neg (by simp), tw _ (by simp [nu, nr, nt])]
    unfold recordFromString
    rw [if_neg (hcolon _ (by simp)), splitColon_append huc]
    dsimp only
    rw [splitColon_append hrc]
    dsimp only
    rw [List.append_nil, splitColon_none htc]
    dsimp only
    simp only [contextFromRecord, hul, hrl, htl, htf, if_false, hmls]
    simp [huv, hrv, htv, hctx, hv]
  | true =>
    obtain ⟨g1, g2, g3, g4⟩ := hm hmls
    obtain ⟨m, h1, h2⟩ := sid_round hmls hw g1 g2 g3 g4
    have hctx : (⟨c.user, c.role, c.type, c.range⟩ : Context) = c := rfl
    have nm := sidToContext_nul hc h1
    refine ⟨u ++ ':' :: (r ++ ':' :: (t ++ ':' :: m)), by simp [contextToString, nameOf, hpos, hu, hr, ht, h1], ?_⟩
    unfold contextFromString
    rw [if_neg (by simp), tw _ (by
      have : '\x00' ∉ m := fun e => nm (by simp [e])
      simp [nu, nr, nt, this])]
    unfold recordFromString
    rw [if_neg (hcolon _ (by simp)), splitColon_append huc]
    dsimp only
    rw [splitColon_append hrc]
    dsimp only
    rw [splitColon_append htc]
    dsimp only
    simp only [contextFromRecord, hul, hrl, htl, htf, if_false, hmls, if_true, h2, huv, hrv, htv, hctx, hv]

/-- C11: a context returned by `context_from_string` is always an authorised one, and
its user, role and type are the ones named by the first three components of the
text, the type not being an attribute. -/
theorem C11_from_string_sound {p : Policy} (hp : WFPolicy p) {s : Str} (hs : '\x00' ∉ s) {c : Context}
    (h : contextFromString p s = .ok c) :
    isValid p c = true ∧ WFRange c.range ∧ Authorised p c ∧
    ∃ u r t ud rd td, p.users u = some ud ∧ p.roles r = some rd ∧ p.types t = some td ∧
      c.user = ud.value ∧ c.role = rd.value ∧ c.type = td.value ∧ td.flavor ≠ TYPE_ATTRIB ∧
      ((p.mls = false ∧ s = u ++ ':' :: (r ++ ':' :: t)) ∨
       (p.mls = true ∧ ∃ m, s = u ++ ':' :: (r ++ ':' :: (t ++ ':' :: m)) ∧ fromString p m = some c.range)) := by
  unfold contextFromString at h
  split at h; · cases h
  rw [takeWhile_nul _ hs] at h
  split at h
  · cases h
  · cases h
  · cases h
  · rename_i rec hrec
    have htext := recordFromString_text hrec
    split at h; · cases h
    rename_i c' hc
    cases h
    unfold contextFromRecord at hc
    split at hc
    · rename_i ud rd td hu hr ht
      split at hc; · cases hc
      rename_i hfl
      dsimp only at hc
      split at hc; · cases hc
      rename_i range hrg
      split at hc
      · rename_i hv
        cases hc
        have hwf : WFRange range := by
          split at hrg
          · split at hrg
            · exact contextToSid_wf hp wf_empty hrg
            · cases hrg
          · split at hrg
            · cases hrg
            · cases hrg; exact wf_empty
        refine ⟨hv, hwf, (isValid_iff hp hwf).1 hv, rec.user, rec.role, rec.type, ud, rd, td, hu, hr, ht, rfl, rfl, rfl,
          hfl, ?_⟩
        rw [htext]
        unfold recordToString
        split at hrg
        · rename_i m hmm
          split at hrg
          · rename_i hml
            exact .inr ⟨hml, m, rfl, hrg⟩
          · cases hrg
        · rename_i hmm
          split at hrg
          · cases hrg
          · rename_i hml
            exact .inl ⟨by simpa using hml, rfl⟩
      · cases hc
    · cases hc

/-- C11, a defect: the text `<<none>>` does not produce an error but a NULL dereference. -/
theorem C11_none_undefined (p : Policy) : contextFromString p "<<none>>".toList = .ub := by
  unfold contextFromString
  rw [if_neg (by decide), show ("<<none>>".toList.takeWhile (· ≠ Char.ofNat 0)) = noneStr by decide]
  unfold recordFromString
  rw [if_pos rfl]

/-- Non-vacuity: the demo context satisfies all hypotheses of the round trip. -/
example : isValid demo demoCtx = true ∧ CNames demo ∧ WFRange demoCtx.range ∧ IdsNamed demo demoCtx ∧
    contextToString demo demoCtx = some "u:r:t:s0:c0.c2,c5,c63,c64,c130-s1:c0.c2,c5,c63,c64,c130".toList ∧
    contextFromString demo "u:r:t:s0:c0.c2,c5,c63,c64,c130-s1:c0.c2,c5,c63,c64,c130".toList = .ok demoCtx :=
  ⟨by decide +kernel, demo_names, ⟨demoSet_wf, demoSet_wf⟩,
    ⟨⟨['u'], demoUser, rfl, by decide, rfl, rfl⟩, ⟨['r'], demoRole, rfl, by decide, rfl, rfl⟩,
      ⟨['t'], _, rfl, by decide, rfl, rfl, by decide⟩⟩, by decide +kernel, by decide +kernel⟩

/-- C11: copying and comparing contexts: the copy equals the original, and `context_cmp`
is equality of all components and categories. -/
theorem C11_cmp_cpy {c1 c2 : Context} (h1 : WFRange c1.range) (h2 : WFRange c2.range) :
    contextCpy c1 = c1 ∧ (contextCmp c1 c2 = true ↔ c1 = c2) := by
  constructor
  · unfold contextCpy; rw [rangeCpy_eq]
  · unfold contextCmp mlsContextCmp rangeEq
    simp only [Bool.and_eq_true, beq_iff_eq, levelEq_iff h1.1 h2.1, levelEq_iff h1.2 h2.2]
    constructor
    · rintro ⟨⟨⟨a, b⟩, c⟩, d, e⟩
      have hd := same_eq h1.1 h2.1 d
      have he := same_eq h1.2 h2.2 e
      rcases c1 with ⟨_, _, _, ⟨_, _⟩⟩; rcases c2 with ⟨_, _, _, ⟨_, _⟩⟩
      simp only at a b c hd he
      subst a b c hd he; rfl
    · rintro rfl
      exact ⟨⟨⟨rfl, rfl⟩, rfl⟩, ⟨rfl, fun _ => Iff.rfl⟩, ⟨rfl, fun _ => Iff.rfl⟩⟩

/-! ## C42: the buffer is exactly large enough -/

/-- C42: `mls_compute_context_len` computes exactly the number of characters
`mls_sid_to_context` writes, and the allocation of `context_to_string` is exactly
the string plus its terminating NUL, for every policy and context (the two agree
even on which accesses are undefined). -/
theorem C42_exact_length (p : Policy) (c : Context) :
    computeContextLen p c.range = (sidToContext p c.range).map List.length ∧
    contextStringSize p c = (contextToString p c).map (fun t => t.length + 1) := by
  have h : computeContextLen p c.range = (sidToContext p c.range).map List.length := by
    unfold computeContextLen sidToContext
    rw [level_len, level_len]
    split
    · cases levelText p c.range.low with
      | none => simp
      | some lo =>
        by_cases he : levelEq c.range.low c.range.high = true
        · simp [he]; omega
        · cases levelText p c.range.high <;> simp [he]; omega
    · simp
  refine ⟨h, ?_⟩
  unfold contextStringSize contextToString
  rw [h]
  cases nameOf p.userName c.user <;> simp
  cases nameOf p.roleName c.role <;> simp
  cases nameOf p.typeName c.type <;> simp
  cases sidToContext p c.range <;> simp
  omega

example : contextStringSize demo demoCtx = some 56 := by decide +kernel

/-! ## C43: greatest lower / least upper bound of ranges -/

/-- C43: `mls_range_glblub` fails exactly when the ranges have no sensitivity in common;
otherwise the sensitivity interval is the intersection, each category set the
intersection of the corresponding sets, and the result of two valid ranges is a
valid range. -/
theorem C43_glblub {r1 r2 : Range} (h1 : WFRange r1) (h2 : WFRange r2)
    (d1 : Dominates r1.high r1.low) (d2 : Dominates r2.high r2.low) :
    (rangeGlblub r1 r2 = none ↔ ¬ ∃ s, (r1.low.sens ≤ s ∧ s ≤ r1.high.sens) ∧ (r2.low.sens ≤ s ∧ s ≤ r2.high.sens)) ∧
    ∀ r, rangeGlblub r1 r2 = some r →
      WFRange r ∧ Dominates r.high r.low ∧
      (∀ s, (r.low.sens ≤ s ∧ s ≤ r.high.sens) ↔
        (r1.low.sens ≤ s ∧ s ≤ r1.high.sens) ∧ (r2.low.sens ≤ s ∧ s ≤ r2.high.sens)) ∧
      (∀ b, HasCat r.low b ↔ HasCat r1.low b ∧ HasCat r2.low b) ∧
      (∀ b, HasCat r.high b ↔ HasCat r1.high b ∧ HasCat r2.high b) := by
  have e1 := d1.1
  have e2 := d2.1
  unfold rangeGlblub
  constructor
  · split
    · rename_i h
      simp only [true_iff]
      rintro ⟨s, hs⟩; omega
    · rename_i h
      simp only [reduceCtorEq, false_iff, Classical.not_not]
      exact ⟨max r1.low.sens r2.low.sens, by omega⟩
  · intro r hr
    split at hr
    · cases hr
    · rename_i h
      cases hr
      have cl : ∀ b, HasCat ⟨max r1.low.sens r2.low.sens, Ebitmap.and r1.low.cat r2.low.cat⟩ b ↔
          HasCat r1.low b ∧ HasCat r2.low b := by
        intro b
        show Ebitmap.getBit (Ebitmap.and r1.low.cat r2.low.cat) b = true ↔ _
        rw [(Ebitmap.C02_or_and_xor h1.1 h2.1).2.2.1.2 b, Bool.and_eq_true]; rfl
      have ch : ∀ b, HasCat ⟨min r1.high.sens r2.high.sens, Ebitmap.and r1.high.cat r2.high.cat⟩ b ↔
          HasCat r1.high b ∧ HasCat r2.high b := by
        intro b
        show Ebitmap.getBit (Ebitmap.and r1.high.cat r2.high.cat) b = true ↔ _
        rw [(Ebitmap.C02_or_and_xor h1.2 h2.2).2.2.1.2 b, Bool.and_eq_true]; rfl
      refine ⟨⟨wf_of_inv (Ebitmap.inv_and (inv_of_wf h1.1) (inv_of_wf h2.1)),
        wf_of_inv (Ebitmap.inv_and (inv_of_wf h1.2) (inv_of_wf h2.2))⟩, ⟨?_, ?_⟩, ?_, cl, ch⟩
      · show max r1.low.sens r2.low.sens ≤ min r1.high.sens r2.high.sens
        omega
      · intro b hb
        rw [ch]
        have := (cl b).1 hb
        exact ⟨d1.2 b this.1, d2.2 b this.2⟩
      · intro s
        show max r1.low.sens r2.low.sens ≤ s ∧ s ≤ min r1.high.sens r2.high.sens ↔ _
        omega

example : (rangeGlblub ⟨⟨1, demoSet⟩, ⟨2, demoSet⟩⟩ ⟨⟨2, gapSet⟩, ⟨3, demoAll⟩⟩).map (fun r => (r.low.sens, r.high.sens)) =
    some (2, 2) ∧ rangeGlblub ⟨⟨1, demoSet⟩, ⟨1, demoSet⟩⟩ ⟨⟨2, gapSet⟩, ⟨3, demoAll⟩⟩ = none := by decide +kernel

/-! ## C44: the range of a login context -/

/-- C44: a range computed by `mls_setup_user_range` for a user, starting from any valid
range, is itself valid, lies inside the user's authorised range, and its clearance
does not exceed the clearance of the originating context. -/
theorem C44_user_range {fromcon usercon r : Range} {u : UserDatum} (hf : WFRange fromcon) (hu : WFRange u.expRange)
    (hd : WFLevel u.expDfltLevel) (vf : Dominates fromcon.high fromcon.low)
    (vd1 : Dominates u.expDfltLevel u.expRange.low) (vd2 : Dominates u.expRange.high u.expDfltLevel)
    (h : setupUserRange fromcon u usercon true = some r) :
    Dominates r.high r.low ∧ Dominates r.low u.expRange.low ∧ Dominates u.expRange.high r.high ∧
      Dominates fromcon.high r.high := by
  have tr : ∀ {a b c : Level}, Dominates a b → Dominates b c → Dominates a c := fun h1 h2 =>
    ⟨Nat.le_trans h2.1 h1.1, fun x hx => h1.2 x (h2.2 x hx)⟩
  have rf : ∀ a, Dominates a a := fun a => ⟨Nat.le_refl _, fun _ h => h⟩
  unfold setupUserRange levelBetween at h
  rw [if_pos rfl] at h
  dsimp only at h
  split at h
  · cases h
  · rename_i sen hs
    have key : Dominates sen u.expRange.low ∧ Dominates u.expRange.high sen ∧ Dominates fromcon.high sen := by
      split at hs
      · rename_i hb; cases hs
        rw [Bool.and_eq_true, levelDom_iff hd hf.1, levelDom_iff hf.2 hd] at hb
        exact ⟨vd1, vd2, hb.2⟩
      · split at hs
        · rename_i hb; cases hs
          rw [Bool.and_eq_true, levelDom_iff hf.1 hd, levelDom_iff hu.2 hf.1] at hb
          exact ⟨tr hb.1 vd1, hb.2, vf⟩
        · split at hs
          · rename_i hb; cases hs
            rw [Bool.and_eq_true, levelDom_iff hf.2 hu.1, levelDom_iff hd hf.2] at hb
            exact ⟨rf _, tr vd2 vd1, hb.1⟩
          · cases hs
    split at h
    · rename_i hb; cases h
      rw [levelDom_iff hu.2 hf.2] at hb
      exact ⟨key.2.2, key.1, hb, rf _⟩
    · split at h
      · rename_i hb; cases h
        rw [levelDom_iff hf.2 hu.2] at hb
        exact ⟨key.2.1, key.1, rf _, hb⟩
      · cases h

example : setupUserRange demoCtx.range demoUser emptyRange true = some demoCtx.range ∧
    Dominates demoCtx.range.high demoCtx.range.low ∧ Dominates demoUser.expDfltLevel demoUser.expRange.low ∧
    Dominates demoUser.expRange.high demoUser.expDfltLevel := by
  refine ⟨by decide +kernel, ⟨by decide, fun _ h => h⟩, ⟨by decide, fun _ h => h⟩, ⟨by decide, ?_⟩⟩
  intro b hb
  have : Ebitmap.getBit Ebitmap.init b = false := by rw [Ebitmap.getBit_eq Ebitmap.inv_init]; rfl
  unfold HasCat at hb
  rw [show demoUser.expDfltLevel.cat = Ebitmap.init from rfl, this] at hb
  cases hb

/-! ## C45: conversion of contexts to another policy -/

theorem convertCats_spec {oldp newp : Policy} :
    ∀ (l : List Nat) {e e' : Ebitmap}, EInv e → convertCats oldp newp l e = some e' →
      EInv e' ∧ ∀ c, Ebitmap.getBit e' c = true ↔ Ebitmap.getBit e c = true ∨
        ∃ i ∈ l, ∃ n v, oldp.catName i = some n ∧ newp.cats n = some v ∧ c = pred32 v
  | [], e, e', h, hc => by
    simp only [convertCats] at hc; cases hc
    exact ⟨h, by simp⟩
  | i :: l, e, e', h, hc => by
    simp only [convertCats, Option.bind_eq_bind, Option.bind_eq_some_iff] at hc
    obtain ⟨n, hn, v, hv, e1, h1, hc⟩ := hc
    obtain ⟨i1, b1⟩ := setBit_inv h (pred32_lt v) h1
    obtain ⟨i2, b2⟩ := convertCats_spec l i1 hc
    refine ⟨i2, fun c => ?_⟩
    rw [b2, b1, or_assoc]
    refine or_congr Iff.rfl ?_
    constructor
    · rintro (rfl | ⟨j, hj, h⟩)
      · exact ⟨i, by simp, n, v, hn, hv, rfl⟩
      · exact ⟨j, by simp [hj], h⟩
    · rintro ⟨j, hj, n', v', hn', hv', hc'⟩
      rcases List.mem_cons.1 hj with rfl | hj
      · rw [hn] at hn'; cases hn'
        rw [hv] at hv'; cases hv'
        exact .inl hc'
      · exact .inr ⟨j, hj, n', v', hn', hv', hc'⟩

/-- C45: when `mls_convert_context` succeeds, each level of the converted context names in
the new policy what it named in the old one: the same sensitivity name, and exactly
the categories whose names the old level contained. -/
theorem C45_convert {oldp newp : Policy} (hm : oldp.mls = true) {r r' : Range} (hw : WFRange r)
    (hv : ∀ n v, newp.cats n = some v → 1 ≤ v ∧ v ≤ 2^32)
    (h : convertContext oldp newp r = some r') :
    ∀ l l', (l = r.low ∧ l' = r'.low) ∨ (l = r.high ∧ l' = r'.high) →
      WFLevel l' ∧
      (∃ n lev, oldp.sensName (l.sens - 1) = some n ∧ newp.levels n = some lev ∧ l'.sens = lev.sens) ∧
      (∀ c, HasCat l' c ↔ ∃ b n, HasCat l b ∧ oldp.catName b = some n ∧ newp.cats n = some (c + 1)) ∧
      (∀ b, HasCat l b → ∃ n v, oldp.catName b = some n ∧ newp.cats n = some v) := by
  have step : ∀ {l l' : Level}, WFLevel l → convertLevel oldp newp l = some l' → WFLevel l' ∧
      (∃ n lev, oldp.sensName (l.sens - 1) = some n ∧ newp.levels n = some lev ∧ l'.sens = lev.sens) ∧
      (∀ c, HasCat l' c ↔ ∃ b n, HasCat l b ∧ oldp.catName b = some n ∧ newp.cats n = some (c + 1)) ∧
      (∀ b, HasCat l b → ∃ n v, oldp.catName b = some n ∧ newp.cats n = some v) := by
    intro l l' hwl hl
    unfold convertLevel at hl
    by_cases h0 : l.sens = 0
    · simp [h0] at hl
    obtain ⟨L, hL, hmem⟩ := posBits hwl
    rw [hL] at hl
    simp only [h0, if_false, Option.bind_eq_bind, Option.bind_some, Option.bind_eq_some_iff] at hl
    obtain ⟨n, hn, lev, hlev, cat, hcat, hl⟩ := hl
    cases hl
    obtain ⟨i1, b1⟩ := convertCats_spec _ Ebitmap.inv_init hcat
    have init0 : ∀ c, Ebitmap.getBit Ebitmap.init c = false := by
      intro c; rw [Ebitmap.getBit_eq Ebitmap.inv_init]; rfl
    refine ⟨wf_of_inv i1, ⟨n, lev, hn, hlev, rfl⟩, ?_, ?_⟩
    · intro c
      show Ebitmap.getBit cat c = true ↔ _
      rw [b1, init0]
      simp only [Bool.false_eq_true, false_or, hmem]
      constructor
      · rintro ⟨i, hi, m, v, hm', hv', rfl⟩
        refine ⟨i, m, hi, hm', ?_⟩
        obtain ⟨g1, g2⟩ := hv _ _ hv'
        rw [hv']
        congr 1
        unfold pred32; omega
      · rintro ⟨b, m, hb, hm', hv'⟩
        refine ⟨b, hb, m, c + 1, hm', hv', ?_⟩
        have := (hv _ _ hv').2
        rw [pred32_succ (by omega)]
    · have all : ∀ (l : List Nat) (e e' : Ebitmap), convertCats oldp newp l e = some e' → ∀ b ∈ l,
          ∃ n v, oldp.catName b = some n ∧ newp.cats n = some v := by
        intro l
        induction l with
        | nil => simp
        | cons i l ih =>
          intro e e' hc b hb
          simp only [convertCats, Option.bind_eq_bind, Option.bind_eq_some_iff] at hc
          obtain ⟨n, hn, v, hv, e1, _, hc⟩ := hc
          rcases List.mem_cons.1 hb with rfl | hb
          · exact ⟨n, v, hn, hv⟩
          · exact ih _ _ hc b hb
      intro b hb
      exact all _ _ _ hcat b ((hmem b).2 hb)
  unfold convertContext at h
  simp only [hm, Bool.not_true, Bool.false_eq_true, if_false, Option.bind_eq_bind, Option.bind_eq_some_iff] at h
  obtain ⟨lo, hlo, hi, hhi, h⟩ := h
  cases h
  rintro l l' (⟨rfl, rfl⟩ | ⟨rfl, rfl⟩)
  · exact step hw.1 hlo
  · exact step hw.2 hhi

/-- C45: converting to the same policy (with consistent names) changes nothing. -/
theorem C45_convert_self {p : Policy} (hm : p.mls = true) {r r' : Range} (hw : WFRange r)
    (hv : ∀ n v, p.cats n = some v → 1 ≤ v ∧ v ≤ 2^32)
    (hl : Named p r.low) (hh : Named p r.high) (h : convertContext p p r = some r') : r' = r := by
  have key : ∀ l l', (l = r.low ∧ l' = r'.low) ∨ (l = r.high ∧ l' = r'.high) → WFLevel l → Named p l → l' = l := by
    intro l l' hll hwl hn
    obtain ⟨h1, ⟨n, lev, h2, h3, h4⟩, h5, h6⟩ := C45_convert hm hw hv h l l' hll
    refine same_eq h1 hwl ⟨?_, fun c => ?_⟩
    · obtain ⟨_, n', lev', g1, _, g2, g3⟩ := hn.sens
      rw [g1] at h2; cases h2
      rw [g2] at h3; cases h3
      rw [h4, g3]
    · rw [h5]
      constructor
      · rintro ⟨b, n, hb, hnm, hc⟩
        obtain ⟨n', g1, _, g2⟩ := hn.cats b hb
        rw [g1] at hnm; cases hnm
        rw [g2] at hc; cases hc
        exact hb
      · intro hb
        obtain ⟨n', g1, _, g2⟩ := hn.cats c hb
        exact ⟨c, n', hb, g1, g2⟩
  have k1 := key _ _ (.inl ⟨rfl, rfl⟩) hw.1 hl
  have k2 := key _ _ (.inr ⟨rfl, rfl⟩) hw.2 hh
  cases r; cases r'; simp only at k1 k2; rw [k1, k2]

example : (convertContext demo demo demoCtx.range) = some demoCtx.range ∧
    (∀ n v, demo.cats n = some v → 1 ≤ v ∧ v ≤ 2^32) := by
  refine ⟨by decide +kernel, fun n v h => ?_⟩
  have h1 := demo_wf.catVal n v h
  simp only [demo, Option.map_eq_some_iff] at h
  obtain ⟨i, _, rfl⟩ := h
  omega

end Verif.Mls
