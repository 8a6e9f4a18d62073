import Verif.Mls.Lemmas

/-! # Auxiliary facts: parsed ranges are well formed; validity; NUL-freeness -/

namespace Verif.Mls

open Verif.Policy

theorem wf_of_inv {e : Ebitmap} (h : EInv e) : Ebitmap.WF e := (Ebitmap.wf_iff_inv _).2 h

theorem setBit_inv {e e' : Ebitmap} (h : EInv e) {b : Nat} (hb : b < 2^32)
    (hs : Ebitmap.setBit e b true = some e') :
    EInv e' ∧ ∀ c, Ebitmap.getBit e' c = true ↔ Ebitmap.getBit e c = true ∨ c = b := by
  by_cases hb' : b < 2^32 - 64
  · obtain ⟨e1, h1, h2⟩ := adds_set h hb'
    rw [h1] at hs
    cases hs; exact h2
  · rw [Ebitmap.setBit_none true (by omega) hb] at hs; cases hs

theorem setBits_inv : ∀ (l : List Nat) {e e' : Ebitmap}, EInv e → (∀ b ∈ l, b < 2^32) →
    setBits l e = some e' → EInv e'
  | [], _, _, h, _, hs => by simp only [setBits] at hs; cases hs; exact h
  | b :: bs, e, e', h, hb, hs => by
    simp only [setBits] at hs
    split at hs
    · cases hs
    · rename_i e1 h1
      exact setBits_inv bs (setBit_inv h (hb b (by simp)) h1).1 (fun b hb' => hb b (by simp [hb'])) hs

theorem pred32_lt (v : Nat) : pred32 v < 2^32 := by unfold pred32; omega

theorem addToken_inv {p : Policy} (hp : WFPolicy p) {tok : Str} {e e' : Ebitmap} (h : EInv e)
    (ha : addToken p tok e = some e') : EInv e' := by
  rw [addToken] at ha
  obtain ⟨v, hv, ha⟩ := Option.bind_eq_some_iff.1 ha
  obtain ⟨e1, h1, ha⟩ := Option.bind_eq_some_iff.1 ha
  have i1 := (setBit_inv h (pred32_lt v) h1).1
  unfold addRange at ha
  split at ha
  · cases ha; exact i1
  · obtain ⟨rv, hrv, ha⟩ := Option.bind_eq_some_iff.1 ha
    split at ha
    · cases ha
    · refine setBits_inv _ i1 ?_ ha
      intro b hb
      have := hp.catVal _ _ hrv
      rw [List.mem_range'_1] at hb
      omega

theorem parseCats_inv {p : Policy} (hp : WFPolicy p) : ∀ (n : Nat) (s : Str) (e : Ebitmap), s.length ≤ n → EInv e →
    ∀ r, parseCats p s e = some r → EInv r.1 := by
  intro n
  induction n with
  | zero =>
    intro s e hs h r hr
    have : s = [] := List.length_eq_zero_iff.1 (by omega)
    subst this
    rw [parseCats_eq] at hr
    obtain ⟨e1, h1, hr⟩ := Option.bind_eq_some_iff.1 hr
    simp only [scan, cont] at hr
    cases hr
    exact addToken_inv hp h h1
  | succ n ih =>
    intro s e hs h r hr
    rw [parseCats_eq] at hr
    obtain ⟨e1, h1, hr⟩ := Option.bind_eq_some_iff.1 hr
    have i1 := addToken_inv hp h h1
    have hl := scan_len (fun c => c == ',' || c == '-') s
    revert hr hl
    generalize (scan (fun c => c == ',' || c == '-') s).2 = q
    intro hr hl
    unfold cont at hr
    split at hr
    · cases hr; exact i1
    · simp only [List.length_cons] at hl
      split at hr
      · exact ih _ e1 (by omega) i1 r hr
      · cases hr; exact i1

theorem parseLevel_inv {p : Policy} (hp : WFPolicy p) {tok rest : Str} {d : Option Char} {e : Ebitmap} (h : EInv e)
    {r} (hr : parseLevel p tok d rest e = some r) : WFLevel r.1 := by
  unfold parseLevel at hr
  split at hr
  · cases hr
  · split at hr
    · split at hr
      · cases hr
      · rename_i hc
        cases hr
        exact wf_of_inv (parseCats_inv hp _ _ _ (Nat.le_refl _) h _ hc)
    · cases hr; exact wf_of_inv h

theorem levelCpy_eq (l : Level) : levelCpy l = l := by
  unfold levelCpy; rw [Ebitmap.cpy_eq]

theorem rangeCpy_eq (r : Range) : rangeCpy r = r := by
  unfold rangeCpy; rw [levelCpy_eq, levelCpy_eq]

theorem wf_empty : WFRange emptyRange := ⟨wf_of_inv Ebitmap.inv_init, wf_of_inv Ebitmap.inv_init⟩

theorem contextToSid_wf {p : Policy} (hp : WFPolicy p) {b : Bool} {s : Str} {r r' : Range} (h : WFRange r)
    (hr : contextToSid p b s r = some r') : WFRange r' := by
  unfold contextToSid at hr
  split at hr
  · cases hr; exact h
  · split at hr
    · cases hr
    · dsimp only at hr
      split at hr
      · cases hr
      · rename_i lo d rest hlo
        have wlo := parseLevel_inv hp (inv_of_wf h.1) hlo
        split at hr
        · split at hr
          · cases hr
          · rename_i hhi
            have whi := parseLevel_inv hp (inv_of_wf h.2) hhi
            cases hr
            exact ⟨wlo, whi⟩
        · cases hr
          rw [levelCpy_eq]
          exact ⟨wlo, wlo⟩

/-- What `ebitmap_for_each_positive_bit` visits, as a set. -/
theorem posBits {l : Level} (hw : WFLevel l) :
    ∃ L, Ebitmap.forEachPositiveBit (l.cat.highbit + 1) l.cat = some L ∧ ∀ b, b ∈ L ↔ HasCat l b := by
  refine ⟨_, Ebitmap.C04_for_each_positive_bit hw (Nat.le_refl _), fun b => ?_⟩
  rw [List.mem_filter, List.mem_range]
  constructor
  · exact fun h => h.2
  · intro h
    have := bit_bound (inv_of_wf hw) h
    exact ⟨by omega, h⟩

/-! ## Validity -/

theorem levelValid_iff {p : Policy} (hp : WFPolicy p) {l : Level} (hw : WFLevel l) :
    levelValid p l = true ↔ LevelExists p l := by
  unfold levelValid LevelExists
  rw [Ebitmap.C04_for_each_positive_bit hw (Nat.le_refl _)]
  by_cases hs : l.sens = 0 ∨ l.sens > p.nLevels
  · rw [if_pos hs]
    constructor
    · intro h; cases h
    · rintro ⟨h1, h2, _⟩; omega
  · rw [if_neg hs]
    have h1 : 1 ≤ l.sens := by omega
    have h2 : l.sens ≤ p.nLevels := by omega
    cases hn : p.sensName (l.sens - 1) with
    | none => simp
    | some name =>
      simp only
      cases hl : p.levels name with
      | none => simp [hl]
      | some lev =>
        simp only [List.all_eq_true, List.mem_filter, List.mem_range, and_imp]
        constructor
        · intro h
          refine ⟨h1, h2, name, lev, rfl, hl, fun b hb => ?_⟩
          have hb' := h b (by have := bit_bound (inv_of_wf hw) hb; omega) hb
          simp only [Bool.and_eq_true] at hb'
          exact ⟨hp.levelCats _ _ hl b hb'.2, hb'.2⟩
        · rintro ⟨_, _, name', lev', hn', hl', h⟩ b _ hb
          cases hn'
          rw [hl] at hl'; cases hl'
          obtain ⟨g1, g2⟩ := h b hb
          have : ¬ b > p.nCats := by omega
          simp only [this, decide_false, Bool.not_false, Bool.true_and]
          exact g2

theorem mls_valid_iff {p : Policy} (hp : WFPolicy p) {c : Context} (hw : WFRange c.range) :
    contextIsValid p c = true ↔
      (p.mls = true → Dominates c.range.high c.range.low ∧ LevelExists p c.range.low ∧ LevelExists p c.range.high ∧
        (c.role = OBJECT_R_VAL ∨ ((1 ≤ c.user ∧ c.user ≤ p.nUsers) ∧ ∃ d, p.userStruct (c.user - 1) = some d ∧
          Dominates c.range.low d.expRange.low ∧ Dominates d.expRange.high c.range.high))) := by
  unfold contextIsValid
  cases hm : p.mls with
  | false => simp
  | true =>
    simp only [Bool.not_true, Bool.false_eq_true, if_false, forall_const]
    rw [← levelDom_iff hw.2 hw.1, ← levelValid_iff hp hw.1, ← levelValid_iff hp hw.2]
    cases levelDom c.range.high c.range.low <;> cases levelValid p c.range.low <;>
      cases levelValid p c.range.high <;> simp
    by_cases hr : c.role = OBJECT_R_VAL
    · simp [hr]
    · simp only [hr, if_false, false_or]
      refine and_congr (by omega) ?_
      cases hd : p.userStruct (c.user - 1) with
      | none => simp
      | some d =>
        simp only [Option.some.injEq, exists_eq_left']
        unfold rangeContains
        have := hp.userRange _ _ hd
        rw [Bool.and_eq_true, levelDom_iff hw.1 this.1, levelDom_iff this.2 hw.2]

theorem isValid_iff {p : Policy} (hp : WFPolicy p) {c : Context} (hw : WFRange c.range) :
    isValid p c = true ↔ Authorised p c := by
  have hm := mls_valid_iff hp hw
  unfold isValid
  constructor
  · intro h
    split at h; · cases h
    rename_i h1
    split at h; · cases h
    rename_i h2
    split at h; · cases h
    rename_i h3
    split at h
    · rename_i h4
      split at h; · cases h
      rename_i role hr
      split at h; · cases h
      rename_i h5
      split at h; · cases h
      rename_i usr hu
      split at h; · cases h
      rename_i h6
      have m := hm.1 h
      refine ⟨by omega, by omega, by omega, .inr ⟨role, hr, by simpa using h5⟩, .inr ⟨usr, hu, by simpa using h6⟩,
        fun e => (m e).1, fun e => (m e).2.1, fun e => (m e).2.2.1, fun e => ?_⟩
      rcases (m e).2.2.2 with h7 | h7
      · exact .inl h7
      · exact .inr h7.2
    · rename_i h4
      have h4 : c.role = OBJECT_R_VAL := by simpa using h4
      have m := hm.1 h
      exact ⟨by omega, by omega, by omega, .inl h4, .inl h4,
        fun e => (m e).1, fun e => (m e).2.1, fun e => (m e).2.2.1, fun e => .inl h4⟩
  · intro a
    have m := hm.2 fun e => ⟨a.dom e, a.low e, a.high e, (a.clearance e).imp_right fun h => ⟨a.user, h⟩⟩
    have := a.user; have := a.role; have := a.type
    rw [if_neg (by omega), if_neg (by omega), if_neg (by omega)]
    split
    · rename_i h4
      rcases a.roleType with h | ⟨d, h1, h2⟩
      · exact absurd h h4
      rcases a.userRole with h | ⟨u, g1, g2⟩
      · exact absurd h h4
      rw [h1, g1]
      simp [h2, g2, m]
    · exact m

/-! ## Text without NUL -/

theorem flush_nul {p : Policy} (hp : CNames p) {r i : Nat} {f : Str} (h : flush p r i = some f) : '\x00' ∉ f := by
  unfold flush at h
  split at h
  · obtain ⟨n, hn, rfl⟩ := Option.map_eq_some_iff.1 h
    have := hp.cat _ _ hn
    split <;> simp [this]
  · cases h; simp

theorem catLoop_nul {p : Policy} (hp : CNames p) (fin : Nat) : ∀ (l : List (Nat × Bool)) (r : Nat) (sep : Bool) (o : Str),
    catLoop p fin l r sep = some o → '\x00' ∉ o
  | [], r, sep, o, h => flush_nul hp h
  | (i, true) :: l, r, sep, o, h => by
    unfold catLoop at h
    split at h
    · exact catLoop_nul hp fin l _ _ _ h
    · simp only [Option.bind_eq_bind, Option.bind_eq_some_iff] at h
      obtain ⟨n, hn, q, hq, h⟩ := h
      cases h
      have h1 := hp.cat _ _ hn
      have h2 := catLoop_nul hp fin l _ _ _ hq
      split <;> simp [h1, h2]
  | (i, false) :: l, r, sep, o, h => by
    unfold catLoop at h
    simp only [Option.bind_eq_bind, Option.bind_eq_some_iff] at h
    obtain ⟨f, hf, q, hq, h⟩ := h
    cases h
    have h1 := flush_nul hp hf
    have h2 := catLoop_nul hp fin l _ _ _ hq
    simp [h1, h2]

theorem levelText_nul {p : Policy} (hp : CNames p) {l : Level} {t : Str} (h : levelText p l = some t) : '\x00' ∉ t := by
  unfold levelText at h
  by_cases h0 : l.sens = 0
  · simp [h0] at h
  · simp only [h0, if_false, Option.bind_eq_bind, Option.bind_eq_some_iff] at h
    obtain ⟨n, hn, v, _, c, hc, h⟩ := h
    cases h
    have h1 := hp.sens _ _ hn
    have h2 := catLoop_nul hp _ _ _ _ _ hc
    simp [h1, h2]

theorem sidToContext_nul {p : Policy} (hp : CNames p) {r : Range} {t : Str} (h : sidToContext p r = some t) :
    '\x00' ∉ t := by
  unfold sidToContext at h
  split at h
  · simp only [Option.bind_eq_bind, Option.bind_eq_some_iff] at h
    obtain ⟨lo, hlo, h⟩ := h
    have h1 := levelText_nul hp hlo
    split at h
    · cases h; simp [h1]
    · simp only [Option.bind_eq_some_iff] at h
      obtain ⟨hi, hhi, h⟩ := h
      have h2 := levelText_nul hp hhi
      cases h
      simp [h1, h2]
  · cases h; simp

theorem splitColon_append {a b : Str} (h : ':' ∉ a) : splitColon (a ++ ':' :: b) = some (a, b) := by
  have : scan (· == ':') (a ++ ':' :: b) = (a, ':' :: b) := by
    refine scan_append ?_ (by simp)
    intro c hc
    have : c ≠ ':' := fun e => h (e ▸ hc)
    simpa using this
  simp [splitColon, this]

theorem splitColon_none {a : Str} (h : ':' ∉ a) : splitColon a = none := by
  have : scan (· == ':') (a ++ []) = (a, []) := by
    refine scan_append ?_ (by simp)
    intro c hc
    have : c ≠ ':' := fun e => h (e ▸ hc)
    simpa using this
  rw [List.append_nil] at this
  simp [splitColon, this]

theorem takeWhile_nul (s : Str) (hs : '\x00' ∉ s) : s.takeWhile (· ≠ Char.ofNat 0) = s := by
  induction s with
  | nil => rfl
  | cons x s ih =>
    have h1 : x ≠ '\x00' := fun e => hs (by simp [e])
    have h2 := ih fun e => hs (by simp [e])
    rw [List.takeWhile_cons, if_pos (by simpa using h1), h2]

theorem scan_join (stop : Char → Bool) (s : Str) : (scan stop s).1 ++ (scan stop s).2 = s := by
  induction s with
  | nil => rfl
  | cons c cs ih => unfold scan; split <;> simp [ih]

theorem scan_stop (stop : Char → Bool) (s : Str) : ∀ c r, (scan stop s).2 = c :: r → stop c = true := by
  induction s with
  | nil => intro c r h; cases h
  | cons x cs ih =>
    intro c r h
    unfold scan at h
    split at h
    · cases h; assumption
    · exact ih c r h

theorem splitColon_text {s a b : Str} (h : splitColon s = some (a, b)) : s = a ++ ':' :: b := by
  unfold splitColon at h
  split at h
  · cases h
  · rename_i c r hc
    cases h
    have h1 := scan_join (· == ':') s
    have h2 := scan_stop (· == ':') s _ _ hc
    rw [hc] at h1
    simp only [beq_iff_eq] at h2
    rw [h2] at h1
    exact h1.symm

theorem recordFromString_text {s : Str} {r : Record} (h : recordFromString s = .ok (some r)) :
    s = recordToString r := by
  unfold recordFromString at h
  split at h
  · cases h
  · split at h
    · cases h
    · rename_i u s1 h1
      split at h
      · cases h
      · rename_i ro s2 h2
        split at h
        · cases h
          rw [splitColon_text h1, splitColon_text h2]; rfl
        · rename_i t m h3
          cases h
          rw [splitColon_text h1, splitColon_text h2, splitColon_text h3]; rfl

end Verif.Mls
