import Verif.Prelude
import Verif.CreateName.Model
import Verif.CreateName.Spec
import Verif.LabelObj.MediaProps
/-! # Properties of the request -/
namespace Verif.CreateName
open Verif.LabelObj (str cstr)
open Spec

/-- The bytes for one byte of a name. -/
def enc1 (c : UInt8) : Bytes :=
  if isalnum c || c == 45 || c == 46 || c == 95 || c == 126 then [c]
  else if c = 32 then [43]
  else [37, hexDigit (c.toNat / 16), hexDigit (c.toNat % 16)]

theorem plain_iff (c : UInt8) : (isalnum c || c == 45 || c == 46 || c == 95 || c == 126) = true ↔ plain c := by
  unfold isalnum plain
  simp only [Bool.or_eq_true, Bool.and_eq_true, decide_eq_true_eq, beq_iff_eq, List.mem_cons, List.not_mem_nil, or_false, UInt8.le_iff_toNat_le]
  have e1 : (48 : UInt8).toNat = 48 := rfl
  have e2 : (57 : UInt8).toNat = 57 := rfl
  have e3 : (65 : UInt8).toNat = 65 := rfl
  have e4 : (90 : UInt8).toNat = 90 := rfl
  have e5 : (97 : UInt8).toNat = 97 := rfl
  have e6 : (122 : UInt8).toNat = 122 := rfl
  rw [e1, e2, e3, e4, e5, e6]
  tauto

theorem enc1_length (c : UInt8) : (enc1 c).length = if plain c ∨ c = 32 then 1 else 3 := by
  unfold enc1
  by_cases hp : plain c
  · rw [if_pos ((plain_iff c).2 hp), if_pos (Or.inl hp)]; rfl
  · rw [if_neg (fun h => hp ((plain_iff c).1 h))]
    by_cases hs : c = 32
    · rw [if_pos hs, if_pos (Or.inr hs)]; rfl
    · rw [if_neg hs, if_neg (by tauto)]; rfl

theorem cost_eq (n : Bytes) : (n.flatMap enc1).length = cost n := by
  induction n with
  | nil => rfl
  | cons c n ih => rw [List.flatMap_cons, List.length_append, ih, enc1_length, cost]

theorem room_eq {b o : Nat} (h : o ≤ b) (hb : b < 2 ^ 64) : room b o = b - o := by
  unfold room
  rw [show b + 2 ^ 64 - o = (b - o) + 2 ^ 64 by omega, Nat.add_mod_right, Nat.mod_eq_of_lt (by omega)]

theorem encLoop_eq {buflen : Nat} (hb : buflen < 2 ^ 64) (n out : Bytes) (ho : out.length ≤ buflen) :
    encLoop buflen n out = if out.length + cost n + 1 ≤ buflen then .ok (out ++ n.flatMap enc1 ++ [0]) else .toolong := by
  induction n generalizing out with
  | nil =>
    rw [encLoop, room_eq ho hb]
    by_cases h : buflen - out.length < 1
    · rw [if_pos h, if_neg (by simp only [cost]; omega)]
    · rw [if_neg h, put, if_neg (by simp; omega), if_pos (by simp only [cost]; omega)]
      simp
  | cons c n ih =>
    have hl := enc1_length c
    have key : ∀ bs : Bytes, bs = enc1 c → 
        (if room buflen out.length < bs.length then Res.toolong else put buflen out bs (encLoop buflen n)) =
        if out.length + cost (c :: n) + 1 ≤ buflen then .ok (out ++ (c :: n).flatMap enc1 ++ [0]) else .toolong := by
      rintro bs rfl
      rw [cost, ← hl, room_eq ho hb]
      by_cases h : buflen - out.length < (enc1 c).length
      · rw [if_pos h, if_neg (by omega)]
      · rw [if_neg h, put, if_neg (by omega), ih _ (by rw [List.length_append]; omega)]
        rw [List.length_append, List.flatMap_cons]
        by_cases h2 : out.length + (enc1 c).length + cost n + 1 ≤ buflen
        · rw [if_pos h2, if_pos (by omega)]; simp
        · rw [if_neg h2, if_neg (by omega)]
    rw [encLoop]
    split
    · rename_i hp
      exact key [c] (by unfold enc1; rw [if_pos hp])
    · rename_i hp
      split
      · rename_i hs
        exact key [43] (by unfold enc1; rw [if_neg hp, if_pos hs])
      · rename_i hs
        exact key _ (by unfold enc1; rw [if_neg hp, if_neg hs])

theorem encode_eq {buflen : Nat} (h0 : 0 < buflen) (hb : buflen < 2 ^ 64) (n : Bytes) :
    encode buflen n = if cost n + 2 ≤ buflen then .ok (32 :: n.flatMap enc1 ++ [0]) else .toolong := by
  unfold encode
  rw [room_eq (Nat.zero_le _) hb, if_neg (by omega), put, if_neg (by simp; omega), encLoop_eq hb _ _ (by simp; omega)]
  by_cases h : cost n + 2 ≤ buflen
  · rw [if_pos h, if_pos (by simp; omega)]; rfl
  · rw [if_neg h, if_neg (by simp; omega)]

theorem all_bytes : ∀ i : Fin 256, (hexValue (hexDigit (i.val / 16)) * 1 + 0 = i.val / 16 ∧ hexValue (hexDigit (i.val % 16)) = i.val % 16) ∧
    hexDigit (i.val / 16) ≠ 0 ∧ hexDigit (i.val % 16) ≠ 0 ∧ hexDigit (i.val / 16) ≠ 32 ∧ hexDigit (i.val % 16) ≠ 32 := by
  decide +kernel

theorem decode_plain {c : UInt8} (hp : plain c) (s : Bytes) : decode (c :: s) = c :: decode s := by
  rw [decode]
  · rintro rfl; revert hp; decide
  · rintro _ _ _ rfl _
    exact absurd hp (by decide)

theorem decode_enc1 (c : UInt8) (s : Bytes) : decode (enc1 c ++ s) = c :: decode s := by
  unfold enc1
  split
  · rename_i hp
    exact decode_plain ((plain_iff c).1 hp) s
  · split
    · rename_i hs
      rw [hs]; rfl
    · have hc := all_bytes ⟨c.toNat, c.toNat_lt⟩
      dsimp only at hc
      simp only [List.cons_append, List.nil_append, decode]
      rw [hc.1.2, show hexValue (hexDigit (c.toNat / 16)) = c.toNat / 16 by omega]
      rw [Nat.div_add_mod, UInt8.ofNat_toNat]

theorem decode_enc (n : Bytes) : decode (n.flatMap enc1) = n := by
  induction n with
  | nil => rfl
  | cons c n ih => rw [List.flatMap_cons, decode_enc1, ih]

theorem enc1_not (c : UInt8) (h0 : c ≠ 0) : (0 : UInt8) ∉ enc1 c ∧ (32 : UInt8) ∉ enc1 c := by
  unfold enc1
  have hc := all_bytes ⟨c.toNat, c.toNat_lt⟩
  dsimp only at hc
  split
  · rename_i hp
    have hp := (plain_iff c).1 hp
    constructor
    · simpa using fun h => h0 h.symm
    · simp only [List.mem_singleton]
      rintro rfl
      revert hp; decide
  · split
    · exact ⟨by decide, by decide⟩
    · simp only [List.mem_cons, List.not_mem_nil, or_false]
      refine ⟨?_, ?_⟩
      · rintro (h | h | h)
        · revert h; decide
        · exact hc.2.1 h.symm
        · exact hc.2.2.1 h.symm
      · rintro (h | h | h)
        · revert h; decide
        · exact hc.2.2.2.1 h.symm
        · exact hc.2.2.2.2 h.symm

theorem enc_not {n : Bytes} (h0 : (0 : UInt8) ∉ n) : (0 : UInt8) ∉ n.flatMap enc1 ∧ (32 : UInt8) ∉ n.flatMap enc1 := by
  constructor <;> rw [List.mem_flatMap] <;> rintro ⟨c, hc, h⟩
  · exact (enc1_not c (fun e => h0 (e ▸ hc))).1 h
  · exact (enc1_not c (fun e => h0 (e ▸ hc))).2 h

theorem cstr_end {s r : Bytes} (h : (0 : UInt8) ∉ s) : cstr (s ++ 0 :: r) = s := by
  unfold cstr
  rw [LabelObj.take_all (fun x hx => by
    have : x ≠ 0 := fun e => h (e ▸ hx)
    simpa using this)]
  simp

/-! ## C120 -/

theorem str_digits (n : Nat) : str (toString n) = digits n := rfl

theorem digits_range {n : Nat} {c : Char} (hc : c ∈ Nat.toDigits 10 n) : 48 ≤ c.toNat ∧ c.toNat ≤ 57 := by
  have hd := Nat.isDigit_of_mem_toDigits (by decide) (by decide) hc
  simp only [Char.isDigit, Bool.and_eq_true, decide_eq_true_eq] at hd
  exact ⟨hd.1, hd.2⟩

theorem digits_eq (n : Nat) : digits n = (Nat.toDigits 10 n).map (fun c => UInt8.ofNat c.toNat) := by
  rw [digits, Nat.toString_eq_ofList_toDigits, String.toList_ofList]

theorem digits_byte {n : Nat} {b : UInt8} (h : b ∈ digits n) : 48 ≤ b.toNat := by
  rw [digits_eq] at h
  obtain ⟨c, hc, rfl⟩ := List.mem_map.1 h
  have := digits_range hc
  rw [UInt8.toNat_ofNat']
  omega

theorem digits_not (n : Nat) : (0 : UInt8) ∉ digits n := fun h => absurd (digits_byte h) (by decide)

theorem digits_nospace (n : Nat) : (32 : UInt8) ∉ digits n := fun h => absurd (digits_byte h) (by decide)

theorem map_digits {l l' : List Char} (h : ∀ c ∈ l, c.toNat ≤ 57) (h' : ∀ c ∈ l', c.toNat ≤ 57)
    (e : l.map (fun c => UInt8.ofNat c.toNat) = l'.map (fun c => UInt8.ofNat c.toNat)) : l = l' := by
  induction l generalizing l' with
  | nil => cases l' with
    | nil => rfl
    | cons _ _ => cases e
  | cons a l ih => cases l' with
    | nil => cases e
    | cons b l' =>
      simp only [List.map_cons, List.cons.injEq] at e
      have ha := h a List.mem_cons_self
      have hb := h' b List.mem_cons_self
      have e1 := congrArg UInt8.toNat e.1
      rw [UInt8.toNat_ofNat', UInt8.toNat_ofNat', Nat.mod_eq_of_lt (by omega), Nat.mod_eq_of_lt (by omega)] at e1
      rw [Char.toNat_inj.1 e1, ih (fun c hc => h c (List.mem_cons_of_mem _ hc)) (fun c hc => h' c (List.mem_cons_of_mem _ hc)) e.2]

theorem digits_inj {n m : Nat} (h : digits n = digits m) : n = m := by
  rw [digits_eq, digits_eq] at h
  have h := map_digits (fun c hc => (digits_range hc).2) (fun c hc => (digits_range hc).2) h
  have h := congrArg (fun l => Nat.ofDigitChars 10 l 0) h
  rwa [Nat.ofDigitChars_toDigits (by decide) (by decide), Nat.ofDigitChars_toDigits (by decide) (by decide)] at h

theorem withName_eq (page : Nat) (head n : Bytes) (hp : page < 2 ^ 64) (hh : (0 : UInt8) ∉ head) (hn : (0 : UInt8) ∉ n) :
    withName page head (some n) = if head.length ≥ page then .overflow
      else if cost n + 2 ≤ page - head.length then .ok (head ++ [32] ++ n.flatMap enc1) else .toolong := by
  unfold withName
  by_cases hl : head.length ≥ page
  · rw [if_pos hl, if_pos hl]
  rw [if_neg hl, if_neg hl]
  dsimp only
  rw [encode_eq (by omega) (Nat.lt_of_le_of_lt (Nat.sub_le _ _) hp)]
  generalize page - head.length = m
  by_cases h : cost n + 2 ≤ m
  · rw [if_pos h, if_pos h, written]
    have e : head ++ (32 :: n.flatMap enc1 ++ [0]) = (head ++ [32] ++ n.flatMap enc1) ++ 0 :: [] := by simp
    rw [e, cstr_end]
    simp only [List.mem_append, List.mem_singleton, not_or]
    exact ⟨⟨hh, by decide⟩, (enc_not hn).1⟩
  · rw [if_neg h, if_neg h, written]

theorem arith {k c page : Nat} (h : k + c + 4 ≤ page) : ¬ k + 2 ≥ page ∧ 0 < page - (k + 2) ∧ c + 2 ≤ page - (k + 2) := by omega
theorem arith2 {k c page : Nat} (h : k + 2 < page) (h' : k + c + 4 > page) :
    ¬ k + 2 ≥ page ∧ 0 < page - (k + 2) ∧ ¬ c + 2 ≤ page - (k + 2) := by omega

/-- The request is both contexts, the class and a text that the kernel reads as the
name, if it fits into a page; no other memory is written. -/
theorem C120_request (page : Nat) (scon tcon : Bytes) (cls : Nat) (name : Bytes) (hp : page < 2 ^ 64)
    (hs : (0 : UInt8) ∉ scon) (ht : (0 : UInt8) ∉ tcon) (hn : (0 : UInt8) ∉ name) :
    (scon.length + tcon.length + (digits cls).length + 2 ≥ page → request page scon tcon cls (some name) = .overflow) ∧
    (scon.length + tcon.length + (digits cls).length + 2 < page →
      scon.length + tcon.length + (digits cls).length + cost name + 4 > page → request page scon tcon cls (some name) = .toolong) ∧
    (scon.length + tcon.length + (digits cls).length + cost name + 4 ≤ page →
      ∃ e, request page scon tcon cls (some name) = .ok (scon ++ [32] ++ tcon ++ [32] ++ digits cls ++ [32] ++ e) ∧
        decode e = name ∧ (32 : UInt8) ∉ e ∧ (0 : UInt8) ∉ e) := by
  have hlen : (scon ++ [32] ++ tcon ++ [32] ++ digits cls).length = scon.length + tcon.length + (digits cls).length + 2 := by
    simp only [List.length_append, List.length_cons, List.length_nil]; omega
  have h0 : (0 : UInt8) ∉ scon ++ [32] ++ tcon ++ [32] ++ digits cls := by
    simp only [List.mem_append, List.mem_singleton, not_or]
    exact ⟨⟨⟨⟨hs, by decide⟩, ht⟩, by decide⟩, digits_not cls⟩
  rw [request, str_digits, withName_eq _ _ _ hp h0 hn, hlen]
  refine ⟨fun h => if_pos h, fun h h' => ?_, fun h => ?_⟩
  · obtain ⟨h1, h2, h3⟩ := arith2 h h'
    rw [if_neg h1, if_neg h3]
  · obtain ⟨h1, h2, h3⟩ := arith h
    refine ⟨name.flatMap enc1, ?_, decode_enc name, (enc_not hn).2, (enc_not hn).1⟩
    rw [if_neg h1, if_pos h3]

/-- Without a name, the request is both contexts and the class. -/
theorem C120_noname (page : Nat) (scon tcon : Bytes) (cls : Nat)
    (hs : (0 : UInt8) ∉ scon) (ht : (0 : UInt8) ∉ tcon) :
    request page scon tcon cls none = if scon.length + tcon.length + (digits cls).length + 2 ≥ page then .overflow
      else .ok (scon ++ [32] ++ tcon ++ [32] ++ digits cls) := by
  rw [request, str_digits, withName]
  have hlen : (scon ++ [32] ++ tcon ++ [32] ++ digits cls).length = scon.length + tcon.length + (digits cls).length + 2 := by
    simp only [List.length_append, List.length_cons, List.length_nil]
    omega
  rw [hlen, cstr_end]
  simp only [List.mem_append, List.mem_singleton, not_or]
  exact ⟨⟨⟨⟨hs, by decide⟩, ht⟩, by decide⟩, digits_not cls⟩

theorem split_space {a b r s : Bytes} (ha : (32 : UInt8) ∉ a) (hb : (32 : UInt8) ∉ b) (h : a ++ 32 :: r = b ++ 32 :: s) : a = b ∧ r = s := by
  induction a generalizing b with
  | nil =>
    cases b with
    | nil => exact ⟨rfl, by simpa using h⟩
    | cons y b =>
      simp only [List.nil_append, List.cons_append, List.cons.injEq] at h
      exact absurd (by rw [h.1]; exact List.mem_cons_self) hb
  | cons x a ih =>
    cases b with
    | nil =>
      simp only [List.nil_append, List.cons_append, List.cons.injEq] at h
      exact absurd (by rw [← h.1]; exact List.mem_cons_self) ha
    | cons y b =>
      simp only [List.cons_append, List.cons.injEq] at h
      obtain ⟨e1, e2⟩ := ih (fun hh => ha (List.mem_cons_of_mem _ hh)) (fun hh => hb (List.mem_cons_of_mem _ hh)) h.2
      exact ⟨by rw [h.1, e1], e2⟩

/-- Requests are different unless contexts, class and name (or that there is none) are
the same, for contexts without spaces. -/
theorem C120_different_partial (page : Nat) (scon tcon scon' tcon' : Bytes) (cls cls' : Nat) (name name' : Option Bytes) (b : Bytes)
    (hp : page < 2 ^ 64)
    (hs : (0 : UInt8) ∉ scon ∧ (32 : UInt8) ∉ scon) (ht : (0 : UInt8) ∉ tcon ∧ (32 : UInt8) ∉ tcon)
    (hs' : (0 : UInt8) ∉ scon' ∧ (32 : UInt8) ∉ scon') (ht' : (0 : UInt8) ∉ tcon' ∧ (32 : UInt8) ∉ tcon')
    (hn : ∀ n ∈ name, (0 : UInt8) ∉ n) (hn' : ∀ n ∈ name', (0 : UInt8) ∉ n)
    (h : request page scon tcon cls name = .ok b) (h' : request page scon' tcon' cls' name' = .ok b) :
    scon = scon' ∧ tcon = tcon' ∧ cls = cls' ∧ name = name' := by
  have get : ∀ s t k n, (0 : UInt8) ∉ s → (0 : UInt8) ∉ t → (∀ x ∈ n, (0 : UInt8) ∉ x) → request page s t k n = .ok b →
      ∃ r, b = s ++ 32 :: (t ++ 32 :: r) ∧
        ((n = none ∧ r = digits k) ∨ ∃ x e, n = some x ∧ r = digits k ++ 32 :: e ∧ decode e = x) := by
    intro s t k n h1 h2 h3 h4
    cases n with
    | none =>
      rw [C120_noname page s t k h1 h2] at h4
      split at h4
      · cases h4
      · cases h4
        exact ⟨digits k, by simp, Or.inl ⟨rfl, rfl⟩⟩
    | some x =>
      obtain ⟨g1, g2, g3⟩ := C120_request page s t k x hp h1 h2 (h3 x rfl)
      by_cases k1 : s.length + t.length + (digits k).length + 2 ≥ page
      · rw [g1 k1] at h4; cases h4
      by_cases k2 : s.length + t.length + (digits k).length + cost x + 4 > page
      · rw [g2 (by omega) k2] at h4; cases h4
      obtain ⟨e, he, hdec, _⟩ := g3 (by omega)
      rw [he] at h4
      cases h4
      exact ⟨digits k ++ 32 :: e, by simp, Or.inr ⟨x, e, rfl, rfl, hdec⟩⟩
  obtain ⟨r, he, hr⟩ := get scon tcon cls name hs.1 ht.1 hn h
  obtain ⟨r', he', hr'⟩ := get scon' tcon' cls' name' hs'.1 ht'.1 hn' h'
  have heq := he.symm.trans he'
  obtain ⟨e1, h1⟩ := split_space hs.2 hs'.2 heq
  obtain ⟨e2, h2⟩ := split_space ht.2 ht'.2 h1
  refine ⟨e1, e2, ?_⟩
  rcases hr with ⟨rfl, hr⟩ | ⟨x, e, rfl, hr, hd⟩ <;> rcases hr' with ⟨rfl, hr'⟩ | ⟨x', e', rfl, hr', hd'⟩
  · exact ⟨digits_inj (hr.symm.trans (h2.trans hr')), rfl⟩
  · exact absurd (by rw [← hr, h2, hr']; simp) (digits_nospace cls)
  · exact absurd (by rw [← hr', ← h2, hr]; simp) (digits_nospace cls')
  · obtain ⟨e3, e4⟩ := split_space (digits_nospace cls) (digits_nospace cls') (hr.symm.trans (h2.trans hr'))
    exact ⟨digits_inj e3, by rw [← hd, ← hd', e4]⟩

example : request 4096 (str "u:r:a") (str "u:r:b") 7 (some (str "a b/c+d%")) = .ok (str "u:r:a u:r:b 7 a+b%2Fc%2Bd%25") ∧
    decode (str "a+b%2Fc%2Bd%25") = str "a b/c+d%" ∧ cost (str "a b/c+d%") = 14 ∧
    request 28 (str "u:r:a") (str "u:r:b") 7 (some (str "a b/c+d%")) = .toolong ∧
    request 13 (str "u:r:a") (str "u:r:b") 7 (some []) = .overflow := by decide +kernel

/-- Contexts with spaces can be read as others. -/
theorem C120_spaces_refuted : request 4096 (str "u:r:a x") (str "u:r:b") 7 (some (str "n")) =
    request 4096 (str "u:r:a") (str "x u:r:b") 7 (some (str "n")) := by decide +kernel

end Verif.CreateName
