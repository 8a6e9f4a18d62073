import Verif.ComputeAv.Model
import Verif.ComputeAv.Spec
import Verif.CreateName.Props
/-!
# C123: the answer of the kernel about an access
-/
namespace Verif.ComputeAv
open Verif.LabelObj (str cstr)
open Verif.ComputeUser (isSpace page)
open Spec

theorem digitChar_ok : ∀ i : Fin 16, digit (UInt8.ofNat (Nat.digitChar i.val).toNat) = i.val := by decide +kernel

theorem num_lt {b n : Nat} (h : n < b) : num b n = [UInt8.ofNat (Nat.digitChar n).toNat] := by
  rw [num, Nat.toDigits_of_lt_base h]; rfl

theorem num_ge {b n : Nat} (hb : 1 < b) (h : b ≤ n) : num b n = num b (n / b) ++ [UInt8.ofNat (Nat.digitChar (n % b)).toNat] := by
  rw [num, Nat.toDigits_of_base_le hb h, List.map_append]; rfl

theorem num_ok {b : Nat} (hb : 1 < b) (hb' : b ≤ 16) (n : Nat) :
    (num b n).foldl (fun a c => b * a + digit c) 0 = n ∧ (∀ c ∈ num b n, digit c < b) ∧ num b n ≠ [] := by
  induction n using Nat.strongRecOn with
  | ind n ih =>
    by_cases h : n < b
    · have := digitChar_ok ⟨n, by omega⟩
      dsimp only at this
      rw [num_lt h]
      refine ⟨by simp [this], ?_, List.cons_ne_nil _ _⟩
      intro c hc
      rw [List.mem_singleton.1 hc, this]; exact h
    · have hm : n % b < b := Nat.mod_lt _ (by omega)
      have := digitChar_ok ⟨n % b, by omega⟩
      dsimp only at this
      obtain ⟨h1, h2, _⟩ := ih (n / b) (Nat.div_lt_self (by omega) hb)
      rw [num_ge hb (by omega)]
      refine ⟨?_, ?_, by simp⟩
      · rw [List.foldl_append, h1, List.foldl_cons, List.foldl_nil, this, Nat.div_add_mod]
      · intro c hc
        rcases List.mem_append.1 hc with hc | hc
        · exact h2 c hc
        · rw [List.mem_singleton.1 hc, this]; exact hm

theorem digit_facts : ∀ i : Fin 256, digit (UInt8.ofNat i.val) < 16 → isSpace (UInt8.ofNat i.val) = false ∧
    (UInt8.ofNat i.val == 45) = false ∧ (UInt8.ofNat i.val == 43) = false ∧ (UInt8.ofNat i.val == 120) = false ∧
    (UInt8.ofNat i.val == 88) = false ∧ (UInt8.ofNat i.val == 0) = false := by decide +kernel

theorem digit_fact {b : UInt8} (h : digit b < 16) : isSpace b = false ∧ (b == 45) = false ∧ (b == 43) = false ∧ (b == 120) = false ∧
    (b == 88) = false ∧ (b == 0) = false := by
  have := digit_facts ⟨b.toNat, b.toNat_lt⟩
  simp only [UInt8.ofNat_toNat] at this
  exact this h

theorem take_all {p : UInt8 → Bool} {l r : Bytes} (h : ∀ c ∈ l, p c = true) (hr : r = [] ∨ ∃ t, r = 32 :: t) (hp : p 32 = false) :
    (l ++ r).takeWhile p = l ∧ (l ++ r).dropWhile p = r := by
  induction l with
  | nil =>
    rcases hr with rfl | ⟨t, rfl⟩
    · exact ⟨rfl, rfl⟩
    · simp [hp]
  | cons x l ih =>
    have hx := h x List.mem_cons_self
    obtain ⟨h1, h2⟩ := ih (fun c hc => h c (List.mem_cons_of_mem _ hc))
    rw [List.cons_append, List.takeWhile_cons, List.dropWhile_cons, if_pos hx, if_pos hx, h1, h2]
    exact ⟨rfl, rfl⟩

theorem scan_num {b n : Nat} (hb : b = 16 ∨ b = 10) (hn : n < 2 ^ 32) (r : Bytes) (hr : r = [] ∨ ∃ t, r = 32 :: t) :
    scan b (num b n ++ r) = some (n, r) := by
  obtain ⟨h1, h2, h3⟩ := num_ok (b := b) (by omega) (by omega) n
  generalize num b n = l at *
  have ht := take_all (p := fun c => decide (digit c < b)) (l := l) (r := r) (fun c hc => by simpa using h2 c hc) hr
    (by have : digit 32 = 16 := by decide
        rw [this]; simp; omega)
  cases l with
  | nil => exact absurd rfl h3
  | cons x l =>
    have hx := digit_fact (b := x) (by have := h2 x List.mem_cons_self; omega)
    have hw : (x :: l ++ r).dropWhile isSpace = x :: l ++ r := by
      rw [List.cons_append, List.dropWhile_cons, hx.1]; rfl
    have hpre : ((x :: l ++ r).tail.head? == some 120 || (x :: l ++ r).tail.head? == some 88) = false := by
      cases l with
      | nil =>
        rcases hr with rfl | ⟨t, rfl⟩
        · rfl
        · rfl
      | cons y l =>
        have hy := digit_fact (b := y) (by have := h2 y (List.mem_cons_of_mem _ List.mem_cons_self); omega)
        simp only [List.cons_append, List.tail_cons, List.head?_cons, Option.some_beq_some, hy.2.2.2.1, hy.2.2.2.2.1, Bool.or_self]
    have hh : (x :: l ++ r).head? = some x := rfl
    unfold scan
    simp only [hw, hh, Option.some_beq_some, hx.2.1, hx.2.2.1, Bool.or_self, Bool.false_eq_true, if_false, hpre, Bool.and_false, ht.1, ht.2, h1]
    rw [if_neg h3, Nat.min_eq_left (by omega), Nat.mod_eq_of_lt hn]

theorem scan_space (b : Nat) (s : Bytes) : scan b (32 :: s) = scan b s := by
  have : (32 :: s).dropWhile isSpace = s.dropWhile isSpace := by
    rw [List.dropWhile_cons]; rfl
  unfold scan
  rw [this]

theorem scanAll_space (bs : List Nat) (s : Bytes) : scanAll bs (32 :: s) = scanAll bs s := by
  cases bs with
  | nil => rfl
  | cons b bs => rw [scanAll, scanAll, scan_space]

theorem scanAll_nil (bs : List Nat) : scanAll bs [] = [] := by
  cases bs with
  | nil => rfl
  | cons b bs =>
    have : scan b [] = none := by simp [scan]
    rw [scanAll, this]

theorem scanAll_text (bs ns : List Nat) (hb : ∀ b ∈ bs, b = 16 ∨ b = 10) (hn : ∀ n ∈ ns, n < 2 ^ 32) (hl : ns.length ≤ bs.length) :
    scanAll bs (text bs ns) = ns := by
  induction bs generalizing ns with
  | nil =>
    have : ns = [] := List.length_eq_zero_iff.1 (by simpa using hl)
    rw [this]; rfl
  | cons b bs ih =>
    cases ns with
    | nil => exact scanAll_nil _
    | cons n ns =>
      have ih := ih ns (fun x hx => hb x (List.mem_cons_of_mem _ hx)) (fun x hx => hn x (List.mem_cons_of_mem _ hx)) (by simpa using hl)
      rw [text]
      split
      · rename_i he
        have := scan_num (hb b List.mem_cons_self) (hn n List.mem_cons_self) [] (Or.inl rfl)
        rw [List.append_nil] at this
        rw [scanAll, this, he]
        exact congrArg (n :: ·) (scanAll_nil _)
      · rw [List.append_assoc, List.singleton_append, scanAll, scan_num (hb b List.mem_cons_self) (hn n List.mem_cons_self) _ (Or.inr ⟨text bs ns, rfl⟩)]
        exact congrArg (n :: ·) ((scanAll_space _ _).trans ih)

theorem text_zero (bs ns : List Nat) (hb : ∀ b ∈ bs, b = 16 ∨ b = 10) : (0 : UInt8) ∉ text bs ns := by
  induction bs generalizing ns with
  | nil => simp [text]
  | cons b bs ih =>
    cases ns with
    | nil => simp [text]
    | cons n ns =>
      have hz : (0 : UInt8) ∉ num b n := by
        intro h
        have h1 := (num_ok (b := b) (by have := hb b List.mem_cons_self; omega) (by have := hb b List.mem_cons_self; omega) n).2.1 0 h
        have h2 : digit 0 = 16 := by decide
        have := hb b List.mem_cons_self
        omega
      rw [text]
      split
      · exact hz
      · simp only [List.mem_append, List.mem_singleton, not_or]
        exact ⟨⟨hz, by decide⟩, ih ns (fun x hx => hb x (List.mem_cons_of_mem _ hx))⟩

theorem answer_eq (size : Nat) (ns : List Nat) (hn : ∀ n ∈ ns, n < 2 ^ 32) (hl : ns.length ≤ 6) (hs : (reply ns).length < size) :
    scanAll [16, 16, 16, 16, 10, 16] (cstr (page size (reply ns))) = ns := by
  have hb : ∀ b ∈ [16, 16, 16, 16, 10, 16], b = 16 ∨ b = 10 := by decide
  have h0 : (0 : UInt8) ∉ reply ns := text_zero _ ns hb
  have : cstr (page size (reply ns)) = reply ns := by
    rw [page, List.take_of_length_le (by omega)]
    obtain ⟨k, hk⟩ : ∃ k, size - (reply ns).length = k + 1 := ⟨size - (reply ns).length - 1, by omega⟩
    rw [hk, List.replicate_succ]
    exact CreateName.cstr_end h0
  rw [this]
  exact scanAll_text _ ns hb hn hl

/-! ## C123 -/

/-- The decision is the one the kernel prints. -/
theorem C123_decision (size : Nat) (d : Avd) (h : d.allowed < 2 ^ 32 ∧ d.decided < 2 ^ 32 ∧ d.auditallow < 2 ^ 32 ∧
      d.auditdeny < 2 ^ 32 ∧ d.seqno < 2 ^ 32 ∧ d.flags < 2 ^ 32)
    (hs : (reply [d.allowed, d.decided, d.auditallow, d.auditdeny, d.seqno, d.flags]).length < size) :
    answer size (reply [d.allowed, d.decided, d.auditallow, d.auditdeny, d.seqno, d.flags]) = some d := by
  rw [answer, answer_eq size _ _ (by simp) hs]
  simp only [List.mem_cons, List.not_mem_nil, or_false]
  rintro n (rfl | rfl | rfl | rfl | rfl | rfl) <;> omega

/-- Without flags, there are none. -/
theorem C123_noflags (size : Nat) (a d aa ad s : Nat) (h : a < 2 ^ 32 ∧ d < 2 ^ 32 ∧ aa < 2 ^ 32 ∧ ad < 2 ^ 32 ∧ s < 2 ^ 32)
    (hs : (reply [a, d, aa, ad, s]).length < size) : answer size (reply [a, d, aa, ad, s]) = some ⟨a, d, aa, ad, s, 0⟩ := by
  rw [answer, answer_eq size _ _ (by simp) hs]
  simp only [List.mem_cons, List.not_mem_nil, or_false]
  rintro n (rfl | rfl | rfl | rfl | rfl) <;> omega

/-- An answer with fewer numbers is an error, not a decision. -/
theorem C123_short (size : Nat) (ns : List Nat) (hl : ns.length < 5) (h : ∀ n ∈ ns, n < 2 ^ 32) (hs : (reply ns).length < size) :
    answer size (reply ns) = none := by
  rw [answer, answer_eq size ns h (by omega) hs]
  split
  · simp at hl
  · simp at hl
  · rfl

example : answer 64 (reply [4294967295, 10, 0, 255, 12, 1]) = some ⟨4294967295, 10, 0, 255, 12, 1⟩ ∧
    reply [4294967295, 10, 0, 255, 12, 1] = str "ffffffff a 0 ff 12 1" ∧
    answer 64 (reply [1, 2, 3]) = none ∧ answer 64 [] = none := by decide +kernel

end Verif.ComputeAv
