import Verif.ComputeUser.Model
import Verif.ComputeUser.Spec
import Verif.CreateName.Props
/-!
# C121: the contexts that the kernel gives for a user
-/
namespace Verif.ComputeUser
open Verif.LabelObj (str cstr)
open Verif.CreateName (digits_eq digits_range cstr_end digits_not)
open Verif.CreateName.Spec (digits)
open Spec

theorem digits_dig {n : Nat} {b : UInt8} (h : b ∈ digits n) : 48 ≤ b.toNat ∧ b.toNat ≤ 57 := by
  rw [digits_eq] at h
  obtain ⟨c, hc, rfl⟩ := List.mem_map.1 h
  have := digits_range hc
  rw [UInt8.toNat_ofNat']
  omega

theorem value_digits (n : Nat) : value (digits n) = n := by
  rw [digits_eq, value, List.foldl_map]
  have h := @Nat.ofDigitChars_ten_toDigits n
  rw [Nat.ofDigitChars_eq_foldl] at h
  refine Eq.trans ?_ h
  have hr : ∀ c ∈ Nat.toDigits 10 n, 48 ≤ c.toNat ∧ c.toNat ≤ 57 := fun c hc => digits_range hc
  generalize Nat.toDigits 10 n = l at hr
  clear h
  generalize 0 = a
  induction l generalizing a with
  | nil => rfl
  | cons c l ih =>
    rw [List.foldl_cons, List.foldl_cons, ih (fun x hx => hr x (List.mem_cons_of_mem _ hx))]
    have := hr c List.mem_cons_self
    rw [UInt8.toNat_ofNat', Nat.mod_eq_of_lt (by omega)]
    rfl

theorem digits_ne (n : Nat) : digits n ≠ [] := by
  rw [digits_eq]
  intro h
  exact Nat.toDigits_ne_nil (List.map_eq_nil_iff.1 h)

theorem take_self {l : Bytes} (h : ∀ b ∈ l, isDig b = true) : l.takeWhile isDig = l := by
  induction l with
  | nil => rfl
  | cons x l ih =>
    rw [List.takeWhile_cons, h x List.mem_cons_self, if_pos rfl, ih (fun b hb => h b (List.mem_cons_of_mem _ hb))]

theorem scanU_digits {n : Nat} (h : n < 2 ^ 32) : scanU (digits n) = some n := by
  have hv := value_digits n
  have hne := digits_ne n
  have hd : ∀ b ∈ digits n, 48 ≤ b.toNat ∧ b.toNat ≤ 57 := fun b hb => digits_dig hb
  generalize digits n = l at *
  have ht : l.takeWhile isDig = l := by
    refine take_self fun b hb => ?_
    have := hd b hb
    simp [isDig, this]
  cases l with
  | nil => exact absurd rfl hne
  | cons x l =>
    have hx := hd x List.mem_cons_self
    have h1 : isSpace x = false := by
      simp only [isSpace, Bool.or_eq_false_iff, Bool.and_eq_false_iff, decide_eq_false_iff_not, beq_eq_false_iff_ne]
      exact ⟨fun e => by rw [e] at hx; exact absurd hx.1 (by decide), Or.inr (by omega)⟩
    have h2 : (x == 45) = false := by
      rw [beq_eq_false_iff_ne]; rintro rfl; exact absurd hx.1 (by decide)
    have h3 : (x == 43) = false := by
      rw [beq_eq_false_iff_ne]; rintro rfl; exact absurd hx.1 (by decide)
    have hw : (x :: l).dropWhile isSpace = x :: l := by rw [List.dropWhile_cons, h1]; rfl
    unfold scanU
    simp only [hw, List.head?_cons, Option.some_beq_some, h2, h3, Bool.or_self, Bool.false_eq_true, if_false, ht, hv]
    rw [if_neg hne]
    congr 1
    omega

theorem all_false {r : Bytes} (h : 0 < r.count 0) : r.all (· != 0) = false := by
  rw [List.all_eq_false]
  exact ⟨0, List.count_pos_iff.1 h, by decide⟩

theorem all_true {r : Bytes} (h : r.count 0 = 0) : r.all (· != 0) = true := by
  rw [List.all_eq_true]
  intro x hx
  have := List.count_eq_zero.1 h
  simp only [bne_iff_ne]
  rintro rfl
  exact this hx

theorem count_drop {r : Bytes} (h : 0 < r.count 0) : (r.drop ((cstr r).length + 1)).count 0 = r.count 0 - 1 := by
  induction r with
  | nil => cases h
  | cons x r ih =>
    by_cases hx : x = 0
    · rw [hx]
      simp [cstr]
    · have e : cstr (x :: r) = x :: cstr r := by
        rw [cstr, List.takeWhile_cons, if_pos (by simpa using hx)]; rfl
      have hc : (x :: r).count 0 = r.count 0 := List.count_cons_of_ne hx
      rw [hc] at h ⊢
      rw [e, List.length_cons, List.drop_succ_cons]
      exact ih h

theorem loop_oob (alloc n : Nat) (rest : Bytes) (acc : List Bytes) (ha : acc.length + n < alloc) :
    loop alloc n rest acc ≠ .oob ↔ n ≤ rest.count 0 := by
  induction n generalizing rest acc with
  | zero =>
    rw [loop, if_pos (show acc.length < alloc from ha)]
    exact ⟨fun _ => Nat.zero_le _, fun _ h => by cases h⟩
  | succ n ih =>
    rw [loop]
    by_cases h : rest.count 0 = 0
    · rw [all_true h, if_pos rfl, h]
      exact ⟨fun hh => absurd rfl hh, fun hh => absurd hh (by omega)⟩
    · rw [all_false (by omega), if_neg (by decide), if_pos (by omega),
        ih _ _ (by rw [List.length_append, List.length_singleton]; omega), count_drop (by omega)]
      omega

theorem loop_cs (alloc : Nat) (cs : List Bytes) (post : Bytes) (acc : List Bytes) (h0 : ∀ c ∈ cs, (0 : UInt8) ∉ c)
    (ha : acc.length + cs.length < alloc) :
    loop alloc cs.length (cs.flatMap (fun c => c ++ [0]) ++ post) acc = .ok (acc ++ cs) := by
  induction cs generalizing acc with
  | nil => simp only [List.length_nil, loop, List.append_nil]; exact if_pos ha
  | cons c cs ih =>
    have hc : cstr ((c :: cs).flatMap (fun c => c ++ [0]) ++ post) = c := by
      rw [List.flatMap_cons, List.append_assoc, List.append_assoc]
      exact cstr_end (h0 c List.mem_cons_self)
    rw [List.length_cons] at ha ⊢
    rw [loop, hc, if_neg, if_pos (by omega)]
    · have : ((c :: cs).flatMap (fun c => c ++ [0]) ++ post).drop (c.length + 1) = cs.flatMap (fun c => c ++ [0]) ++ post := by
        rw [List.flatMap_cons, List.append_assoc]
        exact List.drop_left' (by simp)
      rw [this, ih _ (fun x hx => h0 x (List.mem_cons_of_mem _ hx)) (by rw [List.length_append, List.length_singleton]; omega), List.append_assoc]
      rfl
    · rw [all_false (by rw [List.flatMap_cons]; simp only [List.count_append, List.count_cons_self]; omega)]
      decide

theorem page_eq {size : Nat} {r : Bytes} (h : r.length < size) : page size r = r ++ List.replicate (size - r.length) 0 := by
  rw [page, List.take_of_length_le (by omega)]

theorem answer_eq {size n : Nat} (r : Bytes) (hn : n < 2 ^ 32) (h : (digits n ++ [0] ++ r).length < size) :
    answer size (digits n ++ [0] ++ r) =
      loop ((n + 1) % 2 ^ 32) n (r ++ List.replicate (size - (digits n ++ [0] ++ r).length) 0) [] := by
  unfold answer
  rw [page_eq h]
  generalize List.replicate (size - (digits n ++ [0] ++ r).length) (0 : UInt8) = z
  have e : digits n ++ [0] ++ r ++ z = digits n ++ 0 :: (r ++ z) := by simp
  rw [e, cstr_end (digits_not n), scanU_digits hn]
  have : (digits n ++ 0 :: (r ++ z)).drop ((digits n).length + 1) = r ++ z := by
    have : digits n ++ 0 :: (r ++ z) = (digits n ++ [0]) ++ (r ++ z) := by simp
    rw [this]
    exact List.drop_left' (by simp)
  dsimp only
  rw [this]

theorem length_flat (cs : List Bytes) : cs.length ≤ (cs.flatMap (fun c => c ++ [0])).length := by
  induction cs with
  | nil => exact Nat.zero_le _
  | cons c cs ih =>
    rw [List.flatMap_cons, List.length_append, List.length_append]
    simp only [List.length_cons, List.length_nil]
    omega

/-! ## C121 -/

/-- If the kernel answers with contexts, and the answer fits into a page, these contexts are
given, all of them and in this order. -/
theorem C121_contexts (size : Nat) (cs : List Bytes) (h0 : ∀ c ∈ cs, (0 : UInt8) ∉ c)
    (hl : (reply cs).length < size) (hs : size < 2 ^ 32) : answer size (reply cs) = .ok cs := by
  have h1 := length_flat cs
  have h2 : cs.length + 1 < 2 ^ 32 := by
    simp only [reply, List.length_append, List.length_cons, List.length_nil] at hl
    omega
  rw [reply, answer_eq _ (by omega) hl, Nat.mod_eq_of_lt h2, loop_cs _ _ _ _ h0 (by rw [List.length_nil]; omega)]
  rfl

/-- An answer that does not start with a number is an error. -/
theorem C121_nonumber (size : Nat) (x : UInt8) (r : Bytes) (hx : 57 < x.toNat) (hs : 1 < size) : answer size (x :: r) = .error := by
  obtain ⟨k, hk⟩ : ∃ k, size - 1 = k + 1 := ⟨size - 2, by omega⟩
  have h0 : x ≠ 0 := by rintro rfl; exact absurd hx (by decide)
  have hp : ∃ z, cstr (page size (x :: r)) = x :: z := by
    rw [page, hk, List.take_succ_cons, List.cons_append]
    exact ⟨_, by rw [cstr, List.takeWhile_cons, if_pos (by simpa using h0)]⟩
  obtain ⟨z, hz⟩ := hp
  have h1 : isSpace x = false := by
    simp only [isSpace, Bool.or_eq_false_iff, Bool.and_eq_false_iff, decide_eq_false_iff_not, beq_eq_false_iff_ne]
    exact ⟨fun e => by rw [e] at hx; exact absurd hx (by decide), Or.inr (by omega)⟩
  have h2 : (x == 45) = false := by
    rw [beq_eq_false_iff_ne]; rintro rfl; exact absurd hx (by decide)
  have h3 : (x == 43) = false := by
    rw [beq_eq_false_iff_ne]; rintro rfl; exact absurd hx (by decide)
  have hw : (x :: z).dropWhile isSpace = x :: z := by rw [List.dropWhile_cons, h1]; rfl
  have hd : isDig x = false := by simp [isDig]; omega
  have ht : (x :: z).takeWhile isDig = [] := by rw [List.takeWhile_cons, hd]; rfl
  have : scanU (x :: z) = none := by
    unfold scanU
    simp only [hw, List.head?_cons, Option.some_beq_some, h2, h3, Bool.or_self, Bool.false_eq_true, if_false, ht, if_true]
  rw [answer, hz, this]

/-- Whatever follows the number, memory outside of the page is used exactly if the number
is larger than that of the zero bytes after it in the page. -/
theorem C121_memory_partial (size n : Nat) (r : Bytes) (hn : n + 1 < 2 ^ 32) (hl : (digits n ++ [0] ++ r).length < size) :
    answer size (digits n ++ [0] ++ r) ≠ .oob ↔ n ≤ r.count 0 + (size - (digits n ++ [0] ++ r).length) := by
  rw [answer_eq _ (by omega) hl, Nat.mod_eq_of_lt hn, loop_oob _ _ _ _ (by rw [List.length_nil]; omega), List.count_append, List.count_replicate_self]

example : answer 64 (reply [str "u:r:a", [], str "u:r:b"]) = .ok [str "u:r:a", [], str "u:r:b"] ∧
    (reply [str "u:r:a", [], str "u:r:b"]).length < 64 ∧ answer 16 (str "x") = .error ∧
    answer 16 (digits 3 ++ [0] ++ str "abc") = .ok [str "abc", [], []] := by decide +kernel

/-- The number in the answer is trusted: with a larger one the page is read behind its end. -/
theorem C121_count_refuted : answer 16 (digits 12 ++ [0] ++ str "abc") = .oob := by decide +kernel

/-- The size of the array wraps around. -/
theorem C121_wrap_refuted (size : Nat) (r : Bytes) (hl : (digits 4294967295 ++ [0] ++ r).length < size) :
    answer size (digits 4294967295 ++ [0] ++ r) = .oob := by
  rw [answer_eq _ (by decide) hl]
  show loop 0 (4294967294 + 1) _ [] = _
  rw [loop]
  split
  · rfl
  · rfl

end Verif.ComputeUser
