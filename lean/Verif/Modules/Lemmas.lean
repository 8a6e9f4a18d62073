import Verif.Prelude
import Verif.Modules.Spec

namespace Verif.Modules
open Verif
open Verif.LocalFile (isDigit digitsVal caseEq)

/-! ## Names -/

theorem isAlpha_iff {c : UInt8} : isAlpha c = true ↔ Letter c := by
  unfold isAlpha Letter
  simp only [Bool.or_eq_true, Bool.and_eq_true, decide_eq_true_eq, UInt8.le_iff_toNat_le]
  rfl

theorem isDigit_iff {c : UInt8} : isDigit c = true ↔ Digit c := by
  unfold isDigit Digit
  simp only [Bool.and_eq_true, decide_eq_true_eq, UInt8.le_iff_toNat_le]
  rfl

theorem validChar_iff {c : UInt8} : validChar c = true ↔ NameChar c := by
  unfold validChar
  simp only [Bool.or_eq_true, isAlpha_iff, isDigit_iff, beq_iff_eq]
  constructor
  · rintro ((((⟨h1, h2⟩ | ⟨h1, h2⟩) | ⟨h1, h2⟩) | rfl) | rfl)
    · exact .upper h1 h2
    · exact .lower h1 h2
    · exact .digit h1 h2
    · exact .underscore rfl
    · exact .dash rfl
  · intro h
    cases h with
    | upper h1 h2 => exact Or.inl (Or.inl (Or.inl (Or.inl ⟨h1, h2⟩)))
    | lower h1 h2 => exact Or.inl (Or.inl (Or.inl (Or.inr ⟨h1, h2⟩)))
    | digit h1 h2 => exact Or.inl (Or.inl (Or.inr ⟨h1, h2⟩))
    | underscore h => exact Or.inl (Or.inr (UInt8.toNat_inj.1 h))
    | dash h => exact Or.inr (UInt8.toNat_inj.1 h)

theorem not_nameChar_dot {c : UInt8} (h : c.toNat = '.'.toNat) : validChar c = false := by
  have : c = 46 := UInt8.toNat_inj.1 h
  subst this
  rfl

theorem nameLoop_of : ∀ {s : Bytes}, NameTail s → nameLoop s = true := by
  intro s h
  induction h with
  | nil => rfl
  | char h _ ih => unfold nameLoop; rw [if_pos (validChar_iff.2 h)]; exact ih
  | dot h h2 _ ih =>
    unfold nameLoop
    rw [if_neg (by rw [not_nameChar_dot h]; simp)]
    have : (_ : UInt8) = 46 := UInt8.toNat_inj.1 h
    subst this
    simp only [beq_self_eq_true, if_true]
    rw [if_pos (validChar_iff.2 h2)]
    exact ih

theorem of_nameLoop : ∀ (s : Bytes), nameLoop s = true → NameTail s
  | [], _ => .nil
  | [c], h => by
    unfold nameLoop at h
    split at h
    · rename_i hc; exact .char (validChar_iff.1 hc) .nil
    · split at h
      · cases h
      · cases h
  | c :: d :: s, h => by
    unfold nameLoop at h
    split at h
    · rename_i hc; exact .char (validChar_iff.1 hc) (of_nameLoop _ h)
    · split at h
      · rename_i hc
        simp only at h
        split at h
        · rename_i hd
          have : c = 46 := by simpa using hc
          subst this
          exact .dot rfl (validChar_iff.1 hd) (of_nameLoop _ h)
        · cases h
      · cases h

theorem validName_iff {s : Bytes} : validName s = true ↔ ModuleName s := by
  unfold ModuleName
  cases s with
  | nil => simp [validName]
  | cons c cs =>
    show (if isAlpha c then nameLoop cs else false) = true ↔ _
    constructor
    · intro h
      split at h
      · rename_i hc; exact ⟨c, cs, rfl, isAlpha_iff.1 hc, of_nameLoop _ h⟩
      · cases h
    · rintro ⟨_, _, he, h1, h2⟩
      cases he
      rw [if_pos (isAlpha_iff.2 h1)]
      exact nameLoop_of h2

theorem validExt_iff {s : Bytes} : validExt s = true ↔ Extension s := by
  unfold Extension
  cases s with
  | nil => simp [validExt]
  | cons c cs =>
    show (if isAlpha c || isDigit c then cs.all validChar else false) = true ↔ _
    constructor
    · intro h
      split at h
      · rename_i hc
        rw [Bool.or_eq_true, isAlpha_iff, isDigit_iff] at hc
        exact ⟨c, cs, rfl, hc, fun d hd => validChar_iff.1 (List.all_eq_true.1 h d hd)⟩
      · cases h
    · rintro ⟨_, _, he, h1, h2⟩
      cases he
      rw [if_pos (by rw [Bool.or_eq_true, isAlpha_iff, isDigit_iff]; exact h1)]
      exact List.all_eq_true.2 fun d hd => validChar_iff.2 (h2 d hd)

theorem validPriority_iff {p : Nat} : validPriority p = true ↔ Priority p := by
  unfold validPriority Priority
  simp

theorem validEnabled_iff {e : Int} : validEnabled e = true ↔ Switch e := by
  unfold validEnabled Switch
  simp [or_assoc]

/-! ## Priorities as names -/

theorem fmt3_inj {p q : Nat} (hp : p ≤ 999) (hq : q ≤ 999) (h : fmt3 p = fmt3 q) : p = q := by
  unfold fmt3 at h
  simp only [List.cons.injEq, and_true] at h
  obtain ⟨h1, h2, h3⟩ := h
  have e1 := congrArg UInt8.toNat h1
  have e2 := congrArg UInt8.toNat h2
  have e3 := congrArg UInt8.toNat h3
  simp only [UInt8.toNat_ofNat'] at e1 e2 e3
  omega

theorem stringToPriority_fmt3_all : ∀ p : Fin 1000, 1 ≤ p.val → stringToPriority (fmt3 p.val) = some p.val := by decide +kernel

theorem stringToPriority_fmt3 {p : Nat} (h : Priority p) : stringToPriority (fmt3 p) = some p :=
  stringToPriority_fmt3_all ⟨p, by have := h.2; omega⟩ h.1

theorem fmt3_head_all : ∀ p : Fin 1000, (fmt3 p.val).head? ≠ some 46 := by decide +kernel

theorem fmt3_head {p : Nat} (h : Priority p) : (fmt3 p).head? ≠ some 46 := fmt3_head_all ⟨p, by have := h.2; omega⟩

theorem fmt3_ne_disabled (p : Nat) : fmt3 p ≠ disabledName := fun h => by
  have := congrArg List.length h
  simp [fmt3, disabledName] at this

/-! ## Directories -/

variable {α : Type}

theorem get_put_self (k : Bytes) (v : α) (l) : get k (put k v l) = some v := by simp [get, put]

theorem get_filter {k k' : Bytes} (h : k' ≠ k) (l : List (Bytes × α)) : get k' (l.filter fun e => e.1 != k) = get k' l := by
  unfold get
  congr 1
  induction l with
  | nil => rfl
  | cons e l ih =>
    rw [List.filter_cons]
    by_cases he : e.1 = k
    · rw [if_neg (by simp [he]), List.find?_cons_of_neg (by simp only [he, beq_iff_eq]; exact fun h' => h h'.symm)]
      exact ih
    · rw [if_pos (by simpa using he)]
      by_cases h2 : e.1 = k'
      · rw [List.find?_cons_of_pos (by simpa using h2), List.find?_cons_of_pos (by simpa using h2)]
      · rw [List.find?_cons_of_neg (by simpa using h2), List.find?_cons_of_neg (by simpa using h2)]
        exact ih

theorem get_put_ne {k k' : Bytes} (h : k' ≠ k) (v : α) (l) : get k' (put k v l) = get k' l := by
  have : get k' (put k v l) = get k' (l.filter fun e => e.1 != k) := by
    unfold put
    unfold get
    rw [List.find?_cons_of_neg (by simp only [beq_iff_eq]; exact fun h' => h h'.symm)]
  rw [this, get_filter h]

theorem get_del_ne {k k' : Bytes} (h : k' ≠ k) (l : List (Bytes × α)) : get k' (del k l) = get k' l := get_filter h l

theorem get_del_self (k : Bytes) (l : List (Bytes × α)) : get k (del k l) = none := by
  unfold get del
  rw [Option.map_eq_none_iff, List.find?_eq_none]
  intro x hx
  rw [List.mem_filter] at hx
  simpa using hx.2

theorem mem_of_get {k : Bytes} {v : α} {l} (h : get k l = some v) : (k, v) ∈ l := by
  unfold get at h
  rw [Option.map_eq_some_iff] at h
  obtain ⟨e, he, rfl⟩ := h
  have h2 := List.find?_some he
  have : e.1 = k := by simpa using h2
  subst this
  exact List.mem_of_find?_eq_some he

theorem get_of_mem {k : Bytes} {v : α} : ∀ {l}, (l.map (·.1)).Nodup → (k, v) ∈ l → get k l = some v
  | [], _, h => by simp at h
  | e :: l, hn, h => by
    rw [List.map_cons, List.nodup_cons] at hn
    unfold get
    rcases List.mem_cons.1 h with h | h
    · subst h
      rw [List.find?_cons_of_pos (by simp)]
      rfl
    · have : e.1 ≠ k := fun he => hn.1 (he ▸ List.mem_map_of_mem (f := (·.1)) h)
      rw [List.find?_cons_of_neg (by simpa using this)]
      exact get_of_mem hn.2 h

theorem nodup_filter {k : Bytes} {l : List (Bytes × α)} (h : (l.map (·.1)).Nodup) : ((l.filter fun e => e.1 != k).map (·.1)).Nodup :=
  List.Nodup.sublist (List.Sublist.map _ List.filter_sublist) h

theorem nodup_put {k : Bytes} {v : α} {l : List (Bytes × α)} (h : (l.map (·.1)).Nodup) : ((put k v l).map (·.1)).Nodup := by
  unfold put
  rw [List.map_cons, List.nodup_cons]
  refine ⟨?_, nodup_filter h⟩
  intro hm
  rw [List.mem_map] at hm
  obtain ⟨e, he, h2⟩ := hm
  rw [List.mem_filter] at he
  simp [h2] at he

theorem mem_put {k : Bytes} {v : α} {l : List (Bytes × α)} {e} (h : e ∈ put k v l) : e = (k, v) ∨ e ∈ l := by
  unfold put at h
  rcases List.mem_cons.1 h with h | h
  · exact Or.inl h
  · exact Or.inr (List.mem_filter.1 h).1

/-! ## Sorting -/

theorem sortIns_perm (le : α → α → Bool) (a : α) : ∀ l, (sortIns le a l).Perm (a :: l)
  | [] => List.Perm.refl _
  | b :: l => by
    unfold sortIns
    split
    · exact List.Perm.refl _
    · exact ((sortIns_perm le a l).cons b).trans (List.Perm.swap a b l)

theorem isort_perm (le : α → α → Bool) : ∀ l, (isort le l).Perm l
  | [] => List.Perm.refl _
  | a :: l => (sortIns_perm le a _).trans ((isort_perm le l).cons a)

theorem sortIns_sorted {le : α → α → Bool} {S : List α} (ht : ∀ a ∈ S, ∀ b ∈ S, le a b = true ∨ le b a = true)
    (hr : ∀ a ∈ S, ∀ b ∈ S, ∀ c ∈ S, le a b = true → le b c = true → le a c = true) {a : α} (ha : a ∈ S) :
    ∀ {l}, (∀ x ∈ l, x ∈ S) → l.Pairwise (fun x y => le x y = true) → (sortIns le a l).Pairwise (fun x y => le x y = true)
  | [], _, _ => List.pairwise_singleton _ _
  | b :: l, hs, hp => by
    unfold sortIns
    have hp' := List.pairwise_cons.1 hp
    split
    · rename_i h
      refine List.pairwise_cons.2 ⟨fun x hx => ?_, hp⟩
      rcases List.mem_cons.1 hx with rfl | hx
      · exact h
      · exact hr a ha b (hs b (by simp)) x (hs x (by simp [hx])) h (hp'.1 x hx)
    · rename_i h
      refine List.pairwise_cons.2 ⟨fun x hx => ?_, sortIns_sorted ht hr ha (fun x hx => hs x (by simp [hx])) hp'.2⟩
      rcases List.mem_cons.1 ((sortIns_perm le a l).mem_iff.1 hx) with rfl | hx
      · exact (ht x ha b (hs b (by simp))).resolve_left h
      · exact hp'.1 x hx

theorem isort_sorted {le : α → α → Bool} {S : List α} (ht : ∀ a ∈ S, ∀ b ∈ S, le a b = true ∨ le b a = true)
    (hr : ∀ a ∈ S, ∀ b ∈ S, ∀ c ∈ S, le a b = true → le b c = true → le a c = true) :
    ∀ {l}, (∀ x ∈ l, x ∈ S) → (isort le l).Pairwise (fun x y => le x y = true)
  | [], _ => List.Pairwise.nil
  | a :: l, hs => sortIns_sorted ht hr (hs a (by simp)) (fun x hx => hs x (by
      have := (isort_perm le l).mem_iff.1 hx
      simp [this])) (isort_sorted ht hr fun x hx => hs x (by simp [hx]))

/-! ## Order of names -/

theorem strLe_iff : ∀ {a b : Bytes}, strLe a b = true ↔ a = b ∨ Before a b
  | [], b => by
    unfold strLe Before
    cases b with
    | nil => simp
    | cons b bs => exact ⟨fun _ => Or.inr .nil, fun _ => rfl⟩
  | a :: as, [] => by
    unfold strLe Before
    constructor
    · intro h; cases h
    · rintro (h | h)
      · cases h
      · cases h
  | a :: as, b :: bs => by
    unfold strLe
    by_cases h : a = b
    · subst h
      rw [if_pos rfl, strLe_iff]
      unfold Before
      constructor
      · rintro (rfl | h)
        · exact Or.inl rfl
        · exact Or.inr (.cons h)
      · rintro (h | h)
        · cases h; exact Or.inl rfl
        · cases h with
          | cons h => exact Or.inr h
          | rel h => exact absurd h (UInt8.lt_irrefl _)
    · rw [if_neg h, decide_eq_true_eq]
      unfold Before
      constructor
      · intro h; exact Or.inr (.rel h)
      · rintro (h' | h')
        · cases h'; exact absurd rfl h
        · cases h' with
          | cons _ => exact absurd rfl h
          | rel h => exact h

theorem strLe_total : ∀ a b : Bytes, strLe a b = true ∨ strLe b a = true
  | [], b => Or.inl (by unfold strLe; rfl)
  | a :: as, [] => Or.inr (by unfold strLe; rfl)
  | a :: as, b :: bs => by
    unfold strLe
    by_cases h : a = b
    · subst h
      simpa using strLe_total as bs
    · rw [if_neg h, if_neg (fun h' => h h'.symm), decide_eq_true_eq, decide_eq_true_eq]
      simp only [UInt8.lt_iff_toNat_lt]
      have : a.toNat ≠ b.toNat := fun h' => h (UInt8.toNat_inj.1 h')
      omega

theorem strLe_trans : ∀ {a b c : Bytes}, strLe a b = true → strLe b c = true → strLe a c = true
  | [], _, _, _, _ => by unfold strLe; rfl
  | a :: as, [], _, h, _ => by unfold strLe at h; cases h
  | a :: as, b :: bs, [], _, h => by unfold strLe at h; cases h
  | a :: as, b :: bs, c :: cs, h1, h2 => by
    unfold strLe at h1 h2 ⊢
    by_cases hab : a = b
    · subst hab
      rw [if_pos rfl] at h1
      by_cases hac : a = c
      · subst hac
        rw [if_pos rfl] at h2 ⊢
        exact strLe_trans h1 h2
      · rw [if_neg hac] at h2 ⊢
        exact h2
    · rw [if_neg hab, decide_eq_true_eq] at h1
      by_cases hbc : b = c
      · subst hbc
        rw [if_neg hab, decide_eq_true_eq]
        exact h1
      · rw [if_neg hbc, decide_eq_true_eq] at h2
        rw [UInt8.lt_iff_toNat_lt] at h1 h2
        have : a ≠ c := fun h => by subst h; omega
        rw [if_neg this, decide_eq_true_eq, UInt8.lt_iff_toNat_lt]
        omega

end Verif.Modules
