import Verif.KernelCil.RuleSpec
import Verif.KernelCil.LevelLemmas

/-! Lemmas about rules. -/

namespace Verif.KernelCil
open CilParse (Writes NoSymbolNext symbolChar)
open CilCond (Tree)
open Avtab (Node XPerms)

/-! ### Texts -/

theorem writes_join : ∀ (ps : List (Tree × Str)), (∀ p ∈ ps, Writes [p.1] p.2) → Writes (ps.map Prod.fst) (join (ps.map Prod.snd))
  | [], _ => .nil
  | [p], h => h p List.mem_cons_self
  | p :: q :: l, h => by
    have := writes_space (h p List.mem_cons_self) (writes_join (q :: l) fun x hx => h x (List.mem_cons_of_mem _ hx))
    simpa [join] using this

theorem writes_parens (ps : List (Tree × Str)) (h : ∀ p ∈ ps, Writes [p.1] p.2) : Writes [.list (ps.map Prod.fst)] (parens (ps.map Prod.snd)) :=
  writes_paren (writes_join ps h)

theorem writes_parens1 {ts : List Tree} {a : Str} (h : Writes ts a) : Writes [.list ts] (parens [a]) := writes_paren h

theorem flatMap_space {α : Type} (g : α → Str) : ∀ (l : List α), l ≠ [] → l.flatMap (fun x => ' ' :: g x) = ' ' :: join (l.map g)
  | [], h => absurd rfl h
  | [x], _ => by simp [join]
  | x :: y :: l, _ => by
    have := flatMap_space g (y :: l) (by simp)
    rw [List.flatMap_cons, this]
    simp [join]

theorem flatMap_congr' {α β : Type} {f g : α → List β} : ∀ {l : List α}, (∀ x ∈ l, f x = g x) → l.flatMap f = l.flatMap g
  | [], _ => rfl
  | x :: l, h => by
    rw [List.flatMap_cons, List.flatMap_cons, h x List.mem_cons_self, flatMap_congr' fun y hy => h y (List.mem_cons_of_mem _ hy)]

/-! ### Numbers -/

theorem hexDigit_ok (n : Nat) (h : n < 16) :
    digitValue (hexDigit n) = n ∧ ((hexDigit n).isDigit || decide ('a'.toNat ≤ (hexDigit n).toNat ∧ (hexDigit n).toNat ≤ 'f'.toNat)) = true ∧
      symbolChar (hexDigit n) = true := by
  revert n; decide

theorem hexDigits_ok (n : Nat) : hexDigits n ≠ [] ∧ (hexDigits n).foldl (fun n c => 16 * n + digitValue c) 0 = n ∧
    (∀ c ∈ hexDigits n, (c.isDigit || decide ('a'.toNat ≤ c.toNat ∧ c.toNat ≤ 'f'.toNat)) = true ∧ symbolChar c = true) := by
  induction n using Nat.strongRecOn with
  | _ n ih =>
    rw [hexDigits.eq_def]
    split
    · rename_i h
      obtain ⟨h1, h2, h3⟩ := hexDigit_ok n h
      refine ⟨by simp, by simp [h1], ?_⟩
      intro c hc
      rw [List.mem_singleton.1 hc]; exact ⟨h2, h3⟩
    · rename_i h
      obtain ⟨h1, h2, h3⟩ := hexDigit_ok (n % 16) (by omega)
      obtain ⟨i1, i2, i3⟩ := ih (n / 16) (by omega)
      refine ⟨by simp, ?_, ?_⟩
      · rw [List.foldl_append, i2]
        simp only [List.foldl_cons, List.foldl_nil, h1]; omega
      · intro c hc
        rcases List.mem_append.1 hc with hc | hc
        · exact i3 c hc
        · rw [List.mem_singleton.1 hc]; exact ⟨h2, h3⟩

theorem hex_good (n : Nat) : GoodName (hex n) := by
  refine ⟨by simp [hex], fun c hc => ?_⟩
  simp only [hex, List.mem_cons] at hc
  rcases hc with rfl | rfl | hc
  · decide
  · decide
  · exact ((hexDigits_ok n).2.2 c hc).2

theorem readHex_hex (n : Nat) : readHex (hex n) = some n := by
  obtain ⟨h1, h2, h3⟩ := hexDigits_ok n
  unfold hex
  cases hd : hexDigits n with
  | nil => exact absurd hd h1
  | cons c ds =>
    rw [hd] at h2 h3
    simp only [readHex]
    rw [if_pos (List.all_eq_true.2 fun c hc => (h3 c hc).1), h2]

theorem shl8_or (a b : Nat) (hb : b < 256) : a <<< 8 ||| b = 256 * a + b := by
  rw [← Nat.shiftLeft_add_eq_or_of_lt (by simpa using hb), Nat.shiftLeft_eq]; omega

theorem shl8 (a : Nat) : a <<< 8 = 256 * a := by rw [Nat.shiftLeft_eq]; omega

/-! ### Extended permissions -/

theorem xLoop_spec (p : List (BitVec 32)) : ∀ (k b : Nat) (inRange : Bool) (low : Nat), b + k = 256 →
    (inRange = true → low < b ∧ b < 256 ∧ ∀ y, low ≤ y → y ≤ b → Optimize.xpermTest y p = true) →
    (∀ e ∈ xLoop p (List.range' b k) inRange low, e.2.2 < 256 ∧ (e.1 = true → e.2.1 < e.2.2)) ∧
    ∀ y, (y < 256 ∧ Optimize.xpermTest y p = true ∧ (b ≤ y ∨ inRange = true ∧ low ≤ y)) ↔
      ∃ e ∈ xLoop p (List.range' b k) inRange low, (if e.1 then e.2.1 else e.2.2) ≤ y ∧ y ≤ e.2.2
  | 0, b, inRange, low, hk, hr => by
    refine ⟨by simp [xLoop], fun y => ?_⟩
    simp only [List.range'_zero, xLoop, List.not_mem_nil, false_and, exists_false, iff_false]
    rintro ⟨h1, h2, h3 | ⟨h3, h4⟩⟩
    · omega
    · have := (hr h3).2.1; omega
  | k + 1, b, inRange, low, hk, hr => by
    rw [List.range'_succ]
    simp only [xLoop]
    by_cases ht : Optimize.xpermTest b p = true
    · rw [if_neg (by simp [ht])]
      have hnext : nextBitInRange b p = true ↔ b + 1 < 256 ∧ Optimize.xpermTest (b + 1) p = true := by
        unfold nextBitInRange; simp
      by_cases hn : nextBitInRange b p = true
      · have hn' := hnext.1 hn
        cases inRange with
        | true =>
          rw [if_pos (by simp [hn])]
          obtain ⟨r1, r2, r3⟩ := hr rfl
          obtain ⟨i1, i2⟩ := xLoop_spec p k (b + 1) true low (by omega) (fun _ => ⟨by omega, hn'.1, fun y h1 h2 => by
            by_cases hy : y = b + 1
            · rw [hy]; exact hn'.2
            · exact r3 y h1 (by omega)⟩)
          refine ⟨i1, fun y => ?_⟩
          rw [← i2]
          constructor
          · rintro ⟨h1, h2, h3⟩
            refine ⟨h1, h2, ?_⟩
            rcases h3 with h3 | ⟨-, h3⟩
            · exact .inr ⟨rfl, by omega⟩
            · exact .inr ⟨rfl, h3⟩
          · rintro ⟨h1, h2, h3⟩
            exact ⟨h1, h2, .inr ⟨rfl, by omega⟩⟩
        | false =>
          rw [if_neg (by simp), if_pos hn]
          obtain ⟨i1, i2⟩ := xLoop_spec p k (b + 1) true b (by omega) (fun _ => ⟨by omega, hn'.1, fun y h1 h2 => by
            by_cases hy : y = b + 1
            · rw [hy]; exact hn'.2
            · rw [show y = b by omega]; exact ht⟩)
          refine ⟨i1, fun y => ?_⟩
          rw [← i2]
          constructor
          · rintro ⟨h1, h2, h3⟩
            refine ⟨h1, h2, ?_⟩
            rcases h3 with h3 | ⟨h3, -⟩
            · exact .inr ⟨rfl, h3⟩
            · cases h3
          · rintro ⟨h1, h2, h3⟩
            exact ⟨h1, h2, .inl (by omega)⟩
      · rw [if_neg (by simp [hn]), if_neg hn]
        obtain ⟨i1, i2⟩ := xLoop_spec p k (b + 1) false low (by omega) (by simp)
        refine ⟨?_, fun y => ?_⟩
        · intro e he
          rcases List.mem_cons.1 he with rfl | he
          · exact ⟨by simp only; omega, fun h => (hr h).1⟩
          · exact i1 e he
        · simp only [List.mem_cons, exists_eq_or_imp]
          rw [← i2]
          constructor
          · rintro ⟨h1, h2, h3⟩
            by_cases hy : b + 1 ≤ y
            · exact .inr ⟨h1, h2, .inl hy⟩
            · refine .inl ⟨?_, by omega⟩
              rcases h3 with h3 | ⟨h3, h4⟩
              · cases inRange with
                | true => have := (hr rfl).1; simp only [if_true]; omega
                | false => simp only [Bool.false_eq_true, if_false]; omega
              · rw [h3]; exact h4
          · rintro (⟨h1, h2⟩ | ⟨h1, h2, h3⟩)
            · cases inRange with
              | true =>
                obtain ⟨r1, r2, r3⟩ := hr rfl
                simp only [if_true] at h1
                exact ⟨by omega, r3 y h1 h2, .inr ⟨rfl, h1⟩⟩
              | false =>
                simp only [Bool.false_eq_true, if_false] at h1
                rw [show y = b by omega]
                exact ⟨by omega, ht, .inl (Nat.le_refl _)⟩
            · rcases h3 with h3 | ⟨h3, -⟩
              · exact ⟨h1, h2, .inl (by omega)⟩
              · cases h3
    · have ht : Optimize.xpermTest b p = false := by simpa using ht
      have hi : inRange = false := by
        cases inRange with
        | false => rfl
        | true =>
          obtain ⟨r1, r2, r3⟩ := hr rfl
          have := r3 b (by omega) (Nat.le_refl _)
          rw [ht] at this; cases this
      subst hi
      rw [if_pos (by simp [ht])]
      obtain ⟨i1, i2⟩ := xLoop_spec p k (b + 1) false low (by omega) (by simp)
      refine ⟨i1, fun y => ?_⟩
      rw [← i2]
      constructor
      · rintro ⟨h1, h2, h3⟩
        refine ⟨h1, h2, ?_⟩
        rcases h3 with h3 | ⟨h3, -⟩
        · left
          by_contra hc
          rw [show y = b by omega, ht] at h2; cases h2
        · cases h3
      · rintro ⟨h1, h2, h3⟩
        refine ⟨h1, h2, ?_⟩
        rcases h3 with h3 | ⟨h3, -⟩
        · exact .inl (by omega)
        · cases h3

/-- The element that is printed. -/
def xItem (x : XPerms) : Bool × Nat × Nat → CatItem
  | (inRange, low, bit) =>
    if x.specified = Optimize.DRIVER then .range (256 * (if inRange then low else bit)) (256 * bit + 255)
    else if inRange then .range (256 * x.driver.toNat + low) (256 * x.driver.toNat + bit) else .one (256 * x.driver.toNat + bit)

def itemText (num : Nat → Str) : CatItem → Str
  | .one i => num i
  | .range a b => paren3 "range".toList (num a) (num b)

theorem itemText_writes (it : CatItem) : Writes [it.tree hex] (itemText hex it) := by
  cases it with
  | one i => exact writes_name (hex_good i)
  | range a b => exact writes_paren3 (writes_word "range" (by decide)) (writes_name (hex_good a)) (writes_name (hex_good b))

theorem xText_eq {x : XPerms} (hs : x.specified = Optimize.FUNCTION ∨ x.specified = Optimize.DRIVER ∨ x.specified = Optimize.NLMSG)
    {e : Bool × Nat × Nat} (h1 : e.2.2 < 256) (h2 : e.1 = true → e.2.1 < e.2.2) : xText x e = ' ' :: itemText hex (xItem x e) := by
  obtain ⟨r, lo, bit⟩ := e
  simp only at h1 h2
  have hor : 256 * bit ||| 255 = 256 * bit + 255 := by
    have := shl8_or bit 255 (by omega)
    rwa [shl8] at this
  have hrange : ∀ a b : Nat, " (range ".toList ++ (hex a ++ ' ' :: (hex b ++ [')'])) = ' ' :: paren3 "range".toList (hex a) (hex b) := by
    intro a b
    rw [show " (range ".toList = ' ' :: '(' :: ("range".toList ++ [' ']) from rfl]
    simp [paren3]
  simp only [xText, xItem]
  by_cases hd : x.specified = Optimize.DRIVER
  · rw [if_neg (by rw [hd]; decide), if_pos hd, if_pos hd]
    cases r with
    | true => simp only [if_true, shl8, hor, hrange, itemText]
    | false => simp only [Bool.false_eq_true, if_false, shl8, hor, hrange, itemText]
  · rw [if_pos (by tauto), if_neg hd]
    cases r with
    | true =>
      have := h2 rfl
      simp only [if_true]
      rw [shl8_or _ _ h1, shl8_or _ _ (by omega), hrange]; rfl
    | false =>
      simp only [Bool.false_eq_true, if_false]
      rw [shl8_or _ _ h1]; rfl

/-- The numbers of a block are those of the elements. -/
theorem xItem_has {x : XPerms} {e : Bool × Nat × Nat} (h1 : e.2.2 < 256) (h2 : e.1 = true → e.2.1 < e.2.2)
    {dr fn : Nat} (hd : dr < 256) (hf : fn < 256) :
    (xItem x e).has (256 * dr + fn) ↔
      if x.specified = Optimize.DRIVER then (if e.1 then e.2.1 else e.2.2) ≤ dr ∧ dr ≤ e.2.2
      else x.driver.toNat = dr ∧ (if e.1 then e.2.1 else e.2.2) ≤ fn ∧ fn ≤ e.2.2 := by
  obtain ⟨r, lo, bit⟩ := e
  simp only at h1 h2
  have := x.driver.isLt
  simp only [xItem]
  split
  · simp only [CatItem.has]
    cases r
    · simp only [Bool.false_eq_true, if_false]; omega
    · simp only [if_true]; omega
  · cases r
    · simp only [Bool.false_eq_true, if_false, CatItem.has]; omega
    · have := h2 rfl
      simp only [if_true, CatItem.has]; omega

theorem xpermsToStr_writes {x : XPerms} (hs : x.specified = Optimize.FUNCTION ∨ x.specified = Optimize.DRIVER ∨ x.specified = Optimize.NLMSG)
    (hne : ∃ i < 256, Optimize.xbit x.perms i) :
    ∃ (text : Str) (items : List CatItem), xpermsToStr x = some text ∧ Writes [.list (items.map (CatItem.tree hex))] text ∧
      ∀ dr fn, dr < 256 → fn < 256 → ((∃ it ∈ items, it.has (256 * dr + fn)) ↔
        if x.specified = Optimize.DRIVER then Optimize.xbit x.perms dr else x.driver.toNat = dr ∧ Optimize.xbit x.perms fn) := by
  obtain ⟨i1, i2⟩ := xLoop_spec x.perms 256 0 false 0 (by omega) (by simp)
  rw [← List.range_eq_range'] at i1 i2
  have hmem : ∀ y, (y < 256 ∧ Optimize.xbit x.perms y) ↔ ∃ e ∈ xLoop x.perms (List.range 256) false 0, (if e.1 then e.2.1 else e.2.2) ≤ y ∧ y ≤ e.2.2 := by
    intro y
    rw [← i2]
    simp [Optimize.xbit, Optimize.xpermTest]
  have hne' : xLoop x.perms (List.range 256) false 0 ≠ [] := by
    obtain ⟨i, h1, h2⟩ := hne
    obtain ⟨e, he, -⟩ := (hmem i).1 ⟨h1, h2⟩
    intro h0; rw [h0] at he; cases he
  have htext : (xLoop x.perms (List.range 256) false 0).flatMap (xText x) =
      ' ' :: join ((xLoop x.perms (List.range 256) false 0).map fun e => itemText hex (xItem x e)) := by
    rw [← flatMap_space _ _ hne']
    exact flatMap_congr' fun e he => xText_eq hs (i1 e he).1 (i1 e he).2
  refine ⟨parens ((xLoop x.perms (List.range 256) false 0).map fun e => itemText hex (xItem x e)),
    (xLoop x.perms (List.range 256) false 0).map (xItem x), ?_, ?_, ?_⟩
  · unfold xpermsToStr
    rw [if_neg (by tauto), htext]; rfl
  · have := writes_parens ((xLoop x.perms (List.range 256) false 0).map fun e => ((xItem x e).tree hex, itemText hex (xItem x e))) (by
      intro p hp
      obtain ⟨e, -, rfl⟩ := List.mem_map.1 hp
      exact itemText_writes _)
    simpa [Function.comp_def] using this
  · intro dr fn hd hf
    constructor
    · rintro ⟨it, hit, h⟩
      obtain ⟨e, he, rfl⟩ := List.mem_map.1 hit
      have := (xItem_has (i1 e he).1 (i1 e he).2 hd hf).1 h
      split at this
      · rename_i hD
        rw [if_pos hD]; exact ((hmem dr).2 ⟨e, he, this⟩).2
      · rename_i hD
        rw [if_neg hD]; exact ⟨this.1, ((hmem fn).2 ⟨e, he, this.2⟩).2⟩
    · intro h
      split at h
      · rename_i hD
        obtain ⟨e, he, h3⟩ := (hmem dr).1 ⟨hd, h⟩
        refine ⟨_, List.mem_map.2 ⟨e, he, rfl⟩, (xItem_has (i1 e he).1 (i1 e he).2 hd hf).2 ?_⟩
        rw [if_pos hD]; exact h3
      · rename_i hD
        obtain ⟨e, he, h3⟩ := (hmem fn).1 ⟨hf, h.2⟩
        refine ⟨_, List.mem_map.2 ⟨e, he, rfl⟩, (xItem_has (i1 e he).1 (i1 e he).2 hd hf).2 ?_⟩
        rw [if_neg hD]; exact ⟨h.1, h3⟩

/-! ### Permissions -/

/-- The permissions that are written. -/
def permList (nm : RNames) (cls : Nat) (av : BitVec 32) : List Nat :=
  (List.range (nm.nprim (cls - 1))).filter fun i => av.getLsbD i && (nm.perm (cls - 1) i).isSome

theorem avToString_eq (nm : RNames) (cls : Nat) (av : BitVec 32) :
    avToString nm cls av = (permList nm cls av).flatMap fun i => ' ' :: (nm.perm (cls - 1) i).getD [] := by
  unfold avToString permList
  induction List.range (nm.nprim (cls - 1)) with
  | nil => rfl
  | cons i l ih =>
    simp only [List.flatMap_cons, List.filter_cons, ih]
    cases av.getLsbD i with
    | false => simp
    | true =>
      cases h : nm.perm (cls - 1) i with
      | none => simp
      | some s => simp [h]

theorem mem_permList {nm : RNames} {cls : Nat} {av : BitVec 32} {b : Nat} :
    b ∈ permList nm cls av ↔ b < nm.nprim (cls - 1) ∧ nm.perm (cls - 1) b ≠ none ∧ av.getLsbD b = true := by
  simp only [permList, List.mem_filter, List.mem_range, Bool.and_eq_true, Option.isSome_iff_ne_none]
  tauto

theorem av_writes {nm : RNames} {cls : Nat} {av : BitVec 32} (hg : ∀ i s, nm.perm (cls - 1) i = some s → GoodName s)
    (hne : permList nm cls av ≠ []) :
    ∃ text, avToString nm cls av = ' ' :: text ∧ Writes ((permList nm cls av).map fun p => .atom (String.ofList ((nm.perm (cls - 1) p).getD []))) text := by
  refine ⟨_, by rw [avToString_eq, flatMap_space _ _ hne], ?_⟩
  have := writes_join ((permList nm cls av).map fun p => (Tree.atom (String.ofList ((nm.perm (cls - 1) p).getD [])), (nm.perm (cls - 1) p).getD [])) (by
    intro p hp
    obtain ⟨i, hi, rfl⟩ := List.mem_map.1 hp
    obtain ⟨-, h2, -⟩ := mem_permList.1 hi
    obtain ⟨s, hs⟩ := Option.ne_none_iff_exists'.1 h2
    simp only [hs, Option.getD_some]
    exact writes_name (hg i s hs))
  simpa [Function.comp_def] using this

end Verif.KernelCil
