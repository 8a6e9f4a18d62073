import Verif.Xperm.Lemmas

/-!
# Theorems about lists of extended permissions in checkpolicy

`toks tilde is` is the list as it is written; `Wanted tilde is x` says that it stands for number `x`; `Lists kind b x` says that a block of
a rule lists `x` (CilX/Spec.lean).
-/

namespace Verif.Xperm
open Avtab (XPerms)
open CilX (XKind Lists)
open Optimize (xbit)

/-- What is known of the ranges of a list. -/
theorem ranges_spec (tilde : Bool) (is : List Item) (hne : is ≠ []) (h : ∀ i ∈ is, i.Fits ∧ i.Ascends)
    (ht : tilde = true → ¬ Named is 65535 ∧ (Named is 0 → ∃ x y, x < y ∧ ¬ Named is x ∧ Named is y)) :
    ∃ l, ranges (toks tilde is) = some l ∧ (∀ q ∈ l, Ok q) ∧ ∀ x, In l x ↔ x ≤ 65535 ∧ Wanted tilde is x := by
  have hread : readLoop (toks tilde is) false [] = some (tilde, is.map Item.rangeOf) := by
    unfold toks
    exact readLoop_ok tilde h
  obtain ⟨s1, s2⟩ := sort_spec (is.map Item.rangeOf)
  have hok : ∀ r ∈ sort (is.map Item.rangeOf), Ok r := fun r hr => ok_items h r (s1.mem_iff.1 hr)
  obtain ⟨m1, m2, m3, m4, -⟩ := merge_spec _ _ rfl s2 hok
  have hin : ∀ x, In (merge (sort (is.map Item.rangeOf))) x ↔ Named is x := fun x => by rw [m3, in_perm s1, in_items]
  have hne' : is.map Item.rangeOf ≠ [] := by simpa using hne
  have hmne : merge (sort (is.map Item.rangeOf)) ≠ [] := by
    rw [Ne, m4]
    intro he
    rw [he] at s1
    exact hne' (List.nil_perm.1 s1)
  have hle : ∀ x, Named is x → x ≤ 65535 := fun x hx => by
    obtain ⟨r, hr, hx⟩ := (hin x).2 hx
    have := (m2 r hr).2
    omega
  have hranges : ranges (toks tilde is) = some (if tilde then omitRanges (merge (sort (is.map Item.rangeOf))) else merge (sort (is.map Item.rangeOf))) := by
    unfold ranges
    rw [hread]
    cases hm : is.map Item.rangeOf with
    | nil => exact absurd hm hne'
    | cons r l => rfl
  refine ⟨_, hranges, ?_⟩
  cases tilde with
  | false =>
    refine ⟨m2, fun x => ?_⟩
    show In (merge (sort (is.map Item.rangeOf))) x ↔ x ≤ 65535 ∧ Named is x
    rw [hin]
    exact ⟨fun h => ⟨hle x h, h⟩, fun h => h.2⟩
  | true =>
    obtain ⟨t1, t2⟩ := ht rfl
    simp only [← hin] at t1 t2
    obtain ⟨o1, o2⟩ := omitRanges_spec hmne m1 m2 t1 t2
    refine ⟨o1, fun x => ?_⟩
    show In (omitRanges (merge (sort (is.map Item.rangeOf)))) x ↔ x ≤ 65535 ∧ ¬ Named is x
    rw [o2, hin]

/-! ## C99: lists of extended permissions mean what they say -/

/-- The rules for commands of `ioctl`. -/
theorem C99_ioctl_partial (tilde : Bool) (is : List Item) (hne : is ≠ []) (h : ∀ i ∈ is, i.Fits ∧ i.Ascends)
    (ht : tilde = true → ¬ Named is 65535 ∧ (Named is 0 → ∃ x y, x < y ∧ ¬ Named is x ∧ Named is y)) :
    ∃ bs, ioctlRules (toks tilde is) = some bs ∧ ∀ x, x ≤ 65535 → ((∃ b ∈ bs, Lists .ioctl b x) ↔ Wanted tilde is x) := by
  obtain ⟨l, h1, h2, h3⟩ := ranges_spec tilde is hne h ht
  unfold ioctlRules
  rw [h1]
  refine ⟨_, rfl, fun x hx => ?_⟩
  have hx' : x < 65536 := by omega
  have hw : Wanted tilde is x ↔ In l x := by rw [h3]; exact ⟨fun h => ⟨hx, h⟩, fun h => h.2⟩
  rw [hw]
  have hc := completeBits_spec h2 (x / 256)
  -- the drivers of which a part is listed
  have hp : xbit (partialBits l (if used (completeBits l) then some (completeBits l) else none)) (x / 256) ↔
      ¬ xbit (completeBits l) (x / 256) ∧ ∃ r ∈ l, x / 256 = r.low / 256 ∨ x / 256 = r.high / 256 := by
    cases hu : used (completeBits l) with
    | true => exact partialBits_some h2 _ _
    | false =>
      have hno : ¬ xbit (completeBits l) (x / 256) := fun h => by
        rw [used_iff.2 ⟨_, h⟩] at hu
        cases hu
      rw [if_neg (by simp), partialBits_none h2]
      exact ⟨fun h => ⟨hno, h⟩, fun h => h.2⟩
  obtain ⟨P, hP⟩ : ∃ P, P = partialBits l (if used (completeBits l) then some (completeBits l) else none) := ⟨_, rfl⟩
  rw [← hP] at hp
  simp only [← hP]
  have hf := funcBlocks_spec h2 Optimize.FUNCTION P hx'
  have hpart : (∃ b ∈ (if used P then funcBlocks Optimize.FUNCTION l P else []), Lists .ioctl b x) ↔
      xbit P (x / 256) ∧ ∃ r ∈ l, (x / 256 = r.low / 256 ∨ x / 256 = r.high / 256) ∧ r.low ≤ x ∧ x ≤ r.high := by
    rw [← hf]
    constructor
    · rintro ⟨b, hb, hl⟩
      split at hb
      · rcases hl with hl | hl
        · exact ⟨b, hb, hl⟩
        · have := funcBlocks_spec' _ _ b hb
          rw [this] at hl
          exact absurd hl.1 (by decide)
      · cases hb
    · rintro ⟨b, hb, hl⟩
      have hu : used P = true := used_iff.2 ⟨_, (hf.1 ⟨b, hb, hl⟩).1⟩
      rw [if_pos hu]
      exact ⟨b, hb, Or.inl hl⟩
  have hcomp : (∃ b ∈ (if used (completeBits l) then [(⟨Optimize.DRIVER, 0#8, completeBits l⟩ : XPerms)] else []), Lists .ioctl b x) ↔
      xbit (completeBits l) (x / 256) := by
    constructor
    · rintro ⟨b, hb, hl⟩
      split at hb
      · rw [List.mem_singleton] at hb
        subst hb
        rcases hl with hl | hl
        · exact absurd (show Optimize.DRIVER = Optimize.FUNCTION from hl.1) (by decide)
        · exact hl.2
      · cases hb
    · intro hb
      rw [if_pos (used_iff.2 ⟨_, hb⟩)]
      exact ⟨_, List.mem_singleton.2 rfl, Or.inr ⟨rfl, hb⟩⟩
  have hsplit : (∃ b ∈ (if used (completeBits l) then [(⟨Optimize.DRIVER, 0#8, completeBits l⟩ : XPerms)] else []) ++
      (if used P then funcBlocks Optimize.FUNCTION l P else []), Lists .ioctl b x) ↔
      xbit (completeBits l) (x / 256) ∨ (xbit P (x / 256) ∧ ∃ r ∈ l, (x / 256 = r.low / 256 ∨ x / 256 = r.high / 256) ∧ r.low ≤ x ∧ x ≤ r.high) := by
    rw [← hcomp, ← hpart]
    simp only [List.mem_append]
    constructor
    · rintro ⟨b, hb | hb, hl⟩
      · exact Or.inl ⟨b, hb, hl⟩
      · exact Or.inr ⟨b, hb, hl⟩
    · rintro (⟨b, hb, hl⟩ | ⟨b, hb, hl⟩)
      · exact ⟨b, Or.inl hb, hl⟩
      · exact ⟨b, Or.inr hb, hl⟩
  rw [hsplit, hp, hc]
  constructor
  · rintro (⟨r, hr, hl⟩ | ⟨-, r, hr, -, hl⟩)
    · exact ⟨r, hr, by omega, by omega⟩
    · exact ⟨r, hr, hl⟩
  · rintro ⟨r, hr, hl1, hl2⟩
    by_cases hfull : ∃ q ∈ l, q.low ≤ 256 * (x / 256) ∧ 256 * (x / 256) + 255 ≤ q.high
    · exact Or.inl hfull
    · right
      have hend : x / 256 = r.low / 256 ∨ x / 256 = r.high / 256 := by
        by_contra hno
        rw [not_or] at hno
        exact hfull ⟨r, hr, by omega, by omega⟩
      exact ⟨⟨hfull, r, hr, hend⟩, r, hr, hend, hl1, hl2⟩

/-- The rules for netlink messages; no driver may be listed as a whole, together with the numbers before and after it. -/
theorem C99_nlmsg_partial (tilde : Bool) (is : List Item) (hne : is ≠ []) (h : ∀ i ∈ is, i.Fits ∧ i.Ascends)
    (ht : tilde = true → ¬ Named is 65535 ∧ (Named is 0 → ∃ x y, x < y ∧ ¬ Named is x ∧ Named is y))
    (hd : ∀ d, 0 < d → d < 255 → ∃ x, 256 * d - 1 ≤ x ∧ x ≤ 256 * d + 256 ∧ ¬ Wanted tilde is x) :
    ∃ bs, nlmsgRules (toks tilde is) = some bs ∧ ∀ x, x ≤ 65535 → ((∃ b ∈ bs, Lists .nlmsg b x) ↔ Wanted tilde is x) := by
  obtain ⟨l, h1, h2, h3⟩ := ranges_spec tilde is hne h ht
  unfold nlmsgRules
  rw [h1]
  refine ⟨_, rfl, fun x hx => ?_⟩
  have hx' : x < 65536 := by omega
  have hw : ∀ y ≤ 65535, (Wanted tilde is y ↔ In l y) := fun y hy => by rw [h3]; exact ⟨fun h => ⟨hy, h⟩, fun h => h.2⟩
  rw [hw x hx]
  have hp := partialBits_none h2 (x / 256)
  have hf := funcBlocks_spec h2 Optimize.NLMSG (partialBits l none) hx'
  have : (∃ b ∈ (if used (partialBits l none) then funcBlocks Optimize.NLMSG l (partialBits l none) else []), Lists .nlmsg b x) ↔
      xbit (partialBits l none) (x / 256) ∧ ∃ r ∈ l, (x / 256 = r.low / 256 ∨ x / 256 = r.high / 256) ∧ r.low ≤ x ∧ x ≤ r.high := by
    rw [← hf]
    constructor
    · rintro ⟨b, hb, hl⟩
      split at hb
      · exact ⟨b, hb, hl⟩
      · cases hb
    · rintro ⟨b, hb, hl⟩
      rw [if_pos (used_iff.2 ⟨_, (hf.1 ⟨b, hb, hl⟩).1⟩)]
      exact ⟨b, hb, hl⟩
  rw [this, hp]
  constructor
  · rintro ⟨-, r, hr, -, hl⟩
    exact ⟨r, hr, hl⟩
  · rintro ⟨r, hr, hl1, hl2⟩
    have hr' := h2 r hr
    have hend : x / 256 = r.low / 256 ∨ x / 256 = r.high / 256 := by
      by_contra hno
      rw [not_or] at hno
      unfold Ok at hr'
      obtain ⟨y, hy1, hy2, hy3⟩ := hd (x / 256) (by omega) (by omega)
      exact hy3 ((hw y (by omega)).2 ⟨r, hr, by omega, by omega⟩)
    exact ⟨⟨r, hr, hend⟩, r, hr, hend, hl1, hl2⟩

/-- A list is refused if one of its ranges descends. -/
theorem C99_refused (tilde : Bool) (is : List Item) (h : ∀ i ∈ is, i.Fits) (hd : ∃ i ∈ is, ¬ i.Ascends) :
    ioctlRules (toks tilde is) = none ∧ nlmsgRules (toks tilde is) = none := by
  have hread : readLoop (toks tilde is) false [] = none := by
    unfold toks
    exact readLoop_none tilde h hd
  have : ranges (toks tilde is) = none := by unfold ranges; rw [hread]
  unfold ioctlRules nlmsgRules
  rw [this]
  exact ⟨rfl, rfl⟩

/-! ### The hypotheses are met -/

/-- `{ 0x8910 0x8900-0x8905 0x8906 0x8a00-0x8c10 }` -/
def someList : List Item := [.one 0x8910, .range 0x8900 0x8905, .one 0x8906, .range 0x8a00 0x8c10]

theorem named_cons {i : Item} {is : List Item} {x : Nat} : Named (i :: is) x ↔ i.Names x ∨ Named is x := by simp [Named]

theorem named_nil {x : Nat} : ¬ Named [] x := by simp [Named]

theorem someList_fits : ∀ i ∈ someList, i.Fits ∧ i.Ascends := by
  simp only [someList, List.mem_cons, List.not_mem_nil, or_false]
  rintro i (rfl | rfl | rfl | rfl) <;> simp [Item.Fits, Item.Ascends]

example : ∃ bs, ioctlRules (toks false someList) = some bs ∧ ∀ x, x ≤ 65535 → ((∃ b ∈ bs, Lists .ioctl b x) ↔ Wanted false someList x) :=
  C99_ioctl_partial false someList (by simp [someList]) someList_fits (by simp)

example : ∃ bs, ioctlRules (toks true someList) = some bs ∧ ∀ x, x ≤ 65535 → ((∃ b ∈ bs, Lists .ioctl b x) ↔ Wanted true someList x) :=
  C99_ioctl_partial true someList (by simp [someList]) someList_fits fun _ => by
    simp only [someList, named_cons, named_nil, Item.Names, or_false]
    refine ⟨by omega, fun h => ?_⟩
    omega

/-- `{ 0 5-7 }` and what is not in it. -/
example : ∃ bs, ioctlRules (toks true [.one 0, .range 5 7]) = some bs ∧
    ∀ x, x ≤ 65535 → ((∃ b ∈ bs, Lists .ioctl b x) ↔ Wanted true [.one 0, .range 5 7] x) :=
  C99_ioctl_partial true [.one 0, .range 5 7] (by simp) (by simp [Item.Fits, Item.Ascends]) fun _ => by
    simp only [named_cons, named_nil, Item.Names, or_false]
    exact ⟨by omega, fun _ => ⟨1, 5, by omega, by omega, by omega⟩⟩

example : ∃ bs, nlmsgRules (toks false [.range 16 500, .one 600]) = some bs ∧
    ∀ x, x ≤ 65535 → ((∃ b ∈ bs, Lists .nlmsg b x) ↔ Wanted false [.range 16 500, .one 600] x) :=
  C99_nlmsg_partial false [.range 16 500, .one 600] (by simp) (by simp [Item.Fits, Item.Ascends]) (by simp) fun d h1 h2 => by
    simp only [Wanted, named_cons, named_nil, Item.Names, or_false]
    exact ⟨256 * d + 256, by omega, by omega, by simp; omega⟩

/-! ### What is left out -/

instance (kind : XKind) (b : XPerms) (x : Nat) : Decidable (Lists kind b x) := by
  cases kind <;> unfold Lists xbit <;> infer_instance

/-- `~{ 0-5 }`: number 1 is listed, number 1000 is not. -/
theorem C99_from_zero_refuted :
    ∃ bs, ioctlRules (toks true [.range 0 5]) = some bs ∧ (∃ b ∈ bs, Lists .ioctl b 1) ∧ ¬ Wanted true [.range 0 5] 1 ∧
      (¬ ∃ b ∈ bs, Lists .ioctl b 1000) ∧ Wanted true [.range 0 5] 1000 :=
  ⟨_, rfl, by decide +kernel, by simp [Wanted, Named, Item.Names], by decide +kernel, by simp [Wanted, Named, Item.Names]⟩

/-- `~{ 0x10-0xffff }`: everything is listed. -/
theorem C99_to_end_refuted :
    ∃ bs, ioctlRules (toks true [.range 0x10 0xffff]) = some bs ∧ (∃ b ∈ bs, Lists .ioctl b 0x8910) ∧ ¬ Wanted true [.range 0x10 0xffff] 0x8910 :=
  ⟨_, rfl, by decide +kernel, by simp [Wanted, Named, Item.Names]⟩

/-- `nlmsg { 0-0x2ff }`: number 0x100 is not listed. -/
theorem C99_nlmsg_refuted :
    ∃ bs, nlmsgRules (toks false [.range 0 0x2ff]) = some bs ∧ (¬ ∃ b ∈ bs, Lists .nlmsg b 0x100) ∧ Wanted false [.range 0 0x2ff] 0x100 :=
  ⟨_, rfl, by decide +kernel, by simp [Wanted, Named, Item.Names]⟩

/-- `0x18910`: number 0x8910 is listed. -/
theorem C99_large_refuted :
    ∃ bs, ioctlRules (toks false [.one 0x18910]) = some bs ∧ (∃ b ∈ bs, Lists .ioctl b 0x8910) ∧ ¬ Wanted false [.one 0x18910] 0x8910 :=
  ⟨_, rfl, by decide +kernel, by simp [Wanted, Named, Item.Names]⟩

end Verif.Xperm
