import Verif.CilX.Spec
import Verif.CilBin.Lemmas4
import Verif.Ebitmap.Props

/-!
# Lemmas on blocks of extended permissions
-/

namespace Verif.CilX
open Ebitmap (Ebitmap)
open Avtab (XPerms)
open Optimize (xbit)
open CilBin (bits)

theorem setBits_bit : ∀ a < 32, ∀ j < 32, (setBits a).getLsbD j = decide (j < a) := by decide +kernel

theorem compl_bit : ∀ a < 32, ∀ j < 32, (BitVec.allOnes 32 - setBits a).getLsbD j = decide (a ≤ j) := by decide +kernel

theorem diff_bit : ∀ a < 32, ∀ b < 32, a ≤ b → ∀ j < 32, (setBits b - setBits a).getLsbD j = decide (a ≤ j ∧ j < b) := by decide +kernel

theorem setBits_mod (x : Nat) : setBits x = setBits (x % 32) := by unfold setBits; rw [Nat.mod_mod]

theorem word_bit {low high i j : Nat} (h1 : low ≤ high) (h2 : high < 256) (h3 : low / 32 ≤ i) (h4 : i ≤ high / 32) (hj : j < 32) :
    (word low high i).getLsbD j = decide (low ≤ i * 32 + j ∧ i * 32 + j ≤ high) := by
  have hh : (high + 1) % 2 ^ 16 = high + 1 := Nat.mod_eq_of_lt (by omega)
  unfold word
  simp only [hh]
  split
  · rw [BitVec.getLsbD_allOnes]
    simp only [decide_eq_decide]; omega
  split
  · rw [setBits_mod, setBits_bit _ (Nat.mod_lt _ (by decide)) j hj]
    simp only [decide_eq_decide]; omega
  split
  · rw [setBits_mod, compl_bit _ (Nat.mod_lt _ (by decide)) j hj]
    simp only [decide_eq_decide]; omega
  split
  · by_cases he : (high + 1) % 32 = 0
    · exfalso; omega
    · rw [setBits_mod (high + 1), setBits_mod low, diff_bit _ (Nat.mod_lt _ (by decide)) _ (Nat.mod_lt _ (by decide)) (by omega) j hj]
      simp only [decide_eq_decide]; omega
  · exfalso; omega

theorem modify_xbit {ps : List (BitVec 32)} {i : Nat} (hi : i < ps.length) (w : BitVec 32) (n : Nat) :
    xbit (ps.modify i (· ||| w)) n ↔ xbit ps n ∨ (n / 32 = i ∧ w.getLsbD (n % 32) = true) := by
  unfold xbit
  simp only [List.getD_eq_getElem?_getD, List.getElem?_modify]
  by_cases h : i = n / 32
  · subst h
    simp [List.getElem?_eq_getElem hi]
  · have h' : ¬ n / 32 = i := fun e => h e.symm
    simp [h, h']

theorem setRange_loop {low high : Nat} (h1 : low ≤ high) (h2 : high < 256) : ∀ (m i : Nat) (ps : List (BitVec 32)), low / 32 ≤ i → i + m ≤ high / 32 + 1 →
    ps.length = 8 →
    let ps' := (List.range' i m).foldl (fun ps i => ps.modify i (· ||| word low high i)) ps
    ps'.length = 8 ∧ ∀ n, xbit ps' n ↔ xbit ps n ∨ (i ≤ n / 32 ∧ n / 32 < i + m ∧ low ≤ n ∧ n ≤ high) := by
  intro m
  induction m with
  | zero => intro i ps _ _ hl; exact ⟨hl, fun n => by simp only [List.range'_zero, List.foldl_nil]; constructor; exact Or.inl; rintro (h | h); exact h; omega⟩
  | succ m ih =>
    intro i ps hi hm hl
    rw [List.range'_succ, List.foldl_cons]
    obtain ⟨a, b⟩ := ih (i + 1) (ps.modify i (· ||| word low high i)) (by omega) (by omega) (by simp [hl])
    refine ⟨a, fun n => ?_⟩
    rw [b, modify_xbit (by omega)]
    have hw := word_bit h1 h2 hi (by omega) (Nat.mod_lt n (by decide : 32 > 0))
    have hn := Nat.div_add_mod n 32
    constructor
    · rintro ((h | ⟨h, h'⟩) | h)
      · exact Or.inl h
      · rw [hw] at h'
        simp only [decide_eq_true_eq] at h'
        right; omega
      · right; omega
    · rintro (h | h)
      · exact Or.inl (Or.inl h)
      · by_cases he : n / 32 = i
        · left; right
          refine ⟨he, ?_⟩
          rw [hw]
          simp only [decide_eq_true_eq]
          omega
        · right; omega

theorem setRange_ok {low high : Nat} (h1 : low ≤ high) (h2 : high < 256) {ps : List (BitVec 32)} (hl : ps.length = 8) :
    (setRange low high ps).length = 8 ∧ ∀ n, xbit (setRange low high ps) n ↔ xbit ps n ∨ (low ≤ n ∧ n ≤ high) := by
  obtain ⟨a, b⟩ := setRange_loop h1 h2 (high / 32 + 1 - low / 32) (low / 32) ps (Nat.le_refl _) (by omega) hl
  refine ⟨a, fun n => ?_⟩
  unfold setRange
  rw [b]
  constructor
  · rintro (h | h)
    · exact Or.inl h
    · exact Or.inr ⟨h.2.2.1, h.2.2.2⟩
  · rintro (h | h)
    · exact Or.inl h
    · refine Or.inr ⟨?_, ?_, h⟩ <;> omega

theorem zeros_xbit (n : Nat) : ¬ xbit (List.replicate 8 0#32) n := by
  unfold xbit
  simp only [List.getD_eq_getElem?_getD, List.getElem?_replicate]
  split <;> simp

/-! ### The loop over the bitmap -/

/-- A block of functions, or the block of drivers. -/
structure PartOk (kind : XKind) (x : XPerms) : Prop where
  spec : x.specified = kind.spec
  len : x.perms.length = 8

structure CompleteOk (x : XPerms) : Prop where
  spec : x.specified = Optimize.DRIVER
  len : x.perms.length = 8

theorem lists_part {kind : XKind} {x : XPerms} (h : PartOk kind x) (n : Nat) :
    Lists kind x n ↔ x.driver.toNat = n / 256 ∧ xbit x.perms (n % 256) := by
  cases kind with
  | ioctl =>
    have : x.specified = Optimize.FUNCTION := h.spec
    simp [Lists, this, Optimize.FUNCTION, Optimize.DRIVER]
  | nlmsg =>
    have : x.specified = Optimize.NLMSG := h.spec
    simp [Lists, this]

theorem lists_complete {x : XPerms} (h : CompleteOk x) (n : Nat) : Lists .ioctl x n ↔ xbit x.perms (n / 256) := by
  simp [Lists, h.spec, Optimize.FUNCTION, Optimize.DRIVER]

def Loop.all (s : Loop) : List XPerms := s.out ++ s.part.toList ++ s.complete.toList

/-- The blocks that the loop has made are well formed, and they list the numbers. -/
structure Blocks (kind : XKind) (s : Loop) (S : Nat → Prop) : Prop where
  out : ∀ x ∈ s.out, PartOk kind x
  part : ∀ x ∈ s.part, PartOk kind x
  complete : ∀ x ∈ s.complete, CompleteOk x ∧ kind = .ioctl
  all : ∀ n < 2 ^ 16, (∃ x ∈ s.all, Lists kind x n) ↔ S n
  ne : s.all = [] ∨ ∃ n < 2 ^ 16, S n

theorem Blocks.range {kind : XKind} {s : Loop} {S : Nat → Prop} {e : Ebitmap} (h : Blocks kind s S) {i low : Nat} (hi : i < 2 ^ 16)
    (hlow : (if s.fresh then i % 2 ^ 16 else s.low) = low) (hl : low ≤ i) (hd : low / 256 = i / 256)
    (hc : ¬ (i % 256 ≠ 255 ∧ Ebitmap.getBit e (i + 1) = true)) :
    Blocks kind (step kind e s i) (fun n => S n ∨ (low ≤ n ∧ n ≤ i)) ∧ (step kind e s i).fresh = true := by
  have him : i % 2 ^ 16 = i := Nat.mod_eq_of_lt hi
  unfold step
  rw [him] at hlow
  simp only [him, hlow, if_neg hc]
  by_cases hcomp : kind = .ioctl ∧ low % 256 = 0 ∧ i % 256 = 255
  · rw [if_pos hcomp]
    obtain ⟨rfl, hl0, hi0⟩ := hcomp
    refine ⟨?_, rfl⟩
    have hck : CompleteOk (s.complete.getD ⟨Optimize.DRIVER, 0#8, List.replicate 8 0#32⟩) := by
      cases hcc : s.complete with
      | none => exact ⟨rfl, rfl⟩
      | some c => exact (h.complete c hcc).1
    have hold : ∀ n, xbit (s.complete.getD ⟨Optimize.DRIVER, 0#8, List.replicate 8 0#32⟩).perms (n / 256) ↔ ∃ x ∈ s.complete.toList, Lists .ioctl x n := by
      intro n
      cases hcc : s.complete with
      | none => simpa using zeros_xbit _
      | some c => simpa using (lists_complete (h.complete c hcc).1 n).symm
    generalize hcd : s.complete.getD ⟨Optimize.DRIVER, 0#8, List.replicate 8 0#32⟩ = c at hck hold
    obtain ⟨r1, r2⟩ := setRange_ok (low := low / 256) (high := low / 256) (Nat.le_refl _) (by omega) hck.len
    have hck' : CompleteOk { c with perms := setRange (low / 256) (low / 256) c.perms } := ⟨hck.spec, r1⟩
    refine ⟨h.out, h.part, ?_, ?_, ?_⟩
    · intro x hx
      cases hx
      exact ⟨hck', rfl⟩
    · intro n hn
      rw [← h.all n hn]
      simp only [Loop.all, List.mem_append, Option.toList_some, List.mem_cons, List.not_mem_nil, or_false]
      constructor
      · rintro ⟨x, (hx | hx) | rfl, hl⟩
        · exact Or.inl ⟨x, Or.inl (Or.inl hx), hl⟩
        · exact Or.inl ⟨x, Or.inl (Or.inr hx), hl⟩
        · rw [lists_complete hck', r2] at hl
          rcases hl with hl | hl
          · obtain ⟨x, hx, hl⟩ := (hold n).1 hl
            exact Or.inl ⟨x, Or.inr hx, hl⟩
          · right; omega
      · rintro (⟨x, (hx | hx) | hx, hl⟩ | hr)
        · exact ⟨x, Or.inl (Or.inl hx), hl⟩
        · exact ⟨x, Or.inl (Or.inr hx), hl⟩
        · refine ⟨_, Or.inr rfl, ?_⟩
          rw [lists_complete hck', r2]
          exact Or.inl ((hold n).2 ⟨x, hx, hl⟩)
        · refine ⟨_, Or.inr rfl, ?_⟩
          rw [lists_complete hck', r2]
          right; omega
    · exact Or.inr ⟨i, hi, Or.inr ⟨hl, Nat.le_refl _⟩⟩
  · rw [if_neg hcomp]
    have key : ∀ (out : List XPerms) (part : Option XPerms), (∀ x ∈ out, PartOk kind x) → (∀ x ∈ part, PartOk kind x ∧ x.driver.toNat = low / 256) →
        (∀ x, (x ∈ out ∨ x ∈ part.toList) ↔ (x ∈ s.out ∨ x ∈ s.part.toList)) →
        Blocks kind ⟨low, true, some { (part.getD ⟨kind.spec, BitVec.ofNat 8 (low / 256), List.replicate 8 0#32⟩) with
          perms := setRange (low % 256) (i % 256) (part.getD ⟨kind.spec, BitVec.ofNat 8 (low / 256), List.replicate 8 0#32⟩).perms },
          s.complete, out⟩ (fun n => S n ∨ (low ≤ n ∧ n ≤ i)) := by
      intro out part ho hp hsame
      have hpk : PartOk kind (part.getD ⟨kind.spec, BitVec.ofNat 8 (low / 256), List.replicate 8 0#32⟩) := by
        cases part with
        | none => exact ⟨rfl, rfl⟩
        | some p => exact (hp p rfl).1
      have hdr : (part.getD ⟨kind.spec, BitVec.ofNat 8 (low / 256), List.replicate 8 0#32⟩).driver.toNat = low / 256 := by
        cases part with
        | none => show (BitVec.ofNat 8 (low / 256)).toNat = _; rw [BitVec.toNat_ofNat]; omega
        | some p => exact (hp p rfl).2
      have hold : ∀ n, low / 256 = n / 256 → (xbit (part.getD ⟨kind.spec, BitVec.ofNat 8 (low / 256), List.replicate 8 0#32⟩).perms (n % 256) ↔
          ∃ x ∈ part.toList, Lists kind x n) := by
        intro n hn
        cases part with
        | none => simpa using zeros_xbit _
        | some p =>
          have := lists_part (hp p rfl).1 n
          rw [(hp p rfl).2] at this
          simp [this, hn]
      have hother : ∀ n, low / 256 ≠ n / 256 → ¬ ∃ x ∈ part.toList, Lists kind x n := by
        rintro n hn ⟨x, hx, hl⟩
        have hx' : x ∈ part := by simpa using hx
        rw [lists_part (hp x hx').1, (hp x hx').2] at hl
        exact hn hl.1
      generalize part.getD ⟨kind.spec, BitVec.ofNat 8 (low / 256), List.replicate 8 0#32⟩ = p at hpk hdr hold
      obtain ⟨r1, r2⟩ := setRange_ok (low := low % 256) (high := i % 256) (by omega) (by omega) hpk.len
      have hpk' : PartOk kind { p with perms := setRange (low % 256) (i % 256) p.perms } := ⟨hpk.spec, r1⟩
      refine ⟨ho, ?_, h.complete, ?_, ?_⟩
      · intro x hx
        cases hx
        exact hpk'
      · intro n hn
        rw [← h.all n hn]
        simp only [Loop.all, List.mem_append, Option.toList_some, List.mem_cons, List.not_mem_nil, or_false]
        constructor
        · rintro ⟨x, (hx | rfl) | hx, hl⟩
          · exact Or.inl ⟨x, Or.inl ((hsame x).1 (Or.inl hx)), hl⟩
          · rw [lists_part hpk', r2] at hl
            have hd' : low / 256 = n / 256 := hdr.symm.trans hl.1
            rcases hl.2 with hl' | hl'
            · obtain ⟨x, hx, hlx⟩ := (hold n hd').1 hl'
              exact Or.inl ⟨x, Or.inl ((hsame x).1 (Or.inr hx)), hlx⟩
            · right; omega
          · exact Or.inl ⟨x, Or.inr hx, hl⟩
        · rintro (⟨x, hx | hx, hl⟩ | hr)
          · rcases (hsame x).2 hx with hx | hx
            · exact ⟨x, Or.inl (Or.inl hx), hl⟩
            · by_cases hd' : low / 256 = n / 256
              · refine ⟨_, Or.inl (Or.inr rfl), ?_⟩
                rw [lists_part hpk', r2]
                exact ⟨hdr.trans hd', Or.inl ((hold n hd').2 ⟨x, hx, hl⟩)⟩
              · exact absurd ⟨x, hx, hl⟩ (hother n hd')
          · exact ⟨x, Or.inr hx, hl⟩
          · refine ⟨_, Or.inl (Or.inr rfl), ?_⟩
            rw [lists_part hpk', r2]
            have hd' : low / 256 = n / 256 := by omega
            exact ⟨hdr.trans hd', Or.inr (by omega)⟩
      · exact Or.inr ⟨i, hi, Or.inr ⟨hl, Nat.le_refl _⟩⟩
    cases hsp : s.part with
    | none =>
      simp only
      exact ⟨key s.out none h.out (by simp) (by simp [hsp]), trivial⟩
    | some p =>
      by_cases hne : p.driver.toNat ≠ low / 256
      · simp only [if_pos hne]
        refine ⟨key (s.out ++ [p]) none ?_ (by simp) (by simp [hsp]), trivial⟩
        intro x hx
        rcases List.mem_append.1 hx with hx | hx
        · exact h.out x hx
        · simp only [List.mem_cons, List.not_mem_nil, or_false] at hx
          subst hx
          exact h.part x hsp
      · simp only [if_neg hne]
        refine ⟨key s.out (some p) h.out ?_ (by simp [hsp]), trivial⟩
        intro x hx
        cases hx
        exact ⟨h.part p hsp, by simpa using hne⟩

/-- Where the loop is. -/
structure At (kind : XKind) (e : Ebitmap) (s : Loop) (done : List Nat) (rest : List Nat) : Prop where
  blocks : Blocks kind s (fun n => n ∈ done ∧ (s.fresh = false → n < s.low))
  mid : s.fresh = false → ∃ i, rest.head? = some i ∧ s.low < i ∧ s.low / 256 = i / 256 ∧ ∀ n, s.low ≤ n → n < i → n ∈ done

theorem loop_at {kind : XKind} {e : Ebitmap} : ∀ (rest done : List Nat) (s : Loop), (∀ i ∈ rest, i < 2 ^ 16) → rest.Pairwise (· < ·) →
    (∀ n ∈ done, ∀ i ∈ rest, n < i) → (∀ n, Ebitmap.getBit e n = true ↔ n ∈ done ∨ n ∈ rest) → At kind e s done rest →
    At kind e (rest.foldl (step kind e) s) (done ++ rest) [] := by
  intro rest
  induction rest with
  | nil => intro done s _ _ _ _ h; simpa using h
  | cons i rest ih =>
    intro done s hsm hp hdl hb h
    rw [List.foldl_cons]
    have hi := hsm i (by simp)
    have him : i % 2 ^ 16 = i := Nat.mod_eq_of_lt hi
    rw [List.pairwise_cons] at hp
    have hn : done ++ i :: rest = (done ++ [i]) ++ rest := by simp
    rw [hn]
    -- the start of the range
    obtain ⟨low, hlow, hl, hd, hmem⟩ : ∃ low, (if s.fresh then i % 2 ^ 16 else s.low) = low ∧ low ≤ i ∧ low / 256 = i / 256 ∧
        ∀ n, low ≤ n → n < i → n ∈ done := by
      cases hf : s.fresh with
      | true => exact ⟨i, by simp [him], Nat.le_refl _, rfl, fun n h1 h2 => by omega⟩
      | false =>
        obtain ⟨j, hj, h1, h2, h3⟩ := h.mid hf
        cases hj
        exact ⟨s.low, by simp, Nat.le_of_lt h1, h2, h3⟩
    have hold : ∀ n, (n ∈ done ∧ (s.fresh = false → n < s.low)) → n ∈ done := fun n hn => hn.1
    have hmiss : ∀ n, n ∈ done → (n ∈ done ∧ (s.fresh = false → n < s.low)) ∨ (low ≤ n ∧ n ≤ i) := by
      intro n hn
      cases hf : s.fresh with
      | true => exact Or.inl ⟨hn, fun h => by cases h⟩
      | false =>
        rw [hf] at hlow
        simp only [Bool.false_eq_true, if_false] at hlow
        have := hdl n hn i (by simp)
        by_cases h' : n < s.low
        · exact Or.inl ⟨hn, fun _ => h'⟩
        · right; omega
    refine ih (done ++ [i]) (step kind e s i) (fun j hj => hsm j (List.mem_cons_of_mem _ hj)) hp.2 ?_ ?_ ?_
    · intro n hn j hj
      rcases List.mem_append.1 hn with hn | hn
      · exact hdl n hn j (List.mem_cons_of_mem _ hj)
      · simp only [List.mem_cons, List.not_mem_nil, or_false] at hn
        subst hn
        exact hp.1 j hj
    · intro n
      rw [hb]
      simp only [List.mem_append, List.mem_cons, List.not_mem_nil, or_false]
      tauto
    · by_cases hc : i % 256 ≠ 255 ∧ Ebitmap.getBit e (i + 1) = true
      · -- the range goes on
        have hs : step kind e s i = { s with low := low, fresh := false } := by
          unfold step
          simp only [hlow, if_pos hc]
        rw [hs]
        refine ⟨⟨h.blocks.out, h.blocks.part, h.blocks.complete, ?_, ?_⟩, ?_⟩
        · intro n hn
          have := h.blocks.all n hn
          refine Iff.trans this ?_
          simp only [List.mem_append, List.mem_cons, List.not_mem_nil, or_false, forall_const]
          constructor
          · rintro ⟨h1, h2⟩
            refine ⟨Or.inl h1, ?_⟩
            cases hf : s.fresh with
            | true =>
              rw [hf] at hlow
              simp only [if_true, him] at hlow
              rw [← hlow]
              exact hdl n h1 i (by simp)
            | false =>
              rw [hf] at hlow
              simp only [Bool.false_eq_true, if_false] at hlow
              rw [← hlow]
              exact h2 hf
          · rintro ⟨h1 | rfl, h2⟩
            · refine ⟨h1, fun hf => ?_⟩
              rw [hf] at hlow
              simp only [Bool.false_eq_true, if_false] at hlow
              rw [hlow]; exact h2
            · omega
        · rcases h.blocks.ne with h1 | ⟨n, h1, h2, h3⟩
          · exact Or.inl h1
          · refine Or.inr ⟨n, h1, by simp [h2], fun _ => ?_⟩
            cases hf : s.fresh with
            | true =>
              rw [hf] at hlow
              simp only [if_true, him] at hlow
              show n < low
              rw [← hlow]
              exact hdl n h2 i (by simp)
            | false =>
              rw [hf] at hlow
              simp only [Bool.false_eq_true, if_false] at hlow
              show n < low
              rw [← hlow]
              exact h3 hf
        · intro _
          have hnext : i + 1 ∈ rest := by
            rcases (hb (i + 1)).1 hc.2 with h1 | h1
            · have := hdl _ h1 i (by simp); omega
            · rcases List.mem_cons.1 h1 with h1 | h1
              · omega
              · exact h1
          refine ⟨i + 1, ?_, ?_, ?_, ?_⟩
          · cases rest with
            | nil => simp at hnext
            | cons j rest =>
              rcases List.mem_cons.1 hnext with h1 | h1
              · rw [h1]; rfl
              · have a := hp.1 j (by simp)
                have b := (List.pairwise_cons.1 hp.2).1 _ h1
                omega
          · show low < i + 1
            omega
          · show low / 256 = (i + 1) / 256
            omega
          · intro n h1 h2
            have h1 : low ≤ n := h1
            by_cases he : n = i
            · simp [he]
            · exact List.mem_append_left _ (hmem n h1 (by omega))
      · obtain ⟨b, hf⟩ := h.blocks.range (e := e) hi hlow hl hd hc
        refine ⟨⟨b.out, b.part, b.complete, ?_, ?_⟩, fun h => by rw [hf] at h; cases h⟩
        · intro n hn
          rw [b.all n hn]
          rw [hf]
          simp only [List.mem_append, List.mem_cons, List.not_mem_nil, or_false, Bool.true_eq_false, false_implies, and_true]
          constructor
          · rintro (h1 | h1)
            · exact Or.inl h1.1
            · by_cases he : n = i
              · exact Or.inr he
              · exact Or.inl (hmem n h1.1 (by omega))
          · rintro (h1 | rfl)
            · exact hmiss n h1
            · exact Or.inr ⟨hl, Nat.le_refl _⟩
        · right
          refine ⟨i, hi, by simp, fun h => by rw [hf] at h; cases h⟩

theorem permxList_ok {kind : XKind} {e : Ebitmap} (hw : Ebitmap.WF e) (hs : ∀ n, Ebitmap.getBit e n = true → n < 2 ^ 16) :
    ∃ l, permxList kind e = some l ∧ (∀ x ∈ l, PartOk kind x ∨ (CompleteOk x ∧ kind = .ioctl)) ∧
      (∀ n < 2 ^ 16, (∃ x ∈ l, Lists kind x n) ↔ Ebitmap.getBit e n = true) ∧ (l ≠ [] → ∃ n, Ebitmap.getBit e n = true) := by
  have hb : bits e = some ((List.range (2 ^ 32)).filter (Ebitmap.getBit e)) := Ebitmap.C04_for_each_positive_bit hw (Nat.le_refl _)
  have hm : ∀ n, n ∈ (List.range (2 ^ 32)).filter (Ebitmap.getBit e) ↔ Ebitmap.getBit e n = true := by
    intro n
    rw [List.mem_filter, List.mem_range]
    exact ⟨fun h => h.2, fun h => ⟨Nat.lt_trans (hs n h) (by decide), h⟩⟩
  have hp : ((List.range (2 ^ 32)).filter (Ebitmap.getBit e)).Pairwise (· < ·) := List.Pairwise.filter _ List.pairwise_lt_range
  generalize (List.range (2 ^ 32)).filter (Ebitmap.getBit e) = l at hb hm hp
  have h0 : At kind e ⟨0, true, none, none, []⟩ [] l := by
    refine ⟨⟨by simp, by simp, by simp, by simp [Loop.all], Or.inl (by simp [Loop.all])⟩, fun h => by cases h⟩
  have := loop_at l [] _ (fun i hi => hs i ((hm i).1 hi)) hp (by simp) (fun n => by simp [hm]) h0
  rw [List.nil_append] at this
  generalize hsf : l.foldl (step kind e) ⟨0, true, none, none, []⟩ = s at this
  have hf : s.fresh = true := by
    cases hf : s.fresh with
    | true => rfl
    | false => obtain ⟨i, hi, -⟩ := this.mid hf; cases hi
  refine ⟨s.all, by simp [permxList, hb, hsf, Loop.all], ?_, ?_, ?_⟩
  · intro x hx
    simp only [Loop.all, List.mem_append, Option.mem_toList] at hx
    rcases hx with (hx | hx) | hx
    · exact Or.inl (this.blocks.out x hx)
    · exact Or.inl (this.blocks.part x hx)
    · exact Or.inr (this.blocks.complete x hx)
  · intro n hn
    rw [this.blocks.all n hn, hf]
    simp [hm]
  · intro hne
    rcases this.blocks.ne with h | ⟨n, -, h, -⟩
    · exact absurd h hne
    · exact ⟨n, (hm n).1 h⟩

end Verif.CilX
