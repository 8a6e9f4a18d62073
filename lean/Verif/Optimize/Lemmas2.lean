import Verif.Optimize.Lemmas
import Verif.Ebitmap.Props

namespace Verif.Optimize
open Verif.Avtab Verif.Policy

theorem pred32_eq {n : Nat} (h1 : 1 ≤ n) (h2 : n < 2 ^ 32) : pred32 n = n - 1 := by
  unfold pred32 Services.pred32
  omega

/-! ## The type map -/

/-- The parts of `OptOk` about types. -/
structure TypesOk (p : Services.SPolicy) (at_ : Nat → Ebitmap.Ebitmap) : Prop where
  small : p.pol.nTypes < 2 ^ 16
  attr : ∀ i, i < p.pol.nTypes → ∃ m, p.typeAttr i = some m
  attrWF : ∀ i m, p.typeAttr i = some m → Ebitmap.WF m ∧ ∀ b, Ebitmap.getBit m b = true → b < p.pol.nTypes
  attrTypeWF : ∀ i, Ebitmap.WF (at_ i)
  proper : ∀ i m b, isAttr p i = false → p.typeAttr i = some m → Ebitmap.getBit m b = true → b = i ∨ isAttr p b = true
  inverse : ∀ i m a, isAttr p i = false → isAttr p a = true → p.typeAttr i = some m →
    (Ebitmap.getBit m a = true ↔ Ebitmap.getBit (at_ a) i = true)

theorem OptOk.types {p : OPolicy} {σ0 : Cond.State} (h : OptOk p σ0) : TypesOk p.sp p.attrType :=
  ⟨h.small, h.attr, h.attrWF, h.attrTypeWF, h.proper, h.inverse⟩

theorem typeMap_total {p : Services.SPolicy} {at_ : Nat → Ebitmap.Ebitmap} (ok : TypesOk p at_) {i : Nat} (h : i < p.pol.nTypes) :
    ∃ l, typeMap p at_ i = some l := by
  unfold typeMap
  rw [if_neg (by omega)]
  cases p.typeStruct i with
  | none => exact ⟨_, rfl⟩
  | some d =>
    dsimp only
    by_cases hf : d.flavor ≠ TYPE_ATTRIB
    · rw [if_pos hf]
      obtain ⟨m, hm⟩ := ok.attr i h
      rw [hm, Option.bind_some, Ebitmap.C04_for_each_positive_bit (ok.attrWF i m hm).1 (Nat.le_refl _)]
      exact ⟨_, rfl⟩
    · rw [if_neg hf]; exact ⟨_, rfl⟩

theorem typeMap_covers {p : Services.SPolicy} {at_ : Nat → Ebitmap.Ebitmap} (ok : TypesOk p at_) {i : Nat} {l : List Nat}
    (h : typeMap p at_ i = some l) {k : Nat} (hk : k ∈ l) :
    k < p.pol.nTypes ∧ ∀ s, IsType p s → Services.Covers p s (i + 1) → Services.Covers p s (k + 1) := by
  unfold typeMap at h
  split at h
  · cases h
  · cases hd : p.typeStruct i with
    | none => rw [hd] at h; cases h; cases hk
    | some d =>
      rw [hd] at h
      dsimp only at h
      by_cases hf : d.flavor ≠ TYPE_ATTRIB
      · rw [if_pos hf] at h
        have hna : isAttr p i = false := by
          unfold isAttr; rw [hd]; simpa using hf
        obtain ⟨m, hm, hb⟩ := Option.bind_eq_some_iff.mp h
        have wf := ok.attrWF i m hm
        have small := ok.small
        have hbit := (Services.bits_mem wf.1 (fun b hb => by have := wf.2 b hb; omega) hb k).mp hk
        refine ⟨wf.2 k hbit, ?_⟩
        rintro s hs ⟨-, m', hm', hb'⟩
        rw [Nat.add_sub_cancel] at hb'
        rcases ok.proper _ _ _ hs hm' hb' with e | e
        · rw [← e, hm] at hm'
          cases hm'
          refine ⟨by omega, m, by rw [← e]; exact hm, by rw [Nat.add_sub_cancel]; exact hbit⟩
        · rw [e] at hna; cases hna
      · rw [if_neg hf] at h
        cases h
        rw [List.mem_filter, List.mem_range, Bool.and_eq_true] at hk
        obtain ⟨hk1, hk2, hk3⟩ := hk
        have hia : isAttr p i = true := by
          unfold isAttr; rw [hd]; simpa using hf
        refine ⟨hk1, ?_⟩
        rintro s hs ⟨-, m', hm', hb'⟩
        rw [Nat.add_sub_cancel] at hb'
        have h1 := (ok.inverse _ _ _ hs hia hm').mp hb'
        have h2 := ((Ebitmap.C03_relations (ok.attrTypeWF k) (ok.attrTypeWF i)).2.1.mp hk3) _ h1
        exact ⟨by omega, m', hm', by rw [Nat.add_sub_cancel]; exact (ok.inverse _ _ _ hs hk2 hm').mpr h2⟩

theorem vecSearch_sound (v : List Nat) (x : Nat) : ∀ fuel s e, s ≤ e → e ≤ v.length → vecSearch v x fuel s e = true → x ∈ v := by
  intro fuel
  induction fuel with
  | zero => intro s e _ _ h; cases h
  | succ fuel ih =>
    intro s e hse he h
    unfold vecSearch at h
    by_cases c : s = e
    · rw [if_pos c] at h; cases h
    · rw [if_neg c] at h
      dsimp only at h
      have hlt : (s + e) / 2 < v.length := by omega
      by_cases c1 : v.getD ((s + e) / 2) 0 = x
      · rw [List.getD_eq_getElem?_getD, List.getElem?_eq_getElem hlt, Option.getD_some] at c1
        rw [← c1]; exact List.getElem_mem hlt
      · rw [if_neg c1] at h
        by_cases c2 : v.getD ((s + e) / 2) 0 < x
        · rw [if_pos c2] at h; exact ih _ _ (by omega) he h
        · rw [if_neg c2] at h; exact ih _ _ (by omega) (by omega) h

theorem vecContains_sound {v : List Nat} {x : Nat} (h : vecContains v x = true) : x ∈ v :=
  vecSearch_sound v x _ _ _ (Nat.zero_le _) (Nat.le_refl _) h

/-! ## One rule against the others -/

/-- What the tests may do to a rule: what is lost of it is said by the others, and nothing is added. -/
structure Cut (p : Services.SPolicy) (others : Avtab.Node → Prop) (k : Key) (kind : BitVec 16) (d : Datum) (r : Datum × Bool) :
    Prop where
  split : ∀ s t f, IsType p s → IsType p t → Services.Covers p s k.source → Services.Covers p t k.target → Grants kind d f →
    (r.2 = false ∧ Grants kind r.1 f) ∨ ∃ n, others n ∧ Says p s t k.cls f n
  less : ∀ f, Grants kind r.1 f → Grants kind d f
  ok : DatumOk kind r.1

theorem cut_refl (p : Services.SPolicy) (others : Avtab.Node → Prop) (k : Key) (kind : BitVec 16) {d : Datum} (h : DatumOk kind d) :
    Cut p others k kind d (d, false) := ⟨fun _ _ _ _ _ _ _ h => .inl ⟨rfl, h⟩, fun _ h => h, h⟩

/-- A step followed by further tests. -/
theorem cut_trans {p : Services.SPolicy} {others : Avtab.Node → Prop} {k : Key} {kind : BitVec 16} {d d' : Datum} {r : Datum × Bool}
    (h1 : Cut p others k kind d (d', false)) (h2 : Cut p others k kind d' r) : Cut p others k kind d r :=
  ⟨fun s t f a b c e g => by
      rcases h1.split s t f a b c e g with h | h
      · exact h2.split s t f a b c e h.2
      · exact .inr h,
   fun f h => h1.less f (h2.less f h), h2.ok⟩

/-- One covering rule. -/
theorem cut_step {p : Services.SPolicy} {others : Avtab.Node → Prop} {k : Key} {kind sp : BitVec 16}
    (hk : kind ∈ avKinds ++ xKinds ++ typeKinds) (hs : Stamp kind sp) {d : Datum} {n : Avtab.Node} (h1 : DatumOk kind d)
    (hn : others n) (hkind : n.key.specified = kind) (hcls : n.key.cls = k.cls) (h2 : DatumOk kind n.datum)
    (cov : ∀ s t, IsType p s → IsType p t → Services.Covers p s k.source → Services.Covers p t k.target →
      Services.Covers p s n.key.source ∧ Services.Covers p t n.key.target) :
    Cut p others k kind d (processDatum sp d n.datum) := by
  obtain ⟨a, b, c, e⟩ := processDatum_spec hk hs h1 h2
  refine ⟨fun s t f hs ht h3 h4 hf => ?_, b, e⟩
  obtain ⟨c1, c2⟩ := cov s t hs ht h3 h4
  cases hr : (processDatum sp d n.datum).2 with
  | true => exact .inr ⟨n, hn, c1, c2, hcls, hkind ▸ c hr f hf⟩
  | false =>
    rcases a f hf with h | h
    · exact .inl ⟨rfl, h⟩
    · exact .inr ⟨n, hn, c1, c2, hcls, hkind ▸ h⟩

theorem redundantLoop_cut {p : Services.SPolicy} {others : Avtab.Node → Prop} {k : Key} {kind : BitVec 16}
    (hk : kind ∈ avKinds ++ xKinds ++ typeKinds) (hs : Stamp kind k.specified) {find : Datum → Key → Option Datum} {notCond : Bool}
    (hf : ∀ d k' d2, find d k' = some d2 → k'.cls = k.cls → k'.specified = k.specified →
      (notCond = true → ¬ (k'.source = k.source ∧ k'.target = k.target)) →
      ∃ n, others n ∧ n.key.source = k'.source ∧ n.key.target = k'.target ∧ n.key.cls = k.cls ∧ n.key.specified = kind ∧
        n.datum = d2 ∧ DatumOk kind d2)
    (hks : 1 ≤ k.source ∧ k.source < 2 ^ 16) (hkt : 1 ≤ k.target ∧ k.target < 2 ^ 16) :
    ∀ (l : List (Nat × Nat)) (d : Datum), DatumOk kind d →
      (∀ q ∈ l, q.1 + 1 < 2 ^ 16 ∧ q.2 + 1 < 2 ^ 16 ∧ ∀ s t, IsType p s → IsType p t → Services.Covers p s k.source →
        Services.Covers p t k.target → Services.Covers p s (q.1 + 1) ∧ Services.Covers p t (q.2 + 1)) →
      Cut p others k kind d (redundantLoop find notCond k l d) := by
  intro l
  induction l with
  | nil => intro d hd _; exact cut_refl p others k kind hd
  | cons q l ih =>
    obtain ⟨st, tt⟩ := q
    intro d hd hq
    obtain ⟨b1, b2, cov⟩ := hq (st, tt) List.mem_cons_self
    have hq' := fun q hm => hq q (List.mem_cons_of_mem _ hm)
    unfold redundantLoop
    split
    · exact ih d hd hq'
    · rename_i hne
      rw [pred32_eq hks.1 (by omega), pred32_eq hkt.1 (by omega)] at hne
      dsimp only at b1 b2 cov
      cases hfd : find d ⟨(st + 1) % 2 ^ 16, (tt + 1) % 2 ^ 16, k.cls, k.specified⟩ with
      | none => exact ih d hd hq'
      | some d2 =>
        dsimp only
        obtain ⟨n, on, n1, n2, n3, n4, n5, n6⟩ := hf d _ d2 hfd rfl rfl (by
          rintro hnc ⟨e1, e2⟩
          dsimp only at e1 e2
          rw [Nat.mod_eq_of_lt b1] at e1
          rw [Nat.mod_eq_of_lt b2] at e2
          exact hne ⟨hnc, by omega, by omega⟩)
        dsimp only at n1 n2
        rw [Nat.mod_eq_of_lt b1] at n1
        rw [Nat.mod_eq_of_lt b2] at n2
        have step := cut_step (p := p) (k := k) hk hs hd on n4 n3 (n5 ▸ n6) (by rw [n1, n2]; exact cov)
        rw [n5] at step
        cases hr : (processDatum k.specified d d2).2 with
        | true =>
          rw [if_pos rfl, ← hr]
          exact step
        | false =>
          rw [if_neg (by simp)]
          have hst : Cut p others k kind d ((processDatum k.specified d d2).1, false) := by rw [← hr]; exact step
          exact cut_trans hst (ih _ hst.ok hq')

theorem stamp_and {kind s : BitVec 16} (hk : kind ∈ avKinds ++ xKinds ++ typeKinds) (hs : Stamp kind s) :
    s &&& ~~~ ENABLED = kind ∧ kind &&& ENABLED = 0#16 := by
  simp only [avKinds, xKinds, typeKinds, List.cons_append, List.nil_append, List.mem_cons, List.not_mem_nil, or_false] at hk
  rcases hk with rfl | rfl | rfl | rfl | rfl | rfl | rfl | rfl | rfl <;> rcases hs with rfl | rfl <;> decide

theorem avruleRedundant_cut {p : Services.SPolicy} {at_ : Nat → Ebitmap.Ebitmap} (ok : TypesOk p at_) {others : Avtab.Node → Prop}
    {k : Key} {kind : BitVec 16}
    (hk : kind ∈ avKinds ++ xKinds ++ typeKinds) (hs : Stamp kind k.specified) {find : Datum → Key → Option Datum} {notCond : Bool}
    (hf : ∀ d k' d2, find d k' = some d2 → k'.cls = k.cls → k'.specified = k.specified →
      (notCond = true → ¬ (k'.source = k.source ∧ k'.target = k.target)) →
      ∃ n, others n ∧ n.key.source = k'.source ∧ n.key.target = k'.target ∧ n.key.cls = k.cls ∧ n.key.specified = kind ∧
        n.datum = d2 ∧ DatumOk kind d2)
    (hks : 1 ≤ k.source ∧ k.source ≤ p.pol.nTypes) (hkt : 1 ≤ k.target ∧ k.target ≤ p.pol.nTypes) {d : Datum} (hd : DatumOk kind d) :
    ∃ r, avruleRedundant find (typeMap p at_) notCond k d = some r ∧ Cut p others k kind d r ∧
      (kind ∈ typeKinds → r = (d, false)) := by
  have small := ok.small
  obtain ⟨ss, hss⟩ := typeMap_total ok (i := k.source - 1) (by omega)
  obtain ⟨ts, hts⟩ := typeMap_total ok (i := k.target - 1) (by omega)
  have m4 := (stamp_masks hk hs).2.2.2
  unfold avruleRedundant
  by_cases c : k.specified &&& (AV ||| XPERMS) = 0#16
  · rw [if_pos c]
    exact ⟨_, rfl, cut_refl p others k kind hd, fun _ => rfl⟩
  · rw [if_neg c, pred32_eq hks.1 (by omega), pred32_eq hkt.1 (by omega), hss, hts]
    refine ⟨_, rfl, ?_, fun h => absurd (m4.mpr h) c⟩
    refine redundantLoop_cut hk hs hf ⟨hks.1, by omega⟩ ⟨hkt.1, by omega⟩ _ d hd ?_
    rintro ⟨x, y⟩ hq
    obtain ⟨a, ha, hm⟩ := List.mem_flatMap.mp hq
    obtain ⟨b, hb, he⟩ := List.mem_map.mp hm
    cases he
    obtain ⟨l1, c1⟩ := typeMap_covers ok hss ha
    obtain ⟨l2, c2⟩ := typeMap_covers ok hts hb
    rw [Nat.sub_add_cancel hks.1] at c1
    rw [Nat.sub_add_cancel hkt.1] at c2
    exact ⟨by show x + 1 < _; omega, by show y + 1 < _; omega, fun s t hs ht h1 h2 => ⟨c1 s hs h1, c2 t ht h2⟩⟩

/-! ## The unconditional table -/

theorem searchChain_sound {k : Key} {l s : List Avtab.Node} (h : searchChain k l = some s) :
    ∃ n rest, s = n :: rest ∧ n ∈ l ∧ hits k n.key = true := by
  induction l with
  | nil => cases h
  | cons c cs ih =>
    unfold searchChain at h
    split at h
    · rename_i hh; cases h; exact ⟨c, cs, rfl, List.mem_cons_self, hh⟩
    · split at h
      · cases h
      · obtain ⟨n, rest, a, b, c⟩ := ih h
        exact ⟨n, rest, a, List.mem_cons_of_mem _ b, c⟩

theorem search_sound {h : Avtab.Avtab} {tb : Nat → List Avtab.Node} (ht : h.htable = some tb) {k : Key} {d : Datum}
    (hs : search h k = some d) : ∃ n ∈ tb (Avtab.hash k h.mask), hits k n.key = true ∧ n.datum = d := by
  unfold search at hs
  rw [ht] at hs
  obtain ⟨s, h1, h2⟩ := Option.bind_eq_some_iff.mp hs
  obtain ⟨n, rest, rfl, a, b⟩ := searchChain_sound h1
  simp only [List.head?_cons, Option.map_some, Option.some.injEq] at h2
  exact ⟨n, a, b, h2⟩

theorem hits_kind {k : Key} {kind kind' : BitVec 16} (hk : kind ∈ avKinds ++ xKinds ++ typeKinds) (hs : Stamp kind k.specified)
    (hk' : kind' ∈ avKinds ++ xKinds ++ typeKinds) {c : Key} (hc : c.specified = kind') (h : hits k c = true) : kind' = kind := by
  unfold hits at h
  rw [Bool.and_eq_true] at h
  have h2 := h.2
  rw [hc] at h2
  have : kindMask k.specified = kind := (stamp_and hk hs).1
  rw [this] at h2
  clear h this hs hc
  simp only [avKinds, xKinds, typeKinds, List.cons_append, List.nil_append, List.mem_cons, List.not_mem_nil, or_false] at hk hk'
  rcases hk with rfl | rfl | rfl | rfl | rfl | rfl | rfl | rfl | rfl <;>
    rcases hk' with rfl | rfl | rfl | rfl | rfl | rfl | rfl | rfl | rfl <;> first | rfl | (revert h2; decide)

/-- Members of a table. -/
def Mem (tb : Nat → List Avtab.Node) (n : Avtab.Node) : Prop := ∃ i, n ∈ tb i

/-- The two sets of rules say the same about types. -/
def Same (p : Services.SPolicy) (M M' : Avtab.Node → Prop) : Prop :=
  ∀ s t cls f, IsType p s → IsType p t → ((∃ n, M' n ∧ Says p s t cls f n) ↔ ∃ n, M n ∧ Says p s t cls f n)

theorem RuleOk.datum {p : Services.SPolicy} {n : Avtab.Node} (h : RuleOk p n) : DatumOk n.key.specified n.datum := h.block

/-- The result of a test, as a chain. -/
def keep (e : Avtab.Node) (r : Datum × Bool) : List Avtab.Node := if r.2 then [] else [⟨e.key, r.1⟩]

/-- Replacing one rule by what is left of it. -/
theorem same_replace {p : Services.SPolicy} {tb : Nat → List Avtab.Node} {i : Nat} {pre rest : List Avtab.Node} {e : Avtab.Node}
    {r : Datum × Bool}
    (hc : Cut p (fun n => n ∈ pre ∨ n ∈ rest ∨ ∃ j, j ≠ i ∧ n ∈ tb j) e.key e.key.specified e.datum r) :
    Same p (Mem (setBucket tb i (pre ++ e :: rest))) (Mem (setBucket tb i (pre ++ keep e r ++ rest))) := by
  intro s t cls f hs ht
  have others : ∀ l n, (n ∈ pre ∨ n ∈ rest ∨ ∃ j, j ≠ i ∧ n ∈ tb j) → Mem (setBucket tb i (pre ++ l ++ rest)) n := by
    intro l n h
    rcases h with h | h | ⟨j, hj, h⟩
    · exact ⟨i, by simp [setBucket, h]⟩
    · exact ⟨i, by simp [setBucket, h]⟩
    · exact ⟨j, by simp [setBucket, hj, h]⟩
  have cases_ : ∀ l n, Mem (setBucket tb i (pre ++ l ++ rest)) n → n ∈ l ∨ (n ∈ pre ∨ n ∈ rest ∨ ∃ j, j ≠ i ∧ n ∈ tb j) := by
    rintro l n ⟨j, hj⟩
    by_cases hji : j = i
    · subst hji
      simp only [setBucket, if_true, List.mem_append] at hj
      tauto
    · simp only [setBucket, if_neg hji] at hj
      exact .inr (.inr (.inr ⟨j, hji, hj⟩))
  have e1 : pre ++ e :: rest = pre ++ [e] ++ rest := by simp
  rw [e1]
  constructor
  · rintro ⟨n, hm, hn⟩
    rcases cases_ _ n hm with h | h
    · unfold keep at h
      split at h
      · cases h
      · rw [List.mem_singleton] at h
        subst h
        exact ⟨e, ⟨i, by simp [setBucket]⟩, hn.1, hn.2.1, hn.2.2.1, hc.less f hn.2.2.2⟩
    · exact ⟨n, others _ n h, hn⟩
  · rintro ⟨n, hm, hn⟩
    rcases cases_ _ n hm with h | h
    · rw [List.mem_singleton] at h
      subst h
      obtain ⟨a, b, rfl, g⟩ := hn
      rcases hc.split s t f hs ht a b g with ⟨h1, h2⟩ | ⟨m, h1, h2⟩
      · refine ⟨⟨n.key, r.1⟩, ⟨i, by simp [setBucket, keep, h1]⟩, a, b, rfl, h2⟩
      · exact ⟨m, others _ m h1, h2⟩
    · exact ⟨n, others _ n h, hn⟩

/-- Is it a type rule? -/
def isTypeRule (n : Avtab.Node) : Bool := decide (n.key.specified ∈ typeKinds)

theorem same_refl (p : Services.SPolicy) (M : Avtab.Node → Prop) : Same p M M := fun _ _ _ _ _ _ => Iff.rfl
theorem same_trans {p : Services.SPolicy} {M M' M'' : Avtab.Node → Prop} (h1 : Same p M M') (h2 : Same p M' M'') : Same p M M'' :=
  fun s t cls f hs ht => (h2 s t cls f hs ht).trans (h1 s t cls f hs ht)

theorem walkChain_spec {p : Services.SPolicy} {at_ : Nat → Ebitmap.Ebitmap} (ok : TypesOk p at_) (h : Avtab.Avtab)
    (tb : Nat → List Avtab.Node) (i : Nat) : ∀ (l pre : List Avtab.Node), (∀ n ∈ pre ++ l, RuleOk p n) →
    (∀ j, j ≠ i → ∀ n ∈ tb j, RuleOk p n) →
    ∃ c, walkChain (typeMap p at_) h tb i pre l = some c ∧ (∀ n ∈ c, RuleOk p n) ∧
      Same p (Mem (setBucket tb i (pre ++ l))) (Mem (setBucket tb i c)) ∧
      (c.map Node.key).Sublist ((pre ++ l).map Node.key) ∧ c.filter isTypeRule = (pre ++ l).filter isTypeRule := by
  intro l
  induction l with
  | nil =>
    intro pre hr _
    rw [List.append_nil] at hr ⊢
    exact ⟨pre, rfl, hr, same_refl _ _, List.Sublist.refl _, rfl⟩
  | cons e rest ih =>
    intro pre hr ho
    have re := hr e (by simp)
    obtain ⟨r, hrr, hcut, hty⟩ := avruleRedundant_cut ok
      (others := fun n => n ∈ pre ∨ n ∈ rest ∨ ∃ j, j ≠ i ∧ n ∈ tb j) (k := e.key) (kind := e.key.specified)
      (find := fun d => search (withChain h tb i (pre ++ ⟨e.key, d⟩ :: rest))) (notCond := true) re.kind (.inl rfl)
      (by
        intro d k' d2 hfd h1 h2 h3
        obtain ⟨n, hn, hh, hd⟩ := search_sound (h := withChain h tb i (pre ++ ⟨e.key, d⟩ :: rest)) rfl hfd
        obtain ⟨t1, t2, t3⟩ := hits_triple hh
        have hn' : n ∈ pre ∨ n ∈ rest ∨ ∃ j, j ≠ i ∧ n ∈ tb j := by
          by_cases hj : Avtab.hash k' (withChain h tb i (pre ++ ⟨e.key, d⟩ :: rest)).mask = i
          · simp only [setBucket, if_pos hj, List.mem_append, List.mem_cons] at hn
            rcases hn with hn | hn | hn
            · exact .inl hn
            · subst hn
              exact absurd ⟨t1, t2⟩ (h3 rfl)
            · exact .inr (.inl hn)
          · simp only [setBucket, if_neg hj] at hn
            exact .inr (.inr ⟨_, hj, hn⟩)
        have rn : RuleOk p n := by
          rcases hn' with hn' | hn' | ⟨j, hj, hn'⟩
          · exact hr n (by simp [hn'])
          · exact hr n (by simp [hn'])
          · exact ho j hj n hn'
        have hkk := hits_kind (k := k') (kind := e.key.specified) re.kind (.inl h2) rn.kind rfl hh
        exact ⟨n, hn', t1.symm, t2.symm, by rw [← h1, t3], hkk, hd, by rw [← hkk, ← hd]; exact rn.datum⟩)
      ⟨re.source.1, re.source.2.1⟩ ⟨re.target.1, re.target.2.1⟩ re.datum
    have hsame := same_replace (tb := tb) (i := i) (pre := pre) (rest := rest) hcut
    have hkey : ((pre ++ keep e r ++ rest).map Node.key).Sublist ((pre ++ e :: rest).map Node.key) := by
      unfold keep
      split
      · simp only [List.append_nil, List.map_append, List.map_cons]
        exact List.Sublist.append_left (List.sublist_cons_self _ _) _
      · simp
    have hfil : (pre ++ keep e r ++ rest).filter isTypeRule = (pre ++ e :: rest).filter isTypeRule := by
      by_cases hte : e.key.specified ∈ typeKinds
      · rw [hty hte]; simp [keep]
      · have h0 : isTypeRule e = false := by simp [isTypeRule, hte]
        have : (keep e r).filter isTypeRule = [] := by
          unfold keep
          split
          · rfl
          · simp [List.filter_cons, isTypeRule, hte]
        simp [List.filter_append, this, List.filter_cons, h0]
    unfold walkChain
    rw [hrr, Option.bind_some]
    cases hres : r.2 with
    | true =>
      rw [if_pos rfl]
      have hk0 : keep e r = [] := by simp [keep, hres]
      rw [hk0, List.append_nil] at hsame hkey hfil
      obtain ⟨c, h1, h2, h3, h4, h5⟩ := ih pre (fun n hn => hr n (by
        rw [List.mem_append] at hn ⊢
        rcases hn with hn | hn
        · exact .inl hn
        · exact .inr (List.mem_cons_of_mem _ hn))) ho
      exact ⟨c, h1, h2, same_trans hsame h3, h4.trans hkey, h5.trans hfil⟩
    | false =>
      rw [if_neg (by simp)]
      have hk0 : keep e r = [⟨e.key, r.1⟩] := by simp [keep, hres]
      rw [hk0] at hsame hkey hfil
      obtain ⟨c, h1, h2, h3, h4, h5⟩ := ih (pre ++ [⟨e.key, r.1⟩]) (fun n hn => by
        simp only [List.mem_append, List.mem_singleton] at hn
        rcases hn with (hn | hn) | hn
        · exact hr n (by simp [hn])
        · subst hn
          exact ⟨re.kind, re.source, re.target, hcut.ok⟩
        · exact hr n (by simp [hn])) ho
      exact ⟨c, h1, h2, same_trans hsame h3, h4.trans hkey, h5.trans hfil⟩

end Verif.Optimize
