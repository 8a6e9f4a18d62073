import Verif.Mls.Spec
import Verif.Ebitmap.Props

/-! # Auxiliary facts about MLS levels and their text form -/

namespace Verif.Mls

open Verif.Policy

abbrev EInv := Verif.Ebitmap.Inv

theorem inv_of_wf {l : Level} (h : WFLevel l) : EInv l.cat := (Ebitmap.wf_iff_inv _).1 h

theorem levelEq_iff {a b : Level} (ha : WFLevel a) (hb : WFLevel b) : levelEq a b = true ↔ Same a b := by
  unfold levelEq Same HasCat
  rw [Bool.and_eq_true, beq_iff_eq, Ebitmap.cmp_iff_bits (inv_of_wf ha) (inv_of_wf hb)]
  refine and_congr Iff.rfl ?_
  exact forall_congr' fun c => Bool.eq_iff_iff

theorem levelDom_iff {a b : Level} (ha : WFLevel a) (hb : WFLevel b) : levelDom a b = true ↔ Dominates a b := by
  unfold levelDom Dominates HasCat
  rw [Bool.and_eq_true, decide_eq_true_eq, Ebitmap.contains_iff_bits (inv_of_wf ha) (inv_of_wf hb)]

theorem same_eq {a b : Level} (ha : WFLevel a) (hb : WFLevel b) (h : Same a b) : a = b := by
  cases a; cases b
  simp only [Same, HasCat] at h
  rw [Level.mk.injEq]
  exact ⟨h.1, Ebitmap.eq_of_getBit (inv_of_wf ha) (inv_of_wf hb) fun b => Bool.eq_iff_iff.2 (h.2 b)⟩

/-! ## Visiting order -/

def headOr (fin : Nat) : List (Nat × Bool) → Nat
  | [] => fin
  | (b, _) :: _ => b

/-- Behind every visited set bit comes its successor (or the end). -/
def Chained (fin : Nat) : List (Nat × Bool) → Prop
  | [] => True
  | (b, x) :: l => (x = true → headOr fin l = b + 1) ∧ Chained fin l

theorem chained_of {fin : Nat} : ∀ (l : List (Nat × Bool)), l.Pairwise (fun a b => a.1 < b.1) →
    (∀ b, (b, true) ∈ l → (∃ y, (b + 1, y) ∈ l) ∨ ((∀ x ∈ l, x.1 ≤ b) ∧ b + 1 = fin)) → Chained fin l
  | [], _, _ => trivial
  | (b, x) :: l, hs, h => by
    rw [List.pairwise_cons] at hs
    refine ⟨?_, chained_of l hs.2 ?_⟩
    · rintro rfl
      rcases h b (by simp) with ⟨y, hy⟩ | ⟨hall, hf⟩
      · have hy' : (b + 1, y) ∈ l := by
          rcases List.mem_cons.1 hy with e | e
          · simp at e
          · exact e
        cases l with
        | nil => simp at hy'
        | cons z t =>
          have h1 := hs.1 z (by simp)
          rcases List.mem_cons.1 hy' with e | e
          · rw [← e]; rfl
          · have h2 := (List.pairwise_cons.1 hs.2).1 _ e
            simp only at h1 h2
            show z.1 = b + 1
            omega
      · cases l with
        | nil => exact hf.symm
        | cons z t =>
          have h1 := hs.1 z (by simp)
          have h2 := hall z (by simp)
          simp only at h1 h2; omega
    · intro c hc
      rcases h c (by simp [hc]) with ⟨y, hy⟩ | ⟨hall, hf⟩
      · rcases List.mem_cons.1 hy with e | e
        · have := hs.1 _ hc
          simp only [Prod.mk.injEq] at e this; omega
        · exact .inl ⟨y, e⟩
      · exact .inr ⟨fun x hx => hall x (by simp [hx]), hf⟩

theorem high_aligned {e : Ebitmap} (h : EInv e) : e.highbit % 64 = 0 := by
  rw [h.high]; exact Ebitmap.lastEnd_aligned h.nodes

theorem bit_bound {e : Ebitmap} (h : EInv e) {b : Nat} (hb : Ebitmap.getBit e b = true) : b < 2^32 - 64 := by
  have h1 := Ebitmap.getBit_lt_high h hb
  have h2 := high_aligned h
  have h3 := h.small
  omega

theorem length_eq_high {e : Ebitmap} (h : EInv e) : Ebitmap.length e = e.highbit := by
  unfold Ebitmap.length
  split
  · rename_i he
    rw [h.high, he]; rfl
  · rfl

/-- Every word below the high bit's word: the last word is not empty. -/
theorem last_word {e : Ebitmap} (h : EInv e) (hpos : 0 < e.highbit) :
    ∃ c, Ebitmap.getBit e c = true ∧ c / 64 = e.highbit / 64 - 1 := by
  have hw := (Ebitmap.wf_iff_inv e).2 h
  have hh := hw.high
  cases hl : e.node.getLast? with
  | none => rw [hl] at hh; simp only at hh; omega
  | some n =>
    rw [hl] at hh; simp only at hh
    have hmem : n ∈ e.node := List.mem_of_getLast? hl
    obtain ⟨k, hk, hb⟩ := Ebitmap.exists_bit (hw.nonzero n hmem)
    refine ⟨n.startbit + k, ?_, ?_⟩
    · rw [Ebitmap.getBit_eq h, Ebitmap.bits_getLast h.nodes hl _ (by omega)]
      simp [Ebitmap.inNode, hb, hk]
    · have := hw.aligned n hmem
      omega

theorem visit_spec {l : Level} (hw : WFLevel l) :
    ∃ v, visit l.cat = some v ∧ (∀ b, (b, true) ∈ v ↔ HasCat l b) ∧
      v.Pairwise (fun a b => a.1 < b.1) ∧
      (NoGapAfterFullWord l → Chained (Ebitmap.length l.cat) v) := by
  obtain ⟨v, hv, hs, _, hin, hall⟩ := Ebitmap.C04_for_each_bit hw (fuel := l.cat.highbit + 1) (Nat.le_refl _)
  have hmem : ∀ b, (b, true) ∈ v ↔ HasCat l b := by
    intro b
    constructor
    · intro h; exact ((hall b true).1 h).1.symm
    · exact hin b
  refine ⟨v, hv, hmem, hs, ?_⟩
  intro hg
  have hi := inv_of_wf hw
  refine chained_of v hs ?_
  intro b hb
  have hbit := (hmem b).1 hb
  have word : ∀ x, (∃ c, HasCat l c ∧ c / 64 = x / 64) → ∃ y, (x, y) ∈ v := by
    rintro x ⟨c, hc, hcx⟩
    exact ⟨_, (hall x _).2 ⟨rfl, c, hc, hcx⟩⟩
  by_cases h63 : b % 64 = 63
  · by_cases hlater : ∃ c, b < c ∧ HasCat l c
    · obtain ⟨c, hc, hcw⟩ := hg b hbit h63 hlater
      exact .inl (word _ ⟨c, hc, by omega⟩)
    · right
      have hno : ∀ c, HasCat l c → c ≤ b := by
        intro c hc
        by_contra hlt
        exact hlater ⟨c, by omega, hc⟩
      constructor
      · rintro ⟨x, y⟩ hx
        obtain ⟨_, c, hc, hcx⟩ := (hall x y).1 hx
        have := hno c hc
        show x ≤ b
        omega
      · rw [length_eq_high hi]
        have h1 := Ebitmap.getBit_lt_high hi hbit
        obtain ⟨c, hc, hcw⟩ := last_word hi (by omega)
        have := hno c hc
        have := high_aligned hi
        omega
  · exact .inl (word _ ⟨b, hbit, by omega⟩)

/-! ## Scanning -/

theorem scan_append {stop : Char → Bool} {a b : Str} (ha : ∀ c ∈ a, stop c = false)
    (hb : ∀ c, b.head? = some c → stop c = true) : scan stop (a ++ b) = (a, b) := by
  induction a with
  | nil =>
    cases b with
    | nil => rfl
    | cons c cs => simp [scan, hb c rfl]
  | cons c cs ih =>
    have := ih (fun x hx => ha x (by simp [hx]))
    simp [scan, ha c (by simp), this]

/-! ## Category text -/

/-- Rest of the category loop behind a token. -/
def cont (p : Policy) (s : Str) (e : Ebitmap) : Option (Ebitmap × Option Char × Str) :=
  match s with
  | [] => some (e, none, [])
  | d :: rest => if d = ',' then parseCats p rest e else some (e, some d, rest)

theorem parseCats_eq (p : Policy) (s : Str) (e : Ebitmap) : parseCats p s e =
    (addToken p (scan (fun c => c == ',' || c == '-') s).1 e).bind
      (cont p (scan (fun c => c == ',' || c == '-') s).2) := by
  rw [parseCats]
  cases addToken p (scan (fun c => c == ',' || c == '-') s).1 e with
  | none => rfl
  | some cat =>
    simp only [Option.bind_some]
    split
    · rename_i h; rw [h]; rfl
    · rename_i d rest h; rw [h]; rfl

/-- `e'` is `e` with the members of `S` added. -/
def Adds (e : Ebitmap) (S : Nat → Prop) (e' : Ebitmap) : Prop :=
  EInv e' ∧ ∀ b, Ebitmap.getBit e' b = true ↔ Ebitmap.getBit e b = true ∨ S b

theorem adds_set {e : Ebitmap} (h : EInv e) {b : Nat} (hb : b < 2^32 - 64) :
    ∃ e', Ebitmap.setBit e b true = some e' ∧ Adds e (· = b) e' := by
  obtain ⟨e', h1, h2, h3⟩ := Ebitmap.setBit_ok h true hb
  refine ⟨e', h1, h2, fun c => ?_⟩
  rw [h3]
  by_cases hc : c = b <;> simp [hc]

theorem Adds.trans {e e' e'' : Ebitmap} {S T : Nat → Prop} (h : Adds e S e') (h' : Adds e' T e'') :
    Adds e (fun b => S b ∨ T b) e'' :=
  ⟨h'.1, fun b => by rw [h'.2, h.2, or_assoc]⟩

theorem Adds.congr {e e' : Ebitmap} {S T : Nat → Prop} (h : Adds e S e') (hst : ∀ b, S b ↔ T b) : Adds e T e' :=
  ⟨h.1, fun b => by rw [h.2, hst]⟩

theorem adds_setBits : ∀ (n s : Nat) {e : Ebitmap}, EInv e → s + n ≤ 2^32 - 64 →
    ∃ e', setBits (List.range' s n) e = some e' ∧ Adds e (fun b => s ≤ b ∧ b < s + n) e'
  | 0, s, e, h, _ => ⟨e, rfl, h, fun b => by
      constructor
      · exact .inl
      · rintro (h | ⟨_, _⟩)
        · exact h
        · omega⟩
  | n+1, s, e, h, hb => by
    obtain ⟨e1, h1, a1⟩ := adds_set h (b := s) (by omega)
    obtain ⟨e2, h2, a2⟩ := adds_setBits n (s+1) a1.1 (by omega)
    refine ⟨e2, ?_, (a1.trans a2).congr fun b => by omega⟩
    rw [List.range'_succ]
    simp only [setBits, h1, h2]

theorem plainCat_stop {n : Str} (h : PlainCat n) : ∀ c ∈ n, (c == ',' || c == '-') = false := by
  intro c hc
  have := h c hc
  simp [this.1, this.2.1]

theorem plainCat_dot {n : Str} (h : PlainCat n) : ∀ c ∈ n, (c == '.') = false := by
  intro c hc
  have := h c hc
  simp [this.2.2]

theorem pred32_succ {b : Nat} (h : b < 2^32) : pred32 (b + 1) = b := by unfold pred32; omega

theorem addToken_single {p : Policy} {n : Str} (hn : PlainCat n) {b : Nat} (hc : p.cats n = some (b+1))
    (hb : b < 2^32 - 64) {e : Ebitmap} (h : EInv e) :
    ∃ e', addToken p n e = some e' ∧ Adds e (· = b) e' := by
  obtain ⟨e', h1, a⟩ := adds_set h hb
  refine ⟨e', ?_, a⟩
  have hs : scan (· == '.') n = (n, []) := by
    have := scan_append (stop := (· == '.')) (a := n) (b := []) (plainCat_dot hn) (by simp)
    simpa using this
  have hp : pred32 (b + 1) = b := pred32_succ (by omega)
  rw [addToken, hs, hc, Option.bind_some, hp, h1]
  rfl

theorem addToken_range {p : Policy} {n m : Str} (hn : PlainCat n) {b c : Nat} (hbn : p.cats n = some (b+1))
    (hcm : p.cats m = some (c+1)) (hbc : b < c)
    (hb : c < 2^32 - 64) {e : Ebitmap} (h : EInv e) :
    ∃ e', addToken p (n ++ '.' :: m) e = some e' ∧ Adds e (fun x => b ≤ x ∧ x ≤ c) e' := by
  obtain ⟨e1, h1, a1⟩ := adds_set h (b := b) (by omega)
  obtain ⟨e2, h2, a2⟩ := adds_setBits (c - b) (b+1) a1.1 (by omega)
  refine ⟨e2, ?_, (a1.trans a2).congr fun x => by omega⟩
  have hs : scan (· == '.') (n ++ '.' :: m) = (n, '.' :: m) :=
    scan_append (plainCat_dot hn) (by simp)
  have hp : pred32 (b + 1) = b := pred32_succ (by omega)
  rw [addToken, hs, hbn, Option.bind_some, hp, h1, Option.bind_some, addRange, hcm, Option.bind_some, if_neg (by omega), show c + 1 - (b + 1) = c - b by omega, h2]

/-- Everything needed about the names of a set of bits. -/
def CatNamed (p : Policy) (b : Nat) : Prop :=
  b < 2^32 - 64 ∧ ∃ n, p.catName b = some n ∧ PlainCat n ∧ p.cats n = some (b + 1)

/-- The text of one run of categories is parsed to that run. -/
theorem parse_run {p : Policy} {s r : Nat} (hr : 1 ≤ r) (hn : ∀ b, s ≤ b → b < s + r → CatNamed p b)
    {rest : Str} (hrest : ∀ c, rest.head? = some c → c = ',' ∨ c = '-') {e : Ebitmap} (he : EInv e) :
    ∃ n f e', p.catName s = some n ∧ flush p r (s + r) = some f ∧
      Adds e (fun b => s ≤ b ∧ b < s + r) e' ∧ parseCats p (n ++ (f ++ rest)) e = cont p rest e' := by
  obtain ⟨hsb, n, hsn, hpn, hcn⟩ := hn s (Nat.le_refl _) (by omega)
  have hrest' : ∀ c, rest.head? = some c → (c == ',' || c == '-') = true := by
    intro c hc; rcases hrest c hc with h | h <;> simp [h]
  refine ⟨n, ?_⟩
  by_cases h1 : r = 1
  · subst h1
    obtain ⟨e', ht, ha⟩ := addToken_single hpn hcn hsb he
    refine ⟨[], e', hsn, by simp [flush], ha.congr fun b => by omega, ?_⟩
    rw [parseCats_eq, List.nil_append, scan_append (plainCat_stop hpn) hrest', ht]
    rfl
  · obtain ⟨hlb, m, hlm, hpm, hcm⟩ := hn (s + r - 1) (by omega) (by omega)
    rw [show s + r - 1 + 1 = s + r by omega] at hcm
    by_cases h2 : r = 2
    · subst h2
      obtain ⟨e1, ht1, ha1⟩ := addToken_single hpn hcn hsb he
      obtain ⟨e2, ht2, ha2⟩ := addToken_single (p := p) (b := s + 1) hpm (by rw [hcm]) (by omega) ha1.1
      refine ⟨',' :: m, e2, hsn, by simp only [flush]; rw [hlm]; simp, (ha1.trans ha2).congr fun b => by omega, ?_⟩
      rw [parseCats_eq, scan_append (plainCat_stop hpn) (by simp), ht1]
      simp only [Option.bind_some, cont, List.cons_append, if_true]
      rw [parseCats_eq, scan_append (plainCat_stop hpm) hrest', ht2]
      rfl
    · obtain ⟨e', ht, ha⟩ := addToken_range (p := p) (b := s) (c := s + r - 1) hpn hcn
        (by rw [hcm]; congr 1; omega) (by omega) hlb he
      refine ⟨'.' :: m, e', hsn, ?_, ha.congr fun b => by omega, ?_⟩
      · simp only [flush]; rw [hlm, if_pos (by omega), if_pos (by omega)]; rfl
      · have hstop : ∀ c ∈ n ++ '.' :: m, (c == ',' || c == '-') = false := by
          intro c hc
          rcases List.mem_append.1 hc with h | h
          · exact plainCat_stop hpn c h
          · rcases List.mem_cons.1 h with h | h
            · subst h; decide
            · exact plainCat_stop hpm c h
        rw [show n ++ ('.' :: m ++ rest) = (n ++ '.' :: m) ++ rest by simp, parseCats_eq,
          scan_append hstop hrest', ht]
        rfl

theorem flush_zero (p : Policy) (i : Nat) : flush p 0 i = some [] := by simp [flush]

/-- Parsing the printed categories gives them back: both inside a run (`r > 0`) and
between runs. -/
theorem cats_parse {p : Policy} {fin : Nat} {tail : Str} (htail : tail = [] ∨ ∃ t, tail = '-' :: t) :
    ∀ (l : List (Nat × Bool)), Chained fin l → (∀ b, (b, true) ∈ l → CatNamed p b) →
    (∀ (s r : Nat), 1 ≤ r → headOr fin l = s + r → (∀ b, s ≤ b → b < s + r → CatNamed p b) →
      ∀ (e : Ebitmap), EInv e → ∃ n out e', p.catName s = some n ∧ catLoop p fin l r true = some out ∧
        Adds e (fun b => (s ≤ b ∧ b < s + r) ∨ (b, true) ∈ l) e' ∧
        parseCats p (n ++ (out ++ tail)) e = some (e', (delim tail).1, (delim tail).2)) ∧
    (∀ (e : Ebitmap), EInv e → ∃ out e', catLoop p fin l 0 true = some out ∧
        Adds e (fun b => (b, true) ∈ l) e' ∧ (∀ c, (out ++ tail).head? = some c → c = ',' ∨ c = '-') ∧
        cont p (out ++ tail) e = some (e', (delim tail).1, (delim tail).2)) := by
  have htl : ∀ c, tail.head? = some c → c = ',' ∨ c = '-' := by
    rcases htail with rfl | ⟨t, rfl⟩
    · simp
    · simp
  have hct : ∀ e, cont p tail e = some (e, (delim tail).1, (delim tail).2) := by
    intro e
    rcases htail with rfl | ⟨t, rfl⟩ <;> simp [cont, delim]
  intro l
  induction l with
  | nil =>
    intro _ _
    constructor
    · intro s r hr hh hnm e he
      simp only [headOr] at hh
      subst hh
      obtain ⟨n, f, e', h1, h2, h3, h4⟩ := parse_run hr hnm htl he
      refine ⟨n, f, e', h1, ?_, h3.congr (by simp), ?_⟩
      · simp [catLoop, h2]
      · rw [h4, hct]
    · intro e he
      refine ⟨[], e, by simp [catLoop, flush_zero], ⟨he, by simp⟩, ?_, ?_⟩
      · simpa using htl
      · simpa using hct e
  | cons x l ih =>
    obtain ⟨i, x⟩ := x
    intro hch hnm
    obtain ⟨ihA, ihB⟩ := ih hch.2 (fun b hb => hnm b (by simp [hb]))
    constructor
    · intro s r hr hh hrun e he
      simp only [headOr] at hh
      subst hh
      cases x with
      | true =>
        have hnext := hch.1 rfl
        obtain ⟨n, out, e', h1, h2, h3, h4⟩ := ihA s (r+1) (by omega) (by omega) (by
          intro b hb1 hb2
          by_cases hb : b = s + r
          · subst hb; exact hnm _ (by simp)
          · exact hrun b hb1 (by omega)) e he
        refine ⟨n, out, e', h1, ?_, h3.congr ?_, h4⟩
        · simp only [catLoop]; rw [if_pos (by omega), h2]
        · intro b
          simp only [List.mem_cons, Prod.mk.injEq, and_true]
          constructor
          · rintro (h | h)
            · by_cases hb : b = s + r
              · exact .inr (.inl hb)
              · exact .inl (by omega)
            · exact .inr (.inr h)
          · rintro (h | h | h)
            · exact .inl (by omega)
            · exact .inl (by omega)
            · exact .inr h
      | false =>
        -- end of the run
        have hB : ∀ e, EInv e → _ := ihB
        obtain ⟨out0, _, ho0, _, hhd, _⟩ := ihB e he
        obtain ⟨n, f, e1, h1, h2, h3, h4⟩ := parse_run hr hrun hhd he
        obtain ⟨out, e2, g1, g2, _, g4⟩ := ihB e1 h3.1
        rw [ho0] at g1
        obtain rfl := Option.some.inj g1
        refine ⟨n, f ++ out0, e2, h1, ?_, (h3.trans g2).congr ?_, ?_⟩
        · simp [catLoop, h2, ho0]
        · intro b; simp
        · rw [show n ++ (f ++ out0 ++ tail) = n ++ (f ++ (out0 ++ tail)) by simp, h4, g4]
    · intro e he
      cases x with
      | true =>
        obtain ⟨n, out, e', h1, h2, h3, h4⟩ := ihA i 1 (Nat.le_refl _) (hch.1 rfl) (by
          intro b hb1 hb2
          obtain rfl : b = i := by omega
          exact hnm _ (by simp)) e he
        refine ⟨',' :: (n ++ out), e', ?_, h3.congr ?_, by simp, ?_⟩
        · simp [catLoop, h1, h2]
        · intro b
          simp only [List.mem_cons, Prod.mk.injEq, and_true]
          refine or_congr (by omega) Iff.rfl
        · show cont p (',' :: (n ++ out ++ tail)) e = _
          simp only [cont, if_true]
          rw [show n ++ out ++ tail = n ++ (out ++ tail) by simp, h4]
      | false =>
        obtain ⟨out, e', g1, g2, g3, g4⟩ := ihB e he
        exact ⟨out, e', by simp [catLoop, flush_zero, g1], g2.congr (by simp), g3, g4⟩

/-- The separator in front of the categories: idle until the first one. -/
theorem catLoop_first {p : Policy} {fin : Nat} : ∀ (l : List (Nat × Bool)), Chained fin l →
    ((∀ b, (b, true) ∉ l) ∧ catLoop p fin l 0 false = some []) ∨
    (∃ s l', Chained fin l' ∧ headOr fin l' = s + 1 ∧
      (∀ b, (b, true) ∈ l ↔ b = s ∨ (b, true) ∈ l') ∧
      catLoop p fin l 0 false = (do
        let name ← p.catName s
        let r ← catLoop p fin l' 1 true
        some (':' :: (name ++ r))))
  | [], _ => .inl ⟨by simp, by simp [catLoop, flush_zero]⟩
  | (i, true) :: l, h => .inr ⟨i, l, h.2, h.1 rfl, by simp, by simp [catLoop]⟩
  | (i, false) :: l, h => by
    have step : catLoop p fin ((i, false) :: l) 0 false = catLoop p fin l 0 false := by
      simp [catLoop, flush_zero]
    rw [step]
    rcases catLoop_first l h.2 with ⟨h1, h2⟩ | ⟨s, l', h1, h2, h3, h4⟩
    · exact .inl ⟨by simpa using h1, h2⟩
    · exact .inr ⟨s, l', h1, h2, by simpa using h3, h4⟩

theorem plainSens_low {n : Str} (h : PlainSens n) : ∀ c ∈ n, (c == ':' || c == '-') = false := by
  intro c hc; have := h c hc; simp [this.1, this.2]

theorem plainSens_high {n : Str} (h : PlainSens n) : ∀ c ∈ n, (c == ':') = false := by
  intro c hc; have := h c hc; simp [this.1]

/-- Printing a level and parsing it back. -/
theorem level_round {p : Policy} {l : Level} (hw : WFLevel l) (hn : Named p l) (hg : NoGapAfterFullWord l)
    {tail : Str} (htail : tail = [] ∨ ∃ t, tail = '-' :: t) (stop : Char → Bool)
    (hcolon : stop ':' = true) (hdash : tail = [] ∨ stop '-' = true)
    (hstop : ∀ n, PlainSens n → ∀ c ∈ n, stop c = false) :
    ∃ t, levelText p l = some t ∧
      parseLevel p (scan stop (t ++ tail)).1 (delim (scan stop (t ++ tail)).2).1
        (delim (scan stop (t ++ tail)).2).2 Ebitmap.init = some (l, (delim tail).1, (delim tail).2) := by
  obtain ⟨h0, n, lev, hsn, hpl, hlev, hls⟩ := hn.sens
  obtain ⟨v, hv, hmem, _, hch⟩ := visit_spec hw
  have hcat : ∀ b, (b, true) ∈ v → CatNamed p b := fun b hb =>
    ⟨bit_bound (inv_of_wf hw) ((hmem b).1 hb), hn.cats b ((hmem b).1 hb)⟩
  have htxt : ∀ c, catLoop p (Ebitmap.length l.cat) v 0 false = some c → levelText p l = some (n ++ c) := by
    intro c hc
    simp [levelText, h0, hsn, hv, hc]
  have fin_eq : ∀ e', Adds Ebitmap.init (fun b => HasCat l b) e' → e' = l.cat := by
    intro e' ha
    refine Ebitmap.eq_of_getBit ha.1 (inv_of_wf hw) fun b => ?_
    rw [Bool.eq_iff_iff, ha.2]
    have : Ebitmap.getBit Ebitmap.init b = false := by rw [Ebitmap.getBit_eq Ebitmap.inv_init]; rfl
    simp [this, HasCat]
  rcases catLoop_first (p := p) v (hch hg) with ⟨hno, hempty⟩ | ⟨s, l', hc', hh', hm', heq⟩
  · refine ⟨n ++ [], htxt _ hempty, ?_⟩
    have hsc : scan stop (n ++ [] ++ tail) = (n, tail) := by
      rw [List.append_nil]
      refine scan_append (hstop n hpl) ?_
      rcases htail with rfl | ⟨t, rfl⟩
      · simp
      · rcases hdash with h | h
        · simp at h
        · simpa using h
    rw [hsc]
    have hdl : (delim tail).1 ≠ some ':' := by
      rcases htail with rfl | ⟨t, rfl⟩ <;> simp [delim]
    have hcat0 : Ebitmap.init = l.cat := fin_eq _ ⟨Ebitmap.inv_init, fun b => by
      have h1 : ¬ HasCat l b := fun hb => hno b ((hmem b).2 hb)
      simp [h1]⟩
    simp only [parseLevel, hlev, if_neg hdl, hls]
    rw [hcat0]
  · obtain ⟨A, _⟩ := cats_parse (p := p) htail l' hc' (fun b hb => hcat b ((hm' b).2 (.inr hb)))
    obtain ⟨nm, out, e', h1, h2, h3, h4⟩ := A s 1 (Nat.le_refl _) hh' (by
      intro b hb1 hb2
      obtain rfl : b = s := by omega
      exact hcat _ ((hm' _).2 (.inl rfl))) Ebitmap.init Ebitmap.inv_init
    refine ⟨n ++ ':' :: (nm ++ out), htxt _ (by rw [heq, h1]; simp [h2]), ?_⟩
    have hsc : scan stop (n ++ ':' :: (nm ++ out) ++ tail) = (n, ':' :: (nm ++ (out ++ tail))) := by
      rw [show n ++ ':' :: (nm ++ out) ++ tail = n ++ ':' :: (nm ++ (out ++ tail)) by simp]
      exact scan_append (hstop n hpl) (by simpa using hcolon)
    rw [hsc]
    have he : e' = l.cat := fin_eq e' (h3.congr fun b => by
      rw [← hmem b, hm' b]
      refine or_congr (by omega) Iff.rfl)
    simp only [parseLevel, hlev, delim, if_true, h4, hls, he]

/-! ## Length -/

theorem flush_len (p : Policy) (r i : Nat) : flushLen p r i = (flush p r i).map List.length := by
  unfold flushLen flush
  split <;> cases p.catName (i - 1) <;> simp

theorem catLoop_len (p : Policy) (fin : Nat) : ∀ (l : List (Nat × Bool)) (r : Nat) (sep : Bool),
    catLenLoop p fin l r = (catLoop p fin l r sep).map List.length
  | [], r, sep => by simp [catLenLoop, catLoop, flush_len]
  | (i, true) :: l, r, sep => by
    unfold catLenLoop catLoop
    split
    · exact catLoop_len p fin l _ _
    · rw [catLoop_len p fin l 1 true]
      cases p.catName i <;> cases catLoop p fin l 1 true <;> simp <;> omega
  | (i, false) :: l, r, sep => by
    unfold catLenLoop catLoop
    rw [flush_len, catLoop_len p fin l 0 sep]
    cases flush p r i <;> cases catLoop p fin l 0 sep <;> simp

theorem level_len (p : Policy) (l : Level) : levelLen p l = (levelText p l).map List.length := by
  unfold levelLen levelText
  by_cases h : l.sens = 0
  · simp [h]
  · cases h1 : p.sensName (l.sens - 1) <;> cases h2 : visit l.cat <;> simp [h]
    rename_i n v
    rw [catLoop_len p _ v 0 false]
    cases catLoop p (Ebitmap.length l.cat) v 0 false <;> simp

end Verif.Mls
