import Verif.Ebitmap.Spec
import Verif.Prelude

namespace Verif.Ebitmap

/-! ## Node level content -/

/-- Does node `n` contain bit `b`? -/
def inNode (n : Node) (b : Nat) : Bool :=
  decide (n.startbit ≤ b) && n.map.getLsbD (b - n.startbit)

/-- Does some node contain bit `b`? -/
def bits : List Node → Nat → Bool
  | [], _ => false
  | n :: t, b => inNode n b || bits t b

/-- Sorted, aligned, non-zero nodes starting at or above `lo`. -/
def WFN : Nat → List Node → Prop
  | _, [] => True
  | lo, n :: t => lo ≤ n.startbit ∧ n.startbit % 64 = 0 ∧ n.map ≠ 0#64 ∧ WFN (n.startbit + 64) t

theorem WFN.mono {lo lo' : Nat} {l : List Node} (h : WFN lo l) (hl : lo' ≤ lo) : WFN lo' l := by
  cases l with
  | nil => trivial
  | cons n t =>
    obtain ⟨h1, h2, h3, h4⟩ := h
    exact ⟨by omega, h2, h3, h4⟩

theorem inNode_lt {n : Node} {b : Nat} (h : b < n.startbit) : inNode n b = false := by
  simp [inNode]; intro h'; omega

theorem inNode_ge {n : Node} {b : Nat} (h : n.startbit + 64 ≤ b) : inNode n b = false := by
  simp [inNode]; intro _
  exact BitVec.getLsbD_of_ge _ _ (by omega)

theorem bits_lt {lo : Nat} {l : List Node} (h : WFN lo l) {b : Nat} (hb : b < lo) :
    bits l b = false := by
  induction l generalizing lo with
  | nil => rfl
  | cons n t ih =>
    obtain ⟨h1, h2, h3, h4⟩ := h
    simp [bits, inNode_lt (show b < n.startbit by omega), ih h4 (by omega)]

theorem mapBit_getLsbD (k i : Nat) (hk : k < 64) : (mapBit k).getLsbD i = decide (i = k) := by
  unfold mapBit
  simp only [BitVec.getLsbD_shiftLeft, BitVec.getLsbD_one]
  by_cases h : i = k
  · subst h; simp [hk]
  · simp [h]; omega

theorem and_mapBit_ne (m : BitVec 64) (k : Nat) (hk : k < 64) :
    decide (m &&& mapBit k ≠ 0#64) = m.getLsbD k := by
  rw [Bool.eq_iff_iff]
  simp only [ne_eq, decide_not, Bool.not_eq_true', decide_eq_false_iff_not]
  constructor
  · intro h
    by_contra hc
    apply h
    apply BitVec.eq_of_getLsbD_eq
    intro i hi
    simp only [BitVec.getLsbD_and, mapBit_getLsbD _ _ hk, BitVec.getLsbD_zero]
    by_cases e : i = k
    · subst e; simp [hc]
    · simp [e]
  · intro h hc
    have := congrArg (fun v => v.getLsbD k) hc
    simp [BitVec.getLsbD_and, mapBit_getLsbD _ _ hk, h] at this

theorem exists_bit {m : BitVec 64} (h : m ≠ 0#64) : ∃ k, k < 64 ∧ m.getLsbD k = true := by
  by_contra hc
  apply h
  apply BitVec.eq_of_getLsbD_eq
  intro i hi
  rw [BitVec.getLsbD_zero]
  by_contra h'
  exact hc ⟨i, hi, by simpa using h'⟩

theorem getBitNodes_eq {lo : Nat} {l : List Node} (h : WFN lo l) (b : Nat) :
    getBitNodes l b = bits l b := by
  induction l generalizing lo with
  | nil => rfl
  | cons n t ih =>
    obtain ⟨h1, h2, h3, h4⟩ := h
    simp only [getBitNodes, bits]
    by_cases c1 : n.startbit ≤ b
    · by_cases c2 : n.startbit + 64 > b
      · simp only [c1, c2, if_true, bits_lt h4 (show b < n.startbit + 64 by omega), Bool.or_false]
        rw [and_mapBit_ne _ _ (by omega)]
        simp [inNode, c1]
      · simp only [c1, c2, if_true, if_false]
        rw [ih h4, inNode_ge (by omega)]; simp
    · simp only [c1, if_false]
      rw [inNode_lt (by omega), bits_lt h4 (by omega)]; rfl

/-! ## The high bit -/

/-- End of the last node, unwrapped. -/
theorem lastEnd_cons_cons (n n' : Node) (t : List Node) : lastEnd (n :: n' :: t) = lastEnd (n' :: t) := rfl

theorem lastEnd_eq_getLast? (l : List Node) :
    lastEnd l = (match l.getLast? with
                 | none => 0
                 | some n => n.startbit + 64) := by
  induction l with
  | nil => rfl
  | cons n t ih =>
    cases t with
    | nil => rfl
    | cons n' t' =>
      rw [lastEnd_cons_cons, ih]
      simp [List.getLast?_cons_cons]

theorem endOf_eq (l : List Node) : endOf l = lastEnd l % 2^32 := by
  induction l with
  | nil => rfl
  | cons n t ih =>
    cases t with
    | nil => rfl
    | cons n' t' => rw [lastEnd_cons_cons, ← ih]; rfl

theorem le_lastEnd {lo : Nat} {n : Node} {t : List Node} (h : WFN lo (n :: t)) :
    n.startbit + 64 ≤ lastEnd (n :: t) := by
  induction t generalizing n lo with
  | nil => simp [lastEnd]
  | cons n' t' ih =>
    rw [lastEnd_cons_cons]
    have h4 := h.2.2.2
    have := ih h4
    have := h4.1
    omega

theorem bits_ge_lastEnd {lo : Nat} {l : List Node} (h : WFN lo l) {b : Nat} (hb : lastEnd l ≤ b) :
    bits l b = false := by
  induction l generalizing lo with
  | nil => rfl
  | cons n t ih =>
    have hle := le_lastEnd h
    have h4 := h.2.2.2
    simp only [bits, inNode_ge (show n.startbit + 64 ≤ b by omega), Bool.false_or]
    cases t with
    | nil => rfl
    | cons n' t' => exact ih h4 hb

/-- Working form of the invariant. -/
structure Inv (e : Ebitmap) : Prop where
  nodes : WFN 0 e.node
  high : e.highbit = lastEnd e.node
  small : e.highbit < 2^32

theorem WFN_iff (lo : Nat) (l : List Node) :
    WFN lo l ↔ (l.Pairwise (fun a b => a.startbit < b.startbit)) ∧ (∀ n ∈ l, n.startbit % 64 = 0) ∧
      (∀ n ∈ l, n.map ≠ 0#64) ∧ (∀ n ∈ l, lo ≤ n.startbit) := by
  induction l generalizing lo with
  | nil => simp [WFN]
  | cons n t ih =>
    simp only [WFN, ih, List.pairwise_cons, List.mem_cons, forall_eq_or_imp]
    constructor
    · rintro ⟨h1, h2, h3, h4, h5, h6, h7⟩
      refine ⟨⟨fun a ha => ?_, h4⟩, ⟨h2, h5⟩, ⟨h3, h6⟩, h1, fun a ha => ?_⟩
      · have := h7 a ha; omega
      · have := h7 a ha; omega
    · rintro ⟨⟨h1, h2⟩, ⟨h3, h4⟩, ⟨h5, h6⟩, h7, h8⟩
      refine ⟨h7, h3, h5, h2, h4, h6, fun a ha => ?_⟩
      have := h1 a ha
      have := h4 a ha
      omega

theorem wf_iff_inv (e : Ebitmap) : WF e ↔ Inv e := by
  constructor
  · intro h
    exact ⟨(WFN_iff 0 _).2 ⟨h.sorted, h.aligned, h.nonzero, fun _ _ => Nat.zero_le _⟩,
      by rw [lastEnd_eq_getLast?]; exact h.high, h.small⟩
  · intro h
    obtain ⟨h1, h2, h3, _⟩ := (WFN_iff 0 _).1 h.nodes
    exact ⟨h1, h2, h3, by rw [h.high, lastEnd_eq_getLast?]; cases e.node.getLast? <;> rfl, h.small⟩

theorem getBit_eq {e : Ebitmap} (h : Inv e) (b : Nat) : getBit e b = bits e.node b := by
  unfold getBit
  split
  · rw [bits_ge_lastEnd h.nodes (by rw [← h.high]; omega)]
  · exact getBitNodes_eq h.nodes b

theorem getBit_lt_high {e : Ebitmap} (h : Inv e) {b : Nat} (hb : getBit e b = true) : b < e.highbit := by
  rw [getBit_eq h] at hb
  by_contra hc
  rw [bits_ge_lastEnd h.nodes (by rw [← h.high]; omega)] at hb
  exact absurd hb (by simp)

theorem inv_init : Inv init := ⟨trivial, rfl, by decide⟩

/-! ## or -/

theorem WFN_or {lo : Nat} {l1 l2 : List Node} (h1 : WFN lo l1) (h2 : WFN lo l2) :
    WFN lo (orNodes l1 l2) := by
  fun_induction orNodes l1 l2 generalizing lo with
  | case1 l2 => exact h2
  | case2 n1 t1 => exact h1
  | case3 n1 t1 n2 t2 he ih =>
    obtain ⟨a1, a2, a3, a4⟩ := h1
    obtain ⟨b1, b2, b3, b4⟩ := h2
    refine ⟨a1, a2, ?_, ih a4 (by rw [he]; exact b4)⟩
    obtain ⟨k, hk, hb⟩ := exists_bit a3
    intro hc
    have := congrArg (fun v => v.getLsbD k) hc
    simp [hb] at this
  | case4 n1 t1 n2 t2 hne hlt ih =>
    obtain ⟨a1, a2, a3, a4⟩ := h1
    obtain ⟨b1, b2, b3, b4⟩ := h2
    exact ⟨a1, a2, a3, ih a4 ⟨by omega, b2, b3, b4⟩⟩
  | case5 n1 t1 n2 t2 hne hlt ih =>
    obtain ⟨a1, a2, a3, a4⟩ := h1
    obtain ⟨b1, b2, b3, b4⟩ := h2
    exact ⟨b1, b2, b3, ih ⟨by omega, a2, a3, a4⟩ b4⟩

theorem bits_or (l1 l2 : List Node) (b : Nat) :
    bits (orNodes l1 l2) b = (bits l1 b || bits l2 b) := by
  fun_induction orNodes l1 l2 with
  | case1 l2 => simp [bits]
  | case2 n1 t1 => simp [bits]
  | case3 n1 t1 n2 t2 he ih =>
    simp only [bits, ih, inNode, BitVec.getLsbD_or, he]
    cases decide (n2.startbit ≤ b) <;> cases n1.map.getLsbD (b - n2.startbit) <;>
      cases n2.map.getLsbD (b - n2.startbit) <;> cases bits t1 b <;> simp
  | case4 n1 t1 n2 t2 hne hlt ih =>
    simp only [bits] at ih ⊢
    rw [ih, Bool.or_assoc]
  | case5 n1 t1 n2 t2 hne hlt ih =>
    simp only [bits] at ih ⊢
    rw [ih]
    cases inNode n2 b <;> cases inNode n1 b <;> simp

theorem orNodes_nil (l : List Node) : orNodes l [] = l := by
  cases l <;> simp [orNodes]

theorem lastEnd_cons_max {lo : Nat} {n : Node} {t : List Node} (h : WFN lo (n :: t)) :
    lastEnd (n :: t) = max (n.startbit + 64) (lastEnd t) := by
  cases t with
  | nil => simp [lastEnd]
  | cons n' t' =>
    have := le_lastEnd h
    rw [lastEnd_cons_cons] at *
    omega

theorem lastEnd_or {lo : Nat} {l1 l2 : List Node} (h1 : WFN lo l1) (h2 : WFN lo l2) :
    lastEnd (orNodes l1 l2) = max (lastEnd l1) (lastEnd l2) := by
  have hw := WFN_or h1 h2
  fun_induction orNodes l1 l2 generalizing lo with
  | case1 l2 => simp [lastEnd]
  | case2 n1 t1 => simp [lastEnd]
  | case3 n1 t1 n2 t2 he ih =>
    have i := ih h1.2.2.2 (by rw [he]; exact h2.2.2.2) hw.2.2.2
    rw [lastEnd_cons_max hw, i, lastEnd_cons_max h1, lastEnd_cons_max h2]
    simp only
    omega
  | case4 n1 t1 n2 t2 hne hlt ih =>
    have b2 := h2.2.1
    have a2 := h1.2.1
    have i := ih h1.2.2.2 ⟨by omega, h2.2⟩ hw.2.2.2
    rw [lastEnd_cons_max hw, i, lastEnd_cons_max h1, lastEnd_cons_max h2]
    omega
  | case5 n1 t1 n2 t2 hne hlt ih =>
    have b2 := h2.2.1
    have a2 := h1.2.1
    have i := ih ⟨by omega, h1.2⟩ h2.2.2.2 hw.2.2.2
    rw [lastEnd_cons_max hw, i, lastEnd_cons_max h1, lastEnd_cons_max h2]
    omega

theorem inv_or {e1 e2 : Ebitmap} (h1 : Inv e1) (h2 : Inv e2) : Inv (or e1 e2) := by
  refine ⟨WFN_or h1.nodes h2.nodes, ?_, ?_⟩
  · simp only [or]
    rw [lastEnd_or h1.nodes h2.nodes, ← h1.high, ← h2.high]
    split <;> omega
  · simp only [or]
    have := h1.small
    have := h2.small
    split <;> omega

/-! ## and -/

theorem WFN_and {lo : Nat} {l1 l2 : List Node} (h1 : WFN lo l1) (h2 : WFN lo l2) :
    WFN lo (andNodes l1 l2) := by
  fun_induction andNodes l1 l2 generalizing lo with
  | case1 l2 => trivial
  | case2 n1 t1 => trivial
  | case3 n1 t1 n2 t2 he hz ih =>
    exact ⟨h1.1, h1.2.1, hz, ih h1.2.2.2 (by rw [he]; exact h2.2.2.2)⟩
  | case4 n1 t1 n2 t2 he hz ih =>
    exact (ih h1.2.2.2 (by rw [he]; exact h2.2.2.2)).mono (by have := h1.1; omega)
  | case5 n1 t1 n2 t2 hne hgt ih =>
    exact ih h1 (h2.2.2.2.mono (by have := h2.1; omega))
  | case6 n1 t1 n2 t2 hne hgt ih =>
    exact ih (h1.2.2.2.mono (by have := h1.1; omega)) h2

theorem bits_and {lo : Nat} {l1 l2 : List Node} (h1 : WFN lo l1) (h2 : WFN lo l2) (b : Nat) :
    bits (andNodes l1 l2) b = (bits l1 b && bits l2 b) := by
  fun_induction andNodes l1 l2 generalizing lo with
  | case1 l2 => simp [bits]
  | case2 n1 t1 => simp [bits]
  | case3 n1 t1 n2 t2 he hz ih =>
    have i := ih h1.2.2.2 (by rw [he]; exact h2.2.2.2)
    simp only [bits, i]
    by_cases c : b < n1.startbit + 64
    · rw [bits_lt h1.2.2.2 c, bits_lt h2.2.2.2 (by omega)]
      simp only [inNode, BitVec.getLsbD_and, he, Bool.or_false]
      cases decide (n2.startbit ≤ b) <;> simp
    · rw [inNode_ge (n := n1) (by omega), inNode_ge (n := n2) (by omega), inNode_ge (by simp; omega)]
      simp
  | case4 n1 t1 n2 t2 he hz ih =>
    have i := ih h1.2.2.2 (by rw [he]; exact h2.2.2.2)
    simp only [bits, i]
    by_cases c : b < n1.startbit + 64
    · rw [bits_lt h1.2.2.2 c, bits_lt h2.2.2.2 (by omega)]
      have hz' : n1.map &&& n2.map = 0#64 := by simpa using hz
      have := congrArg (fun v => v.getLsbD (b - n2.startbit)) hz'
      simp only [BitVec.getLsbD_and, BitVec.getLsbD_zero] at this
      simp only [inNode, he, Bool.or_false, Bool.false_and]
      cases decide (n2.startbit ≤ b) <;> simp [this]
    · rw [inNode_ge (n := n1) (by omega), inNode_ge (n := n2) (by omega)]
      simp
  | case5 n1 t1 n2 t2 hne hgt ih =>
    have a2 := h1.2.1
    have b2 := h2.2.1
    have i := ih h1 (h2.2.2.2.mono (by have := h2.1; omega))
    rw [i]
    show _ = (bits (n1 :: t1) b && (inNode n2 b || bits t2 b))
    by_cases c : b < n1.startbit
    · rw [bits_lt (lo := n1.startbit) (l := n1 :: t1) ⟨Nat.le_refl _, h1.2⟩ c]; simp
    · rw [inNode_ge (n := n2) (by omega)]; simp
  | case6 n1 t1 n2 t2 hne hgt ih =>
    have a2 := h1.2.1
    have b2 := h2.2.1
    have i := ih (h1.2.2.2.mono (by have := h1.1; omega)) h2
    rw [i]
    show _ = ((inNode n1 b || bits t1 b) && bits (n2 :: t2) b)
    by_cases c : b < n2.startbit
    · rw [bits_lt (lo := n2.startbit) (l := n2 :: t2) ⟨Nat.le_refl _, h2.2⟩ c]; simp
    · rw [inNode_ge (n := n1) (by omega)]; simp

theorem WFN_bound_lastEnd {lo : Nat} {l : List Node} (h : WFN lo l) (hne : l ≠ []) :
    ∃ b, lastEnd l ≤ b + 64 ∧ b < lastEnd l ∧ bits l b = true := by
  induction l generalizing lo with
  | nil => exact absurd rfl hne
  | cons n t ih =>
    cases t with
    | nil =>
      obtain ⟨k, hk, hb⟩ := exists_bit h.2.2.1
      refine ⟨n.startbit + k, ?_, ?_, ?_⟩
      · simp [lastEnd]
      · simp [lastEnd]; omega
      · simp [bits, inNode, hb]
    | cons n' t' =>
      obtain ⟨b, hb1, hb2, hb3⟩ := ih h.2.2.2 (by simp)
      exact ⟨b, hb1, hb2, by rw [bits, hb3]; simp⟩

theorem lastEnd_aligned {lo : Nat} {l : List Node} (h : WFN lo l) : lastEnd l % 64 = 0 := by
  induction l generalizing lo with
  | nil => rfl
  | cons n t ih =>
    cases t with
    | nil => have := h.2.1; simp [lastEnd]; omega
    | cons n' t' => exact ih h.2.2.2

/-- If all bits of `l` are below an aligned bound, so is its end. -/
theorem lastEnd_le {lo : Nat} {l : List Node} (h : WFN lo l) {H : Nat} (hH : H % 64 = 0)
    (hb : ∀ b, bits l b = true → b < H) : lastEnd l ≤ H := by
  by_cases hne : l = []
  · subst hne; simp [lastEnd]
  · obtain ⟨b, h1, h2, h3⟩ := WFN_bound_lastEnd h hne
    have := hb b h3
    have := lastEnd_aligned h
    omega

theorem inv_and {e1 e2 : Ebitmap} (h1 : Inv e1) (h2 : Inv e2) : Inv (and e1 e2) := by
  have hw := WFN_and h1.nodes h2.nodes
  have hle : lastEnd (andNodes e1.node e2.node) ≤ e1.highbit := by
    apply lastEnd_le hw (by rw [h1.high]; exact lastEnd_aligned h1.nodes)
    intro b hb
    rw [bits_and h1.nodes h2.nodes] at hb
    apply getBit_lt_high h1
    rw [getBit_eq h1]
    simp at hb; exact hb.1
  have hs := h1.small
  refine ⟨hw, ?_, ?_⟩
  · simp only [and]; rw [endOf_eq, Nat.mod_eq_of_lt (by omega)]
  · simp only [and]; rw [endOf_eq, Nat.mod_eq_of_lt (by omega)]; omega

/-! ## xor -/

theorem WFN_xor {lo : Nat} {l1 l2 : List Node} (h1 : WFN lo l1) (h2 : WFN lo l2) :
    WFN lo (xorNodes l1 l2) := by
  fun_induction xorNodes l1 l2 generalizing lo with
  | case1 => trivial
  | case2 n2 t2 hz ih => exact ⟨h2.1, h2.2.1, hz, ih trivial h2.2.2.2⟩
  | case3 n2 t2 hz ih => exact absurd h2.2.2.1 hz
  | case4 n1 t1 hz ih => exact ⟨h1.1, h1.2.1, hz, ih h1.2.2.2 trivial⟩
  | case5 n1 t1 hz ih => exact absurd h1.2.2.1 hz
  | case6 n1 t1 n2 t2 he hz ih =>
    exact ⟨h1.1, h1.2.1, hz, ih h1.2.2.2 (by rw [he]; exact h2.2.2.2)⟩
  | case7 n1 t1 n2 t2 he hz ih =>
    exact (ih h1.2.2.2 (by rw [he]; exact h2.2.2.2)).mono (by have := h1.1; omega)
  | case8 n1 t1 n2 t2 hne hlt hz ih =>
    exact ⟨h1.1, h1.2.1, hz, ih h1.2.2.2 ⟨by have := h1.2.1; have := h2.2.1; omega, h2.2⟩⟩
  | case9 n1 t1 n2 t2 hne hlt hz ih => exact absurd h1.2.2.1 hz
  | case10 n1 t1 n2 t2 hne hlt hz ih =>
    exact ⟨h2.1, h2.2.1, hz, ih ⟨by have := h1.2.1; have := h2.2.1; omega, h1.2⟩ h2.2.2.2⟩
  | case11 n1 t1 n2 t2 hne hlt hz ih => exact absurd h2.2.2.1 hz

theorem bits_xor {lo : Nat} {l1 l2 : List Node} (h1 : WFN lo l1) (h2 : WFN lo l2) (b : Nat) :
    bits (xorNodes l1 l2) b = Bool.xor (bits l1 b) (bits l2 b) := by
  fun_induction xorNodes l1 l2 generalizing lo with
  | case1 => simp [bits]
  | case2 n2 t2 hz ih => simp only [bits, ih trivial h2.2.2.2]; simp
  | case3 n2 t2 hz ih => exact absurd h2.2.2.1 hz
  | case4 n1 t1 hz ih => simp only [bits, ih h1.2.2.2 trivial]; simp
  | case5 n1 t1 hz ih => exact absurd h1.2.2.1 hz
  | case6 n1 t1 n2 t2 he hz ih =>
    have i := ih h1.2.2.2 (by rw [he]; exact h2.2.2.2)
    simp only [bits, i]
    by_cases c : b < n1.startbit + 64
    · rw [bits_lt h1.2.2.2 c, bits_lt h2.2.2.2 (by omega)]
      simp only [inNode, BitVec.getLsbD_xor, he, Bool.or_false]
      cases decide (n2.startbit ≤ b) <;> simp
    · rw [inNode_ge (n := n1) (by omega), inNode_ge (n := n2) (by omega), inNode_ge (by simp; omega)]
      simp
  | case7 n1 t1 n2 t2 he hz ih =>
    have i := ih h1.2.2.2 (by rw [he]; exact h2.2.2.2)
    simp only [bits, i]
    by_cases c : b < n1.startbit + 64
    · rw [bits_lt h1.2.2.2 c, bits_lt h2.2.2.2 (by omega)]
      have hz' : n1.map ^^^ n2.map = 0#64 := by simpa using hz
      have := congrArg (fun v => v.getLsbD (b - n2.startbit)) hz'
      simp only [BitVec.getLsbD_xor, BitVec.getLsbD_zero] at this
      simp only [inNode, he, Bool.or_false]
      cases decide (n2.startbit ≤ b) <;> simp
      simpa using this.symm
    · rw [inNode_ge (n := n1) (by omega), inNode_ge (n := n2) (by omega)]
      simp
  | case8 n1 t1 n2 t2 hne hlt hz ih =>
    have a2 := h1.2.1
    have b2 := h2.2.1
    have h2' : WFN (n1.startbit + 64) (n2 :: t2) := ⟨by omega, h2.2⟩
    have i := ih h1.2.2.2 h2'
    show (inNode n1 b || bits _ b) = Bool.xor (inNode n1 b || bits t1 b) (bits (n2 :: t2) b)
    rw [i]
    by_cases c : b < n1.startbit + 64
    · rw [bits_lt h1.2.2.2 c, bits_lt h2' c]; simp
    · rw [inNode_ge (n := n1) (by omega)]; simp
  | case9 n1 t1 n2 t2 hne hlt hz ih => exact absurd h1.2.2.1 hz
  | case10 n1 t1 n2 t2 hne hlt hz ih =>
    have a2 := h1.2.1
    have b2 := h2.2.1
    have h1' : WFN (n2.startbit + 64) (n1 :: t1) := ⟨by omega, h1.2⟩
    have i := ih h1' h2.2.2.2
    show (inNode n2 b || bits _ b) = Bool.xor (bits (n1 :: t1) b) (inNode n2 b || bits t2 b)
    rw [i]
    by_cases c : b < n2.startbit + 64
    · rw [bits_lt h2.2.2.2 c, bits_lt h1' c]; simp
    · rw [inNode_ge (n := n2) (by omega)]; simp
  | case11 n1 t1 n2 t2 hne hlt hz ih => exact absurd h2.2.2.1 hz

theorem inv_xor {e1 e2 : Ebitmap} (h1 : Inv e1) (h2 : Inv e2) : Inv (xor e1 e2) := by
  have hw := WFN_xor h1.nodes h2.nodes
  have hle : lastEnd (xorNodes e1.node e2.node) ≤ max e1.highbit e2.highbit := by
    apply lastEnd_le hw
    · have := lastEnd_aligned h1.nodes
      have := lastEnd_aligned h2.nodes
      rw [h1.high, h2.high]; omega
    intro b hb
    rw [bits_xor h1.nodes h2.nodes, ← getBit_eq h1, ← getBit_eq h2] at hb
    by_cases c : getBit e1 b = true
    · have := getBit_lt_high h1 c; omega
    · have := getBit_lt_high h2 (b := b) (by simpa [c] using hb); omega
  have hs := h1.small
  have hs2 := h2.small
  refine ⟨hw, ?_, ?_⟩
  · simp only [xor]; rw [endOf_eq, Nat.mod_eq_of_lt (by omega)]
  · simp only [xor]; rw [endOf_eq, Nat.mod_eq_of_lt (by omega)]; omega

end Verif.Ebitmap
