import Verif.ObjStmt.Lemmas4
import Verif.Prelude

namespace Verif.ObjStmt
open Verif.Policy Verif.Mls Verif.Services

/-! ## Which statements are accepted -/

theorem protocol_iff (id : Str) (p : Nat) : protocol id = some p ↔ ProtoName id p := by
  unfold protocol ProtoName str
  have d : ∀ a b : String, a.toList ≠ b.toList → id = a.toList → ¬ id = b.toList := fun a b h e e' => h (e.symm.trans e')
  split
  · rename_i h
    have h1 : ¬ (id = "udp".toList ∨ id = "UDP".toList) := by
      rintro (h' | h') <;> rcases h with h | h <;> rw [h] at h' <;> exact absurd h' (by decide)
    have h2 : ¬ (id = "dccp".toList ∨ id = "DCCP".toList) := by
      rintro (h' | h') <;> rcases h with h | h <;> rw [h] at h' <;> exact absurd h' (by decide)
    have h3 : ¬ (id = "sctp".toList ∨ id = "SCTP".toList) := by
      rintro (h' | h') <;> rcases h with h | h <;> rw [h] at h' <;> exact absurd h' (by decide)
    simp only [h, h1, h2, h3, and_true, and_false, or_false, Option.some.injEq, eq_comm]
  · rename_i h0
    split
    · rename_i h
      have h2 : ¬ (id = "dccp".toList ∨ id = "DCCP".toList) := by
        rintro (h' | h') <;> rcases h with h | h <;> rw [h] at h' <;> exact absurd h' (by decide)
      have h3 : ¬ (id = "sctp".toList ∨ id = "SCTP".toList) := by
        rintro (h' | h') <;> rcases h with h | h <;> rw [h] at h' <;> exact absurd h' (by decide)
      simp only [h0, h, h2, h3, and_true, and_false, or_false, false_or, Option.some.injEq, eq_comm]
    · rename_i h1
      split
      · rename_i h
        have h3 : ¬ (id = "sctp".toList ∨ id = "SCTP".toList) := by
          rintro (h' | h') <;> rcases h with h | h <;> rw [h] at h' <;> exact absurd h' (by decide)
        simp only [h0, h1, h, h3, and_true, and_false, or_false, false_or, Option.some.injEq, eq_comm]
      · rename_i h2
        split
        · rename_i h
          simp only [h0, h1, h2, h, and_true, and_false, false_or, Option.some.injEq, eq_comm]
        · rename_i h3
          simp only [h0, h1, h2, h3, and_false, or_false, reduceCtorEq]

theorem all_fm {β : Type} {f : Stmt → Option β} {pre : List Stmt} {P : β → Prop} {Q : Stmt → Prop}
    (h : ∀ p ∈ pre, (∀ e, f p = some e → P e) ↔ Q p) : (∀ e ∈ pre.filterMap f, P e) ↔ ∀ p ∈ pre, Q p := by
  constructor
  · intro hh p hp
    exact (h p hp).mp fun e he => hh e (List.mem_filterMap.mpr ⟨p, hp, he⟩)
  · intro hh e he
    obtain ⟨p, hp, hpe⟩ := List.mem_filterMap.mp he
    exact (h p hp).mpr (hh p hp) e hpe

theorem all_fm_rev {β : Type} {f : Stmt → Option β} {pre : List Stmt} {P : β → Prop} {Q : Stmt → Prop}
    (h : ∀ p ∈ pre, (∀ e, f p = some e → P e) ↔ Q p) : (∀ e ∈ (pre.filterMap f).reverse, P e) ↔ ∀ p ∈ pre, Q p := by
  rw [← all_fm h]; simp only [List.mem_reverse]

/-! ### Names of devices -/

def unDigit (c : Char) : Nat := if c.toNat < 58 then c.toNat - 48 else c.toNat - 87
def unHex : Str → Nat
  | [x, y] => unDigit x * 16 + unDigit y
  | _ => 0

theorem hex2_all : ∀ a : Fin 256, unHex (hex2 a.val) = a.val ∧ (hex2 a.val).length = 2 ∧ hex2 a.val = twoHex a.val := by
  decide +kernel

theorem fsName_inj {a b a' b' : Nat} (ha : a < 256) (hb : b < 256) (ha' : a' < 256) (hb' : b' < 256) :
    fsName a b = fsName a' b' ↔ a = a' ∧ b = b' := by
  constructor
  · intro h
    obtain ⟨x1, x2, _⟩ := hex2_all ⟨a, ha⟩
    obtain ⟨y1, y2, _⟩ := hex2_all ⟨b, hb⟩
    obtain ⟨z1, z2, _⟩ := hex2_all ⟨a', ha'⟩
    obtain ⟨w1, w2, _⟩ := hex2_all ⟨b', hb'⟩
    dsimp only at *
    have := List.append_inj h (by rw [x2, z2])
    have h2 := (List.cons.inj this.2).2
    refine ⟨?_, ?_⟩
    · rw [← x1, ← z1, this.1]
    · rw [← y1, ← w1, h2]
  · rintro ⟨rfl, rfl⟩; rfl

theorem fsName_length {a b : Nat} (ha : a < 256) (hb : b < 256) : (fsName a b).length + 1 ≤ 6 := by
  obtain ⟨_, x2, _⟩ := hex2_all ⟨a, ha⟩
  obtain ⟨_, y2, _⟩ := hex2_all ⟨b, hb⟩
  dsimp only at *
  simp [fsName, x2, y2]

/-! ### Networks -/

theorem net4_bits {cfg : Cfg} {s : Stmt} (hl : Legal cfg s) {x} (hx : net4 s = some x) :
    (∀ i, Looks4 s i ↔ x.1.2.getMsbD i = true) ∧ (∀ i, Net4 s i = x.1.1.getMsbD i) ∧ s.label = some x.2 := by
  unfold net4 at hx
  split at hx
  · cases hx
    exact ⟨fun i => Iff.rfl, fun i => rfl, rfl⟩
  · rename_i a k c
    cases hx
    have hk : k ≤ 32 := hl.2.2.1
    have hm : ∀ i, (mask4 k).getMsbD i = decide (i < k) := by
      intro i
      by_cases hi : i < 32
      · exact mask4_bit hk hi
      · rw [BitVec.getMsbD_of_ge (ge := by omega)]
        symm; simp only [decide_eq_false_iff_not]; omega
    refine ⟨fun i => ?_, fun i => ?_, rfl⟩
    · show i < k ↔ _
      rw [hm, decide_eq_true_eq]
    · show (decide (i < k) && a.getMsbD i) = _
      rw [BitVec.getMsbD_and, hm, Bool.and_comm]
  · cases hx

theorem net6_bits {cfg : Cfg} {s : Stmt} (hl : Legal cfg s) {x} (hx : net6 s = some x) :
    (∀ i, Looks6 s i ↔ i < 128 ∧ bit6 x.1.2 i = true) ∧ (∀ i < 128, Net6 s i = bit6 x.1.1 i) ∧ s.label = some x.2 := by
  unfold net6 at hx
  split at hx
  · cases hx
    exact ⟨fun i => Iff.rfl, fun i _ => rfl, rfl⟩
  · rename_i a k c
    cases hx
    have hk : k ≤ 128 := hl.2.2.1
    refine ⟨fun i => ?_, fun i hi => ?_, rfl⟩
    · show i < k ↔ _
      constructor
      · intro h
        have hi : i < 128 := by omega
        exact ⟨hi, by rw [mask6_bit hk hi]; simpa using h⟩
      · rintro ⟨hi, h⟩
        rw [mask6_bit hk hi] at h
        simpa using h
    · show (decide (i < k) && bit6 a i) = _
      rw [and6_bit _ _ hi, mask6_bit hk hi, Bool.and_comm]
  · cases hx

theorem net4_is {cfg : Cfg} {s : Stmt} (hl : Legal cfg s) : (∃ x, net4 s = some x) ↔ s.is4 = true := by
  cases s <;> simp only [Stmt.is4, net4, reduceCtorEq, Bool.false_eq_true, exists_false]
  case node a m c =>
    obtain ⟨_, h1, h2, h3⟩ := hl
    rcases a with _ | a
    · exact absurd rfl h1
    · rcases m with _ | m
      · exact absurd rfl h2
      · rcases c with _ | c
        · exact absurd rfl h3
        · simp
  case nodeCidr a k c =>
    obtain ⟨_, h1, h2, h3⟩ := hl
    rcases a with _ | a
    · exact absurd rfl h1
    · rcases c with _ | c
      · exact absurd rfl h3
      · simp

theorem net6_is {cfg : Cfg} {s : Stmt} (hl : Legal cfg s) : (∃ x, net6 s = some x) ↔ s.is6 = true := by
  cases s <;> simp only [Stmt.is6, net6, reduceCtorEq, Bool.false_eq_true, exists_false]
  case node6 a m c =>
    obtain ⟨_, h1, h2, h3⟩ := hl
    rcases a with _ | a
    · exact absurd rfl h1
    · rcases m with _ | m
      · exact absurd rfl h2
      · rcases c with _ | c
        · exact absurd rfl h3
        · simp
  case node6Cidr a k c =>
    obtain ⟨_, h1, h2, h3⟩ := hl
    rcases a with _ | a
    · exact absurd rfl h1
    · rcases c with _ | c
      · exact absurd rfl h3
      · simp

theorem clash4 {s t : Stmt} (ht : t.is4 = true) : Clash s t ↔
    s.is4 = true ∧ (∀ i, Looks4 s i ↔ Looks4 t i) ∧ ∀ i, Net4 s i = Net4 t i := by
  cases s <;> cases t <;> simp_all [Clash, Stmt.is4, Stmt.is6]

theorem clash6 {s t : Stmt} (ht : t.is6 = true) : Clash s t ↔
    s.is6 = true ∧ (∀ i, Looks6 s i ↔ Looks6 t i) ∧ ∀ i < 128, Net6 s i = Net6 t i := by
  cases s <;> cases t <;> simp_all [Clash, Stmt.is4, Stmt.is6]

theorem node_apart {cfg : Cfg} {p s : Stmt} (hp : Legal cfg p) (hs : Legal cfg s) {x} (hx : net4 s = some x) :
    (∀ e, node4E cfg p = some e → e.key ≠ (ent4 cfg x).key) ↔ ¬ Clash p s := by
  obtain ⟨s1, s2, _⟩ := net4_bits hs hx
  rw [clash4 ((net4_is hs).mp ⟨x, hx⟩)]
  cases hy : net4 p with
  | none =>
    have : ¬ p.is4 = true := fun h => by
      obtain ⟨y, h'⟩ := (net4_is hp).mpr h; rw [h'] at hy; cases hy
    simp [node4E, hy, this]
  | some y =>
    obtain ⟨p1, p2, _⟩ := net4_bits hp hy
    have h4 := (net4_is hp).mp ⟨y, hy⟩
    simp only [node4E, hy, Option.map_some, Option.some.injEq, forall_eq', h4, true_and, ne_eq]
    rw [not_iff_not]
    show (stored cfg y.1.1, stored cfg y.1.2) = (stored cfg x.1.1, stored cfg x.1.2) ↔ _
    rw [Prod.ext_iff]
    simp only [stored_inj, s1, s2, p1, p2]
    constructor
    · rintro ⟨h1, h2⟩; rw [h1, h2]; exact ⟨fun _ => Iff.rfl, fun _ => rfl⟩
    · rintro ⟨h1, h2⟩
      refine ⟨ext4.mpr fun i _ => h2 i, ext4.mpr fun i _ => ?_⟩
      have := h1 i
      rwa [Bool.eq_iff_iff]

theorem node6_apart {cfg : Cfg} {p s : Stmt} (hp : Legal cfg p) (hs : Legal cfg s) {x} (hx : net6 s = some x) :
    (∀ e, node6E cfg p = some e → e.key ≠ (ent6 cfg x).key) ↔ ¬ Clash p s := by
  obtain ⟨s1, s2, _⟩ := net6_bits hs hx
  rw [clash6 ((net6_is hs).mp ⟨x, hx⟩)]
  cases hy : net6 p with
  | none =>
    have : ¬ p.is6 = true := fun h => by
      obtain ⟨y, h'⟩ := (net6_is hp).mpr h; rw [h'] at hy; cases hy
    simp [node6E, hy, this]
  | some y =>
    obtain ⟨p1, p2, _⟩ := net6_bits hp hy
    have h6 := (net6_is hp).mp ⟨y, hy⟩
    simp only [node6E, hy, Option.map_some, Option.some.injEq, forall_eq', h6, true_and, ne_eq]
    rw [not_iff_not]
    show (stored6 cfg y.1.1, stored6 cfg y.1.2) = (stored6 cfg x.1.1, stored6 cfg x.1.2) ↔ _
    rw [Prod.ext_iff]
    simp only [stored6_inj, s1, p1]
    constructor
    · rintro ⟨h1, h2⟩
      exact ⟨fun i => by rw [h2], fun i hi => by rw [p2 i hi, s2 i hi, h1]⟩
    · rintro ⟨h1, h2⟩
      refine ⟨ext6.mpr fun i hi => by rw [← p2 i hi, ← s2 i hi, h2 i hi], ext6.mpr fun i hi => ?_⟩
      have := h1 i
      simp only [hi, true_and] at this
      rwa [Bool.eq_iff_iff]

/-! ### Types of files -/

theorem typeClass_fun {t n n' : Str} (h : TypeClass t n) (h' : TypeClass t n') : n = n' := by
  have a := (className_iff _ _).mpr h
  have b := (className_iff _ _).mpr h'
  rw [a] at b; exact Option.some.inj b

theorem typeClass_inj {t t' n : Str} (h : TypeClass t n) (h' : TypeClass t' n) : t = t' := by
  unfold TypeClass at h h'
  rcases h with ⟨rfl, h⟩ | ⟨rfl, h⟩ | ⟨rfl, h⟩ | ⟨rfl, h⟩ | ⟨rfl, h⟩ | ⟨rfl, h⟩ | ⟨rfl, h⟩ <;> rw [h] at h' <;>
  · rcases h' with ⟨rfl, h'⟩ | ⟨rfl, h'⟩ | ⟨rfl, h'⟩ | ⟨rfl, h'⟩ | ⟨rfl, h'⟩ | ⟨rfl, h'⟩ | ⟨rfl, h'⟩ <;>
      first | rfl | exact absurd h' (by decide)

theorem class_zero {cfg : Cfg} (hc : cfg.WF) {t : Option Str} {v : Nat} (h : classValue cfg t = some v) : v = 0 ↔ t = none := by
  rw [classValue_some] at h
  rcases h with ⟨rfl, rfl⟩ | ⟨t', n, rfl, _, h⟩
  · simp
  · simp [hc.pos n v h]

theorem class_same {cfg : Cfg} (hc : cfg.WF) {t t' : Option Str} {v v' : Nat} (h : classValue cfg t = some v)
    (h' : classValue cfg t' = some v') : v = v' ↔ t = t' := by
  constructor
  · rintro rfl
    by_cases hv : v = 0
    · rw [(class_zero hc h).mp hv, (class_zero hc h').mp hv]
    · rw [classValue_some] at h h'
      rcases h with ⟨_, h⟩ | ⟨u, n, rfl, h1, h2⟩
      · exact absurd h hv
      · rcases h' with ⟨_, h⟩ | ⟨u', n', rfl, h3, h4⟩
        · exact absurd h hv
        · have := hc.inj n n' v h2 h4
          subst this
          rw [typeClass_inj h1 h3]
  · rintro rfl; rw [h] at h'; exact Option.some.inj h'

theorem gen_apart {cfg : Cfg} (hc : cfg.WF) {p : Stmt} (hp : Legal cfg p) {f n : Str} {t : Option Str} {v : Nat} {c : Context}
    (hv : classValue cfg t = some v) :
    (∀ e, genE cfg f p = some e → Apart (mkEntry ⟨n, v, c⟩) (mkEntry e)) ↔ ¬ Clash p (.genfs f n t (some c)) := by
  cases p <;> try (simp [genE, Clash, Stmt.is4, Stmt.is6]; done)
  case genfs f' n' t' c' =>
    obtain ⟨_, ht, h3⟩ := hp
    rcases c' with _ | c'
    · exact absurd rfl h3
    · have : ∃ v', classValue cfg t' = some v' := by
        rcases t' with _ | t'
        · exact ⟨0, rfl⟩
        · obtain ⟨n, v, h1, h2⟩ := ht t' rfl
          exact ⟨v, (classValue_some _ _ _).mpr (.inr ⟨t', n, rfl, h1, h2⟩)⟩
      obtain ⟨v', hv'⟩ := this
      have hcl : Clash (.genfs f' n' t' (some c')) (.genfs f n t (some c)) ↔
          f' = f ∧ n' = n ∧ (t' = none ∨ t = none ∨ t' = t) := Iff.rfl
      rw [hcl]
      by_cases hf : f' = f
      · subst hf
        simp only [genE, if_true, hv', Option.map_some, Option.some.injEq, forall_eq', Apart, mkEntry, true_and,
          class_zero hc hv, class_zero hc hv', class_same hc hv hv']
        rw [not_iff_not]
        constructor
        · rintro ⟨a, b | b | b⟩
          · exact ⟨a.symm, .inr (.inl b)⟩
          · exact ⟨a.symm, .inl b⟩
          · exact ⟨a.symm, .inr (.inr b.symm)⟩
        · rintro ⟨a, b | b | b⟩
          · exact ⟨a.symm, .inr (.inl b)⟩
          · exact ⟨a.symm, .inl b⟩
          · exact ⟨a.symm, .inr (.inr b.symm)⟩
      · simp [genE, hf]

theorem subnet_inj {v w : Words} (h2 : v.w2 = 0) (h3 : v.w3 = 0) (k2 : w.w2 = 0) (k3 : w.w3 = 0) :
    subnetOf v = subnetOf w ↔ v = w := by
  constructor
  · intro h
    obtain ⟨a, b, c, d⟩ := v
    obtain ⟨a', b', c', d'⟩ := w
    dsimp only at h2 h3 k2 k3
    unfold subnetOf at h
    dsimp only at h
    have := b.isLt; have := b'.isLt
    have e1 : a.toNat = a'.toNat := by omega
    have e2 : b.toNat = b'.toNat := by omega
    rw [BitVec.eq_of_toNat_eq e1, BitVec.eq_of_toNat_eq e2, h2, h3, k2, k3]
  · rintro rfl; rfl

end Verif.ObjStmt
