import Verif.ObjStmt.Lemmas7

namespace Verif.ObjStmt
open Verif.Policy Verif.Mls Verif.Services

theorem bit6_apply (x y : Words) (i : Nat) : bit6 (applyMask x y) i = (bit6 x i && bit6 y i) := by
  unfold bit6 applyMask
  dsimp only
  split
  · rw [BitVec.getMsbD_and]
  · split
    · rw [BitVec.getMsbD_and]
    · split <;> rw [BitVec.getMsbD_and]

theorem for4_iff {cfg : Cfg} {s : Stmt} (hl : Legal cfg s) {x} (hx : net4 s = some x) (a : BitVec 32) :
    For4 a s ↔ x.1.1 = a &&& x.1.2 := by
  unfold net4 at hx
  split at hx
  · cases hx
    dsimp only [For4]
    rw [ext4]
    simp only [BitVec.getMsbD_and]
  · rename_i n k c
    cases hx
    have hk : k ≤ 32 := hl.2.2.1
    dsimp only [For4]
    rw [ext4]
    constructor
    · intro h i hi
      rw [BitVec.getMsbD_and, BitVec.getMsbD_and, mask4_bit hk hi]
      by_cases hik : i < k
      · simp [hik, h i hik]
      · simp [hik]
    · intro h i hi
      have := h i (by omega)
      rw [BitVec.getMsbD_and, BitVec.getMsbD_and, mask4_bit hk (by omega)] at this
      simpa [hi] using this.symm
  · cases hx

theorem for6_iff {cfg : Cfg} {s : Stmt} (hl : Legal cfg s) {x} (hx : net6 s = some x) (a : Words) :
    For6 a s ↔ x.1.1 = applyMask a x.1.2 := by
  unfold net6 at hx
  split at hx
  · cases hx
    dsimp only [For6]
    rw [ext6]
    simp only [bit6_apply]
  · rename_i n k c
    cases hx
    have hk : k ≤ 128 := hl.2.2.1
    dsimp only [For6]
    rw [ext6]
    constructor
    · intro h i hi
      rw [bit6_apply, bit6_apply, mask6_bit hk hi]
      by_cases hik : i < k
      · simp [hik, h i hik]
      · simp [hik]
    · intro h i hi
      have := h i (by omega)
      rw [bit6_apply, bit6_apply, mask6_bit hk (by omega)] at this
      simpa [hi] using this.symm
  · cases hx

theorem for4_net {a : BitVec 32} {cfg : Cfg} {s : Stmt} (hl : Legal cfg s) (h : For4 a s) : ∃ x, net4 s = some x := by
  rw [net4_is hl]
  cases s <;> simp [For4, Stmt.is4] at h ⊢

theorem for6_net {a : Words} {cfg : Cfg} {s : Stmt} (hl : Legal cfg s) (h : For6 a s) : ∃ x, net6 s = some x := by
  rw [net6_is hl]
  cases s <;> simp [For6, Stmt.is6] at h ⊢

theorem match4 {cfg : Cfg} {s : Stmt} (hl : Legal cfg s) (a : BitVec 32) :
    (∃ e, node4E cfg s = some e ∧ ∀ i < 32, e.key.1.getLsbD i = ((stored cfg a).getLsbD i && e.key.2.getLsbD i)) ↔ For4 a s := by
  have key : ∀ x, (∀ i < 32, (ent4 cfg x).key.1.getLsbD i = ((stored cfg a).getLsbD i && (ent4 cfg x).key.2.getLsbD i)) ↔
      x.1.1 = a &&& x.1.2 := by
    intro x
    rw [← stored_inj cfg, stored_and]
    constructor
    · intro h
      apply BitVec.eq_of_getLsbD_eq
      intro i hi
      rw [BitVec.getLsbD_and]; exact h i hi
    · intro h i hi
      show (stored cfg x.1.1).getLsbD i = _
      rw [h, BitVec.getLsbD_and]; rfl
  constructor
  · rintro ⟨e, he, h⟩
    unfold node4E at he
    rw [Option.map_eq_some_iff] at he
    obtain ⟨x, hx, rfl⟩ := he
    exact (for4_iff hl hx a).mpr ((key x).mp h)
  · intro h
    obtain ⟨x, hx⟩ := for4_net hl h
    exact ⟨ent4 cfg x, by rw [node4E, hx]; rfl, (key x).mpr ((for4_iff hl hx a).mp h)⟩

theorem match6 {cfg : Cfg} {s : Stmt} (hl : Legal cfg s) (a : Words) :
    (∃ e, node6E cfg s = some e ∧ e.key.1 = ⟨(stored6 cfg a).w0 &&& e.key.2.w0, (stored6 cfg a).w1 &&& e.key.2.w1,
      (stored6 cfg a).w2 &&& e.key.2.w2, (stored6 cfg a).w3 &&& e.key.2.w3⟩) ↔ For6 a s := by
  have key : ∀ x, (ent6 cfg x).key.1 = ⟨(stored6 cfg a).w0 &&& (ent6 cfg x).key.2.w0, (stored6 cfg a).w1 &&& (ent6 cfg x).key.2.w1,
      (stored6 cfg a).w2 &&& (ent6 cfg x).key.2.w2, (stored6 cfg a).w3 &&& (ent6 cfg x).key.2.w3⟩ ↔
      x.1.1 = applyMask a x.1.2 := by
    rintro ⟨⟨⟨p, q, r, s⟩, ⟨p', q', r', s'⟩⟩, c⟩
    simp only [ent6, entry, stored6, applyMask, Words.mk.injEq, ← stored_and, stored_inj]
  constructor
  · rintro ⟨e, he, h⟩
    unfold node6E at he
    rw [Option.map_eq_some_iff] at he
    obtain ⟨x, hx, rfl⟩ := he
    exact (for6_iff hl hx a).mpr ((key x).mp h)
  · intro h
    obtain ⟨x, hx⟩ := for6_net hl h
    exact ⟨ent6 cfg x, by rw [node6E, hx]; rfl, (key x).mpr ((for6_iff hl hx a).mp h)⟩

theorem more4 {cfg : Cfg} {s t : Stmt} (hs : Legal cfg s) (ht : Legal cfg t) (h : More Looks4 t s) {e f}
    (he : node4E cfg s = some e) (hf : node4E cfg t = some f) : e.key.2.toNat < f.key.2.toNat := by
  unfold node4E at he hf
  rw [Option.map_eq_some_iff] at he hf
  obtain ⟨x, hx, rfl⟩ := he
  obtain ⟨y, hy, rfl⟩ := hf
  obtain ⟨h1, i, h2, h3⟩ := h
  have bx := (net4_bits hs hx).1
  have bY := (net4_bits ht hy).1
  show (stored cfg x.1.2).toNat < (stored cfg y.1.2).toNat
  apply stored_lt
  · rw [ext4]
    intro j _
    rw [BitVec.getMsbD_and]
    cases hj : x.1.2.getMsbD j with
    | false => simp
    | true => rw [(bY j).mp (h1 j ((bx j).mpr hj))]; rfl
  · intro e
    rw [bY, ← e, ← bx] at h2
    exact h3 h2

theorem more6 {cfg : Cfg} {s t : Stmt} (hs : Legal cfg s) (ht : Legal cfg t) (h : More Looks6 t s) {e f}
    (he : node6E cfg s = some e) (hf : node6E cfg t = some f) : val6 cfg e.key.2 < val6 cfg f.key.2 := by
  unfold node6E at he hf
  rw [Option.map_eq_some_iff] at he hf
  obtain ⟨x, hx, rfl⟩ := he
  obtain ⟨y, hy, rfl⟩ := hf
  obtain ⟨h1, i, h2, h3⟩ := h
  have bx := (net6_bits hs hx).1
  have bY := (net6_bits ht hy).1
  show val6 cfg (stored6 cfg x.1.2) < val6 cfg (stored6 cfg y.1.2)
  have e6 : ∀ w, stored6 cfg w = ⟨stored cfg w.w0, stored cfg w.w1, stored cfg w.w2, stored cfg w.w3⟩ := fun _ => rfl
  apply val6_lt
  · have : x.1.2 = applyMask x.1.2 y.1.2 := by
      rw [ext6]
      intro j hj'
      rw [bit6_apply]
      cases hj : bit6 x.1.2 j with
      | false => simp
      | true => rw [((bY j).mp (h1 j ((bx j).mpr ⟨hj', hj⟩))).2]; rfl
    conv => lhs; rw [this]
    simp only [e6, applyMask, stored_and]
  · intro e
    have : x.1.2 = y.1.2 := by
      have e := e
      obtain ⟨⟨n, ⟨p, q, r, s⟩⟩, c⟩ := x
      obtain ⟨⟨n', ⟨p', q', r', s'⟩⟩, c'⟩ := y
      simpa only [e6, Words.mk.injEq, stored_inj] using e
    rw [bY, ← this, ← bx] at h2
    exact h3 h2

end Verif.ObjStmt
