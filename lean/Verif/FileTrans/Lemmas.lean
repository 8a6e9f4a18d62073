import Verif.FileTrans.Spec
import Verif.PolicyIO.Sound3

/-! # Lemmas -/

namespace Verif.FileTrans
open Verif.PolicyIO Verif.Policy Verif.Services

abbrev Data := List (Ebitmap.Ebitmap × Nat)

/-- The data say that the source gets the type. -/
def In (l : Data) (s o : Nat) : Prop := ∃ d ∈ l, d.2 = o ∧ Ebitmap.getBit d.1 (s - 1) = true

structure Ok (l : Data) : Prop where
  wf : ∀ d ∈ l, Ebitmap.WF d.1
  types : l.Pairwise fun d e => d.2 ≠ e.2

theorem in_cons {d : Ebitmap.Ebitmap × Nat} {l : Data} {s o : Nat} : In (d :: l) s o ↔ (d.2 = o ∧ Ebitmap.getBit d.1 (s - 1) = true) ∨ In l s o := by
  unfold In
  constructor
  · rintro ⟨x, hx, h⟩
    rcases List.mem_cons.1 hx with rfl | hx
    · exact Or.inl h
    · exact Or.inr ⟨x, hx, h⟩
  · rintro (h | ⟨x, hx, h⟩)
    · exact ⟨d, by simp, h⟩
    · exact ⟨x, List.mem_cons_of_mem _ hx, h⟩

/-- What `insertData` does: either the source has a type and nothing changes, or the pair is added. -/
theorem insertData_spec {s o : Nat} (h1 : 1 ≤ s) (h2 : s ≤ 2 ^ 32 - 64) : ∀ {l : Data}, Ok l →
    (∃ p, insertData s o l = (.exists_ p, l) ∧ In l s p) ∨
    (∃ l', insertData s o l = (.ok, l') ∧ Ok l' ∧ (∀ x ∈ l'.map (·.2), x = o ∨ x ∈ l.map (·.2)) ∧ l' ≠ [] ∧
      ∀ s' o', 1 ≤ s' → (In l' s' o' ↔ In l s' o' ∨ (s' = s ∧ o' = o)))
  | [], _ => by
    right
    obtain ⟨e, e1, e2, e3⟩ := setBit_spec wf_init (b := s - 1) (by omega)
    refine ⟨[(e, o)], ?_, ⟨by simpa using e2, by simp⟩, by simp, by simp, ?_⟩
    · unfold insertData; rw [e1]
    · intro s' o' hs'
      rw [in_cons, e3, getBit_init]
      simp only [In, List.not_mem_nil, false_and, exists_false, or_false, false_or, Bool.false_eq_true]
      constructor
      · rintro ⟨h, h'⟩; exact ⟨by omega, h.symm⟩
      · rintro ⟨h, h'⟩; exact ⟨h'.symm, by omega⟩
  | d :: l, hl => by
    have hp := List.pairwise_cons.1 hl.types
    unfold insertData
    split
    · rename_i hb
      left
      exact ⟨d.2, rfl, in_cons.2 (Or.inl ⟨rfl, hb⟩)⟩
    · rename_i hb
      split
      · rename_i ho
        right
        obtain ⟨e, e1, e2, e3⟩ := setBit_spec (hl.wf d (by simp)) (b := s - 1) (by omega)
        rw [e1]
        refine ⟨_, rfl, ⟨?_, List.pairwise_cons.2 hp⟩, ?_, by simp, ?_⟩
        · intro x hx
          rcases List.mem_cons.1 hx with rfl | hx
          · exact e2
          · exact hl.wf x (List.mem_cons_of_mem _ hx)
        · intro x hx; exact Or.inr hx
        · intro s' o' hs'
          rw [in_cons, in_cons, e3]
          constructor
          · rintro (⟨h, h' | h'⟩ | h)
            · exact Or.inr ⟨by omega, by rw [← h, ho]⟩
            · exact Or.inl (Or.inl ⟨h, h'⟩)
            · exact Or.inl (Or.inr h)
          · rintro ((⟨h, h'⟩ | h) | ⟨h, h'⟩)
            · exact Or.inl ⟨h, Or.inr h'⟩
            · exact Or.inr h
            · exact Or.inl ⟨by rw [ho, h'], Or.inl (by rw [h])⟩
      · rename_i ho
        rcases insertData_spec h1 h2 (l := l) (o := o) ⟨fun x hx => hl.wf x (List.mem_cons_of_mem _ hx), hp.2⟩ with ⟨p, i1, i2⟩ | ⟨l', i1, i2, i3, -, i4⟩
        · left
          rw [i1]
          exact ⟨p, rfl, in_cons.2 (Or.inr i2)⟩
        · right
          rw [i1]
          refine ⟨_, rfl, ⟨?_, List.pairwise_cons.2 ⟨fun x hx he => ?_, i2.types⟩⟩, ?_, by simp, ?_⟩
          · intro x hx
            rcases List.mem_cons.1 hx with rfl | hx
            · exact hl.wf x (by simp)
            · exact i2.wf x hx
          · rcases i3 x.2 (List.mem_map_of_mem hx) with h | h
            · exact ho (he.trans h)
            · obtain ⟨y, hy, hye⟩ := List.mem_map.1 h
              exact hp.1 y hy (he.trans hye.symm)
          · intro x hx
            rw [List.map_cons, List.mem_cons] at hx
            rcases hx with rfl | hx
            · exact Or.inr (by simp)
            · rcases i3 x hx with h | h
              · exact Or.inl h
              · exact Or.inr (List.mem_cons_of_mem _ h)
          · intro s' o' hs'
            rw [in_cons, in_cons, i4 s' o' hs', or_assoc]

/-- If no datum is for the new type, the source is looked for everywhere. -/
theorem insertData_new {s o : Nat} : ∀ {l : Data}, (∀ d ∈ l, d.2 ≠ o) → (∃ d ∈ l, Ebitmap.getBit d.1 (s - 1) = true) →
    ∃ p, insertData s o l = (.exists_ p, l) ∧ In l s p
  | [], _, h => by obtain ⟨d, hd, -⟩ := h; cases hd
  | d :: l, hn, h => by
    unfold insertData
    split
    · rename_i hb
      exact ⟨d.2, rfl, in_cons.2 (Or.inl ⟨rfl, hb⟩)⟩
    · rename_i hb
      rw [if_neg (hn d (by simp))]
      obtain ⟨x, hx, hxb⟩ := h
      rcases List.mem_cons.1 hx with rfl | hx
      · exact absurd hxb hb
      · obtain ⟨p, i1, i2⟩ := insertData_new (l := l) (o := o) (fun y hy => hn y (List.mem_cons_of_mem _ hy)) ⟨x, hx, hxb⟩
        rw [i1]
        exact ⟨p, rfl, in_cons.2 (Or.inr i2)⟩

/-! ## The table -/

structure TableOk (t : List FileTransP) : Prop where
  data : ∀ f ∈ t, Ok f.data
  keys : t.Pairwise fun f g => ¬ (f.name = g.name ∧ f.ttype = g.ttype ∧ f.tclass = g.tclass)

def Key (f : FileTransP) (r : Rule) : Prop := f.name = r.name ∧ f.ttype = r.target ∧ f.tclass = r.cls

theorem says_cons {f : FileTransP} {t : List FileTransP} {r : Rule} : Says (f :: t) r ↔ (Key f r ∧ In f.data r.source r.new) ∨ Says t r := by
  unfold Says Key In
  constructor
  · rintro ⟨x, hx, h1, h2, h3, h⟩
    rcases List.mem_cons.1 hx with rfl | hx
    · exact Or.inl ⟨⟨h1, h2, h3⟩, h⟩
    · exact Or.inr ⟨x, hx, h1, h2, h3, h⟩
  · rintro (⟨⟨h1, h2, h3⟩, h⟩ | ⟨x, hx, h⟩)
    · exact ⟨f, by simp, h1, h2, h3, h⟩
    · exact ⟨x, List.mem_cons_of_mem _ hx, h⟩

theorem says_nil (r : Rule) : ¬ Says [] r := by rintro ⟨f, hf, -⟩; cases hf

theorem insert_spec {r : Rule} (hr : Fits r) : ∀ {t : List FileTransP}, TableOk t →
    (∃ p, insert r t = (.exists_ p, t) ∧ Says t { r with new := p }) ∨
    (∃ t', insert r t = (.ok, t') ∧ TableOk t' ∧ (∀ g ∈ t', Key g r ∨ ∃ f ∈ t, g.name = f.name ∧ g.ttype = f.ttype ∧ g.tclass = f.tclass) ∧
      ∀ x : Rule, Fits x → (Says t' x ↔ Says t x ∨ x = r))
  | [], _ => by
    right
    unfold insert
    rcases insertData_spec hr.1 hr.2 (o := r.new) (l := []) ⟨by simp, List.Pairwise.nil⟩ with ⟨p, -, h⟩ | ⟨l', i1, i2, -, -, i4⟩
    · obtain ⟨d, hd, -⟩ := h; cases hd
    · rw [i1]
      refine ⟨_, rfl, ⟨by simpa using i2, List.pairwise_singleton _ _⟩, by simp [Key], ?_⟩
      intro x hx
      rw [says_cons]
      simp only [says_nil, or_false, false_or, Key]
      rw [i4 x.source x.new hx.1]
      constructor
      · rintro ⟨⟨h1, h2, h3⟩, ⟨d, hd, -⟩ | ⟨h4, h5⟩⟩
        · cases hd
        · cases x; cases r; simp_all
      · rintro rfl
        exact ⟨⟨rfl, rfl, rfl⟩, Or.inr ⟨rfl, rfl⟩⟩
  | f :: l, ht => by
    have hk := List.pairwise_cons.1 ht.keys
    unfold insert
    split
    · rename_i hkey
      rcases insertData_spec hr.1 hr.2 (o := r.new) (ht.data f (by simp)) with ⟨p, i1, i2⟩ | ⟨l', i1, i2, -, -, i4⟩
      · left
        rw [i1]
        exact ⟨p, rfl, says_cons.2 (Or.inl ⟨hkey, i2⟩)⟩
      · right
        rw [i1]
        refine ⟨_, rfl, ⟨?_, List.pairwise_cons.2 hk⟩, ?_, ?_⟩
        · intro g hg
          rcases List.mem_cons.1 hg with rfl | hg
          · exact i2
          · exact ht.data g (List.mem_cons_of_mem _ hg)
        · intro g hg
          rcases List.mem_cons.1 hg with rfl | hg
          · exact Or.inl hkey
          · exact Or.inr ⟨g, List.mem_cons_of_mem _ hg, rfl, rfl, rfl⟩
        · intro x hx
          rw [says_cons, says_cons]
          show (Key f x ∧ In l' x.source x.new) ∨ _ ↔ _
          rw [i4 x.source x.new hx.1]
          constructor
          · rintro (⟨h, h' | ⟨h4, h5⟩⟩ | h)
            · exact Or.inl (Or.inl ⟨h, h'⟩)
            · right
              obtain ⟨k1, k2, k3⟩ := hkey
              obtain ⟨h1, h2, h3⟩ := h
              cases x; cases r; simp_all
            · exact Or.inl (Or.inr h)
          · rintro ((⟨h, h'⟩ | h) | rfl)
            · exact Or.inl ⟨h, Or.inl h'⟩
            · exact Or.inr h
            · exact Or.inl ⟨hkey, Or.inr ⟨rfl, rfl⟩⟩
    · rename_i hkey
      rcases insert_spec hr (t := l) ⟨fun g hg => ht.data g (List.mem_cons_of_mem _ hg), hk.2⟩ with ⟨p, i1, i2⟩ | ⟨t', i1, i2, i3, i4⟩
      · left
        rw [i1]
        exact ⟨p, rfl, says_cons.2 (Or.inr i2)⟩
      · right
        rw [i1]
        refine ⟨_, rfl, ⟨?_, List.pairwise_cons.2 ⟨fun g hg hc => ?_, i2.keys⟩⟩, ?_, ?_⟩
        · intro g hg
          rcases List.mem_cons.1 hg with rfl | hg
          · exact ht.data g (by simp)
          · exact i2.data g hg
        · rcases i3 g hg with ⟨h1, h2, h3⟩ | ⟨y, hy, h1, h2, h3⟩
          · exact hkey ⟨hc.1.trans h1, hc.2.1.trans h2, hc.2.2.trans h3⟩
          · exact hk.1 y hy ⟨hc.1.trans h1, hc.2.1.trans h2, hc.2.2.trans h3⟩
        · intro g hg
          rcases List.mem_cons.1 hg with rfl | hg
          · exact Or.inr ⟨g, by simp, rfl, rfl, rfl⟩
          · rcases i3 g hg with h | ⟨y, hy, h⟩
            · exact Or.inl h
            · exact Or.inr ⟨y, List.mem_cons_of_mem _ hy, h⟩
        · intro x hx
          rw [says_cons, says_cons, i4 x hx, or_assoc]

/-- If there is no rule for the new type, the source is looked for everywhere. -/
theorem insert_new {r : Rule} : ∀ {t : List FileTransP}, TableOk t → (∀ f ∈ t, Key f r → ∀ d ∈ f.data, d.2 ≠ r.new) →
    (∃ p, Says t { r with new := p }) → ∃ p, insert r t = (.exists_ p, t) ∧ Says t { r with new := p }
  | [], _, _, ⟨p, h⟩ => absurd h (says_nil _)
  | f :: l, ht, hn, ⟨p, h⟩ => by
    have hk := List.pairwise_cons.1 ht.keys
    unfold insert
    split
    · rename_i hkey
      have hin : ∃ d ∈ f.data, Ebitmap.getBit d.1 (r.source - 1) = true := by
        rcases says_cons.1 h with ⟨-, d, hd, -, h⟩ | ⟨g, hg, h1, h2, h3, -⟩
        · exact ⟨d, hd, h⟩
        · exact absurd ⟨hkey.1.trans h1.symm, hkey.2.1.trans h2.symm, hkey.2.2.trans h3.symm⟩ (hk.1 g hg)
      obtain ⟨q, i1, i2⟩ := insertData_new (o := r.new) (hn f (by simp) hkey) hin
      rw [i1]
      exact ⟨q, rfl, says_cons.2 (Or.inl ⟨hkey, i2⟩)⟩
    · rename_i hkey
      have : Says l { r with new := p } := by
        rcases says_cons.1 h with ⟨h, -⟩ | h
        · exact absurd h hkey
        · exact h
      obtain ⟨q, i1, i2⟩ := insert_new (t := l) ⟨fun g hg => ht.data g (List.mem_cons_of_mem _ hg), hk.2⟩
        (fun g hg => hn g (List.mem_cons_of_mem _ hg)) ⟨p, this⟩
      rw [i1]
      exact ⟨q, rfl, says_cons.2 (Or.inr i2)⟩

end Verif.FileTrans
