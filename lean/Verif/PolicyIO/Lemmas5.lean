import Verif.PolicyIO.Lemmas4
import Verif.Validate.Lemmas5

/-! # Contexts, paths, and the maps of attributes -/

namespace Verif.PolicyIO
open Verif.Policy Verif.Services Verif.Validate

/-! ## Maps -/

theorem attrLoop_ok {n i : Nat} (hn : n ≤ 2 ^ 32 - 64) (hi : i < n) : ∀ (l : List Nat) (a : Nat → Ebitmap.Ebitmap), (∀ j ∈ l, j < n) →
    (∀ k < n, Ebitmap.WF (a k)) →
    ∃ a', attrLoop n i l a = some a' ∧ ∀ k < n, Ebitmap.WF (a' k) ∧
      ∀ j, Ebitmap.getBit (a' k) j = true ↔ Ebitmap.getBit (a k) j = true ∨ (j = i ∧ k ≠ i ∧ k ∈ l)
  | [], a, _, hw => ⟨a, rfl, fun k hk => ⟨hw k hk, fun j => by simp⟩⟩
  | x :: l, a, hl, hw => by
    unfold attrLoop
    split
    · rename_i hx
      obtain ⟨a', h1, h2⟩ := attrLoop_ok hn hi l a (fun j hj => hl j (List.mem_cons_of_mem _ hj)) hw
      refine ⟨a', h1, fun k hk => ⟨(h2 k hk).1, fun j => ?_⟩⟩
      rw [(h2 k hk).2, List.mem_cons]
      constructor
      · rintro (h | ⟨h, h', h''⟩)
        · exact Or.inl h
        · exact Or.inr ⟨h, h', Or.inr h''⟩
      · rintro (h | ⟨h, h', h'' | h''⟩)
        · exact Or.inl h
        · omega
        · exact Or.inr ⟨h, h', h''⟩
    · rename_i hx
      have hxn := hl x (by simp)
      rw [if_neg (by omega)]
      obtain ⟨e, e1, e2, e3⟩ := setBit_spec (hw x hxn) (b := i) (by omega)
      rw [e1, Option.bind_some]
      obtain ⟨a', h1, h2⟩ := attrLoop_ok hn hi l (upd a x e) (fun j hj => hl j (List.mem_cons_of_mem _ hj)) (by
        intro k hk
        unfold upd
        split
        · exact e2
        · exact hw k hk)
      refine ⟨a', h1, fun k hk => ⟨(h2 k hk).1, fun j => ?_⟩⟩
      rw [(h2 k hk).2, List.mem_cons]
      unfold upd
      by_cases hkx : k = x
      · subst hkx
        rw [if_pos rfl, e3]
        constructor
        · rintro ((h | h) | ⟨h, h', h''⟩)
          · exact Or.inr ⟨h, fun h => hx h.symm, Or.inl rfl⟩
          · exact Or.inl h
          · exact Or.inr ⟨h, h', Or.inr h''⟩
        · rintro (h | ⟨h, h', _⟩)
          · exact Or.inl (Or.inr h)
          · exact Or.inl (Or.inl h)
      · rw [if_neg hkx]
        constructor
        · rintro (h | ⟨h, h', h''⟩)
          · exact Or.inl h
          · exact Or.inr ⟨h, h', Or.inr h''⟩
        · rintro (h | ⟨h, h', h'' | h''⟩)
          · exact Or.inl h
          · exact absurd h'' hkx
          · exact Or.inr ⟨h, h', h''⟩

/-- What is known after the first `i` rounds. -/
def AttrsAt (types : Index TypeD) (n : Nat) (ta : Nat → Ebitmap.Ebitmap) (i : Nat) (s : (Nat → Ebitmap.Ebitmap) × (Nat → Ebitmap.Ebitmap)) : Prop :=
  (∀ j < i, s.1 j = ta j) ∧ ∀ k < n, Ebitmap.WF (s.2 k) ∧ ∀ j, Ebitmap.getBit (s.2 k) j = true ↔
    j < i ∧ (k ≠ j ∧ Ebitmap.getBit (ta j) k = true ∨ k = j ∧ ∃ e, types k = some e ∧ e.2.flavor ≠ 1)

theorem attrStep_ok {types : Index TypeD} {n i : Nat} {ta : Nat → Ebitmap.Ebitmap} {s : (Nat → Ebitmap.Ebitmap) × (Nat → Ebitmap.Ebitmap)}
    (hn : n ≤ 2 ^ 32 - 64) (hi : i < n) (hw : Ebitmap.WF (ta i)) (hb : ∀ j, Ebitmap.getBit (ta i) j = true → j < n)
    (hself : (∃ e, types i = some e) → Ebitmap.getBit (ta i) i = true) (hs : AttrsAt types n ta i s) :
    ∃ s', attrStep types n i (ta i) s = some s' ∧ AttrsAt types n ta (i + 1) s' := by
  obtain ⟨a, h1, h2⟩ := attrLoop_ok hn hi (posBits (ta i)) s.2 (fun j hj => hb j ((mem_posBits hw j).1 hj)) (fun k hk => (hs.2 k hk).1)
  unfold attrStep
  rw [h1, Option.bind_some]
  have first : ∀ m, m = ta i → ∀ j < i + 1, upd s.1 i m j = ta j := by
    intro m hm j hj
    unfold upd
    split
    · rename_i h; rw [hm, h]
    · exact hs.1 j (by omega)
  cases ht : types i with
  | none =>
    refine ⟨_, rfl, first _ rfl, fun k hk => ⟨(h2 k hk).1, fun j => ?_⟩⟩
    rw [(h2 k hk).2, (hs.2 k hk).2, mem_posBits hw]
    constructor
    · rintro (⟨h, h'⟩ | ⟨rfl, h', h''⟩)
      · exact ⟨by omega, h'⟩
      · exact ⟨by omega, Or.inl ⟨h', h''⟩⟩
    · rintro ⟨h, h'⟩
      by_cases hj : j = i
      · subst hj
        rcases h' with h' | ⟨rfl, e, he, _⟩
        · exact Or.inr ⟨rfl, h'⟩
        · rw [ht] at he; cases he
      · exact Or.inl ⟨by omega, h'⟩
  | some t =>
    simp only
    obtain ⟨m, m1, m2, m3⟩ := setBit_spec hw (b := i) (by omega)
    have hm : m = ta i := bitmap_ext m2 hw fun b => by
      rw [m3]
      constructor
      · rintro (rfl | h)
        · exact hself ⟨t, ht⟩
        · exact h
      · exact Or.inr
    rw [m1, Option.bind_some]
    split
    · rename_i hf
      obtain ⟨e, e1, e2, e3⟩ := setBit_spec (h2 i hi).1 (b := i) (by omega)
      rw [e1]
      refine ⟨_, rfl, first _ hm, fun k hk => ?_⟩
      show Ebitmap.WF (upd a i e k) ∧ ∀ j, Ebitmap.getBit (upd a i e k) j = true ↔ _
      unfold upd
      by_cases hki : k = i
      · subst hki
        rw [if_pos rfl]
        refine ⟨e2, fun j => ?_⟩
        rw [e3, (h2 k hk).2, (hs.2 k hk).2]
        constructor
        · rintro (rfl | ⟨h, h'⟩ | ⟨_, h', _⟩)
          · exact ⟨by omega, Or.inr ⟨rfl, t, ht, hf⟩⟩
          · exact ⟨by omega, h'⟩
          · exact absurd rfl h'
        · rintro ⟨h, h'⟩
          by_cases hj : j = k
          · exact Or.inl hj
          · exact Or.inr (Or.inl ⟨by omega, h'⟩)
      · rw [if_neg hki]
        refine ⟨(h2 k hk).1, fun j => ?_⟩
        rw [(h2 k hk).2, (hs.2 k hk).2, mem_posBits hw]
        constructor
        · rintro (⟨h, h'⟩ | ⟨rfl, h', h''⟩)
          · exact ⟨by omega, h'⟩
          · exact ⟨by omega, Or.inl ⟨h', h''⟩⟩
        · rintro ⟨h, h'⟩
          by_cases hj : j = i
          · subst hj
            rcases h' with h' | ⟨rfl, _⟩
            · exact Or.inr ⟨rfl, h'⟩
            · exact absurd rfl hki
          · exact Or.inl ⟨by omega, h'⟩
    · rename_i hf
      refine ⟨_, rfl, first _ hm, fun k hk => ⟨(h2 k hk).1, fun j => ?_⟩⟩
      rw [(h2 k hk).2, (hs.2 k hk).2, mem_posBits hw]
      constructor
      · rintro (⟨h, h'⟩ | ⟨rfl, h', h''⟩)
        · exact ⟨by omega, h'⟩
        · exact ⟨by omega, Or.inl ⟨h', h''⟩⟩
      · rintro ⟨h, h'⟩
        by_cases hj : j = i
        · subst hj
          rcases h' with h' | ⟨rfl, e, he, he'⟩
          · exact Or.inr ⟨rfl, h'⟩
          · rw [ht, Option.some.injEq] at he; subst he; exact absurd he' hf
        · exact Or.inl ⟨by omega, h'⟩

theorem inv_attrs {types : Index TypeD} {n : Nat} {ta : Nat → Ebitmap.Ebitmap} (hn : n ≤ 2 ^ 32 - 64) (hw : ∀ i < n, Ebitmap.WF (ta i))
    (hb : ∀ i < n, ∀ j, Ebitmap.getBit (ta i) j = true → j < n)
    (hself : ∀ i < n, (∃ e, types i = some e) → Ebitmap.getBit (ta i) i = true) :
    ∀ (k i : Nat) (s : (Nat → Ebitmap.Ebitmap) × (Nat → Ebitmap.Ebitmap)), i + k = n → AttrsAt types n ta i s →
    ∃ s', Inv (readAttrs types n i k s) ((List.range' i k).flatMap fun i => Ebitmap.write (ta i)) s' ∧ AttrsAt types n ta n s'
  | 0, i, s, hk, hs => by
    rw [Nat.add_zero] at hk
    subst hk
    exact ⟨s, inv_pure _, hs⟩
  | k + 1, i, s, hk, hs => by
    have hi : i < n := by omega
    obtain ⟨s1, h1, h2⟩ := attrStep_ok hn hi (hw i hi) (hb i hi) (hself i hi) hs
    obtain ⟨s2, h3, h4⟩ := inv_attrs hn hw hb hself k (i + 1) s1 (by omega) h2
    refine ⟨s2, ?_, h4⟩
    rw [List.range'_succ, List.flatMap_cons]
    unfold readAttrs
    refine inv_bind (inv_ebm (hw i hi)) ?_
    rw [h1]
    exact h3

/-! ## Contexts -/

theorem inv_oconSelinux {valid : Context → Bool} {i : Nat} {o : OconP} (hi : i < 9) (hu : ¬ (i = 0 ∧ o.context0.user = 0)) (hf : OconFits 0 i o)
    (h0 : valid o.context0 = true) (h1 : i = 1 ∨ i = 3 → valid o.context1 = true) :
    ∃ b, writeOconSelinux i o = some b ∧ Inv (readOconSelinux valid i) b (heldOcon 0 i o) := by
  obtain ⟨f0, f1, -⟩ := hf
  obtain ⟨g0, g1, g2, g4, g5, g6, g7, g8⟩ := f1 rfl
  have hc : i = 0 ∨ i = 1 ∨ i = 2 ∨ i = 3 ∨ i = 4 ∨ i = 5 ∨ i = 6 ∨ i = 7 ∨ i = 8 := by omega
  rcases hc with rfl | rfl | rfl | rfl | rfl | rfl | rfl | rfl | rfl
  · have g0 := g0 rfl
    refine ⟨w32 o.sid ++ writeContext o.context0, ?_, ?_⟩
    · show some (if _ then _ else _) = _
      rw [if_neg fun h => hu ⟨rfl, h⟩]
    · unfold readOconSelinux
      refine inv_bind (inv_u32 (by unfold Word; omega)) (inv_reject (by rw [beq_eq_false_iff_ne]; omega) ?_)
      exact inv_last (g := fun c => { emptyOcon with sid := o.sid, context0 := c }) (inv_context f0 h0)
  · obtain ⟨c1, s, hs, hg, hl⟩ := g1 (Or.inl rfl)
    refine ⟨w32 s.length ++ (strBytes s ++ (writeContext o.context0 ++ writeContext o.context1)), ?_, ?_⟩
    · show writeName _ _ = _; rw [hs]; rfl
    · unfold readOconSelinux
      refine inv_bind (inv_u32 (word_len hg)) (inv_reject (by simp; omega) (inv_bind (inv_str hg) (inv_bind (inv_context f0 h0) ?_)))
      refine inv_congr (inv_last (g := fun c => { emptyOcon with name := some s, context0 := o.context0, context1 := c }) (inv_context c1 (h1 (Or.inl rfl)))) rfl ?_
      rw [← hs]; rfl
  · obtain ⟨p1, p2, p3⟩ := g2 rfl
    refine ⟨_, rfl, ?_⟩
    unfold readOconSelinux
    refine inv_bind (inv_u32 (by unfold Word; omega)) (inv_bind (inv_u32 (by unfold Word; omega)) (inv_bind (inv_u32 (by unfold Word; omega)) ?_))
    rw [Nat.mod_eq_of_lt p1, Nat.mod_eq_of_lt p2, Nat.mod_eq_of_lt p3]
    exact inv_last (g := fun c => { emptyOcon with protocol := o.protocol, lowPort := o.lowPort, highPort := o.highPort, context0 := c }) (inv_context f0 h0)
  · obtain ⟨c1, s, hs, hg, hl⟩ := g1 (Or.inr rfl)
    refine ⟨w32 s.length ++ (strBytes s ++ (writeContext o.context0 ++ writeContext o.context1)), ?_, ?_⟩
    · show writeName _ _ = _; rw [hs]; rfl
    · unfold readOconSelinux
      refine inv_bind (inv_u32 (word_len hg)) (inv_reject (by simp; omega) (inv_bind (inv_str hg) (inv_bind (inv_context f0 h0) ?_)))
      refine inv_congr (inv_last (g := fun c => { emptyOcon with name := some s, context0 := o.context0, context1 := c }) (inv_context c1 (h1 (Or.inr rfl)))) rfl ?_
      rw [← hs]; rfl
  · obtain ⟨p1, p2⟩ := g4 rfl
    refine ⟨_, rfl, ?_⟩
    unfold readOconSelinux
    refine inv_bind (inv_raw p1) (inv_bind (inv_raw p2) ?_)
    exact inv_last (g := fun c => { emptyOcon with addr := o.addr, mask := o.mask, context0 := c }) (inv_context f0 h0)
  · obtain ⟨p1, s, hs, hg⟩ := g5 rfl
    refine ⟨w32 o.behavior ++ (w32 s.length ++ (strBytes s ++ writeContext o.context0)), ?_, ?_⟩
    · show writeName _ _ = _; rw [hs]; rfl
    · unfold readOconSelinux
      refine inv_bind (inv_u32 p1) (inv_bind (inv_u32 (word_len hg)) (inv_bind (inv_str hg) ?_))
      refine inv_congr (inv_last (g := fun c => { emptyOcon with behavior := o.behavior, name := some s, context0 := c }) (inv_context f0 h0)) rfl ?_
      rw [← hs]; rfl
  · obtain ⟨p1, p2⟩ := g6 rfl
    refine ⟨_, rfl, ?_⟩
    unfold readOconSelinux
    refine inv_bind (inv_raw p1) (inv_bind (inv_raw p2) ?_)
    exact inv_last (g := fun c => { emptyOcon with addr := o.addr, mask := o.mask, context0 := c }) (inv_context f0 h0)
  · obtain ⟨p1, p2, p3⟩ := g7 rfl
    refine ⟨_, rfl, ?_⟩
    unfold readOconSelinux
    refine inv_bind (inv_raw p1) (inv_bind (inv_u32 (by unfold Word; omega)) (inv_bind (inv_u32 (by unfold Word; omega)) ?_))
    refine inv_reject (by simp; omega) ?_
    exact inv_last (g := fun c => { emptyOcon with prefix_ := o.prefix_, lowPkey := o.lowPkey, highPkey := o.highPkey, context0 := c }) (inv_context f0 h0)
  · obtain ⟨p1, p2, s, hs, hg, hl⟩ := g8 rfl
    refine ⟨w32 s.length ++ (w32 o.ibPort ++ (strBytes s ++ writeContext o.context0)), ?_, ?_⟩
    · show writeName _ _ = _; rw [hs]; rfl
    · unfold readOconSelinux
      refine inv_bind (inv_u32 (word_len hg)) (inv_bind (inv_u32 (by unfold Word; omega)) ?_)
      refine inv_reject (by have := hg.1; simp; exact ⟨this, hl⟩) (inv_reject (by simp; omega) (inv_bind (inv_str hg) ?_))
      refine inv_congr (inv_last (g := fun c => { emptyOcon with devName := some s, ibPort := o.ibPort, context0 := c }) (inv_context f0 h0)) rfl ?_
      rw [← hs]; rfl

theorem inv_oconXen {valid : Context → Bool} {i : Nat} {o : OconP} (hi : i < 6) (hu : ¬ (i = 0 ∧ o.context0.user = 0)) (hf : OconFits 1 i o)
    (h0 : valid o.context0 = true) :
    ∃ b, writeOconXen i o = some b ∧ Inv (readOconXen valid i) b (heldOcon 1 i o) := by
  obtain ⟨f0, -, f1⟩ := hf
  obtain ⟨g0, g1, g2, g3, g4, g5⟩ := f1 rfl
  have hc : i = 0 ∨ i = 1 ∨ i = 2 ∨ i = 3 ∨ i = 4 ∨ i = 5 := by omega
  rcases hc with rfl | rfl | rfl | rfl | rfl | rfl
  · have g0 := g0 rfl
    refine ⟨w32 o.sid ++ writeContext o.context0, ?_, ?_⟩
    · show some (if _ then _ else _) = _
      rw [if_neg fun h => hu ⟨rfl, h⟩]
    · unfold readOconXen
      refine inv_bind (inv_u32 (by unfold Word; omega)) (inv_reject (by rw [beq_eq_false_iff_ne]; omega) ?_)
      exact inv_last (g := fun c => { emptyOcon with sid := o.sid, context0 := c }) (inv_context f0 h0)
  · have g1 := g1 rfl
    refine ⟨_, rfl, ?_⟩
    unfold readOconXen
    refine inv_bind (inv_u32 (by unfold Word; omega)) ?_
    rw [Nat.mod_eq_of_lt g1]
    exact inv_last (g := fun c => { emptyOcon with pirq := o.pirq, context0 := c }) (inv_context f0 h0)
  · obtain ⟨p1, p2⟩ := g2 rfl
    refine ⟨_, rfl, ?_⟩
    unfold readOconXen
    refine inv_bind (inv_u32 p1) (inv_bind (inv_u32 p2) ?_)
    exact inv_last (g := fun c => { emptyOcon with lowIoport := o.lowIoport, highIoport := o.highIoport, context0 := c }) (inv_context f0 h0)
  · obtain ⟨p1, p2⟩ := g3 rfl
    refine ⟨_, rfl, ?_⟩
    unfold readOconXen
    refine inv_bind (inv_u64 p1) (inv_bind (inv_u64 p2) ?_)
    exact inv_last (g := fun c => { emptyOcon with lowIomem := o.lowIomem, highIomem := o.highIomem, context0 := c }) (inv_context f0 h0)
  · refine ⟨_, rfl, ?_⟩
    unfold readOconXen
    refine inv_bind (inv_u32 (g4 rfl)) ?_
    exact inv_last (g := fun c => { emptyOcon with device := o.device, context0 := c }) (inv_context f0 h0)
  · obtain ⟨s, hs, hg⟩ := g5 rfl
    refine ⟨w32 s.length ++ (strBytes s ++ writeContext o.context0), ?_, ?_⟩
    · show writeName _ _ = _; rw [hs]; rfl
    · unfold readOconXen
      refine inv_bind (inv_u32 (word_len hg)) (inv_bind (inv_str hg) ?_)
      refine inv_congr (inv_last (g := fun c => { emptyOcon with name := some s, context0 := c }) (inv_context f0 h0)) rfl ?_
      rw [← hs]; rfl

theorem wAll_filter {α : Type} {w : α → Option Bytes} {f : α → Bool} : ∀ {l : List α}, (∀ a ∈ l, f a = false → w a = some []) →
    wAll w l = wAll w (l.filter f)
  | [], _ => rfl
  | a :: l, h => by
    have ih := wAll_filter (l := l) fun x hx => h x (List.mem_cons_of_mem _ hx)
    cases hf : f a
    · rw [List.filter_cons_of_neg (by rw [hf]; simp), ← ih]
      have : wAll w (a :: l) = (w a).bind fun b => (wAll w l).bind fun bs => some (b ++ bs) := rfl
      rw [this, h a (by simp) hf, Option.bind_some]
      cases wAll w l <;> rfl
    · rw [List.filter_cons_of_pos hf]
      have e1 : wAll w (a :: l) = (w a).bind fun b => (wAll w l).bind fun bs => some (b ++ bs) := rfl
      have e2 : wAll w (a :: l.filter f) = (w a).bind fun b => (wAll w (l.filter f)).bind fun bs => some (b ++ bs) := rfl
      rw [e1, e2, ih]

theorem inv_ocons {p : PolicyDb} {valid : Context → Bool} {i : Nat} (ht : p.target = 0 ∨ p.target = 1) (hi : i < lists p.target p.version)
    (hw : Word (p.ocontexts i).length)
    (hf : ∀ o ∈ p.ocontexts i, OconFits p.target i o)
    (hv : ∀ o ∈ heldOcons p i, valid o.context0 = true ∧ (p.target = 0 → i = 1 ∨ i = 3 → valid o.context1 = true)) :
    ∃ b, writeOcons p i = some b ∧ Inv (readOcons valid p.target i) b (heldOcons p i) := by
  unfold heldOcons at hv ⊢
  rw [if_pos hi] at hv ⊢
  have key : ∃ b, wAll (if p.target = 0 then writeOconSelinux i else writeOconXen i) (p.ocontexts i) = some b ∧
      Inv (times (if p.target = 0 then readOconSelinux valid i else readOconXen valid i)
        ((p.ocontexts i).filter fun o => !(i == 0 && o.context0.user == 0)).length) b
        (((p.ocontexts i).filter fun o => !(i == 0 && o.context0.user == 0)).map (heldOcon p.target i)) := by
    rw [wAll_filter (f := fun o => !(i == 0 && o.context0.user == 0))]
    · refine wAll_times fun o ho => ?_
      have hv := hv _ (List.mem_map_of_mem ho)
      rw [List.mem_filter] at ho
      obtain ⟨ho, hu⟩ := ho
      have hu : ¬ (i = 0 ∧ o.context0.user = 0) := by
        intro h; simp [h.1, h.2] at hu
      have hf := hf o ho
      rcases ht with ht | ht
      · rw [if_pos ht, if_pos ht]
        rw [ht] at hf hv hi ⊢
        have hi : i < 9 := by unfold lists at hi; rw [if_pos rfl] at hi; split at hi <;> omega
        refine inv_oconSelinux hi hu hf ?_ ?_
        · have := hv.1
          have hc : (heldOcon 0 i o).context0 = o.context0 := by
            have hc : i = 0 ∨ i = 1 ∨ i = 2 ∨ i = 3 ∨ i = 4 ∨ i = 5 ∨ i = 6 ∨ i = 7 ∨ i = 8 := by omega
            rcases hc with rfl | rfl | rfl | rfl | rfl | rfl | rfl | rfl | rfl <;> rfl
          rwa [hc] at this
        · intro h
          have := hv.2 rfl h
          have hc : (heldOcon 0 i o).context1 = o.context1 := by rcases h with rfl | rfl <;> rfl
          rwa [hc] at this
      · rw [if_neg (by omega), if_neg (by omega)]
        rw [ht] at hf hv hi ⊢
        have hi : i < 6 := hi
        refine inv_oconXen hi hu hf ?_
        have := hv.1
        have hc : (heldOcon 1 i o).context0 = o.context0 := by
          have hc : i = 0 ∨ i = 1 ∨ i = 2 ∨ i = 3 ∨ i = 4 ∨ i = 5 := by omega
          rcases hc with rfl | rfl | rfl | rfl | rfl | rfl <;> rfl
        rwa [hc] at this
    · intro o _ hfo
      have h : i = 0 ∧ o.context0.user = 0 := by simpa using hfo
      obtain ⟨rfl, h⟩ := h
      split
      · show some (if _ then _ else _) = _
        rw [if_pos h]
      · show some (if _ then _ else _) = _
        rw [if_pos h]
  obtain ⟨b, h1, h2⟩ := key
  refine ⟨w32 ((p.ocontexts i).filter fun o => !(i == 0 && o.context0.user == 0)).length ++ b, ?_, ?_⟩
  · unfold writeOcons
    rw [h1]; rfl
  · unfold readOcons
    refine inv_bind (inv_u32 ?_) h2
    have := List.length_filter_le (fun o : OconP => !(i == 0 && o.context0.user == 0)) (p.ocontexts i)
    unfold Word at hw ⊢
    omega

theorem inv_oconLists {p : PolicyDb} {valid : Context → Bool} (ht : p.target = 0 ∨ p.target = 1)
    (hw : ∀ i < lists p.target p.version, Word (p.ocontexts i).length)
    (hf : ∀ i < lists p.target p.version, ∀ o ∈ p.ocontexts i, OconFits p.target i o)
    (hv : ∀ i < lists p.target p.version, ∀ o ∈ heldOcons p i, valid o.context0 = true ∧ (p.target = 0 → i = 1 ∨ i = 3 → valid o.context1 = true)) :
    ∀ k i, i + k = lists p.target p.version →
    ∃ b, wAll (writeOcons p) (List.range' i k) = some b ∧ Inv (readOconLists valid p.target i k) b ((List.range' i k).map (heldOcons p))
  | 0, i, _ => ⟨[], rfl, inv_pure _⟩
  | k + 1, i, hk => by
    have hi : i < lists p.target p.version := by omega
    obtain ⟨b1, h1, h2⟩ := inv_ocons ht hi (hw i hi) (hf i hi) (hv i hi)
    obtain ⟨b2, h3, h4⟩ := inv_oconLists ht hw hf hv k (i + 1) (by omega)
    refine ⟨b1 ++ b2, ?_, ?_⟩
    · rw [List.range'_succ]
      simp [wAll, h1, h3]
    · rw [List.range'_succ]
      exact inv_bind h2 (inv_last (g := fun r => heldOcons p i :: r) h4)

theorem nthList_held (p : PolicyDb) : nthList ((List.range (lists p.target p.version)).map (heldOcons p)) = heldOcons p := by
  funext i
  unfold nthList
  rw [List.getElem?_map]
  by_cases hi : i < lists p.target p.version
  · rw [List.getElem?_range hi]; rfl
  · rw [List.getElem?_eq_none (by simp; omega)]
    unfold heldOcons
    rw [if_neg hi]; rfl

/-! ## Paths -/

theorem genfsInsert_ok {e : GenfsEntry} : ∀ {h : List GenfsEntry}, (∀ c ∈ h, e.name = c.name → e.sclass ≠ c.sclass ∧ e.sclass ≠ 0 ∧ c.sclass ≠ 0) →
    ∃ h', genfsInsert e h = some h' ∧ h'.Perm (e :: h)
  | [], _ => ⟨[e], rfl, List.Perm.refl _⟩
  | c :: l, hd => by
    unfold genfsInsert
    rw [if_neg]
    · split
      · exact ⟨_, rfl, List.Perm.refl _⟩
      · obtain ⟨h', h1, h2⟩ := genfsInsert_ok (e := e) (h := l) fun c hc => hd c (List.mem_cons_of_mem _ hc)
        rw [h1]
        exact ⟨_, rfl, (h2.cons c).trans (List.Perm.swap e c l)⟩
    · rintro ⟨h1, h2⟩
      have := hd c (by simp) h1
      tauto

/-- The bytes of an entry. -/
def entryBytes (c : GenfsEntry) : Bytes := w32 c.name.length ++ (strBytes c.name ++ (w32 c.sclass ++ writeContext c.context))

theorem inv_entries {valid : Context → Bool} : ∀ {l h : List GenfsEntry},
    (∀ e ∈ l, GoodName e.name ∧ Word e.sclass ∧ ContextFits e.context ∧ valid e.context = true) →
    (l.Pairwise fun a b => a.name = b.name → a.sclass ≠ b.sclass ∧ a.sclass ≠ 0 ∧ b.sclass ≠ 0) →
    (∀ e ∈ l, ∀ c ∈ h, e.name = c.name → e.sclass ≠ c.sclass ∧ e.sclass ≠ 0 ∧ c.sclass ≠ 0) →
    ∃ h', Inv (readGenfsEntries valid l.length h) (l.flatMap entryBytes) h' ∧ h'.Perm (l ++ h)
  | [], h, _, _, _ => ⟨h, inv_pure _, List.Perm.refl _⟩
  | e :: l, h, hf, hp, hd => by
    rw [List.pairwise_cons] at hp
    obtain ⟨f1, f2, f3, f4⟩ := hf e (by simp)
    obtain ⟨h1, i1, i2⟩ := genfsInsert_ok (hd e (by simp))
    obtain ⟨h2, j1, j2⟩ := inv_entries (l := l) (h := h1) (fun x hx => hf x (List.mem_cons_of_mem _ hx)) hp.2 (by
      intro x hx c hc hn
      rcases List.mem_cons.1 (i2.subset hc) with rfl | hc
      · obtain ⟨a, b, c⟩ := hp.1 x hx hn.symm
        exact ⟨fun h => a h.symm, c, b⟩
      · exact hd x (List.mem_cons_of_mem _ hx) c hc hn)
    refine ⟨h2, ?_, j2.trans ((i2.append_left l).trans List.perm_middle)⟩
    rw [List.flatMap_cons]
    unfold entryBytes
    rw [List.append_assoc, List.append_assoc, List.append_assoc]
    show Inv (u32 >>= _) _ _
    refine inv_bind (inv_u32 (word_len f1)) (inv_bind (inv_str f1) (inv_bind (inv_u32 f2) (inv_bind (inv_context f3 f4) ?_)))
    show Inv (match genfsInsert e h with | none => _ | some h => _) _ _
    rw [i1]
    exact j1

theorem forall2_split {α β : Type} {R : α → β → Prop} : ∀ {b1 b2 : List β} {c : List α}, List.Forall₂ R c (b1 ++ b2) →
    ∃ c1 c2, c = c1 ++ c2 ∧ List.Forall₂ R c1 b1 ∧ List.Forall₂ R c2 b2
  | [], b2, c, h => ⟨[], c, rfl, .nil, h⟩
  | y :: b1, b2, c, h => by
    cases h with
    | cons hx h =>
      obtain ⟨c1, c2, rfl, h1, h2⟩ := forall2_split h
      exact ⟨_ :: c1, c2, rfl, .cons hx h1, h2⟩

theorem forall2_join {α β : Type} {R : α → β → Prop} {b2 : List β} {c2 : List α} (h2 : List.Forall₂ R c2 b2) : ∀ {b1 : List β} {c1 : List α},
    List.Forall₂ R c1 b1 → List.Forall₂ R (c1 ++ c2) (b1 ++ b2)
  | _, _, .nil => h2
  | _, _, .cons hx h => .cons hx (forall2_join h2 h)

theorem forall2_mem {α β : Type} {R : α → β → Prop} : ∀ {b : List β} {c : List α}, List.Forall₂ R c b → ∀ y ∈ b, ∃ x ∈ c, R x y
  | _, _, .nil, y, hy => by simp at hy
  | _, _, .cons hx h, y, hy => by
    rcases List.mem_cons.1 hy with rfl | hy
    · exact ⟨_, by simp, hx⟩
    · obtain ⟨x, h1, h2⟩ := forall2_mem h y hy
      exact ⟨x, List.mem_cons_of_mem _ h1, h2⟩

theorem sameGenfs_mem {a b : List GenfsP} (h : SameGenfs a b) : ∀ y ∈ b, ∃ x ∈ a, x.fstype = y.fstype ∧ x.head.Perm y.head := by
  obtain ⟨c, h1, h2⟩ := h
  intro y hy
  obtain ⟨x, hx, hr⟩ := forall2_mem h2 y hy
  exact ⟨x, h1.subset hx, hr⟩

theorem genfsSplit_ok {fstype : Str} : ∀ {g : List GenfsP}, (∀ y ∈ g, y.fstype ≠ fstype) →
    ∃ r, genfsSplit fstype g = some r ∧ g = r.1 ++ r.2
  | [], _ => ⟨([], []), rfl, rfl⟩
  | y :: g, h => by
    unfold genfsSplit
    rw [if_neg fun hc => h y (by simp) hc.symm]
    split
    · exact ⟨_, rfl, rfl⟩
    · obtain ⟨r, h1, h2⟩ := genfsSplit_ok (g := g) fun x hx => h x (List.mem_cons_of_mem _ hx)
      rw [h1]
      exact ⟨_, rfl, by rw [h2]; rfl⟩

/-- The bytes of a file system. -/
def fsBytes (g : GenfsP) : Bytes := w32 g.fstype.length ++ (strBytes g.fstype ++ (w32 g.head.length ++ g.head.flatMap entryBytes))

theorem inv_genfsLoop {valid : Context → Bool} : ∀ {l a g : List GenfsP}, (∀ x ∈ l, GenfsFits x ∧ ∀ e ∈ x.head, valid e.context = true) →
    ((a ++ l).map (·.fstype)).Nodup → SameGenfs a g →
    ∃ g', Inv (readGenfsLoop valid l.length g) (l.flatMap fsBytes) g' ∧ SameGenfs (a ++ l) g'
  | [], a, g, _, _, hs => ⟨g, inv_pure _, by rw [List.append_nil]; exact hs⟩
  | x :: l, a, g, hf, hn, hs => by
    obtain ⟨hx, hv⟩ := hf x (by simp)
    obtain ⟨r, r1, r2⟩ := genfsSplit_ok (fstype := x.fstype) (g := g) (by
      intro y hy hc
      obtain ⟨z, hz, he, _⟩ := sameGenfs_mem hs y hy
      rw [List.map_append, List.nodup_append] at hn
      exact hn.2.2 z.fstype (List.mem_map_of_mem hz) x.fstype (by simp) (he.trans hc))
    obtain ⟨h, h1, h2⟩ := inv_entries (valid := valid) (l := x.head) (h := [])
      (fun e he => ⟨(hx.entries e he).1, (hx.entries e he).2.1, (hx.entries e he).2.2, hv e he⟩) hx.distinct (by simp)
    rw [List.append_nil] at h2
    have hs' : SameGenfs (a ++ [x]) (r.1 ++ ⟨x.fstype, h⟩ :: r.2) := by
      obtain ⟨c, c1, c2⟩ := hs
      rw [r2] at c2
      obtain ⟨d1, d2, rfl, e1, e2⟩ := forall2_split c2
      refine ⟨d1 ++ x :: d2, ?_, forall2_join (.cons ⟨rfl, h2.symm⟩ e2) e1⟩
      exact List.perm_middle.trans ((c1.cons x).trans (List.perm_append_singleton x a).symm)
    obtain ⟨g', g1, g2⟩ := inv_genfsLoop (l := l) (fun y hy => hf y (List.mem_cons_of_mem _ hy)) (by
      rw [List.append_assoc]; exact hn) hs'
    refine ⟨g', ?_, by rw [List.append_assoc] at g2; exact g2⟩
    rw [List.flatMap_cons]
    unfold fsBytes
    rw [List.append_assoc, List.append_assoc, List.append_assoc]
    show Inv (u32 >>= _) _ _
    refine inv_bind (inv_u32 (word_len hx.name)) (inv_bind (inv_str hx.name) ?_)
    rw [r1]
    exact inv_bind (inv_u32 hx.count) (inv_bind h1 g1)

theorem inv_genfs {valid : Context → Bool} {l : List GenfsP} (hw : Word l.length) (hf : ∀ x ∈ l, GenfsFits x ∧ ∀ e ∈ x.head, valid e.context = true)
    (hn : (l.map (·.fstype)).Nodup) : ∃ g, Inv (readGenfs valid) (writeGenfs l) g ∧ SameGenfs l g := by
  obtain ⟨g, h1, h2⟩ := inv_genfsLoop (valid := valid) (l := l) (a := []) (g := []) hf hn ⟨[], List.Perm.refl _, .nil⟩
  exact ⟨g, inv_bind (inv_u32 hw) h1, h2⟩

end Verif.PolicyIO
