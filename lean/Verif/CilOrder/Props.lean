import Verif.CilOrder.Lemmas2

/-!
# C72: the order of symbols is the one that the order statements of all modules determine

The numbers of security identifiers, classes, categories and sensitivities come from the order
statements of all modules.  If the statements are accepted they leave only one order, and that is
the one taken.  Whether they are accepted can depend on the order of the modules.
-/

namespace Verif.CilOrder

/-- C72: an accepted order consists of the only order of the ordered symbols that agrees with the
statements and the symbols of the unordered statements in the order of their first appearance.
Every declared symbol is in it, and no symbol is in it twice. -/
theorem C72_sound {lists unordered : List (List Nat)} {declared order' : List Nat}
    (h : order lists unordered declared = some order') :
    ∃ front, order' = front ++ leftOver front unordered ∧ order'.Nodup ∧
      Agrees lists front ∧ (∀ front', Agrees lists front' → front' = front) ∧
      ∀ x ∈ declared, x ∈ order' := by
  rw [order, mergeAll] at h
  rcases hr : rounds (lists.length + 1) ⟨[], []⟩ (lists.map (false, ·)) with _ | s
  · simp [hr] at h
  · rw [hr] at h
    simp only at h
    obtain ⟨hi, -, h2, h3⟩ := rounds_spec hr ⟨by simp, by simp⟩ (by
      intro p hp hb
      obtain ⟨l, -, rfl⟩ := List.mem_map.1 hp
      cases hb)
    have hmap : (lists.map ((false, ·) : List Nat → Bool × List Nat)).map (·.2) = lists := by
      rw [List.map_map]; exact List.map_id lists
    rw [hmap] at h2 h3
    obtain ⟨b, hv, hb⟩ := verify_spec s.list lists
    rw [hv] at h
    rcases b with _ | _
    · simp at h
    · simp only at h
      obtain ⟨s', h4, hi', h5⟩ := insertUnordered_spec (us := unordered.flatten) hi
      rw [h4] at h
      simp only at h
      split at h
      · rename_i hd
        cases h
        have hag : Agrees lists s.list := by
          refine ⟨hi.nodup, h2, fun x => ⟨fun hx => ?_, fun ⟨l, hl, hx⟩ => (h2 l hl).subset hx⟩⟩
          rcases h3 x hx with h | h
          · cases h
          · exact h
        refine ⟨s.list, h5, hi'.nodup, hag, fun f hf => unique hag (hb.1 rfl) hf, fun x hx => ?_⟩
        have := List.all_eq_true.1 hd x hx
        rw [hi'.mem]
        simpa using this
      · cases h

/-- Non-vacuity: statements of four modules, one of which can only be merged after a later one. -/
example : order [[1, 2], [5, 6], [2, 3, 5]] [[9, 2], [8, 9]] [1, 2, 3, 5, 6, 8, 9] =
    some [1, 2, 3, 5, 6, 9, 8] := by decide +kernel

/-- Statements that leave more than one order are rejected. -/
example : order [[1, 2], [1, 3]] [] [] = none := by decide +kernel

/-- Contradictory statements are rejected. -/
example : order [[1, 2], [2, 1]] [] [] = none := by decide +kernel

/-- A declared symbol without order is rejected. -/
example : order [[1, 2]] [] [3] = none := by decide +kernel

/-- C72: which order is taken does not depend on the order of the statements: two sequences of the
same statements that are both accepted have the same outcome. -/
theorem C72_same {l₁ l₂ u : List (List Nat)} {d o₁ o₂ : List Nat} (hp : ∀ l, l ∈ l₁ ↔ l ∈ l₂)
    (h₁ : order l₁ u d = some o₁) (h₂ : order l₂ u d = some o₂) : o₁ = o₂ := by
  obtain ⟨f₁, a1, -, a2, a3, -⟩ := C72_sound h₁
  obtain ⟨f₂, b1, -, b2, -, -⟩ := C72_sound h₂
  have : f₂ = f₁ := a3 f₂ ⟨b2.nodup, fun l hl => b2.sub l ((hp l).1 hl), fun x => by
    rw [b2.mem]; simp [hp]⟩
  rw [a1, b1, this]

/-- C72: the last check accepts exactly the lists whose neighbours are neighbours in statements. -/
theorem C72_check (complete : List Nat) (lists : List (List Nat)) :
    (verify complete lists = some true ∧ Justified lists complete) ∨
    (verify complete lists = some false ∧ ¬ Justified lists complete) := by
  obtain ⟨b, h1, h2⟩ := verify_spec complete lists
  rcases b with _ | _
  · exact .inr ⟨h1, fun h => by simpa using h2.2 h⟩
  · exact .inl ⟨h1, h2.1 rfl⟩

/-- C72: the loop over the statements ends: more passes change nothing. -/
theorem C72_ends (lists : List (List Nat)) (k : Nat) :
    rounds (lists.length + 1 + k) ⟨[], []⟩ (lists.map (false, ·)) =
      rounds (lists.length + 1) ⟨[], []⟩ (lists.map (false, ·)) := by
  refine rounds_fuel ⟨by simp, by simp⟩ ?_ ?_ k
  · intro p hp hb
    obtain ⟨l, -, rfl⟩ := List.mem_map.1 hp
    cases hb
  · unfold waiting
    have := List.countP_le_length (p := fun q : Bool × List Nat => !q.1) (l := lists.map (false, ·))
    rw [List.length_map] at this
    omega

/-- C72: statements that each repeat part of the order so far, or repeat part of it up to its end
and go on with new symbols, are accepted; the order is the one they build up.  In particular, a
first statement with all symbols settles the matter. -/
theorem C72_extending_partial {lists unordered : List (List Nat)} {c declared : List Nat}
    (h : Extending lists c) (hd : ∀ x ∈ declared, x ∈ c ++ leftOver c unordered) :
    order lists unordered declared = some (c ++ leftOver c unordered) := by
  obtain ⟨hj, ord, ch, hr, hi⟩ := extending_round h
  rw [order, mergeAll, rounds, hr]
  simp only
  have hall : (lists.map ((true, ·) : List Nat → Bool × List Nat)).all (·.1) = true := by simp
  rw [if_pos hall]
  simp only
  rcases C72_check c lists with ⟨hv, -⟩ | ⟨-, hn⟩
  · rw [hv]
    simp only
    obtain ⟨s', h4, hi', h5⟩ := insertUnordered_spec (us := unordered.flatten) hi
    rw [h4]
    simp only
    rw [if_pos]
    · rw [h5]; rfl
    · refine List.all_eq_true.2 fun x hx => ?_
      simp only [decide_eq_true_eq]
      rw [← hi'.mem, h5]
      exact hd x hx
  · exact absurd hj hn

/-- Non-vacuity. -/
example : Extending [[1, 2, 3], [1, 3], [2, 3, 4, 5]] [1, 2, 3, 4, 5] := by
  have h1 : Extending [[1, 2, 3]] [1, 2, 3] :=
    .extends (s := []) (new := [1, 2, 3]) .nil (by simp) rfl (by decide) (by simp)
  have h2 : Extending [[1, 2, 3], [1, 3]] [1, 2, 3] := .repeats h1 (by decide)
  exact .extends (s := [2, 3]) (new := [4, 5]) h2 (by decide) rfl (by decide) (by decide)

/-- C72 is refuted in the other direction: statements that leave exactly one order can be rejected
even if one of them is the whole order, and accepted if they come in a different order. -/
theorem C72_order_refuted : ∃ lists lists' : List (List Nat), lists.Perm lists' ∧
    (∃ c, Agrees lists c ∧ (∀ c', Agrees lists c' → c' = c) ∧ c ∈ lists ∧ order lists' [] c = some c ∧
      order lists [] c = none) := by
  refine ⟨[[1, 3], [2, 3], [2, 1, 3]], [[2, 1, 3], [1, 3], [2, 3]], by decide, [2, 1, 3], ?_, ?_, by decide,
    by decide +kernel, by decide +kernel⟩
  · exact ⟨by decide, by decide, fun x => by simp; tauto⟩
  · intro c' h
    have h1 := h.sub [2, 1, 3] (by simp)
    have h2 : c'.Perm [2, 1, 3] := (List.perm_ext_iff_of_nodup h.nodup (by decide)).2 fun x => by
      rw [h.mem]; simp; tauto
    exact (h1.eq_of_length (by rw [h2.length_eq])).symm

end Verif.CilOrder
