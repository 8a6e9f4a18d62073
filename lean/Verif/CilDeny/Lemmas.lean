import Verif.CilDeny.Spec
import Verif.Ebitmap.Props
import Verif.Prelude

/-!
# Lemmas on class permissions
-/

namespace Verif.CilDeny

mutual
/-- All the permissions of a list. -/
def flat : List CP → List (Nat × Nat)
  | [] => []
  | x :: xs => flatItem x ++ flat xs
def flatItem : CP → List (Nat × Nat)
  | .cls c ps => ps.map fun p => (c, p)
  | .map _ ms => flatMap ms
  | .set _ l => flat l
def flatMap : List MP → List (Nat × Nat)
  | [] => []
  | .mk _ l :: ms => flat l ++ flatMap ms
end

mutual
theorem flat_has {c p : Nat} : ∀ l : List CP, (c, p) ∈ flat l → Perms l c p
  | [], h => by simp [flat] at h
  | x :: xs, h => by
    rw [flat, List.mem_append] at h
    rcases h with h | h
    · exact ⟨x, List.mem_cons_self, flatItem_has x h⟩
    · obtain ⟨y, hy, hh⟩ := flat_has xs h
      exact ⟨y, List.mem_cons_of_mem _ hy, hh⟩
theorem flatItem_has {c p : Nat} : ∀ x : CP, (c, p) ∈ flatItem x → Has c p x
  | .cls c' ps, h => by
    simp only [flatItem, List.mem_map, Prod.mk.injEq] at h
    obtain ⟨q, hq, rfl, rfl⟩ := h
    exact .cls hq
  | .map _ ms, h => by
    rw [flatItem] at h
    obtain ⟨n, l, h1, y, h2, h3⟩ := flatMap_has ms h
    exact .map h1 h2 h3
  | .set _ l, h => by
    rw [flatItem] at h
    obtain ⟨y, hy, hh⟩ := flat_has l h
    exact .set hy hh
theorem flatMap_has {c p : Nat} : ∀ ms : List MP, (c, p) ∈ flatMap ms → ∃ n l, MP.mk n l ∈ ms ∧ Perms l c p
  | [], h => by simp [flatMap] at h
  | .mk n l :: ms, h => by
    rw [flatMap, List.mem_append] at h
    rcases h with h | h
    · exact ⟨n, l, List.mem_cons_self, flat_has l h⟩
    · obtain ⟨n', l', h1, h2⟩ := flatMap_has ms h
      exact ⟨n', l', List.mem_cons_of_mem _ h1, h2⟩
end

theorem mem_flat {x : CP} {l : List CP} (h : x ∈ l) {a : Nat × Nat} (ha : a ∈ flatItem x) : a ∈ flat l := by
  induction l with
  | nil => cases h
  | cons y ys ih =>
    rw [flat, List.mem_append]
    rcases List.mem_cons.1 h with rfl | h
    · exact .inl ha
    · exact .inr (ih h)

theorem mem_flatMap {n : Nat} {l : List CP} {ms : List MP} (h : MP.mk n l ∈ ms) {a : Nat × Nat} (ha : a ∈ flat l) :
    a ∈ flatMap ms := by
  induction ms with
  | nil => cases h
  | cons y ys ih =>
    obtain ⟨n', l'⟩ := y
    rw [flatMap, List.mem_append]
    rcases List.mem_cons.1 h with h | h
    · cases h; exact .inl ha
    · exact .inr (ih h)

theorem has_flatItem {c p : Nat} {x : CP} (h : Has c p x) : (c, p) ∈ flatItem x := by
  induction h with
  | cls h => rw [flatItem]; exact List.mem_map.2 ⟨_, h, rfl⟩
  | map h1 h2 _ ih => rw [flatItem]; exact mem_flatMap h1 (mem_flat h2 ih)
  | set h1 _ ih => rw [flatItem]; exact mem_flat h1 ih

theorem perms_iff {l : List CP} {c p : Nat} : Perms l c p ↔ (c, p) ∈ flat l :=
  ⟨fun ⟨_, h1, h2⟩ => mem_flat h1 (has_flatItem h2), flat_has l⟩

theorem flat_append (a b : List CP) : flat (a ++ b) = flat a ++ flat b := by
  induction a with
  | nil => simp [flat]
  | cons x xs ih => simp [flat, ih]

/-! ### The functions of cil_deny.c -/

theorem permMatch_iff (p : Nat) (l : List Nat) : permMatch p l = true ↔ p ∈ l := by
  induction l with
  | nil => simp [permMatch]
  | cons x xs ih =>
    rw [permMatch]
    by_cases h : x = p
    · simp [h]
    · simp [h, ih, Ne.symm h]

mutual
theorem cpm_iff (c p : Nat) : ∀ l, classPermMatch c p l = true ↔ (c, p) ∈ flat l
  | [] => by simp [classPermMatch, flat]
  | x :: xs => by
    have := cpmItem_iff c p x
    have := cpm_iff c p xs
    rw [classPermMatch, flat, List.mem_append]
    by_cases h : classPermMatchItem c p x = true <;> simp_all
theorem cpmItem_iff (c p : Nat) : ∀ x, classPermMatchItem c p x = true ↔ (c, p) ∈ flatItem x
  | .cls c' ps => by
    have := permMatch_iff p ps
    rw [classPermMatchItem, flatItem]
    by_cases h : c' = c <;> simp_all
  | .map _ ms => by rw [classPermMatchItem, flatItem]; exact cpmMap_iff c p ms
  | .set _ l => by rw [classPermMatchItem, flatItem]; exact cpm_iff c p l
theorem cpmMap_iff (c p : Nat) : ∀ ms, classPermMatchMap c p ms = true ↔ (c, p) ∈ flatMap ms
  | [] => by simp [classPermMatchMap, flatMap]
  | .mk _ l :: ms => by
    have := cpm_iff c p l
    have := cpmMap_iff c p ms
    rw [classPermMatchMap, flatMap, List.mem_append]
    by_cases h : classPermMatch c p l = true <;> simp_all
end

theorem cpAny_iff (c : Nat) (l2 : List CP) (ps : List Nat) :
    classpermsMatchAny c l2 ps = true ↔ ∃ p ∈ ps, (c, p) ∈ flat l2 := by
  induction ps with
  | nil => simp [classpermsMatchAny]
  | cons p ps ih =>
    have := cpm_iff c p l2
    rw [classpermsMatchAny]
    by_cases h : classPermMatch c p l2 = true <;> simp_all

theorem cpAll_iff (c : Nat) (l2 : List CP) (ps : List Nat) :
    classpermsMatchAll c l2 ps = true ↔ ∀ p ∈ ps, (c, p) ∈ flat l2 := by
  induction ps with
  | nil => simp [classpermsMatchAll]
  | cons p ps ih =>
    have := cpm_iff c p l2
    rw [classpermsMatchAll]
    by_cases h : classPermMatch c p l2 = true <;> simp_all

mutual
theorem any_iff (l2 : List CP) : ∀ l, listMatchAny l2 l = true ↔ ∃ a ∈ flat l, a ∈ flat l2
  | [] => by simp [listMatchAny, flat]
  | x :: xs => by
    have h1 := anyItem_iff l2 x
    have h2 := any_iff l2 xs
    simp only [listMatchAny, flat, List.mem_append, or_and_right, exists_or, ← h1, ← h2]
    by_cases h : itemMatchAny l2 x = true <;> simp [h]
theorem anyItem_iff (l2 : List CP) : ∀ x, itemMatchAny l2 x = true ↔ ∃ a ∈ flatItem x, a ∈ flat l2
  | .cls c' ps => by
    rw [itemMatchAny, flatItem, cpAny_iff]
    simp
  | .map _ ms => by rw [itemMatchAny, flatItem]; exact anyMap_iff l2 ms
  | .set _ l => by rw [itemMatchAny, flatItem]; exact any_iff l2 l
theorem anyMap_iff (l2 : List CP) : ∀ ms, mapMatchAny l2 ms = true ↔ ∃ a ∈ flatMap ms, a ∈ flat l2
  | [] => by simp [mapMatchAny, flatMap]
  | .mk _ l :: ms => by
    have h1 := any_iff l2 l
    have h2 := anyMap_iff l2 ms
    simp only [mapMatchAny, flatMap, List.mem_append, or_and_right, exists_or, ← h1, ← h2]
    by_cases h : listMatchAny l2 l = true <;> simp [h]
end

mutual
theorem all_iff (l2 : List CP) : ∀ l, listMatchAll l2 l = true ↔ ∀ a ∈ flat l, a ∈ flat l2
  | [] => by simp [listMatchAll, flat]
  | x :: xs => by
    have h1 := allItem_iff l2 x
    have h2 := all_iff l2 xs
    simp only [listMatchAll, flat, List.mem_append, or_imp, forall_and, ← h1, ← h2]
    by_cases h : itemMatchAll l2 x = true <;> simp [h]
theorem allItem_iff (l2 : List CP) : ∀ x, itemMatchAll l2 x = true ↔ ∀ a ∈ flatItem x, a ∈ flat l2
  | .cls c' ps => by
    rw [itemMatchAll, flatItem, cpAll_iff]
    simp
  | .map _ ms => by rw [itemMatchAll, flatItem]; exact allMap_iff l2 ms
  | .set _ l => by rw [itemMatchAll, flatItem]; exact all_iff l2 l
theorem allMap_iff (l2 : List CP) : ∀ ms, mapMatchAll l2 ms = true ↔ ∀ a ∈ flatMap ms, a ∈ flat l2
  | [] => by simp [mapMatchAll, flatMap]
  | .mk _ l :: ms => by
    have h1 := all_iff l2 l
    have h2 := allMap_iff l2 ms
    simp only [mapMatchAll, flatMap, List.mem_append, or_imp, forall_and, ← h1, ← h2]
    by_cases h : listMatchAll l2 l = true <;> simp [h]
end

theorem flat_entry (c : Nat) (ps : List Nat) : flat (entry c ps) = ps.map fun p => (c, p) := by
  cases ps <;> simp [entry, flat, flatItem]

theorem flat_mapEntry (c : Nat) (ms : List MP) : flat (mapEntry c ms) = flatMap ms := by
  cases ms <;> simp [mapEntry, flat, flatItem, flatMap]

theorem cpAnd_iff (c : Nat) (ps : List Nat) (l2 : List CP) (a : Nat × Nat) :
    a ∈ flat (classpermsAnd c ps l2) ↔ a ∈ flatItem (.cls c ps) ∧ a ∈ flat l2 := by
  have h1 := cpAll_iff c l2 ps
  rw [classpermsAnd]
  split
  · rename_i h
    have := h1.1 h
    simp only [flat, flatItem, List.append_nil, List.mem_map]
    constructor
    · rintro ⟨p, hp, rfl⟩; exact ⟨⟨p, hp, rfl⟩, this p hp⟩
    · exact fun h => h.1
  · rw [flat_entry, flatItem]
    simp only [List.mem_map, List.mem_filter, cpm_iff]
    constructor
    · rintro ⟨p, ⟨hp, h2⟩, rfl⟩; exact ⟨⟨p, hp, rfl⟩, h2⟩
    · rintro ⟨⟨p, hp, rfl⟩, h2⟩; exact ⟨p, ⟨hp, h2⟩, rfl⟩

theorem cpAndnot_iff (c : Nat) (ps : List Nat) (l2 : List CP) (a : Nat × Nat) :
    a ∈ flat (classpermsAndnot c ps l2) ↔ a ∈ flatItem (.cls c ps) ∧ a ∉ flat l2 := by
  have h1 := cpAny_iff c l2 ps
  rw [classpermsAndnot]
  split
  · rename_i h
    rw [Bool.not_eq_true', ← Bool.not_eq_true, h1] at h
    simp only [flat, flatItem, List.append_nil, List.mem_map]
    constructor
    · rintro ⟨p, hp, rfl⟩; exact ⟨⟨p, hp, rfl⟩, fun hc => h ⟨p, hp, hc⟩⟩
    · exact fun h => h.1
  · rw [flat_entry, flatItem]
    simp only [List.mem_map, List.mem_filter, Bool.not_eq_true', ← Bool.not_eq_true, cpm_iff]
    constructor
    · rintro ⟨p, ⟨hp, h2⟩, rfl⟩; exact ⟨⟨p, hp, rfl⟩, h2⟩
    · rintro ⟨⟨p, hp, rfl⟩, h2⟩; exact ⟨p, ⟨hp, h2⟩, rfl⟩

mutual
theorem andItems_iff (l2 : List CP) (a : Nat × Nat) : ∀ l, a ∈ flat (andItems l2 l) ↔ a ∈ flat l ∧ a ∈ flat l2
  | [] => by simp [andItems, flat]
  | x :: xs => by
    rw [andItems, flat_append, flat, List.mem_append, List.mem_append, andItem_iff l2 a x, andItems_iff l2 a xs]
    tauto
theorem andItem_iff (l2 : List CP) (a : Nat × Nat) : ∀ x, a ∈ flat (andItem l2 x) ↔ a ∈ flatItem x ∧ a ∈ flat l2
  | .cls c ps => by rw [andItem]; exact cpAnd_iff c ps l2 a
  | .map c ms => by
    rw [andItem, flat_append, flat_mapEntry, List.mem_append, flatItem]
    exact andMap_iff l2 a ms
  | .set n l => by
    rw [andItem, flatItem]
    split
    · rename_i h
      have := (all_iff l2 l).1 h a
      simp only [flat, flatItem, List.append_nil]
      tauto
    · exact andItems_iff l2 a l
theorem andMap_iff (l2 : List CP) (a : Nat × Nat) :
    ∀ ms, (a ∈ flatMap (mapAll l2 ms) ∨ a ∈ flat (andMap l2 ms)) ↔ a ∈ flatMap ms ∧ a ∈ flat l2
  | [] => by simp [andMap, mapAll, flat, flatMap]
  | .mk n l :: ms => by
    have h1 := andItems_iff l2 a l
    have h2 := andMap_iff l2 a ms
    rw [andMap, mapAll, flatMap, List.mem_append]
    by_cases h : listMatchAll l2 l = true
    · have := (all_iff l2 l).1 h a
      simp only [h, if_true, flatMap, List.mem_append]
      tauto
    · simp only [h, Bool.false_eq_true, if_false, flat_append, List.mem_append]
      tauto
end

theorem listAnd_iff (l1 l2 : List CP) (a : Nat × Nat) : a ∈ flat (listAnd l1 l2) ↔ a ∈ flat l1 ∧ a ∈ flat l2 := by
  rw [listAnd]
  split
  · rename_i h
    have := (all_iff l2 l1).1 h a
    tauto
  · exact andItems_iff l2 a l1

mutual
theorem andnotItems_iff (l2 : List CP) (a : Nat × Nat) : ∀ l, a ∈ flat (andnotItems l2 l) ↔ a ∈ flat l ∧ a ∉ flat l2
  | [] => by simp [andnotItems, flat]
  | x :: xs => by
    rw [andnotItems, flat_append, flat, List.mem_append, List.mem_append, andnotItem_iff l2 a x, andnotItems_iff l2 a xs]
    tauto
theorem andnotItem_iff (l2 : List CP) (a : Nat × Nat) : ∀ x, a ∈ flat (andnotItem l2 x) ↔ a ∈ flatItem x ∧ a ∉ flat l2
  | .cls c ps => by rw [andnotItem]; exact cpAndnot_iff c ps l2 a
  | .map c ms => by
    rw [andnotItem, flat_append, flat_mapEntry, List.mem_append, flatItem]
    exact andnotMap_iff l2 a ms
  | .set n l => by
    have h0 := any_iff l2 l
    rw [andnotItem, flatItem]
    by_cases h : listMatchAny l2 l = true
    · simp only [h, Bool.not_true]
      exact andnotItems_iff l2 a l
    · have : ¬ (a ∈ flat l ∧ a ∈ flat l2) := fun hc => h (h0.2 ⟨a, hc⟩)
      simp only [h, Bool.not_false, if_true, flat, flatItem, List.append_nil]
      tauto
theorem andnotMap_iff (l2 : List CP) (a : Nat × Nat) :
    ∀ ms, (a ∈ flatMap (mapNone l2 ms) ∨ a ∈ flat (andnotMap l2 ms)) ↔ a ∈ flatMap ms ∧ a ∉ flat l2
  | [] => by simp [andnotMap, mapNone, flat, flatMap]
  | .mk n l :: ms => by
    have h1 := andnotItems_iff l2 a l
    have h2 := andnotMap_iff l2 a ms
    have h0 := any_iff l2 l
    rw [andnotMap, mapNone, flatMap, List.mem_append]
    by_cases h : listMatchAny l2 l = true
    · simp only [h, Bool.not_true, Bool.false_eq_true, if_false, flat_append, List.mem_append]
      tauto
    · have : ¬ (a ∈ flat l ∧ a ∈ flat l2) := fun hc => h (h0.2 ⟨a, hc⟩)
      simp only [h, Bool.not_false, if_true, flatMap, List.mem_append]
      tauto
end

theorem listAndnot_iff (l1 l2 : List CP) (a : Nat × Nat) : a ∈ flat (listAndnot l1 l2) ↔ a ∈ flat l1 ∧ a ∉ flat l2 := by
  have h0 := any_iff l2 l1
  rw [listAndnot]
  by_cases h : listMatchAny l2 l1 = true
  · simp only [h, Bool.not_true]
    exact andnotItems_iff l2 a l1
  · have : ¬ (a ∈ flat l1 ∧ a ∈ flat l2) := fun hc => h (h0.2 ⟨a, hc⟩)
    simp only [h, Bool.not_false, if_true]
    tauto

/-! ### The functions of cil_find.c -/

theorem findCp_iff (c1 : Nat) (ps1 : List Nat) (c2 : Nat) (ps2 : List Nat) :
    findCpMatch c1 ps1 c2 ps2 = true ↔ ∃ p ∈ ps1, (c1, p) ∈ flatItem (.cls c2 ps2) := by
  rw [findCpMatch, flatItem]
  by_cases h : c1 = c2
  · subst h; simp
  · have : ¬ c2 = c1 := fun hc => h hc.symm
    simp [h, this]

mutual
theorem find2_iff (c1 : Nat) (ps1 : List Nat) : ∀ l, findMatch2 c1 ps1 l = true ↔ ∃ p ∈ ps1, (c1, p) ∈ flat l
  | [] => by simp [findMatch2, flat]
  | x :: xs => by
    have h1 := find2Item_iff c1 ps1 x
    have h2 := find2_iff c1 ps1 xs
    simp only [findMatch2, flat, List.mem_append, and_or_left, exists_or, ← h1, ← h2]
    by_cases h : findMatch2Item c1 ps1 x = true <;> simp [h]
theorem find2Item_iff (c1 : Nat) (ps1 : List Nat) : ∀ x, findMatch2Item c1 ps1 x = true ↔ ∃ p ∈ ps1, (c1, p) ∈ flatItem x
  | .cls c ps => by rw [findMatch2Item]; exact findCp_iff c1 ps1 c ps
  | .map _ ms => by rw [findMatch2Item, flatItem]; exact find2Map_iff c1 ps1 ms
  | .set _ l => by rw [findMatch2Item, flatItem]; exact find2_iff c1 ps1 l
theorem find2Map_iff (c1 : Nat) (ps1 : List Nat) : ∀ ms, findMatch2Map c1 ps1 ms = true ↔ ∃ p ∈ ps1, (c1, p) ∈ flatMap ms
  | [] => by simp [findMatch2Map, flatMap]
  | .mk _ l :: ms => by
    have h1 := find2_iff c1 ps1 l
    have h2 := find2Map_iff c1 ps1 ms
    simp only [findMatch2Map, flatMap, List.mem_append, and_or_left, exists_or, ← h1, ← h2]
    by_cases h : findMatch2 c1 ps1 l = true <;> simp [h]
end

mutual
theorem find_iff (l2 : List CP) : ∀ l, findMatch l2 l = true ↔ ∃ a ∈ flat l, a ∈ flat l2
  | [] => by simp [findMatch, flat]
  | x :: xs => by
    have h1 := findItem_iff l2 x
    have h2 := find_iff l2 xs
    simp only [findMatch, flat, List.mem_append, or_and_right, exists_or, ← h1, ← h2]
    by_cases h : findMatchItem l2 x = true <;> simp [h]
theorem findItem_iff (l2 : List CP) : ∀ x, findMatchItem l2 x = true ↔ ∃ a ∈ flatItem x, a ∈ flat l2
  | .cls c' ps => by
    rw [findMatchItem, flatItem, find2_iff]
    simp
  | .map _ ms => by rw [findMatchItem, flatItem]; exact findMap_iff l2 ms
  | .set _ l => by rw [findMatchItem, flatItem]; exact find_iff l2 l
theorem findMap_iff (l2 : List CP) : ∀ ms, findMatchMap l2 ms = true ↔ ∃ a ∈ flatMap ms, a ∈ flat l2
  | [] => by simp [findMatchMap, flatMap]
  | .mk _ l :: ms => by
    have h1 := find_iff l2 l
    have h2 := findMap_iff l2 ms
    simp only [findMatchMap, flatMap, List.mem_append, or_and_right, exists_or, ← h1, ← h2]
    by_cases h : findMatch l2 l = true <;> simp [h]
end

end Verif.CilDeny
