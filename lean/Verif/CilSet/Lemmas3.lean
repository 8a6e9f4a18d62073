import Verif.CilSet.Lemmas2

/-!
# The evaluation of symbols, and the existence and uniqueness of the meaning
-/

namespace Verif.CilSet
open Ebitmap (Ebitmap)

/-! ### The meaning -/

mutual

theorem itemSet_congr {ρ σ : Nat → Nat → Prop} {max : Nat} : (i : Item) →
    (∀ d ∈ itemRefs i, ∀ n, ρ d n ↔ σ d n) → ∀ n, itemSet ρ max i n ↔ itemSet σ max i n
  | .op o, _ => by simp [itemSet]
  | .str none, _ => by simp [itemSet]
  | .str (some v), _ => by simp [itemSet]
  | .datum d, h => by simpa [itemSet] using h d (by simp [itemRefs])
  | .list f l, h => by
    simp only [itemSet]
    exact exprSet_congr l (by simpa [itemRefs] using h)
termination_by i => (sizeOf i, 0)

theorem exprSet_congr {ρ σ : Nat → Nat → Prop} {max : Nat} (l : List Item)
    (h : ∀ d ∈ itemsRefs l, ∀ n, ρ d n ↔ σ d n) (n : Nat) :
    exprSet ρ max l n ↔ exprSet σ max l n := by
  have hu := unionSet_congr (max := max) l h n
  match l, h, hu with
  | .op .all :: _, _, _ => simp [exprSet]
  | .op .range :: a :: b :: _, h, _ =>
    have h1 := itemSet_congr (max := max) a fun d hd => h d (by simp [itemsRefs, hd])
    have h2 := itemSet_congr (max := max) b fun d hd => h d (by simp [itemsRefs, hd])
    simp [exprSet, h1, h2]
  | .op .not :: a :: _, h, _ =>
    have h1 := itemSet_congr (max := max) a fun d hd => h d (by simp [itemsRefs, hd])
    simp [exprSet, h1]
  | .op .or :: a :: b :: _, h, _ =>
    have h1 := itemSet_congr (max := max) a fun d hd => h d (by simp [itemsRefs, hd])
    have h2 := itemSet_congr (max := max) b fun d hd => h d (by simp [itemsRefs, hd])
    simp [exprSet, h1, h2]
  | .op .and :: a :: b :: _, h, _ =>
    have h1 := itemSet_congr (max := max) a fun d hd => h d (by simp [itemsRefs, hd])
    have h2 := itemSet_congr (max := max) b fun d hd => h d (by simp [itemsRefs, hd])
    simp [exprSet, h1, h2]
  | .op .xor :: a :: b :: _, h, _ =>
    have h1 := itemSet_congr (max := max) a fun d hd => h d (by simp [itemsRefs, hd])
    have h2 := itemSet_congr (max := max) b fun d hd => h d (by simp [itemsRefs, hd])
    simp [exprSet, h1, h2]
  | [], _, hu => simpa [exprSet] using hu
  | .datum _ :: _, _, hu => simpa [exprSet] using hu
  | .list _ _ :: _, _, hu => simpa [exprSet] using hu
  | .str _ :: _, _, hu => simpa [exprSet] using hu
  | .op .other :: _, _, hu => simpa [exprSet] using hu
  | [.op .range], _, hu => simpa [exprSet] using hu
  | [.op .range, _], _, hu => simpa [exprSet] using hu
  | [.op .not], _, hu => simpa [exprSet] using hu
  | [.op .or], _, hu => simpa [exprSet] using hu
  | [.op .or, _], _, hu => simpa [exprSet] using hu
  | [.op .and], _, hu => simpa [exprSet] using hu
  | [.op .and, _], _, hu => simpa [exprSet] using hu
  | [.op .xor], _, hu => simpa [exprSet] using hu
  | [.op .xor, _], _, hu => simpa [exprSet] using hu
termination_by (sizeOf l, 1)

theorem unionSet_congr {ρ σ : Nat → Nat → Prop} {max : Nat} : (l : List Item) →
    (∀ d ∈ itemsRefs l, ∀ n, ρ d n ↔ σ d n) → ∀ n, unionSet ρ max l n ↔ unionSet σ max l n
  | [], _ => by simp [unionSet]
  | i :: l, h => by
    intro n
    have h1 := itemSet_congr (max := max) i fun d hd => h d (by simp [itemsRefs, hd])
    have h2 := unionSet_congr (max := max) l fun d hd => h d (by simp [itemsRefs, hd])
    simp [unionSet, h1, h2]
termination_by l => (sizeOf l, 0)

end

/-- What the declaration of a symbol asks for, given the other symbols. -/
def step (db : Db) (ρ : Nat → Nat → Prop) (d n : Nat) : Prop :=
  match db.datums[d]? with
  | none => False
  | some (.type v) | some (.typealias v) | some (.role v) | some (.user v) | some (.perm v)
  | some (.cat v) | some (.catalias v) => n = v
  | some (.typeattribute exprs) => ∃ x ∈ exprs, exprSet ρ db.numTypes x.items n
  | some (.roleattribute exprs) => ∃ x ∈ exprs, exprSet ρ db.numRoles x.items n
  | some (.userattribute exprs) => ∃ x ∈ exprs, exprSet ρ db.numUsers x.items n
  | some (.catset x) => exprSet ρ db.numCats x.items n

theorem meaning_iff {db : Db} {ρ} : Meaning db ρ ↔ ∀ d n, ρ d n ↔ step db ρ d n := by
  refine forall_congr' fun d => forall_congr' fun n => ?_
  unfold step
  cases h : db.datums[d]? with
  | none => simp
  | some x => cases x <;> simp

theorem step_congr {db : Db} {ρ σ : Nat → Nat → Prop} {d : Nat}
    (h : ∀ c ∈ db.refs d, ∀ n, ρ c n ↔ σ c n) (n : Nat) : step db ρ d n ↔ step db σ d n := by
  unfold step
  unfold Db.refs at h
  cases hd : db.datums[d]? with
  | none => simp
  | some x =>
    rw [hd] at h
    have hs : ∀ (exprs : List Expr) (max : Nat),
        (∀ c ∈ exprs.flatMap fun x => itemsRefs x.items, ∀ n, ρ c n ↔ σ c n) →
        ((∃ x ∈ exprs, exprSet ρ max x.items n) ↔ ∃ x ∈ exprs, exprSet σ max x.items n) := by
      intro exprs max hh
      refine exists_congr fun x => and_congr_right fun hx => ?_
      exact exprSet_congr _ (fun c hc => hh c (List.mem_flatMap.2 ⟨x, hx, hc⟩)) n
    cases x with
    | typeattribute exprs => exact hs _ _ h
    | roleattribute exprs => exact hs _ _ h
    | userattribute exprs => exact hs _ _ h
    | catset x => exact exprSet_congr _ h n
    | _ => simp

/-- Unfolding the declarations `k` times. -/
def unfoldSets (db : Db) : Nat → Nat → Nat → Prop
  | 0 => fun _ _ => False
  | k + 1 => step db (unfoldSets db k)

theorem meaning_exists {db : Db} (ac : Acyclic db) : ∃ ρ, Meaning db ρ := by
  obtain ⟨rank, hr⟩ := ac
  have stable : ∀ r d, rank d = r → ∀ j k, r < j → r < k → ∀ n, unfoldSets db j d n ↔ unfoldSets db k d n := by
    intro r
    induction r using Nat.strongRecOn with
    | _ r ih =>
      intro d hd j k hj hk n
      obtain ⟨j, rfl⟩ : ∃ i, j = i + 1 := ⟨j - 1, by omega⟩
      obtain ⟨k, rfl⟩ : ∃ i, k = i + 1 := ⟨k - 1, by omega⟩
      refine step_congr (fun c hc => ?_) n
      have := hr d c hc
      exact ih (rank c) (by omega) c rfl j k (by omega) (by omega)
  refine ⟨fun d => unfoldSets db (rank d + 1) d, meaning_iff.2 fun d n => ?_⟩
  show step db (unfoldSets db (rank d)) d n ↔ _
  refine step_congr (fun c hc => ?_) n
  have := hr d c hc
  exact stable (rank c) c rfl _ _ (by omega) (by omega)

theorem meaning_unique {db : Db} (ac : Acyclic db) {ρ σ} (h1 : Meaning db ρ) (h2 : Meaning db σ) : ρ = σ := by
  obtain ⟨rank, hr⟩ := ac
  have : ∀ r d, rank d = r → ∀ n, ρ d n ↔ σ d n := by
    intro r
    induction r using Nat.strongRecOn with
    | _ r ih =>
      intro d hd n
      rw [meaning_iff.1 h1, meaning_iff.1 h2]
      refine step_congr (fun c hc => ?_) n
      have := hr d c hc
      exact ih (rank c) (by omega) c rfl
  funext d n
  exact propext (this _ d rfl n)

/-! ### Numbers are below the number of symbols -/

mutual

theorem itemSet_lt {db : Db} {ρ : Nat → Nat → Prop} {f : Flavor} (ok : DbOk db) (hρ : Meaning db ρ) : (i : Item) →
    itemOk db f i → (∀ d ∈ itemRefs i, ∀ n, ρ d n → n < (db.num f)) →
    ∀ n, itemSet ρ (db.num f) i n → n < (db.num f)
  | .op o, _, _ => by simp [itemSet]
  | .str none, _, _ => by simp [itemSet]
  | .str (some v), h, _ => by
    simp only [itemOk] at h
    obtain ⟨h1, h2⟩ := h
    subst h1
    simp only [itemSet, Db.num]
    intro n hn
    omega
  | .datum d, _, h => by simpa [itemSet] using h d (by simp [itemRefs])
  | .list _ l, h1, h => by
    simp only [itemSet]
    simp only [itemOk] at h1
    exact exprSet_lt ok hρ l h1.2 (by simpa [itemRefs] using h)
termination_by i => (sizeOf i, 0)

theorem exprSet_lt {db : Db} {ρ : Nat → Nat → Prop} {f : Flavor} (ok : DbOk db) (hρ : Meaning db ρ) (l : List Item)
    (h1 : exprOk db f l) (h : ∀ d ∈ itemsRefs l, ∀ n, ρ d n → n < (db.num f)) (n : Nat) :
    exprSet ρ (db.num f) l n → n < (db.num f) := by
  match l, h1, h with
  | [.op .all], _, _ => simp [exprSet]
  | [.op .range, a, b], h1, h =>
    simp only [exprOk] at h1
    obtain ⟨⟨lo, e1⟩, hi, e2⟩ := h1
    have l2 := (endOf_lt ok e2).2
    simp only [exprSet]
    simp only [endOf_set hρ e1, endOf_set hρ e2]
    rintro ⟨_, _, rfl, rfl, h3, h4⟩
    omega
  | [.op .not, a], _, _ =>
    simp only [exprSet]
    exact fun h => h.1
  | [.op .or, a, b], h1, h =>
    simp only [exprOk] at h1
    have i1 := itemSet_lt ok hρ a h1.1 fun d hd => h d (by simp [itemsRefs, hd])
    have i2 := itemSet_lt ok hρ b h1.2 fun d hd => h d (by simp [itemsRefs, hd])
    simp only [exprSet]
    rintro (h | h)
    · exact i1 n h
    · exact i2 n h
  | [.op .and, a, b], h1, h =>
    simp only [exprOk] at h1
    have i1 := itemSet_lt ok hρ a h1.1 fun d hd => h d (by simp [itemsRefs, hd])
    simp only [exprSet]
    rintro ⟨h, -⟩
    exact i1 n h
  | [.op .xor, a, b], h1, h =>
    simp only [exprOk] at h1
    have i1 := itemSet_lt ok hρ a h1.1 fun d hd => h d (by simp [itemsRefs, hd])
    have i2 := itemSet_lt ok hρ b h1.2 fun d hd => h d (by simp [itemsRefs, hd])
    simp only [exprSet]
    intro h
    by_cases ha : itemSet ρ (db.num f) a n
    · exact i1 n ha
    · exact i2 n (by tauto)
  | [], _, _ => simp [exprSet, unionSet]
  | .datum d :: l, h1, h =>
    simp only [exprOk] at h1
    have := unionSet_lt ok hρ (.datum d :: l) h1 h n
    simpa [exprSet] using this
  | .list f' l' :: l, h1, h =>
    simp only [exprOk] at h1
    have := unionSet_lt ok hρ (.list f' l' :: l) h1 h n
    simpa [exprSet] using this
  | .str o :: l, h1, h =>
    simp only [exprOk] at h1
    have := unionSet_lt ok hρ (.str o :: l) h1 h n
    simpa [exprSet] using this
  | .op .other :: l, h, _ => simp [exprOk, itemsOk, itemOk] at h
  | .op .all :: _ :: _, h, _ => simp [exprOk, itemsOk, itemOk] at h
  | [.op .range], h, _ => simp [exprOk, itemsOk, itemOk] at h
  | [.op .range, _], h, _ => simp [exprOk, itemsOk, itemOk] at h
  | .op .range :: _ :: _ :: _ :: _, h, _ => simp [exprOk, itemsOk, itemOk] at h
  | [.op .not], h, _ => simp [exprOk, itemsOk, itemOk] at h
  | .op .not :: _ :: _ :: _, h, _ => simp [exprOk, itemsOk, itemOk] at h
  | [.op .or], h, _ => simp [exprOk, itemsOk, itemOk] at h
  | [.op .or, _], h, _ => simp [exprOk, itemsOk, itemOk] at h
  | .op .or :: _ :: _ :: _ :: _, h, _ => simp [exprOk, itemsOk, itemOk] at h
  | [.op .and], h, _ => simp [exprOk, itemsOk, itemOk] at h
  | [.op .and, _], h, _ => simp [exprOk, itemsOk, itemOk] at h
  | .op .and :: _ :: _ :: _ :: _, h, _ => simp [exprOk, itemsOk, itemOk] at h
  | [.op .xor], h, _ => simp [exprOk, itemsOk, itemOk] at h
  | [.op .xor, _], h, _ => simp [exprOk, itemsOk, itemOk] at h
  | .op .xor :: _ :: _ :: _ :: _, h, _ => simp [exprOk, itemsOk, itemOk] at h
termination_by (sizeOf l, 1)

theorem unionSet_lt {db : Db} {ρ : Nat → Nat → Prop} {f : Flavor} (ok : DbOk db) (hρ : Meaning db ρ) : (l : List Item) →
    itemsOk db f l → (∀ d ∈ itemsRefs l, ∀ n, ρ d n → n < (db.num f)) →
    ∀ n, unionSet ρ (db.num f) l n → n < (db.num f)
  | [], _, _ => by simp [unionSet]
  | i :: l, h1, h => by
    intro n
    rw [itemsOk] at h1
    have i1 := itemSet_lt ok hρ i h1.1 fun d hd => h d (by simp [itemsRefs, hd])
    have i2 := unionSet_lt ok hρ l h1.2 fun d hd => h d (by simp [itemsRefs, hd])
    simp only [unionSet]
    rintro (h | h)
    · exact i1 n h
    · exact i2 n h
termination_by l => (sizeOf l, 0)

end

mutual

/-- What a well-formed item of categories refers to is a category or a set of them. -/
theorem itemRefs_flavor {db : Db} {f : Flavor} : (i : Item) → itemOk db f i → ∀ d ∈ itemRefs i,
    ∃ x, db.datums[d]? = some x ∧ x.flavor = f
  | .op o, _ => by simp [itemRefs]
  | .str o, _ => by simp [itemRefs]
  | .datum d, h => by
    simp only [itemOk] at h
    simp only [itemRefs, List.mem_singleton]
    rintro c rfl
    exact h.2
  | .list f' l, h => by
    simp only [itemOk] at h
    simp only [itemRefs]
    exact exprRefs_flavor l h.2
termination_by i => (sizeOf i, 0)

theorem exprRefs_flavor {db : Db} {f : Flavor} (l : List Item) (h1 : exprOk db f l) :
    ∀ d ∈ itemsRefs l, ∃ x, db.datums[d]? = some x ∧ x.flavor = f := by
  have hop : ∀ o, itemRefs (.op o) = [] := fun o => by simp [itemRefs]
  match l, h1 with
  | [.op .all], _ => simp [itemsRefs, hop]
  | [.op .range, a, b], h1 =>
    have he : ∀ i v, endOf db f i = some v → ∀ d ∈ itemRefs i, ∃ x, db.datums[d]? = some x ∧ x.flavor = f := by
      intro i v h d hd
      cases i with
      | op o => simp [endOf] at h
      | list f l => simp [endOf] at h
      | str o => simp [itemRefs] at hd
      | datum c =>
        simp only [itemRefs, List.mem_singleton] at hd
        subst hd
        simp only [endOf] at h
        split at h
        · next h2 _ => exact ⟨_, h2, rfl⟩
        · next h2 _ => exact ⟨_, h2, rfl⟩
        · cases h
    simp only [exprOk] at h1
    obtain ⟨⟨lo, e1⟩, hi, e2⟩ := h1
    intro d hd
    simp only [itemsRefs, hop, List.nil_append, List.append_nil, List.mem_append] at hd
    rcases hd with h | h
    · exact he a lo e1 d h
    · exact he b hi e2 d h
  | [.op .not, a], h1 =>
    simp only [exprOk] at h1
    simp only [itemsRefs, hop, List.nil_append, List.append_nil]
    exact itemRefs_flavor a h1
  | [.op .or, a, b], h1 =>
    simp only [exprOk] at h1
    intro d hd
    simp only [itemsRefs, hop, List.nil_append, List.append_nil, List.mem_append] at hd
    rcases hd with h | h
    · exact itemRefs_flavor a h1.1 d h
    · exact itemRefs_flavor b h1.2 d h
  | [.op .and, a, b], h1 =>
    simp only [exprOk] at h1
    intro d hd
    simp only [itemsRefs, hop, List.nil_append, List.append_nil, List.mem_append] at hd
    rcases hd with h | h
    · exact itemRefs_flavor a h1.1 d h
    · exact itemRefs_flavor b h1.2 d h
  | [.op .xor, a, b], h1 =>
    simp only [exprOk] at h1
    intro d hd
    simp only [itemsRefs, hop, List.nil_append, List.append_nil, List.mem_append] at hd
    rcases hd with h | h
    · exact itemRefs_flavor a h1.1 d h
    · exact itemRefs_flavor b h1.2 d h
  | [], _ => simp [itemsRefs]
  | .datum d :: l, h1 =>
    simp only [exprOk] at h1
    exact itemsRefs_flavor (.datum d :: l) h1
  | .list f l' :: l, h1 =>
    simp only [exprOk] at h1
    exact itemsRefs_flavor (.list f l' :: l) h1
  | .str o :: l, h1 =>
    simp only [exprOk] at h1
    exact itemsRefs_flavor (.str o :: l) h1
  | .op .other :: l, h => simp [exprOk, itemsOk, itemOk] at h
  | .op .all :: _ :: _, h => simp [exprOk, itemsOk, itemOk] at h
  | [.op .range], h => simp [exprOk, itemsOk, itemOk] at h
  | [.op .range, _], h => simp [exprOk, itemsOk, itemOk] at h
  | .op .range :: _ :: _ :: _ :: _, h => simp [exprOk, itemsOk, itemOk] at h
  | [.op .not], h => simp [exprOk, itemsOk, itemOk] at h
  | .op .not :: _ :: _ :: _, h => simp [exprOk, itemsOk, itemOk] at h
  | [.op .or], h => simp [exprOk, itemsOk, itemOk] at h
  | [.op .or, _], h => simp [exprOk, itemsOk, itemOk] at h
  | .op .or :: _ :: _ :: _ :: _, h => simp [exprOk, itemsOk, itemOk] at h
  | [.op .and], h => simp [exprOk, itemsOk, itemOk] at h
  | [.op .and, _], h => simp [exprOk, itemsOk, itemOk] at h
  | .op .and :: _ :: _ :: _ :: _, h => simp [exprOk, itemsOk, itemOk] at h
  | [.op .xor], h => simp [exprOk, itemsOk, itemOk] at h
  | [.op .xor, _], h => simp [exprOk, itemsOk, itemOk] at h
  | .op .xor :: _ :: _ :: _ :: _, h => simp [exprOk, itemsOk, itemOk] at h
termination_by (sizeOf l, 1)

theorem itemsRefs_flavor {db : Db} {f : Flavor} : (l : List Item) → itemsOk db f l → ∀ d ∈ itemsRefs l,
    ∃ x, db.datums[d]? = some x ∧ x.flavor = f
  | [], _ => by simp [itemsRefs]
  | i :: l, h1 => by
    rw [itemsOk] at h1
    intro d hd
    simp only [itemsRefs, List.mem_append] at hd
    rcases hd with h | h
    · exact itemRefs_flavor i h1.1 d h
    · exact itemsRefs_flavor l h1.2 d h
termination_by l => (sizeOf l, 0)

end

theorem refs_catset {db : Db} {d : Nat} {x : Expr} (h : db.datums[d]? = some (.catset x)) :
    db.refs d = itemsRefs x.items := by unfold Db.refs; rw [h]

theorem num_lt {db : Db} {ρ} (ok : DbOk db) (ac : Acyclic db) (hρ : Meaning db ρ) (d : Nat) {x : Datum}
    (hx : db.datums[d]? = some x) (n : Nat) (hn : ρ d n) : n < db.num x.flavor := by
  obtain ⟨rank, hr⟩ := ac
  have : ∀ r d, rank d = r → ∀ x, db.datums[d]? = some x → ∀ n, ρ d n → n < db.num x.flavor := by
    intro r
    induction r using Nat.strongRecOn with
    | _ r ih =>
      intro d hd x hx n hn
      have hmd := hρ d n
      have hr' := hr d
      unfold Db.refs at hr'
      rw [hx] at hmd hr'
      have key : ∀ f, ∀ l, exprOk db f l → (∀ c ∈ itemsRefs l, rank c < rank d) →
          ∀ n, exprSet ρ (db.num f) l n → n < db.num f := by
        intro f l h1 h2
        refine exprSet_lt ok hρ l h1 fun c hc m hm => ?_
        obtain ⟨y, h3, h4⟩ := exprRefs_flavor l h1 c hc
        rw [← h4]
        have := h2 c hc
        exact ih (rank c) (by omega) c rfl y h3 m hm
      cases x with
      | type v => rw [hmd.1 hn]; exact (ok.value d v).1 (.inl hx)
      | typealias v => rw [hmd.1 hn]; exact (ok.value d v).1 (.inr hx)
      | role v => rw [hmd.1 hn]; exact (ok.value d v).2.1 hx
      | user v => rw [hmd.1 hn]; exact (ok.value d v).2.2.1 hx
      | perm v => rw [hmd.1 hn]; exact (ok.value d v).2.2.2.1 hx
      | cat v => rw [hmd.1 hn]; exact (ok.value d v).2.2.2.2 (.inl hx)
      | catalias v => rw [hmd.1 hn]; exact (ok.value d v).2.2.2.2 (.inr hx)
      | typeattribute exprs =>
        obtain ⟨x, h1, h2⟩ := hmd.1 hn
        exact key .type x.items (ok.typeExpr d exprs hx x h1).2
          (fun c hc => hr' c (List.mem_flatMap.2 ⟨x, h1, hc⟩)) n h2
      | roleattribute exprs =>
        obtain ⟨x, h1, h2⟩ := hmd.1 hn
        exact key .role x.items (ok.roleExpr d exprs hx x h1).2
          (fun c hc => hr' c (List.mem_flatMap.2 ⟨x, h1, hc⟩)) n h2
      | userattribute exprs =>
        obtain ⟨x, h1, h2⟩ := hmd.1 hn
        exact key .user x.items (ok.userExpr d exprs hx x h1).2
          (fun c hc => hr' c (List.mem_flatMap.2 ⟨x, h1, hc⟩)) n h2
      | catset x => exact key .cat x.items (ok.catExpr d x hx).2 hr' n (hmd.1 hn)
  exact this _ d rfl x hx n hn

end Verif.CilSet
