import Verif.CilSet.Lemmas4

/-!
# The walks over the tree
-/

namespace Verif.CilSet
open Ebitmap (Ebitmap)

variable {db : Db} {ρ : Nat → Nat → Prop}

theorem attribute_claim (ok : DbOk db) (ac : Acyclic db) (hρ : Meaning db ρ) {d max : Nat} {exprs : List Expr}
    (h : db.attribute d = some (max, exprs)) :
    ∃ N, ∀ fuel, N ≤ fuel → ∀ m, Good db ρ m → m.bits d = none →
      Post db ρ (Tame db) m (ρ d) (attrBits db fuel m d max exprs) ∧
      ∀ m' e, attrBits db fuel m d max exprs = some (.ok (m', e)) → m'.bits d = some e := by
  have hi := ok.int
  have hmd := hρ d
  unfold Db.attribute at h
  split at h
  · next hx =>
    cases h
    simp only [hx] at hmd
    exact attr_claim ok hρ (by omega) exprs (ok.typeExpr d exprs hx)
      (fun x _ c _ => datum_claim ok ac hρ c) hmd fun h => tame_type h hx
  · next hx =>
    cases h
    simp only [hx] at hmd
    exact attr_claim ok hρ (by omega) exprs (ok.roleExpr d exprs hx)
      (fun x _ c _ => datum_claim ok ac hρ c) hmd fun h => tame_role h hx
  · next hx =>
    cases h
    simp only [hx] at hmd
    exact attr_claim ok hρ (by omega) exprs (ok.userExpr d exprs hx)
      (fun x _ c _ => datum_claim ok ac hρ c) hmd fun h => tame_user h hx
  · cases h

theorem evalAttrs_ok (ok : DbOk db) (ac : Acyclic db) (hρ : Meaning db ρ) (ds : List Nat) :
    ∃ N, ∀ fuel, N ≤ fuel → ∀ m, Good db ρ m →
      (∃ m', evalAttrs db fuel m ds = some (.ok m') ∧ Good db ρ m' ∧ Ext m m' ∧
        ∀ d ∈ ds, db.attribute d ≠ none → ∃ e, m'.bits d = some e) ∨
      (¬ Tame db ∧ evalAttrs db fuel m ds = some (.error .err)) := by
  induction ds with
  | nil => exact ⟨0, fun fuel _ m hg => .inl ⟨m, rfl, hg, Ext.refl m, by simp⟩⟩
  | cons d ds ih =>
    obtain ⟨N2, hN2⟩ := ih
    rcases ha : db.attribute d with _ | ⟨max, exprs⟩
    · refine ⟨N2, fun fuel hf m hg => ?_⟩
      rw [evalAttrs]; simp only [ha]
      rcases hN2 fuel hf m hg with ⟨m', h1, h2, h3, h4⟩ | h1
      · refine .inl ⟨m', h1, h2, h3, fun c hc hn => ?_⟩
        rcases List.mem_cons.1 hc with h | h
        · subst h; exact absurd ha hn
        · exact h4 c h hn
      · exact .inr h1
    · obtain ⟨N1, hN1⟩ := attribute_claim ok ac hρ ha
      refine ⟨N1 + N2, fun fuel hf m hg => ?_⟩
      rcases hb : m.bits d with _ | e
      · obtain ⟨h1, h2⟩ := hN1 fuel (by omega) m hg hb
        rw [evalAttrs]; simp only [ha, hb]
        rcases h1 with ⟨m1, e, h3, h4, h5, h6⟩ | ⟨h3, h4⟩
        · simp only [h3]
          have h7 := h2 m1 e h3
          rcases hN2 fuel (by omega) m1 h4 with ⟨m', g1, g2, g3, g4⟩ | h1
          · refine .inl ⟨m', g1, g2, h5.trans g3, fun c hc hn => ?_⟩
            rcases List.mem_cons.1 hc with h | h
            · subst h; exact ⟨e, g3.1 _ _ h7⟩
            · exact g4 c h hn
          · exact .inr h1
        · simp only [h4]
          exact .inr ⟨h3, trivial⟩
      · rw [evalAttrs]; simp only [ha, hb]
        rcases hN2 fuel (by omega) m hg with ⟨m', g1, g2, g3, g4⟩ | h1
        · refine .inl ⟨m', g1, g2, g3, fun c hc hn => ?_⟩
          rcases List.mem_cons.1 hc with h | h
          · subst h; exact ⟨e, g3.1 _ _ hb⟩
          · exact g4 c h hn
        · exact .inr h1

theorem evalCats_ok (ok : DbOk db) (ac : Acyclic db) (hρ : Meaning db ρ) (ds : List Nat) :
    ∃ N, ∀ fuel, N ≤ fuel → ∀ m, Good db ρ m →
      (∃ m', evalCats db fuel m ds = some (.ok m') ∧ Good db ρ m' ∧ Ext m m' ∧
        ∀ d ∈ ds, ∀ x, db.datums[d]? = some (.catset x) → ∃ l : List Nat,
          (m'.cats d = some l ∨ (∀ l', m'.cats d = some l' → False) ∧ x.items = l.map Item.datum) ∧
          ∀ n, ρ d n ↔ ∃ c ∈ l, db.datums[c]? = some (.cat n)) ∨
      (¬ Tame db ∧ evalCats db fuel m ds = some (.error .err)) := by
  induction ds with
  | nil => exact ⟨0, fun fuel _ m hg => .inl ⟨m, rfl, hg, Ext.refl m, by simp⟩⟩
  | cons d ds ih =>
    obtain ⟨N2, hN2⟩ := ih
    by_cases hc : ∃ x, db.datums[d]? = some (.catset x)
    · obtain ⟨x, hx⟩ := hc
      obtain ⟨N1, hN1⟩ := cats_claim ok ac hρ hx fun c _ => datum_claim ok ac hρ c
      refine ⟨N1 + N2, fun fuel hf m hg => ?_⟩
      rw [evalCats]; simp only [hx]
      rcases hN1 fuel (by omega) m hg with ⟨m1, l, h1, h2, h3, h4, h5, h6⟩ | ⟨h1, h2⟩
      · simp only [h1]
        rcases hN2 fuel (by omega) m1 h2 with ⟨m', g1, g2, g3, g4⟩ | h1
        · refine .inl ⟨m', g1, g2, h3.trans g3, fun c hc y hy => ?_⟩
          rcases List.mem_cons.1 hc with h | h
          · subst h
            rw [hx] at hy; cases hy
            rcases h6 with h6 | h6
            · exact ⟨l, .inl (g3.2 _ _ h6), h5⟩
            · rcases h7 : m'.cats c with _ | l'
              · exact ⟨l, .inr ⟨by simp, h6.symm⟩, h5⟩
              · exact ⟨l', .inl rfl, (g2.cats c l' h7).2⟩
          · exact g4 c h y hy
        · exact .inr h1
      · simp only [h2]
        exact .inr ⟨h1, trivial⟩
    · refine ⟨N2, fun fuel hf m hg => ?_⟩
      have e : evalCats db fuel m (d :: ds) = evalCats db fuel m ds := by
        rw [evalCats.eq_def]
        simp only
        split
        · next x hx => exact absurd ⟨x, hx⟩ hc
        · rfl
      rw [e]
      rcases hN2 fuel hf m hg with ⟨m', h1, h2, h3, h4⟩ | h1
      · refine .inl ⟨m', h1, h2, h3, fun c hcc y hy => ?_⟩
        rcases List.mem_cons.1 hcc with h | h
        · subst h; exact absurd ⟨y, hy⟩ hc
        · exact h4 c h y hy
      · exact .inr h1

/-! ### Roles and users -/

/-- The stored bitmaps stand for the relation. -/
def AOk (a : Assigned) (S : Nat → Nat → Prop) : Prop :=
  ∀ r, BitsOk ((a r).getD Ebitmap.init) (S r)

theorem assignTypes_ok (ok : DbOk db) (hρ : Meaning db ρ) {m : Memo} (hg : Good db ρ m) {t : Nat} {x : Datum}
    (hx : db.datums[t]? = some x) (hf : x.flavor = .type)
    (hm : ∀ exprs, x = .typeattribute exprs → ∃ e, m.bits t = some e)
    {old : Option Ebitmap} {S : Nat → Prop} (hs : BitsOk (old.getD Ebitmap.init) S) :
    ∃ e, assignTypes db m old t = .ok (some e) ∧ BitsOk e fun n => S n ∨ ρ t n := by
  have hi := ok.int
  have hmd := hρ t
  have hval := ok.value t
  simp only [hx] at hmd hval
  cases x <;> simp only [Datum.flavor] at hf <;> try cases hf
  · next v =>
    have := (hval v).1 (.inl rfl)
    obtain ⟨e, h1, h2⟩ := set_ok hs (v := v) (by omega)
    exact ⟨e, by simp only [assignTypes, hx, h1], h2.congr fun n => or_congr Iff.rfl (hmd n).symm⟩
  · next v =>
    have := (hval v).1 (.inr rfl)
    obtain ⟨e, h1, h2⟩ := set_ok hs (v := v) (by omega)
    exact ⟨e, by simp only [assignTypes, hx, h1], h2.congr fun n => or_congr Iff.rfl (hmd n).symm⟩
  · next exprs =>
    obtain ⟨e, he⟩ := hm _ rfl
    exact ⟨_, by simp only [assignTypes, hx, he], union_ok hs (hg.bits t e he)⟩

theorem assignRoles_ok (ok : DbOk db) (hρ : Meaning db ρ) {m : Memo} (hg : Good db ρ m) {t : Nat} {x : Datum}
    (hx : db.datums[t]? = some x) (hf : x.flavor = .role)
    (hm : ∀ exprs, x = .roleattribute exprs → ∃ e, m.bits t = some e)
    {old : Option Ebitmap} {S : Nat → Prop} (hs : BitsOk (old.getD Ebitmap.init) S) :
    ∃ e, assignRoles db m old t = .ok (some e) ∧ BitsOk e fun n => S n ∨ ρ t n := by
  have hi := ok.int
  have hmd := hρ t
  have hval := ok.value t
  simp only [hx] at hmd hval
  cases x <;> simp only [Datum.flavor] at hf <;> try cases hf
  · next v =>
    have := (hval v).2.1 rfl
    obtain ⟨e, h1, h2⟩ := set_ok hs (v := v) (by omega)
    exact ⟨e, by simp only [assignRoles, hx, h1], h2.congr fun n => or_congr Iff.rfl (hmd n).symm⟩
  · next exprs =>
    obtain ⟨e, he⟩ := hm _ rfl
    exact ⟨_, by simp only [assignRoles, hx, he], union_ok hs (hg.bits t e he)⟩

theorem assign_one {a : Assigned} {S : Nat → Nat → Prop} (ha : AOk a S) {v : Nat} {e : Ebitmap} {T : Nat → Prop}
    (he : BitsOk e fun n => S v n ∨ T n) :
    AOk (fun x => if x = v then some e else a x) fun r n => S r n ∨ r = v ∧ T n := by
  intro r
  by_cases h : r = v
  · subst h; simp only [if_pos]; exact he.congr fun n => by simp
  · simp only [if_neg h]; exact (ha r).congr fun n => by simp [h]

theorem assignAll_ok {num : Nat} {assign : Option Ebitmap → Except Stop (Option Ebitmap)} {T : Nat → Prop}
    (has : ∀ old S, BitsOk (old.getD Ebitmap.init) S → ∃ e, assign old = .ok (some e) ∧ BitsOk e fun n => S n ∨ T n)
    (vs : List Nat) (hv : ∀ v ∈ vs, v < num) (a : Assigned) (S : Nat → Nat → Prop) (ha : AOk a S) :
    ∃ a', assignAll num assign a vs = .ok a' ∧ AOk a' fun r n => S r n ∨ r ∈ vs ∧ T n := by
  induction vs generalizing a S with
  | nil => exact ⟨a, rfl, fun r => (ha r).congr fun n => by simp⟩
  | cons v vs ih =>
    obtain ⟨e, h1, h2⟩ := has (a v) (S v) (ha v)
    obtain ⟨a', h3, h4⟩ := ih (fun v hvv => hv v (List.mem_cons_of_mem _ hvv)) _ _ (assign_one ha h2)
    refine ⟨a', ?_, fun r => (h4 r).congr fun n => ?_⟩
    · rw [assignAll, if_pos (hv v (List.mem_cons_self ..))]; simp only [h1, h3]
    · simp only [List.mem_cons]
      constructor
      · rintro ((h | h) | h)
        · exact .inl h
        · exact .inr ⟨.inl h.1, h.2⟩
        · exact .inr ⟨.inr h.1, h.2⟩
      · rintro (h | ⟨h | h, h'⟩)
        · exact .inl (.inl h)
        · exact .inl (.inr ⟨h, h'⟩)
        · exact .inr ⟨h, h'⟩

theorem positiveBits_ok {e : Ebitmap} {S : Nat → Prop} (h : BitsOk e S) :
    ∃ l, positiveBits e = some l ∧ ∀ b, b ∈ l ↔ S b := by
  refine ⟨_, Ebitmap.C04_for_each_positive_bit h.1 (Nat.le_refl _), fun b => ?_⟩
  have i := (Ebitmap.wf_iff_inv e).1 h.1
  simp only [List.mem_filter, List.mem_range]
  rw [← h.2]
  constructor
  · exact fun h => h.2
  · exact fun h => ⟨Nat.lt_trans (Ebitmap.getBit_lt_high i h) i.small, h⟩

/-- The statement names a symbol of the kind, and if it is an attribute it has been evaluated. -/
def Named (db : Db) (m : Memo) (f : Flavor) (d : Nat) : Prop :=
  ∃ x, db.datums[d]? = some x ∧ x.flavor = f ∧ (db.attribute d ≠ none → ∃ e, m.bits d = some e)

theorem roleTypes_ok (ok : DbOk db) (ac : Acyclic db) (hρ : Meaning db ρ) {m : Memo} (hg : Good db ρ m)
    (l : List (Nat × Nat)) (hl : ∀ p ∈ l, Named db m .role p.1 ∧ Named db m .type p.2)
    (a : Assigned) (S : Nat → Nat → Prop) (ha : AOk a S) :
    ∃ a', roleTypes db m a l = .ok a' ∧ AOk a' fun r t => S r t ∨ ∃ p ∈ l, ρ p.1 r ∧ ρ p.2 t := by
  induction l generalizing a S with
  | nil => exact ⟨a, rfl, fun r => (ha r).congr fun n => by simp⟩
  | cons p l ih =>
    obtain ⟨r, t⟩ := p
    obtain ⟨⟨x, hx, hxf, hxe⟩, y, hy, hyf, hye⟩ := hl (r, t) (List.mem_cons_self ..)
    have has : ∀ old S, BitsOk (old.getD Ebitmap.init) S →
        ∃ e, assignTypes db m old t = .ok (some e) ∧ BitsOk e fun n => S n ∨ ρ t n := fun old S hs =>
      assignTypes_ok ok hρ hg hy hyf (fun exprs he => hye (by subst he; simp [Db.attribute, hy])) hs
    have ih := ih fun p hp => hl p (List.mem_cons_of_mem _ hp)
    have hmd := hρ r
    have hlt := fun n => num_lt ok ac hρ r hx n
    simp only [hx] at hmd
    cases x <;> simp only [Datum.flavor] at hxf <;> try cases hxf
    · next v =>
      obtain ⟨e, h1, h2⟩ := has (a v) (S v) (ha v)
      obtain ⟨a', h3, h4⟩ := ih _ _ (assign_one ha h2)
      refine ⟨a', ?_, fun r' => (h4 r').congr fun n => ?_⟩
      · rw [roleTypes]; simp only [hx, h1, h3]
      · simp only [List.mem_cons, exists_eq_or_imp, hmd, or_assoc]
    · next exprs =>
      obtain ⟨b, hb⟩ := hxe (by simp [Db.attribute, hx])
      obtain ⟨vs, hv1, hv2⟩ := positiveBits_ok (hg.bits r b hb)
      obtain ⟨a1, h1, h2⟩ := assignAll_ok has vs (fun v hv => hlt v ((hv2 v).1 hv)) a S ha
      obtain ⟨a', h3, h4⟩ := ih _ _ h2
      refine ⟨a', ?_, fun r' => (h4 r').congr fun n => ?_⟩
      · have h1' : assignAll db.numRoles (fun old => assignTypes db m old t) a vs = .ok a1 := h1
        rw [roleTypes]; simp only [hx, hb, hv1, h1', h3]
      · simp only [List.mem_cons, exists_eq_or_imp, hv2, or_assoc]

theorem userRoles_ok (ok : DbOk db) (ac : Acyclic db) (hρ : Meaning db ρ) {m : Memo} (hg : Good db ρ m)
    (l : List (Nat × Nat)) (hl : ∀ p ∈ l, Named db m .user p.1 ∧ Named db m .role p.2)
    (a : Assigned) (S : Nat → Nat → Prop) (ha : AOk a S) :
    ∃ a', userRoles db m a l = .ok a' ∧ AOk a' fun r t => S r t ∨ ∃ p ∈ l, ρ p.1 r ∧ ρ p.2 t := by
  induction l generalizing a S with
  | nil => exact ⟨a, rfl, fun r => (ha r).congr fun n => by simp⟩
  | cons p l ih =>
    obtain ⟨r, t⟩ := p
    obtain ⟨⟨x, hx, hxf, hxe⟩, y, hy, hyf, hye⟩ := hl (r, t) (List.mem_cons_self ..)
    have has : ∀ old S, BitsOk (old.getD Ebitmap.init) S →
        ∃ e, assignRoles db m old t = .ok (some e) ∧ BitsOk e fun n => S n ∨ ρ t n := fun old S hs =>
      assignRoles_ok ok hρ hg hy hyf (fun exprs he => hye (by subst he; simp [Db.attribute, hy])) hs
    have ih := ih fun p hp => hl p (List.mem_cons_of_mem _ hp)
    have hmd := hρ r
    have hlt := fun n => num_lt ok ac hρ r hx n
    simp only [hx] at hmd
    cases x <;> simp only [Datum.flavor] at hxf <;> try cases hxf
    · next v =>
      obtain ⟨e, h1, h2⟩ := has (a v) (S v) (ha v)
      obtain ⟨a', h3, h4⟩ := ih _ _ (assign_one ha h2)
      refine ⟨a', ?_, fun r' => (h4 r').congr fun n => ?_⟩
      · rw [userRoles]; simp only [hx, h1, h3]
      · simp only [List.mem_cons, exists_eq_or_imp, hmd, or_assoc]
    · next exprs =>
      obtain ⟨b, hb⟩ := hxe (by simp [Db.attribute, hx])
      obtain ⟨vs, hv1, hv2⟩ := positiveBits_ok (hg.bits r b hb)
      obtain ⟨a1, h1, h2⟩ := assignAll_ok has vs (fun v hv => hlt v ((hv2 v).1 hv)) a S ha
      obtain ⟨a', h3, h4⟩ := ih _ _ h2
      refine ⟨a', ?_, fun r' => (h4 r').congr fun n => ?_⟩
      · have h1' : assignAll db.numUsers (fun old => assignRoles db m old t) a vs = .ok a1 := h1
        rw [userRoles]; simp only [hx, hb, hv1, h1', h3]
      · simp only [List.mem_cons, exists_eq_or_imp, hv2, or_assoc]

end Verif.CilSet
