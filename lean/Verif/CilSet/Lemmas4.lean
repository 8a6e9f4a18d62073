import Verif.CilSet.Lemmas3

/-!
# The evaluation of symbols, and of the database
-/

namespace Verif.CilSet
open Ebitmap (Ebitmap)

variable {db : Db} {ρ : Nat → Nat → Prop}

theorem exprs_claim (ok : DbOk db) (hρ : Meaning db ρ) {f : Flavor} {max : Nat} (hm : max < 2 ^ 31)
    (exprs : List Expr) (hx : ∀ x ∈ exprs, x.flavor = f ∧ exprOk db f x.items)
    (hd : ∀ x ∈ exprs, ∀ d ∈ itemsRefs x.items, DatumClaim db ρ d) :
    ∃ N, ∀ fuel, N ≤ fuel → ∀ m, Good db ρ m → ∀ (out : Ebitmap) (S : Nat → Prop), BitsOk out S →
      Post db ρ (Tame db ∧ ∀ x ∈ exprs, exprTame db f max x.items) m
        (fun n => S n ∨ ∃ x ∈ exprs, exprSet ρ max x.items n) (exprsBits db fuel m max out exprs) := by
  induction exprs with
  | nil =>
    refine ⟨1, fun fuel hf m hg out S hs => ?_⟩
    obtain ⟨k, rfl⟩ : ∃ k, fuel = k + 1 := ⟨fuel - 1, by omega⟩
    rw [exprsBits.eq_def]
    exact .inl ⟨m, out, rfl, hg, Ext.refl m, hs.congr fun n => by simp⟩
  | cons x exprs ih =>
    obtain ⟨h1, h2⟩ := hx x (List.mem_cons_self ..)
    obtain ⟨N1, hN1⟩ := expr_claim ok hρ hm x.items h2 (hd x (List.mem_cons_self ..))
    obtain ⟨N2, hN2⟩ := ih (fun y hy => hx y (List.mem_cons_of_mem _ hy)) fun y hy => hd y (List.mem_cons_of_mem _ hy)
    refine ⟨N1 + N2 + 1, fun fuel hfu m hg out S hs => ?_⟩
    obtain ⟨k, rfl⟩ : ∃ k, fuel = k + 1 := ⟨fuel - 1, by omega⟩
    have hxe : (⟨f, x.items⟩ : Expr) = x := by rw [← h1]
    refine (hN1 k (by omega) m hg).bind (fun h => ⟨h.1, h.2 x (List.mem_cons_self ..)⟩) ?_ ?_
    · intro m1 e1 h3 h4 h5
      rw [hxe] at h3
      have := hN2 k (by omega) m1 h4 _ _ (union_ok hs h5)
      have e : exprsBits db (k + 1) m max out (x :: exprs) = exprsBits db k m1 max (Ebitmap.union out e1) exprs := by
        rw [exprsBits.eq_def]; simp only [h3]
      rw [e]
      exact this.imp (fun h => ⟨h.1, fun y hy => h.2 y (List.mem_cons_of_mem _ hy)⟩) fun n => by simp [or_assoc]
    · intro h3
      rw [hxe] at h3
      rw [exprsBits.eq_def]; simp only [h3]

theorem Good.setBits {m : Memo} (h : Good db ρ m) {d : Nat} {e : Ebitmap} (he : BitsOk e (ρ d)) :
    Good db ρ (m.setBits d e) where
  bits c e' hc := by
    simp only [Memo.setBits] at hc
    split at hc
    · next h1 => cases hc; subst h1; exact he
    · exact h.bits c e' hc
  cats := h.cats

theorem Good.setCats {m : Memo} (h : Good db ρ m) {d : Nat} {l : List Nat}
    (hl : (∀ c ∈ l, ∃ v, db.datums[c]? = some (.cat v)) ∧
      ∀ n, ρ d n ↔ ∃ c ∈ l, db.datums[c]? = some (.cat n)) :
    Good db ρ (m.setCats d l) where
  bits := h.bits
  cats c l' hc := by
    simp only [Memo.setCats] at hc
    split at hc
    · next h1 => cases hc; subst h1; exact hl
    · exact h.cats c l' hc

theorem attr_claim (ok : DbOk db) (hρ : Meaning db ρ) {f : Flavor} {max : Nat} (hm : max < 2 ^ 31) {d : Nat}
    (exprs : List Expr) (hx : ∀ x ∈ exprs, x.flavor = f ∧ exprOk db f x.items)
    (hd : ∀ x ∈ exprs, ∀ d ∈ itemsRefs x.items, DatumClaim db ρ d)
    (hset : ∀ n, ρ d n ↔ ∃ x ∈ exprs, exprSet ρ max x.items n)
    (htame : Tame db → ∀ x ∈ exprs, exprTame db f max x.items) :
    ∃ N, ∀ fuel, N ≤ fuel → ∀ m, Good db ρ m → m.bits d = none →
      Post db ρ (Tame db) m (ρ d) (attrBits db fuel m d max exprs) ∧
      ∀ m' e, attrBits db fuel m d max exprs = some (.ok (m', e)) → m'.bits d = some e := by
  obtain ⟨N, hN⟩ := exprs_claim ok hρ hm exprs hx hd
  refine ⟨N + 1, fun fuel hfu m hg hno => ?_⟩
  obtain ⟨k, rfl⟩ : ∃ k, fuel = k + 1 := ⟨fuel - 1, by omega⟩
  rw [attrBits.eq_def]
  rcases hN k (by omega) m hg _ _ init_ok with ⟨m', e, h1, h2, h3, h4⟩ | ⟨h1, h2⟩
  · have h5 : BitsOk e (ρ d) := h4.congr fun n => by rw [hset]; simp
    simp only [h1]
    refine ⟨.inl ⟨m'.setBits d e, e, rfl, h2.setBits h5, ⟨fun c e' hc => ?_, h3.2⟩, h5⟩, ?_⟩
    · simp only [Memo.setBits]
      split
      · next h6 => subst h6; rw [hno] at hc; cases hc
      · exact h3.1 c e' hc
    · intro m2 e2 h6
      cases h6
      simp [Memo.setBits]
  · simp only [h2]
    exact ⟨.inr ⟨fun h => h1 ⟨h, htame h⟩, by simp⟩, by simp⟩

theorem cats_list {l : List Item} (hok : exprOk db .cat l)
    (hn : ∀ c v, Item.datum c ∈ l → db.datums[c]? ≠ some (.catalias v)) :
    (∃ cs : List Nat, isList db .cat l = .ok true ∧ l = cs.map Item.datum ∧
      (∀ c ∈ cs, ∃ v, db.datums[c]? = some (.cat v)) ∧ exprSet ρ db.numCats l = unionSet ρ db.numCats l) ∨
      isList db .cat l = .ok false := by
  have key : itemsOk db .cat l → exprSet ρ db.numCats l = unionSet ρ db.numCats l →
      (∃ cs : List Nat, isList db .cat l = .ok true ∧ l = cs.map Item.datum ∧
        (∀ c ∈ cs, ∃ v, db.datums[c]? = some (.cat v)) ∧ exprSet ρ db.numCats l = unionSet ρ db.numCats l) ∨
      isList db .cat l = .ok false := fun h1 h2 => by
    obtain ⟨b, h3, h4⟩ := isList_ok h1 hn
    cases b
    · exact .inr h3
    · obtain ⟨cs, h5, h6⟩ := h4 rfl
      exact .inl ⟨cs, h3, h5, h6, h2⟩
  match l, hok, key with
  | [], _, key => exact key (by simp [itemsOk]) (by simp [exprSet])
  | .op _ :: _, _, _ => exact .inr (by simp [isList])
  | .datum _ :: _, h1, key => exact key (by simpa [exprOk] using h1) (by simp [exprSet])
  | .list _ _ :: _, h1, key => exact key (by simpa [exprOk] using h1) (by simp [exprSet])
  | .str _ :: _, h1, key => exact key (by simpa [exprOk] using h1) (by simp [exprSet])

theorem cats_claim (ok : DbOk db) (ac : Acyclic db) (hρ : Meaning db ρ) {d : Nat} {x : Expr}
    (hx : db.datums[d]? = some (.catset x))
    (hd : ∀ d ∈ itemsRefs x.items, DatumClaim db ρ d) :
    ∃ N, ∀ fuel, N ≤ fuel → ∀ m, Good db ρ m →
      (∃ m' l, catsBits db fuel m d x = some (.ok (m', l.map Item.datum)) ∧ Good db ρ m' ∧ Ext m m' ∧
        (∀ c ∈ l, ∃ v, db.datums[c]? = some (.cat v)) ∧
        (∀ n, ρ d n ↔ ∃ c ∈ l, db.datums[c]? = some (.cat n)) ∧
        (m'.cats d = some l ∨ l.map Item.datum = x.items)) ∨
      (¬ Tame db ∧ catsBits db fuel m d x = some (.error .err)) := by
  obtain ⟨hf, hok⟩ := ok.catExpr d x hx
  have hi := ok.int
  obtain ⟨N, hN⟩ := expr_claim ok hρ (max := db.numCats) (by omega) x.items hok hd
  have hset : ∀ n, ρ d n ↔ exprSet ρ db.numCats x.items n := by
    intro n; have := hρ d n; rwa [hx] at this
  refine ⟨N + 1, fun fuel hfu m hg => ?_⟩
  obtain ⟨k, rfl⟩ : ∃ k, fuel = k + 1 := ⟨fuel - 1, by omega⟩
  rcases hc : m.cats d with _ | l
  · have hlist : (∃ l : List Nat, isList db .cat x.items = .ok true ∧ x.items = l.map Item.datum ∧
        (∀ c ∈ l, ∃ v, db.datums[c]? = some (.cat v)) ∧ exprSet ρ db.numCats x.items = unionSet ρ db.numCats x.items) ∨
        isList db .cat x.items = .ok false := by
      exact cats_list hok fun c v => ok.noAlias d x c v hx
    rcases hlist with ⟨l, h1, h2, h3, h4⟩ | h1
    · refine .inl ⟨m, l, ?_, hg, Ext.refl m, h3, fun n => ?_, .inr h2.symm⟩
      · rw [catsBits.eq_def]; simp only [hc, h1]; rw [h2]
      · rw [hset, h4, unionSet_iff, h2]
        simp only [List.mem_map]
        constructor
        · rintro ⟨i, ⟨c, hcl, rfl⟩, h5⟩
          obtain ⟨v, hv⟩ := h3 c hcl
          have := hρ c n
          rw [hv] at this
          simp only [itemSet] at h5
          exact ⟨c, hcl, by rw [this.1 h5]; exact hv⟩
        · rintro ⟨c, hcl, h5⟩
          refine ⟨_, ⟨c, hcl, rfl⟩, ?_⟩
          have := hρ c n
          rw [h5] at this
          simp only [itemSet]
          exact this.2 rfl
    · have hxe : (⟨.cat, x.items⟩ : Expr) = x := by rw [← hf]
      have htame : Tame db → exprTame db .cat db.numCats x.items := by
        intro h; have := h d; rwa [hx] at this
      rcases hN k (by omega) m hg with ⟨m', e, h2, h3, h4, h5⟩ | ⟨h2, h3⟩
      · rw [hxe] at h2
        obtain ⟨l, h6, h7⟩ := catFilter_ok ok e
        have h8 : ∀ c ∈ l, ∃ v, db.datums[c]? = some (.cat v) := by
          intro c hcl
          obtain ⟨-, v, hv, -⟩ := (h7 c).1 hcl
          exact ⟨v, hv⟩
        have h9 : ∀ n, ρ d n ↔ ∃ c ∈ l, db.datums[c]? = some (.cat n) := by
          intro n
          constructor
          · intro hn
            obtain ⟨c, h10, h11⟩ := ok.complete n (num_lt ok ac hρ d hx n hn)
            refine ⟨c, (h7 c).2 ⟨h10, n, h11, ?_⟩, h11⟩
            rw [h5.2, ← hset]; exact hn
          · rintro ⟨c, hcl, h10⟩
            obtain ⟨-, v, hv, h11⟩ := (h7 c).1 hcl
            rw [h10] at hv; cases hv
            rw [h5.2, ← hset] at h11; exact h11
        refine .inl ⟨m'.setCats d l, l, ?_, h3.setCats ⟨h8, h9⟩, ⟨h4.1, fun c l' hcc => ?_⟩, h8, h9, .inl ?_⟩
        · rw [catsBits.eq_def]; simp only [hc, h1, h2, h6]
        · simp only [Memo.setCats]
          split
          · next h10 => subst h10; rw [hc] at hcc; cases hcc
          · exact h4.2 c l' hcc
        · simp [Memo.setCats]
      · rw [hxe] at h3
        refine .inr ⟨fun h => h2 ⟨h, htame h⟩, ?_⟩
        rw [catsBits.eq_def]; simp only [hc, h1, h3]
  · obtain ⟨h1, h2⟩ := hg.cats d l hc
    refine .inl ⟨m, l, ?_, hg, Ext.refl m, h1, h2, .inl hc⟩
    rw [catsBits.eq_def]; simp only [hc]

theorem datum_one {m : Memo} {d v : Nat} {r : Res (Memo × Ebitmap)} (hg : Good db ρ m)
    (hv : v < 2 ^ 31) (hs : ∀ n, ρ d n ↔ n = v)
    (hr : ∀ e, setBit Ebitmap.init v = .ok e → r = some (.ok (m, e))) : Post db ρ (Tame db) m (ρ d) r := by
  obtain ⟨e, h1, h2⟩ := set_ok init_ok hv
  exact .inl ⟨m, e, hr e h1, hg, Ext.refl m, h2.congr fun n => by rw [hs]; simp⟩

theorem datum_attr {m : Memo} {d : Nat} {f : Flavor} {max fuel : Nat} {exprs : List Expr}
    (hg : Good db ρ m)
    (hr : ∀ m, Good db ρ m → m.bits d = none → Post db ρ (Tame db) m (ρ d) (attrBits db fuel m d max exprs))
    (h1 : ∀ e, m.bits d = some e → datumBits db (fuel + 1) m f d = some (.ok (m, Ebitmap.union Ebitmap.init e)))
    (h2 : ∀ m' e, m.bits d = none → attrBits db fuel m d max exprs = some (.ok (m', e)) →
      datumBits db (fuel + 1) m f d = some (.ok (m', Ebitmap.union Ebitmap.init e)))
    (h3 : m.bits d = none → attrBits db fuel m d max exprs = some (.error .err) →
      datumBits db (fuel + 1) m f d = some (.error .err)) :
    Post db ρ (Tame db) m (ρ d) (datumBits db (fuel + 1) m f d) := by
  rcases hb : m.bits d with _ | e
  · refine (hr m hg hb).bind id ?_ (h3 hb)
    intro m' e h4 h5 h6
    exact .inl ⟨m', _, h2 m' e hb h4, h5, Ext.refl _, copy_ok h6⟩
  · exact .inl ⟨m, _, h1 e hb, hg, Ext.refl m, copy_ok (hg.bits d e hb)⟩

theorem tame_type (h : Tame db) {d : Nat} {exprs} (hx : db.datums[d]? = some (.typeattribute exprs)) :
    ∀ x ∈ exprs, exprTame db .type db.numTypes x.items := by have := h d; rwa [hx] at this

theorem tame_role (h : Tame db) {d : Nat} {exprs} (hx : db.datums[d]? = some (.roleattribute exprs)) :
    ∀ x ∈ exprs, exprTame db .role db.numRoles x.items := by have := h d; rwa [hx] at this

theorem tame_user (h : Tame db) {d : Nat} {exprs} (hx : db.datums[d]? = some (.userattribute exprs)) :
    ∀ x ∈ exprs, exprTame db .user db.numUsers x.items := by have := h d; rwa [hx] at this

theorem datum_claim (ok : DbOk db) (ac : Acyclic db) (hρ : Meaning db ρ) (d : Nat) : DatumClaim db ρ d := by
  have ac' := ac
  obtain ⟨rank, hr⟩ := ac
  have hi := ok.int
  have : ∀ r d, rank d = r → DatumClaim db ρ d := by
    intro r
    induction r using Nat.strongRecOn with
    | _ r ih =>
      intro d hrd x hx
      have hrefs : ∀ c ∈ db.refs d, DatumClaim db ρ c := fun c hc => by
        have := hr d c hc
        exact ih (rank c) (by omega) c rfl
      have hmd := hρ d
      have hval := ok.value d
      unfold Db.refs at hrefs
      simp only [hx] at hmd hrefs hval
      cases x with
      | type v =>
        refine ⟨1, fun fuel hf m hg => ?_⟩
        obtain ⟨k, rfl⟩ : ∃ k, fuel = k + 1 := ⟨fuel - 1, by omega⟩
        have := (hval v).1 (.inl rfl)
        exact datum_one hg (by omega) hmd fun e he => by rw [datumBits.eq_def]; simp only [Datum.flavor, hx, he]
      | typealias v =>
        refine ⟨1, fun fuel hf m hg => ?_⟩
        obtain ⟨k, rfl⟩ : ∃ k, fuel = k + 1 := ⟨fuel - 1, by omega⟩
        have := (hval v).1 (.inr rfl)
        exact datum_one hg (by omega) hmd fun e he => by rw [datumBits.eq_def]; simp only [Datum.flavor, hx, he]
      | role v =>
        refine ⟨1, fun fuel hf m hg => ?_⟩
        obtain ⟨k, rfl⟩ : ∃ k, fuel = k + 1 := ⟨fuel - 1, by omega⟩
        have := (hval v).2.1 rfl
        exact datum_one hg (by omega) hmd fun e he => by rw [datumBits.eq_def]; simp only [Datum.flavor, hx, he]
      | user v =>
        refine ⟨1, fun fuel hf m hg => ?_⟩
        obtain ⟨k, rfl⟩ : ∃ k, fuel = k + 1 := ⟨fuel - 1, by omega⟩
        have := (hval v).2.2.1 rfl
        exact datum_one hg (by omega) hmd fun e he => by rw [datumBits.eq_def]; simp only [Datum.flavor, hx, he]
      | perm v =>
        refine ⟨1, fun fuel hf m hg => ?_⟩
        obtain ⟨k, rfl⟩ : ∃ k, fuel = k + 1 := ⟨fuel - 1, by omega⟩
        have := (hval v).2.2.2.1 rfl
        exact datum_one hg (by omega) hmd fun e he => by rw [datumBits.eq_def]; simp only [Datum.flavor, hx, he]
      | cat v =>
        refine ⟨1, fun fuel hf m hg => ?_⟩
        obtain ⟨k, rfl⟩ : ∃ k, fuel = k + 1 := ⟨fuel - 1, by omega⟩
        have := (hval v).2.2.2.2 (.inl rfl)
        exact datum_one hg (by omega) hmd fun e he => by rw [datumBits.eq_def]; simp only [Datum.flavor, hx, he]
      | catalias v =>
        refine ⟨1, fun fuel hf m hg => ?_⟩
        obtain ⟨k, rfl⟩ : ∃ k, fuel = k + 1 := ⟨fuel - 1, by omega⟩
        have := (hval v).2.2.2.2 (.inr rfl)
        exact datum_one hg (by omega) hmd fun e he => by rw [datumBits.eq_def]; simp only [Datum.flavor, hx, he]
      | typeattribute exprs =>
        obtain ⟨N, hN⟩ := attr_claim ok hρ (max := db.numTypes) (by omega) exprs (ok.typeExpr d exprs hx)
          (fun x hxe c hc => hrefs c (List.mem_flatMap.2 ⟨x, hxe, hc⟩)) hmd fun h => tame_type h hx
        refine ⟨N + 1, fun fuel hf m hg => ?_⟩
        obtain ⟨k, rfl⟩ : ∃ k, fuel = k + 1 := ⟨fuel - 1, by omega⟩
        refine datum_attr hg (fun m hm1 hm2 => (hN k (by omega) m hm1 hm2).1) ?_ ?_ ?_
        · intro e h1; rw [datumBits.eq_def]; simp only [Datum.flavor, hx, h1]
        · intro m' e h1 h2; rw [datumBits.eq_def]; simp only [Datum.flavor, hx, h1, h2]
        · intro h1 h2; rw [datumBits.eq_def]; simp only [Datum.flavor, hx, h1, h2]
      | roleattribute exprs =>
        obtain ⟨N, hN⟩ := attr_claim ok hρ (max := db.numRoles) (by omega) exprs (ok.roleExpr d exprs hx)
          (fun x hxe c hc => hrefs c (List.mem_flatMap.2 ⟨x, hxe, hc⟩)) hmd fun h => tame_role h hx
        refine ⟨N + 1, fun fuel hf m hg => ?_⟩
        obtain ⟨k, rfl⟩ : ∃ k, fuel = k + 1 := ⟨fuel - 1, by omega⟩
        refine datum_attr hg (fun m hm1 hm2 => (hN k (by omega) m hm1 hm2).1) ?_ ?_ ?_
        · intro e h1; rw [datumBits.eq_def]; simp only [Datum.flavor, hx, h1]
        · intro m' e h1 h2; rw [datumBits.eq_def]; simp only [Datum.flavor, hx, h1, h2]
        · intro h1 h2; rw [datumBits.eq_def]; simp only [Datum.flavor, hx, h1, h2]
      | userattribute exprs =>
        obtain ⟨N, hN⟩ := attr_claim ok hρ (max := db.numUsers) (by omega) exprs (ok.userExpr d exprs hx)
          (fun x hxe c hc => hrefs c (List.mem_flatMap.2 ⟨x, hxe, hc⟩)) hmd fun h => tame_user h hx
        refine ⟨N + 1, fun fuel hf m hg => ?_⟩
        obtain ⟨k, rfl⟩ : ∃ k, fuel = k + 1 := ⟨fuel - 1, by omega⟩
        refine datum_attr hg (fun m hm1 hm2 => (hN k (by omega) m hm1 hm2).1) ?_ ?_ ?_
        · intro e h1; rw [datumBits.eq_def]; simp only [Datum.flavor, hx, h1]
        · intro m' e h1 h2; rw [datumBits.eq_def]; simp only [Datum.flavor, hx, h1, h2]
        · intro h1 h2; rw [datumBits.eq_def]; simp only [Datum.flavor, hx, h1, h2]
      | catset x =>
        obtain ⟨N, hN⟩ := cats_claim ok ac' hρ hx hrefs
        refine ⟨N + 1, fun fuel hf m hg => ?_⟩
        obtain ⟨k, rfl⟩ : ∃ k, fuel = k + 1 := ⟨fuel - 1, by omega⟩
        rcases hN k (by omega) m hg with ⟨m', l, h1, h2, h3, h4, h5, -⟩ | ⟨h1, h2⟩
        · obtain ⟨e, h6, h7⟩ := catList_ok ok l h4 _ _ init_ok
          refine .inl ⟨m', e, ?_, h2, h3, h7.congr fun n => by rw [h5]; simp⟩
          rw [datumBits.eq_def]; simp only [Datum.flavor, hx, h1, h6]
        · refine .inr ⟨h1, ?_⟩
          rw [datumBits.eq_def]; simp only [Datum.flavor, hx, h2]
  exact this _ d rfl

end Verif.CilSet
