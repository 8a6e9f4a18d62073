import Verif.Assertion.Lemmas5

/-!
# Lemmas: the number of reports
-/

namespace Verif.Assertion
open Verif.Avtab Verif.Policy Verif.Optimize

theorem noClash {p : OPolicy} {σ0 : Cond.State} (ok : AssertOk p σ0) (na : Avrule) : ∀ c ∈ p.conds, NoClash na (nodeOf p) c := by
  intro c hc n hn hx
  rw [← List.map_append, List.mem_map] at hn
  obtain ⟨id, hid, rfl⟩ := hn
  have hl : id ∈ p.tab.ids := by
    rw [← ok.all]
    unfold listed
    rw [List.mem_flatMap]
    exact ⟨c, hc, hid⟩
  have o := ok.condRules id hl
  unfold nodeOf at hx ⊢
  rw [stamped_eq] at hx ⊢
  have hk := (allowed_iff o.kind (p.enabled id)).2
  have hk' : (p.tab.node id).key.specified = XPERMS_ALLOWED := by
    by_contra hc'
    exact hx (hk.mpr hc')
  have hd := ok.noData id hl (by rw [hk']; decide)
  show matchAnyClassPermissions na.perms (p.tab.node id).key.cls (p.tab.node id).datum.data = false
  rw [hd]
  apply eq_false_of_ne_true
  rw [matchAny_perms]
  rintro ⟨cp, -, -, b, -, -, h⟩
  simp at h

theorem reportXperms_spec {p : OPolicy} {σ0 : Cond.State} (ok : AssertOk p σ0) (na : Avrule) {i j : Nat} (k : Key) (cd : Bool)
    (hi : i < p.sp.pol.nTypes) (hj : j < p.sp.pol.nTypes) :
    ∃ n, reportXperms p na i j k cd = some n ∧ (checkXpermsAvtab p na i j k cd = some true → 0 < n) := by
  obtain ⟨sa, hsa⟩ := ok.attr i hi
  obtain ⟨ta, hta⟩ := ok.attr j hj
  obtain ⟨ss, hss, mss⟩ := bits_spec (ok.attrWF _ _ hsa).1
  obtain ⟨ts, hts, mts⟩ := bits_spec (ok.attrWF _ _ hta).1
  unfold reportXperms checkXpermsAvtab
  rw [hsa, hta]
  simp only [Option.bind_some]
  rw [hss, hts]
  simp only [Option.bind_some]
  obtain ⟨h1, h2, h3⟩ := pairCount_spec p na k cd (noClash ok na) (pairsOf ss ts) 0 ⟨false, false, false⟩ ⟨false, false, false⟩ rfl rfl (fun h => h)
  generalize pairCount p na k cd (pairsOf ss ts) 0 ⟨false, false, false⟩ = r at *
  generalize pairScan p na k cd (pairsOf ss ts) ⟨false, false, false⟩ = s at *
  refine ⟨_, rfl, fun h => ?_⟩
  simp only [Option.some.injEq] at h
  by_cases hh : s.hit = true
  · have := h2 hh
    split <;> omega
  · have hh' := eq_false_of_ne_true hh
    obtain ⟨h4, h5⟩ := h3 hh'
    rw [hh', ← h4] at h
    rw [if_pos]
    · omega
    · simp only [Bool.false_or, Bool.or_eq_true, Bool.and_eq_true] at h ⊢
      rcases h with ⟨q1, q2⟩ | q
      · exact .inl ⟨q2, q1⟩
      · exact .inr (h5 q)

theorem reportPairs_spec {p : OPolicy} {na : Avrule} {k : Key} {cd : Bool} (l : List (Nat × Nat))
    (tot : ∀ a ∈ l, considered na a.1 a.2 = true → na.specified = XPERMS_NEVERALLOW → ∃ n, reportXperms p na a.1 a.2 k cd = some n ∧
      (checkXpermsAvtab p na a.1 a.2 k cd = some true → 0 < n)) :
    ∀ e, ∃ r, reportPairs p na k cd l e = some r ∧ e ≤ r ∧
      ((∃ a ∈ l, considered na a.1 a.2 = true ∧ (na.specified = XPERMS_NEVERALLOW → checkXpermsAvtab p na a.1 a.2 k cd = some true)) → e < r) := by
  induction l with
  | nil => intro e; exact ⟨e, rfl, Nat.le_refl _, by simp⟩
  | cons a l ih =>
    intro e
    have ih := ih (fun x hx => tot x (List.mem_cons_of_mem _ hx))
    have ta := tot a (List.mem_cons_self ..)
    obtain ⟨i, j⟩ := a
    unfold reportPairs
    by_cases hc : considered na i j = false
    · rw [if_pos hc]
      obtain ⟨r, r1, r2, r3⟩ := ih e
      refine ⟨r, r1, r2, ?_⟩
      rintro ⟨x, hx, q⟩
      rcases List.mem_cons.mp hx with rfl | hx
      · rw [hc] at q; cases q.1
      · exact r3 ⟨x, hx, q⟩
    · rw [if_neg hc]
      by_cases hx : na.specified = XPERMS_NEVERALLOW
      · rw [if_pos hx]
        obtain ⟨n, n1, n2⟩ := ta (eq_true_of_ne_false hc) hx
        simp only at n1 n2
        rw [n1]
        simp only [Option.bind_some]
        obtain ⟨r, r1, r2, r3⟩ := ih (e + n)
        refine ⟨r, r1, by omega, ?_⟩
        rintro ⟨x, hx', q⟩
        rcases List.mem_cons.mp hx' with rfl | hx'
        · have := n2 (q.2 hx)
          omega
        · have := r3 ⟨x, hx', q⟩
          omega
      · rw [if_neg hx]
        obtain ⟨r, r1, r2, -⟩ := ih (e + 1)
        exact ⟨r, r1, by omega, fun _ => by omega⟩

theorem reportPerms_spec {p : OPolicy} {na : Avrule} {n : Avtab.Node} {cd : Bool} {prs : List (Nat × Nat)} {P : Prop}
    (tot : ∀ e, ∃ r, reportPairs p na n.key cd prs e = some r ∧ e ≤ r ∧ (P → e < r)) (l : List (Nat × BitVec 32)) :
    ∀ e, ∃ r, reportPerms p na n cd prs l e = some r ∧ e ≤ r ∧
      (P → matchAnyClassPermissions l n.key.cls n.datum.data = true → e < r) := by
  induction l with
  | nil => intro e; exact ⟨e, rfl, Nat.le_refl _, by simp [matchAnyClassPermissions]⟩
  | cons cp l ih =>
    intro e
    unfold reportPerms matchAnyClassPermissions
    by_cases h : cp.1 ≠ n.key.cls ∨ cp.2 &&& n.datum.data = 0#32
    · rw [if_pos h]
      rw [if_neg (show ¬ (cp.1 = n.key.cls ∧ cp.2 &&& n.datum.data ≠ 0#32) by tauto)]
      exact ih e
    · rw [if_neg h]
      obtain ⟨r, r1, r2, r3⟩ := tot e
      rw [r1]
      simp only [Option.bind_some]
      obtain ⟨r', q1, q2, -⟩ := ih r
      exact ⟨r', q1, by omega, fun hp _ => by have := r3 hp; omega⟩

/-- One rule: the report finds what the check found. -/
theorem reportMatches_spec {p : OPolicy} {σ0 : Cond.State} (ok : AssertOk p σ0) {na : Avrule} (wf : RuleWF na)
    (self : HasSelf na → na.specified = NEVERALLOW → ∀ b, Ebitmap.getBit na.ttypes b = false) {n : Avtab.Node} (hn : RuleOk p.sp n) (cd st : Bool) (e : Nat) :
    ∃ r, reportMatches p na cd (stampedNode st n) e = some r ∧ e ≤ r ∧ (avtabMatch p na cd (stampedNode st n) = some true → e < r) := by
  obtain ⟨m1, m2⟩ := avtabMatch_base ok wf hn st cd
  by_cases hit : ∃ i j, Hit p na n i j
  · obtain ⟨i, j, k1, hcom, k3⟩ := hit
    have hit : ∃ i j, Hit p na n i j := ⟨i, j, k1, hcom, k3⟩
    have hko := rule_keyOk hn
    obtain ⟨ss, ts, h1, h2, h3, h4, h5⟩ := pairs_iff ok wf hko
    have mp := (matchAny_perms na.perms n.key.cls n.datum.data).mpr k3
    -- a pair that is considered and, for xperms, bad
    have good : avtabMatch p na cd (stampedNode st n) = some true → ∃ a ∈ pairsOf ss ts, considered na a.1 a.2 = true ∧
        (na.specified = XPERMS_NEVERALLOW → checkXpermsAvtab p na a.1 a.2 n.key cd = some true) := by
      intro hm
      rw [m1 hit] at hm
      by_cases hx : na.specified = XPERMS_NEVERALLOW
      · rw [if_pos hx] at hm
        obtain ⟨r, c1, c2, -⟩ := checkXperms_spec ok wf hko cd
        rw [c1] at hm
        cases hm
        obtain ⟨i', j', w1, w2, w3⟩ := c2 rfl
        have := h4 i' j' w1 ((considered_iff wf _ _).mp w2).1
        exact ⟨(i', j'), this.1, w2, fun _ => w3⟩
      · have hkn : na.specified = NEVERALLOW := wf.kind.resolve_right hx
        have := h4 i j hcom (by
          intro hs
          rcases hcom.2.2.2 with ⟨h', -⟩ | ⟨-, h' | h'⟩ | ⟨h', -⟩
          · exact absurd hs (flag_none h').2.2.1
          · rw [self hs hkn] at h'; cases h'
          · exact h'
          · exact absurd hs (flag_not h').2.2.2)
        exact ⟨(i, j), this.1, this.2, fun h => absurd h hx⟩
    obtain ⟨r, r1, r2, r3⟩ := reportPerms_spec (p := p) (na := na) (n := stampedNode st n) (cd := cd) (prs := pairsOf ss ts)
      (P := ∃ a ∈ pairsOf ss ts, considered na a.1 a.2 = true ∧ (na.specified = XPERMS_NEVERALLOW → checkXpermsAvtab p na a.1 a.2 n.key cd = some true))
      (by
        intro e
        refine reportPairs_spec (k := (stampedNode st n).key) (pairsOf ss ts) (fun a ha hc _ => ?_) e |>.imp fun r ⟨q1, q2, q3⟩ => ⟨q1, q2, fun h => q3 ?_⟩
        · obtain ⟨w1, w2⟩ := common_lt ok hko (h3 a.1 a.2 ⟨ha, hc⟩)
          exact reportXperms_spec ok na _ cd (by have := w1.2.1; omega) (by have := w2.2.1; omega)
        · obtain ⟨a, ha, hc, hx⟩ := h
          refine ⟨a, ha, hc, fun hk => ?_⟩
          have e1 : checkXpermsAvtab p na a.1 a.2 (stampedNode st n).key cd = checkXpermsAvtab p na a.1 a.2 n.key cd := by
            unfold checkXpermsAvtab
            simp only [pairScan_congr p na (k := (stampedNode st n).key) (k' := n.key) rfl]
          rw [e1]; exact hx hk)
      na.perms e
    unfold reportMatches
    have hk1 : ¬ (stampedNode st n).key.specified &&& ALLOWED = 0#16 := fun h => (allowed_iff hn.kind st).1.mp h k1
    have hm : ¬ matchAnyClassPermissions na.perms (stampedNode st n).key.cls (stampedNode st n).datum.data = false := by
      intro h
      have : matchAnyClassPermissions na.perms n.key.cls n.datum.data = false := h
      rw [mp] at this; cases this
    have a1 : attrTypeAt p (stampedNode st n).key.source = some (p.attrType (n.key.source - 1)) := attrTypeAt_eq hko.1
    have a2 : attrTypeAt p (stampedNode st n).key.target = some (p.attrType (n.key.target - 1)) := attrTypeAt_eq hko.2
    rw [if_neg hk1, if_neg hm, a1]
    simp only [Option.bind_some]
    have emp : pairsOf ss ts = [] → ∃ r, some e = some r ∧ e ≤ r ∧ (avtabMatch p na cd (stampedNode st n) = some true → e < r) := by
      intro h
      refine ⟨e, rfl, Nat.le_refl _, fun hm => ?_⟩
      obtain ⟨a, ha, -⟩ := good hm
      rw [h] at ha; cases ha
    by_cases he : isEmpty (Ebitmap.and na.stypes (p.attrType (n.key.source - 1))) = true
    · rw [if_pos he]; exact emp (h5 (.inl he))
    · rw [if_neg he, a2]
      simp only [Option.bind_some]
      by_cases he2 : isEmpty (targetMatches na (Ebitmap.and na.stypes (p.attrType (n.key.source - 1))) (p.attrType (n.key.target - 1))) = true
      · rw [if_pos he2]; exact emp (h5 (.inr he2))
      · rw [if_neg he2, h1, h2]
        simp only [Option.bind_some]
        exact ⟨r, r1, r2, fun hm => r3 (good hm) mp⟩
  · -- no hit: the check says no; the report is total
    rw [m2 hit]
    have hko := rule_keyOk hn
    obtain ⟨ss, ts, h1, h2, h3, h4, h5⟩ := pairs_iff ok wf hko
    obtain ⟨r, r1, r2, -⟩ := reportPerms_spec (p := p) (na := na) (n := stampedNode st n) (cd := cd) (prs := pairsOf ss ts) (P := False)
      (by
        intro e
        refine reportPairs_spec (k := (stampedNode st n).key) (pairsOf ss ts) (fun a ha hc _ => ?_) e |>.imp fun r ⟨q1, q2, q3⟩ => ⟨q1, q2, fun h => h.elim⟩
        obtain ⟨w1, w2⟩ := common_lt ok hko (h3 a.1 a.2 ⟨ha, hc⟩)
        exact reportXperms_spec ok na _ cd (by have := w1.2.1; omega) (by have := w2.2.1; omega))
      na.perms e
    have a1 : attrTypeAt p (stampedNode st n).key.source = some (p.attrType (n.key.source - 1)) := attrTypeAt_eq hko.1
    have a2 : attrTypeAt p (stampedNode st n).key.target = some (p.attrType (n.key.target - 1)) := attrTypeAt_eq hko.2
    have self_ : ∃ r, some e = some r ∧ e ≤ r ∧ ((some false : Option Bool) = some true → e < r) := ⟨e, rfl, Nat.le_refl _, by simp⟩
    unfold reportMatches
    split
    · exact self_
    · split
      · exact self_
      · rw [a1]
        simp only [Option.bind_some]
        by_cases he : isEmpty (Ebitmap.and na.stypes (p.attrType (n.key.source - 1))) = true
        · rw [if_pos he]; exact self_
        · rw [if_neg he, a2]
          simp only [Option.bind_some]
          by_cases he2 : isEmpty (targetMatches na (Ebitmap.and na.stypes (p.attrType (n.key.source - 1))) (p.attrType (n.key.target - 1))) = true
          · rw [if_pos he2]; exact self_
          · rw [if_neg he2, h1, h2]
            simp only [Option.bind_some]
            exact ⟨r, r1, r2, by simp⟩

theorem mapCount_spec {f : Avtab.Node → Nat → Option Nat} {g : Avtab.Node → Option Bool} (l : List Avtab.Node)
    (h : ∀ n ∈ l, ∀ e, ∃ r, f n e = some r ∧ e ≤ r ∧ (g n = some true → e < r)) :
    ∀ e, ∃ r, mapCount f l e = some r ∧ e ≤ r ∧ ((∃ n ∈ l, g n = some true) → e < r) := by
  induction l with
  | nil => intro e; exact ⟨e, rfl, Nat.le_refl _, by simp⟩
  | cons n l ih =>
    intro e
    obtain ⟨r, r1, r2, r3⟩ := h n (List.mem_cons_self ..) e
    obtain ⟨r', q1, q2, q3⟩ := ih (fun x hx => h x (List.mem_cons_of_mem _ hx)) r
    unfold mapCount
    rw [r1]
    refine ⟨r', q1, by omega, ?_⟩
    rintro ⟨x, hx, hg⟩
    rcases List.mem_cons.mp hx with rfl | hx
    · have := r3 hg; omega
    · have := q3 ⟨x, hx, hg⟩; omega

/-- What the check finds is reported. -/
theorem report_spec {p : OPolicy} {σ0 : Cond.State} (ok : AssertOk p σ0) {na : Avrule} (wf : RuleWF na)
    (self : HasSelf na → na.specified = NEVERALLOW → ∀ b, Ebitmap.getBit na.ttypes b = false) :
    ∃ n, reportFailures p na = some n ∧ (checkAssertion p na = some true → 0 < n) := by
  unfold reportFailures
  obtain ⟨r1, a1, a2, a3⟩ := mapCount_spec (f := reportMatches p na false) (g := avtabMatch p na false) (Avtab.nodes p.sp.te)
    (fun n hn e => reportMatches_spec ok wf self (ok.teRules n hn) false false e) 0
  obtain ⟨r2, b1, b2, b3⟩ := mapCount_spec (f := reportMatches p na true) (g := avtabMatch p na true) (condNodes p) (by
    intro n hn e
    rw [condNodes_eq, List.mem_map] at hn
    obtain ⟨id, hid, rfl⟩ := hn
    exact reportMatches_spec ok wf self (ok.condRules id hid) true _ e) r1
  rw [a1]
  refine ⟨r2, b1, fun h => ?_⟩
  obtain ⟨r, h1, h2⟩ := checkAssertion_iff ok (na := na) (fun n hn c e => match_total ok wf hn c e)
  rw [h1] at h
  cases h
  rcases h2.mp rfl with h | ⟨id, hid, h⟩
  · have := a3 h; omega
  · have := b3 ⟨_, by rw [condNodes_eq, List.mem_map]; exact ⟨id, (ok.all id).mp hid, rfl⟩, h⟩
    omega

/-- Rules of other kinds are passed over. -/
def Neverallow (na : Avrule) : Prop := na.specified = NEVERALLOW ∨ na.specified = XPERMS_NEVERALLOW

theorem loop_spec {p : OPolicy} {σ0 : Cond.State} (ok : AssertOk p σ0) (l : List Avrule)
    (wf : ∀ na ∈ l, na.specified &&& (NEVERALLOW ||| XPERMS_NEVERALLOW) ≠ 0#32 → RuleWF na)
    (self : ∀ na ∈ l, HasSelf na → na.specified = NEVERALLOW → ∀ b, Ebitmap.getBit na.ttypes b = false)
    (small : ∀ na ∈ l, ∀ n, reportFailures p na = some n → n < 2 ^ 32) :
    ∀ e m, e + l.length * 2 ^ 31 ≤ m → m < 2 ^ 64 →
    ((∀ na ∈ l, na.specified &&& (NEVERALLOW ||| XPERMS_NEVERALLOW) ≠ 0#32 → checkAssertion p na = some false) → assertionsLoop p l e = some (some e)) ∧
    ((∃ na ∈ l, na.specified &&& (NEVERALLOW ||| XPERMS_NEVERALLOW) ≠ 0#32 ∧ checkAssertion p na = some true) →
      assertionsLoop p l e = some none ∨ ∃ e', e < e' ∧ assertionsLoop p l e = some (some e')) ∧
    (∃ r, assertionsLoop p l e = some r ∧ ∀ e', r = some e' → e ≤ e') := by
  induction l with
  | nil => intro e m _ _; exact ⟨fun _ => rfl, by simp, some e, rfl, fun e' h => by cases h; exact Nat.le_refl _⟩
  | cons a l ih =>
    intro e m hm hm2
    have ih := ih (fun x hx => wf x (List.mem_cons_of_mem _ hx)) (fun x hx => self x (List.mem_cons_of_mem _ hx))
      (fun x hx => small x (List.mem_cons_of_mem _ hx))
    simp only [List.length_cons, Nat.add_mul, Nat.one_mul] at hm
    have hme : e + l.length * 2 ^ 31 ≤ m := Nat.le_trans (Nat.add_le_add_left (Nat.le_add_right _ _) _) hm
    unfold assertionsLoop
    by_cases hk : a.specified &&& (NEVERALLOW ||| XPERMS_NEVERALLOW) = 0#32
    · rw [if_pos hk]
      obtain ⟨i1, i2, i3⟩ := ih e m hme hm2
      refine ⟨fun h => i1 (fun x hx => h x (List.mem_cons_of_mem _ hx)), ?_, i3⟩
      rintro ⟨x, hx, h1, h2⟩
      rcases List.mem_cons.mp hx with rfl | hx
      · exact absurd hk h1
      · exact i2 ⟨x, hx, h1, h2⟩
    · rw [if_neg hk]
      have wfa := wf a (List.mem_cons_self ..) hk
      obtain ⟨r, hr, -⟩ := checkAssertion_iff ok (na := a) (fun n hn c e => match_total ok wfa hn c e)
      rw [hr]
      simp only [Option.bind_some]
      cases r with
      | false =>
        rw [if_neg (by simp)]
        obtain ⟨i1, i2, i3⟩ := ih e m hme hm2
        refine ⟨fun h => i1 (fun x hx => h x (List.mem_cons_of_mem _ hx)), ?_, i3⟩
        rintro ⟨x, hx, h1, h2⟩
        rcases List.mem_cons.mp hx with rfl | hx
        · rw [hr] at h2; cases h2
        · exact i2 ⟨x, hx, h1, h2⟩
      | true =>
        rw [if_pos rfl]
        obtain ⟨n, n1, n2⟩ := report_spec ok wfa (self a (List.mem_cons_self ..))
        have n3 := n2 hr
        have n4 := small a (List.mem_cons_self ..) n n1
        rw [n1]
        simp only [Option.bind_some]
        rw [Nat.mod_eq_of_lt n4]
        have hno : ¬ ∀ na ∈ a :: l, na.specified &&& (NEVERALLOW ||| XPERMS_NEVERALLOW) ≠ 0#32 → checkAssertion p na = some false := by
          intro h
          have := h a (List.mem_cons_self ..) hk
          rw [hr] at this; cases this
        by_cases hneg : Ebitmap.toInt32 n < 0
        · rw [if_pos hneg]
          exact ⟨fun h => absurd h hno, fun _ => .inl rfl, none, rfl, by simp⟩
        · rw [if_neg hneg]
          have ht : Ebitmap.toInt32 n = n ∧ n < 2 ^ 31 := by
            unfold Ebitmap.toInt32 at hneg ⊢
            split at hneg
            · rename_i h; rw [if_pos h]; exact ⟨rfl, h⟩
            · omega
          rw [ht.1, Int.toNat_natCast]
          have h31 := ht.2
          have hmod : (e + n) % 2 ^ 64 = e + n := Nat.mod_eq_of_lt (by omega)
          rw [hmod]
          obtain ⟨i1, i2, r, i3, i4⟩ := ih (e + n) m (by omega) hm2
          refine ⟨fun h => absurd h hno, fun _ => ?_, r, i3, fun e' he' => by have := i4 e' he'; omega⟩
          rw [i3]
          cases r with
          | none => exact .inl rfl
          | some e' => exact .inr ⟨e', by have := i4 e' rfl; omega, rfl⟩

end Verif.Assertion
