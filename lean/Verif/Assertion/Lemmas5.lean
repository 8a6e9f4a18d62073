import Verif.Assertion.Lemmas4

/-!
# Lemmas: violations of neverallowxperm rules, and the number of reports
-/

namespace Verif.Assertion
open Verif.Avtab Verif.Policy Verif.Optimize

/-! ## Attributes of types -/

theorem covers_attr {p : OPolicy} {s n : Nat} {m : Ebitmap.Ebitmap} (hm : p.sp.typeAttr (s - 1) = some m) :
    Services.Covers p.sp s n ↔ 1 ≤ n ∧ Ebitmap.getBit m (n - 1) = true := by
  unfold Services.Covers
  rw [hm]
  constructor
  · rintro ⟨h1, x, hx, h2⟩
    cases hx
    exact ⟨h1, h2⟩
  · rintro ⟨h1, h2⟩; exact ⟨h1, m, rfl, h2⟩

theorem mem_stamped {p : OPolicy} {l : List Nat} {P : Avtab.Node → Bool} : (l.map (nodeOf p)).any P = true ↔
    ∃ id ∈ l, P (stampedNode (p.enabled id) (p.tab.node id)) = true := by
  simp only [List.any_map, List.any_eq_true, Function.comp]
  constructor
  · rintro ⟨id, h1, h2⟩; exact ⟨id, h1, by rw [← stamped_eq]; exact h2⟩
  · rintro ⟨id, h1, h2⟩; exact ⟨id, h1, by unfold nodeOf; rw [stamped_eq]; exact h2⟩

theorem listed_true {p : OPolicy} {c : Cond.Node} (hc : c ∈ p.conds) {id : Nat} (h : id ∈ c.trueList) : id ∈ listed p.conds := by
  unfold listed
  rw [List.mem_flatMap]
  exact ⟨c, hc, List.mem_append_left _ h⟩

theorem listed_false {p : OPolicy} {c : Cond.Node} (hc : c ∈ p.conds) {id : Nat} (h : id ∈ c.falseList) : id ∈ listed p.conds := by
  unfold listed
  rw [List.mem_flatMap]
  exact ⟨c, hc, List.mem_append_right _ h⟩

/-- Kinds of the stored block. -/
theorem xpermsOf_some {p : OPolicy} {n : Avtab.Node} (hn : RuleOk p.sp n) (hk : n.key.specified = XPERMS_ALLOWED) :
    ∃ x, n.datum.xperms = some x ∧ xpermsOf n = x := by
  obtain ⟨x, hx, -⟩ := hn.block (by rw [hk]; decide)
  exact ⟨x, hx, by unfold xpermsOf; rw [hx]; rfl⟩

theorem lists_known {x : XPerms} {c : Cmd} (h : Lists x c) : knownKind x = true := by
  unfold knownKind
  cases c with
  | ioctl dr fn =>
    obtain ⟨-, -, ⟨a, -⟩ | ⟨a, -⟩⟩ := h <;> simp [a]
  | nlmsg dr fn => simp [h.2.2.1]

/-- A rule that is seen to list or to filter. -/
theorem says_filtered {p : OPolicy} {σ0 : Cond.State} (ok : AssertOk p σ0) {na : Avrule} {n : Avtab.Node} (hr : IsRule p n) (hn : RuleOk p.sp n)
    (same : SameKind p na) {cp : Nat × BitVec 32} (hcp : cp ∈ na.perms) {c : Cmd} (hc : Lists na.xperms c) {s t : Nat}
    {sa ta : Ebitmap.Ebitmap} (hs : p.sp.typeAttr (s - 1) = some sa) (ht : p.sp.typeAttr (t - 1) = some ta)
    (b1 : Ebitmap.getBit sa (n.key.source - 1) = true) (b2 : Ebitmap.getBit ta (n.key.target - 1) = true)
    (hcls : n.key.cls = cp.1) (hk : n.key.specified = XPERMS_ALLOWED) (known : knownKind (xpermsOf n) = true) :
    Says p.sp s t cp.1 c.filtered n := by
  obtain ⟨x, hx, hx'⟩ := xpermsOf_some hn hk
  refine ⟨(covers_attr hs).mpr ⟨hn.source.1, b1⟩, (covers_attr ht).mpr ⟨hn.target.1, b2⟩, hcls, ?_⟩
  rw [hk]
  refine grants_filtered hx (by rw [← hx']; exact known) ?_
  rw [same n hr hk ⟨cp, hcp, hcls.symm⟩ x hx]
  exact lists_kind hc

theorem any_pairs {ss ts : List Nat} {P : Nat × Nat → Bool} : (pairsOf ss ts).any P = true ↔ ∃ i ∈ ss, ∃ j ∈ ts, P (i, j) = true := by
  rw [List.any_eq_true]
  constructor
  · rintro ⟨⟨i, j⟩, h1, h2⟩
    rw [mem_pairsOf] at h1
    exact ⟨i, h1.1, j, h1.2, h2⟩
  · rintro ⟨i, hi, j, hj, h⟩
    exact ⟨(i, j), mem_pairsOf.mpr ⟨hi, hj⟩, h⟩

/-- A rule that lists a forbidden command is found. -/
theorem bad_of_listed {p : OPolicy} {σ0 : Cond.State} (ok : AssertOk p σ0) {na : Avrule} {n : Avtab.Node} (hr : IsRule p n) (hn : RuleOk p.sp n)
    {k : Key} {c : Cmd} (hc : Lists na.xperms c) (hcls : n.key.cls = k.cls) (g : Grants n.key.specified n.datum c.listed) :
    pairBad p na k (n.key.source - 1, n.key.target - 1) = true := by
  have hk := listed_kind g
  rw [hk] at g
  obtain ⟨x, hx, hl⟩ := grants_listed.mp g
  have hxo : xpermsOf n = x := by unfold xpermsOf; rw [hx]; rfl
  have hchk := check_of_common hc hl
  have hkn := lists_known hl
  have l1 : n.key.source - 1 + 1 < 2 ^ 16 := by have := hn.source; have := ok.small; omega
  have l2 : n.key.target - 1 + 1 < 2 ^ 16 := by have := hn.target; have := ok.small; omega
  have e1 : n.key.source - 1 + 1 = n.key.source := by have := hn.source; omega
  have e2 : n.key.target - 1 + 1 = n.key.target := by have := hn.target; omega
  unfold pairBad
  rw [Bool.or_eq_true]
  rcases hr with hr | ⟨id, hid, rfl⟩
  · left
    rw [List.any_eq_true]
    refine ⟨n, (mem_te ok l1 l2 n).mpr ⟨hr, hk, e1.symm, e2.symm, hcls⟩, ?_⟩
    rw [hxo, hkn, hchk]; rfl
  · right
    unfold listed at hid
    rw [List.mem_flatMap] at hid
    obtain ⟨cn, hcn, hid⟩ := hid
    rw [List.any_eq_true]
    refine ⟨cn, hcn, ?_⟩
    have hb : badB na (tmpKey k ((p.tab.node id).key.source - 1) ((p.tab.node id).key.target - 1)) (stampedNode (p.enabled id) (p.tab.node id)) = true := by
      unfold badB
      rw [Bool.and_eq_true, xB_iff l1 l2 hn]
      refine ⟨⟨hk, e1.symm, e2.symm, hcls, by rw [hxo]; exact hkn⟩, ?_⟩
      have : xpermsOf (stampedNode (p.enabled id) (p.tab.node id)) = xpermsOf (p.tab.node id) := rfl
      rw [this, hxo]; exact hchk
    unfold condBad
    rw [Bool.or_eq_true]
    rw [List.mem_append] at hid
    rcases hid with hid | hid
    · exact .inl (mem_stamped.mpr ⟨id, hid, hb⟩)
    · exact .inr (mem_stamped.mpr ⟨id, hid, hb⟩)

/-- The pair of types is reported when a permitted command is forbidden. -/
theorem xpermsAvtab_sound {p : OPolicy} {σ0 : Cond.State} (ok : AssertOk p σ0) {na : Avrule} (same : SameKind p na) (cdef : CondsDefined p)
    {σ : Cond.State} {s t : Nat} (hs : PlainType p s) (ht : PlainType p t) {cp : Nat × BitVec 32} (hcp : cp ∈ na.perms) {b : Nat}
    (hb : cp.2.getLsbD b = true) {c : Cmd} (hc : Lists na.xperms c) (hf : Decides p σ s t cp.1 c.filtered → Decides p σ s t cp.1 c.listed)
    {n : Avtab.Node} (hn : RuleOk p.sp n) (says : Says p.sp s t cp.1 (.allow b) n)
    (cd : Bool) (sel : cd = true → ∃ id, Cond.SelectedBy σ p.conds id ∧ n = p.tab.node id) :
    checkXpermsAvtab p na (s - 1) (t - 1) n.key cd = some true := by
  obtain ⟨ss, ts, sa, ta, hsa, hta, hss, hts, mss, mts, hx⟩ := xpermsAvtab_spec ok na n.key cd (i := s - 1) (j := t - 1)
    (by have := hs.1; have := hs.2.1; omega) (by have := ht.1; have := ht.2.1; omega)
  rw [hx]
  obtain ⟨s1, s2, s3, s4⟩ := says
  obtain ⟨s5, s6, s7⟩ := s4
  congr 1
  rw [Bool.or_eq_true]
  by_cases hfil : Decides p σ s t cp.1 c.filtered
  · left
    have find : ∀ n', IsRule p n' → RuleOk p.sp n' → Says p.sp s t cp.1 c.listed n' → (pairsOf ss ts).any (pairBad p na n.key) = true := by
      rintro n' hr hn' ⟨q1, q2, q3, q4⟩
      rw [any_pairs]
      refine ⟨n'.key.source - 1, (mss _).mpr ((covers_attr hsa).mp q1).2, n'.key.target - 1, (mts _).mpr ((covers_attr hta).mp q2).2, ?_⟩
      exact bad_of_listed ok hr hn' hc (by rw [q3, s3]) q4
    rcases hf hfil with ⟨n', hn', h'⟩ | ⟨id, hid, h'⟩
    · exact find n' (.inl hn') (ok.teRules n' hn') h'
    · have hl : id ∈ listed p.conds := by
        obtain ⟨cn, hcn, h⟩ := hid
        rcases h with ⟨-, h⟩ | ⟨-, h⟩
        · exact listed_true hcn h
        · exact listed_false hcn h
      exact find _ (.inr ⟨id, hl, rfl⟩) (ok.condRules id ((ok.all id).mp hl)) h'
  · right
    rw [Bool.or_eq_true]
    have lt1 : ∀ i, i ∈ ss → i + 1 < 2 ^ 16 := by
      intro i hi
      have := (ok.attrWF _ _ hsa).2 i ((mss i).mp hi)
      have := ok.small
      omega
    have lt2 : ∀ i, i ∈ ts → i + 1 < 2 ^ 16 := by
      intro i hi
      have := (ok.attrWF _ _ hta).2 i ((mts i).mp hi)
      have := ok.small
      omega
    have seen : ∀ n', IsRule p n' → RuleOk p.sp n' → ∀ i ∈ ss, ∀ j ∈ ts, n'.key.specified = XPERMS_ALLOWED → n'.key.source = i + 1 →
        n'.key.target = j + 1 → n'.key.cls = n.key.cls → knownKind (xpermsOf n') = true → Says p.sp s t cp.1 c.filtered n' := by
      intro n' hr hn' i hi j hj q1 q2 q3 q4 q5
      refine says_filtered ok hr hn' same hcp hc hsa hta ?_ ?_ (by rw [q4, s3]) q1 q5
      · rw [q2]; exact (mss i).mp hi
      · rw [q3]; exact (mts j).mp hj
    cases cd with
    | false =>
      left
      simp only [Bool.not_false, Bool.true_and, Bool.not_eq_true']
      by_contra hc'
      rw [Bool.not_eq_false, any_pairs] at hc'
      obtain ⟨i, hi, j, hj, h⟩ := hc'
      unfold pairX at h
      rw [Bool.or_eq_true, List.any_eq_true, List.any_eq_true] at h
      rcases h with ⟨n', h1, h2⟩ | ⟨cn, hcn, h2⟩
      · obtain ⟨h1, q1, q2, q3, q4⟩ := (mem_te ok (lt1 i hi) (lt2 j hj) n').mp h1
        exact hfil (.inl ⟨n', h1, seen n' (.inl h1) (ok.teRules n' h1) i hi j hj q1 q2 q3 q4 h2⟩)
      · unfold bothX at h2
        rw [Bool.and_eq_true] at h2
        obtain ⟨id1, m1, x1⟩ := mem_stamped.mp h2.1
        obtain ⟨id2, m2, x2⟩ := mem_stamped.mp h2.2
        have o1 := ok.condRules id1 ((ok.all id1).mp (listed_true hcn m1))
        have o2 := ok.condRules id2 ((ok.all id2).mp (listed_false hcn m2))
        obtain ⟨a1, a2, a3, a4, a5⟩ := (xB_iff (lt1 i hi) (lt2 j hj) o1 _).mp x1
        obtain ⟨b1, b2, b3, b4, b5⟩ := (xB_iff (lt1 i hi) (lt2 j hj) o2 _).mp x2
        apply hfil
        right
        cases hev : Cond.evaluate σ cn.expr with
        | none => exact absurd hev (cdef cn hcn σ)
        | some v =>
          cases v with
          | true =>
            exact ⟨id1, ⟨cn, hcn, .inl ⟨hev, m1⟩⟩, seen _ (.inr ⟨id1, listed_true hcn m1, rfl⟩) o1 i hi j hj a1 a2 a3 a4 a5⟩
          | false =>
            exact ⟨id2, ⟨cn, hcn, .inr ⟨hev, m2⟩⟩, seen _ (.inr ⟨id2, listed_false hcn m2, rfl⟩) o2 i hi j hj b1 b2 b3 b4 b5⟩
    | true =>
      right
      obtain ⟨id, ⟨cn, hcn, hsel⟩, rfl⟩ := sel rfl
      rw [any_pairs]
      have i1 : (p.tab.node id).key.source - 1 ∈ ss := (mss _).mpr ((covers_attr hsa).mp s1).2
      have j1 : (p.tab.node id).key.target - 1 ∈ ts := (mts _).mpr ((covers_attr hta).mp s2).2
      refine ⟨_, i1, _, j1, ?_⟩
      have e1 : (p.tab.node id).key.source - 1 + 1 = (p.tab.node id).key.source := by have := hn.source; omega
      have e2 : (p.tab.node id).key.target - 1 + 1 = (p.tab.node id).key.target := by have := hn.target; omega
      have hbase : baseB na (tmpKey (p.tab.node id).key ((p.tab.node id).key.source - 1) ((p.tab.node id).key.target - 1))
          (stampedNode (p.enabled id) (p.tab.node id)) = true := by
        rw [baseB_iff (lt1 _ i1) (lt2 _ j1) hn]
        exact ⟨s5, e1.symm, e2.symm, rfl, (matchAny_perms _ _ _).mpr ⟨cp, hcp, s3.symm, b, s6, hb, s7⟩⟩
      unfold pairConfl
      rw [List.any_eq_true]
      refine ⟨cn, hcn, ?_⟩
      have noX : ∀ id', (Cond.evaluate σ cn.expr = some true ∧ id' ∈ cn.trueList ∨ Cond.evaluate σ cn.expr = some false ∧ id' ∈ cn.falseList) →
          id' ∈ listed p.conds →
          ¬ xB na (tmpKey (p.tab.node id).key ((p.tab.node id).key.source - 1) ((p.tab.node id).key.target - 1))
          (stampedNode (p.enabled id') (p.tab.node id')) = true := by
        intro id' hsel' hl hx'
        have o := ok.condRules id' ((ok.all id').mp hl)
        obtain ⟨a1, a2, a3, a4, a5⟩ := (xB_iff (lt1 _ i1) (lt2 _ j1) o _).mp hx'
        exact hfil (.inr ⟨id', ⟨cn, hcn, hsel'⟩, seen _ (.inr ⟨id', hl, rfl⟩) o _ i1 _ j1 a1 a2 a3 a4 a5⟩)
      unfold confl bothX
      rcases hsel with ⟨hev, m⟩ | ⟨hev, m⟩
      · have ht0 : (tl (nodeOf p) cn).any (xB na (tmpKey (p.tab.node id).key ((p.tab.node id).key.source - 1) ((p.tab.node id).key.target - 1))) = false := by
          by_contra hx'
          rw [Bool.not_eq_false] at hx'
          obtain ⟨id', m', hx'⟩ := mem_stamped.mp hx'
          exact noX id' (.inl ⟨hev, m'⟩) (listed_true hcn m') hx'
        have hb0 : (tl (nodeOf p) cn).any (baseB na (tmpKey (p.tab.node id).key ((p.tab.node id).key.source - 1) ((p.tab.node id).key.target - 1))) = true :=
          mem_stamped.mpr ⟨id, m, hbase⟩
        simp only at ht0 hb0 ⊢
        rw [ht0, hb0]; simp
      · have ht0 : (fl (nodeOf p) cn).any (xB na (tmpKey (p.tab.node id).key ((p.tab.node id).key.source - 1) ((p.tab.node id).key.target - 1))) = false := by
          by_contra hx'
          rw [Bool.not_eq_false] at hx'
          obtain ⟨id', m', hx'⟩ := mem_stamped.mp hx'
          exact noX id' (.inr ⟨hev, m'⟩) (listed_false hcn m') hx'
        have hb0 : (fl (nodeOf p) cn).any (baseB na (tmpKey (p.tab.node id).key ((p.tab.node id).key.source - 1) ((p.tab.node id).key.target - 1))) = true :=
          mem_stamped.mpr ⟨id, m, hbase⟩
        simp only at ht0 hb0 ⊢
        rw [ht0, hb0]; simp

/-- Every test of a rule gives a result. -/
theorem match_total {p : OPolicy} {σ0 : Cond.State} (ok : AssertOk p σ0) {na : Avrule} (wf : RuleWF na) {n : Avtab.Node} (hn : RuleOk p.sp n)
    (cd e : Bool) : ∃ r, avtabMatch p na cd (stampedNode e n) = some r := by
  obtain ⟨h1, h2⟩ := avtabMatch_base ok wf hn e cd
  by_cases h : ∃ i j, Hit p na n i j
  · rw [h1 h]
    split
    · obtain ⟨r, hr, -⟩ := checkXperms_spec ok wf (rule_keyOk hn) cd
      exact ⟨r, hr⟩
    · exact ⟨true, rfl⟩
  · exact ⟨false, h2 h⟩

theorem xviolated_match {p : OPolicy} {σ0 : Cond.State} (ok : AssertOk p σ0) {na : Avrule} (wf : RuleWF na) (hk : na.specified = XPERMS_NEVERALLOW)
    (self : HasSelf na → ∀ b, Ebitmap.getBit na.ttypes b = false) (same : SameKind p na) (cdef : CondsDefined p)
    {σ : Cond.State} {s t : Nat} (hs : PlainType p s) (ht : PlainType p t) (nm : Names na s t) {cp : Nat × BitVec 32} (hcp : cp ∈ na.perms) {b : Nat}
    (hb : cp.2.getLsbD b = true) {c : Cmd} (hc : Lists na.xperms c) (hf : Decides p σ s t cp.1 c.filtered → Decides p σ s t cp.1 c.listed)
    {n : Avtab.Node} (hn : RuleOk p.sp n) (says : Says p.sp s t cp.1 (.allow b) n)
    (cd e : Bool) (sel : cd = true → ∃ id, Cond.SelectedBy σ p.conds id ∧ n = p.tab.node id) :
    avtabMatch p na cd (stampedNode e n) = some true := by
  have hx := xpermsAvtab_sound ok same cdef hs ht hcp hb hc hf hn says cd sel
  have hcom : Common p na n.key (s - 1) (t - 1) := (common_types ok hn s t hs.1 ht.1).mpr ⟨hs, ht, says.1, says.2.1, nm⟩
  have hit : ∃ i j, Hit p na n i j := (hit_iff ok hn).mpr ⟨s, t, hs, ht, nm, cp, hcp, b, hb, says⟩
  rw [(avtabMatch_base ok wf hn e cd).1 hit, if_pos hk]
  obtain ⟨r, h1, -, h3⟩ := checkXperms_spec ok wf (rule_keyOk hn) cd
  rw [h1, h3 _ _ hcom ?_ hx]
  intro h
  rcases nm.2 with ⟨h', -⟩ | ⟨-, h' | h'⟩ | ⟨h', -⟩
  · exact absurd h (flag_none h').2.2.1
  · unfold In at h'
    rw [self h] at h'; cases h'
  · rw [h']
  · exact absurd h (flag_not h').2.2.2

theorem check_xperm_sound {p : OPolicy} {σ0 : Cond.State} (ok : AssertOk p σ0) {na : Avrule} (wf : RuleWF na) (hk : na.specified = XPERMS_NEVERALLOW)
    (self : HasSelf na → ∀ b, Ebitmap.getBit na.ttypes b = false) (same : SameKind p na) (cdef : CondsDefined p) {σ : Cond.State}
    (h : XViolated p σ na) : checkAssertion p na = some true := by
  obtain ⟨r, h1, h2⟩ := checkAssertion_iff ok (na := na) (fun n hn c e => match_total ok wf hn c e)
  rw [h1]
  obtain ⟨s, t, hs, ht, nm, cp, hcp, b, hb, c, hc, hd, hf⟩ := h
  rw [h2.mpr ?_]
  rcases hd with ⟨n, hn, says⟩ | ⟨id, hid, says⟩
  · left
    exact ⟨n, hn, xviolated_match ok wf hk self same cdef hs ht nm hcp hb hc hf (ok.teRules n hn) says false false (by simp)⟩
  · right
    have hl : id ∈ listed p.conds := by
      obtain ⟨cn, hcn, h⟩ := hid
      rcases h with ⟨-, h⟩ | ⟨-, h⟩
      · exact listed_true hcn h
      · exact listed_false hcn h
    exact ⟨id, hl, xviolated_match ok wf hk self same cdef hs ht nm hcp hb hc hf (ok.condRules id ((ok.all id).mp hl)) says true _ (fun _ => ⟨id, hid, rfl⟩)⟩

/-- Without conditionals, only violations are reported. -/
theorem check_xperm_complete {p : OPolicy} {σ0 : Cond.State} (ok : AssertOk p σ0) {na : Avrule} (wf : RuleWF na) (hk : na.specified = XPERMS_NEVERALLOW)
    (nocond : p.conds = []) (hna : ∃ c, Lists na.xperms c)
    (hal : ∀ n ∈ Avtab.nodes p.sp.te, n.key.specified = XPERMS_ALLOWED → ∀ x, n.datum.xperms = some x → ∃ c, Lists x c)
    (h : checkAssertion p na = some true) (σ : Cond.State) : XViolated p σ na := by
  obtain ⟨r, h1, h2⟩ := checkAssertion_iff ok (na := na) (fun n hn c e => match_total ok wf hn c e)
  rw [h1] at h
  cases h
  rcases h2.mp rfl with ⟨n, hn, hm⟩ | ⟨id, hid, -⟩
  · have on := ok.teRules n hn
    obtain ⟨b1, b2⟩ := avtabMatch_base ok wf on false false
    rw [stamp_false] at b1 b2
    have hit : ∃ i j, Hit p na n i j := by
      by_contra hc
      rw [b2 hc] at hm; cases hm
    rw [b1 hit, if_pos hk] at hm
    obtain ⟨r, c1, c2, -⟩ := checkXperms_spec ok wf (rule_keyOk on) false
    rw [c1] at hm
    cases hm
    obtain ⟨i, j, hcom, -, hx⟩ := c2 rfl
    obtain ⟨_, _, k1, -, cp, k3, k4, b, k5, k6, k7⟩ := hit
    obtain ⟨hs, ht, v1, v2, nm⟩ := (common_types ok on (i + 1) (j + 1) (by omega) (by omega)).mp hcom
    have hbase : Decides p σ (i + 1) (j + 1) cp.1 (.allow b) := .inl ⟨n, hn, v1, v2, k4.symm, k1, k5, k7⟩
    obtain ⟨ss, ts, sa, ta, hsa, hta, hss, hts, mss, mts, hx'⟩ := xpermsAvtab_spec ok na n.key false (i := i) (j := j)
      (by have := hs.2.1; omega) (by have := ht.2.1; omega)
    rw [hx'] at hx
    have hsa' : p.sp.typeAttr (i + 1 - 1) = some sa := hsa
    have hta' : p.sp.typeAttr (j + 1 - 1) = some ta := hta
    have lt1 : ∀ i, i ∈ ss → i + 1 < 2 ^ 16 := by
      intro i hi
      have := (ok.attrWF _ _ hsa).2 i ((mss i).mp hi)
      have := ok.small
      omega
    have lt2 : ∀ i, i ∈ ts → i + 1 < 2 ^ 16 := by
      intro i hi
      have := (ok.attrWF _ _ hta).2 i ((mts i).mp hi)
      have := ok.small
      omega
    simp only [Option.some.injEq, Bool.or_eq_true, Bool.not_false, Bool.true_and, Bool.not_eq_true'] at hx
    rcases hx with hx | hx | hx
    · rw [any_pairs] at hx
      obtain ⟨a, ha, b', hb', hp⟩ := hx
      unfold pairBad at hp
      rw [nocond] at hp
      simp only [List.any_nil, Bool.or_false] at hp
      rw [List.any_eq_true] at hp
      obtain ⟨n', m1, m2⟩ := hp
      obtain ⟨m1, q1, q2, q3, q4⟩ := (mem_te ok (lt1 a ha) (lt2 b' hb') n').mp m1
      rw [Bool.and_eq_true] at m2
      obtain ⟨x, hx, hx'⟩ := xpermsOf_some (ok.teRules n' m1) q1
      rw [hx'] at m2
      obtain ⟨c, l1, l2⟩ := common_of_check hna (hal n' m1 q1 x hx) m2.2
      refine ⟨i + 1, j + 1, hs, ht, nm, cp, k3, b, k6, c, l1, hbase, fun _ => .inl ⟨n', m1, ?_, ?_, by rw [q4, k4], ?_⟩⟩
      · exact (covers_attr hsa').mpr ⟨by omega, by rw [q2]; exact (mss a).mp ha⟩
      · exact (covers_attr hta').mpr ⟨by omega, by rw [q3]; exact (mts b').mp hb'⟩
      · rw [q1]; exact grants_listed.mpr ⟨x, hx, l2⟩
    · obtain ⟨c, hc⟩ := hna
      refine ⟨i + 1, j + 1, hs, ht, nm, cp, k3, b, k6, c, hc, hbase, fun hf => ?_⟩
      exfalso
      rcases hf with ⟨n', m1, u1, u2, u3, u4⟩ | ⟨id, ⟨cn, hcn, -⟩, -⟩
      · have on' := ok.teRules n' m1
        have hk' : n'.key.specified = XPERMS_ALLOWED ∧ knownKind (xpermsOf n') = true := by
          unfold knownKind xpermsOf
          cases c with
          | ioctl dr fn =>
            obtain ⟨g1, -, x, hx, g2⟩ := u4
            refine ⟨g1, ?_⟩
            rw [hx]
            rcases g2 with g2 | g2 <;> simp [g2]
          | nlmsg dr fn =>
            obtain ⟨g1, -, x, hx, g2⟩ := u4
            exact ⟨g1, by rw [hx]; simp [g2]⟩
        have w1 := ((covers_attr hsa').mp u1).2
        have w2 := ((covers_attr hta').mp u2).2
        have : (pairsOf ss ts).any (pairX p na n.key) = true := by
          rw [any_pairs]
          refine ⟨_, (mss _).mpr w1, _, (mts _).mpr w2, ?_⟩
          unfold pairX
          rw [Bool.or_eq_true]
          left
          rw [List.any_eq_true]
          refine ⟨n', (mem_te ok (lt1 _ ((mss _).mpr w1)) (lt2 _ ((mts _).mpr w2)) n').mpr ⟨m1, hk'.1, ?_, ?_, by rw [u3, k4]⟩, hk'.2⟩
          · have := on'.source; show _ = _ - 1 + 1; omega
          · have := on'.target; show _ = _ - 1 + 1; omega
        rw [this] at hx; cases hx
      · rw [nocond] at hcn; cases hcn
    · rw [any_pairs] at hx
      obtain ⟨a, ha, b', hb', hp⟩ := hx
      unfold pairConfl at hp
      rw [nocond] at hp
      cases hp
  · rw [nocond] at hid
    cases hid

end Verif.Assertion
