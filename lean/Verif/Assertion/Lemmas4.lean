import Verif.Assertion.Lemmas3

/-!
# Lemmas: extended permissions, and reports
-/

namespace Verif.Assertion
open Verif.Avtab Verif.Policy Verif.Optimize

theorem targetMatches_spec {na : Avrule} (wf : RuleWF na) {src tm : Ebitmap.Ebitmap} (ws : Ebitmap.WF src) (wt : Ebitmap.WF tm) :
    Ebitmap.WF (targetMatches na src tm) ∧ ∀ j, Ebitmap.getBit (targetMatches na src tm) j = true ↔ Ebitmap.getBit tm j = true ∧
      ((na.flags = 0#32 ∧ Ebitmap.getBit na.ttypes j = true) ∨
       (HasSelf na ∧ (Ebitmap.getBit na.ttypes j = true ∨ Ebitmap.getBit src j = true)) ∨
       (HasNotSelf na ∧ ((∀ b, Ebitmap.getBit na.ttypes b = false) ∨ Ebitmap.getBit na.ttypes j = true))) := by
  unfold targetMatches
  rcases wf.flags with h | h | h
  · obtain ⟨f1, f2, f3, f4⟩ := flag_none h
    rw [if_neg (by simp [f1])]
    simp only
    rw [if_neg (by simp [f2])]
    refine ⟨and_wf wf.ttypes wt, fun j => ?_⟩
    rw [and_bit wf.ttypes wt]
    tauto
  · obtain ⟨f1, f2, f3, f4⟩ := flag_self h
    rw [if_neg (by simp [f1])]
    simp only
    rw [if_pos f2]
    have wa := and_wf wf.ttypes wt
    have wb := and_wf ws wt
    cases he : isEmpty (Ebitmap.and src tm) with
    | true =>
      rw [if_neg (by simp)]
      have hz := (isEmpty_iff wb).mp he
      refine ⟨wa, fun j => ?_⟩
      rw [and_bit wf.ttypes wt]
      have : ¬ (Ebitmap.getBit src j = true ∧ Ebitmap.getBit tm j = true) := by
        rw [← and_bit ws wt, hz j]; simp
      tauto
    | false =>
      rw [if_pos rfl]
      have hu := (Ebitmap.C02_or_and_xor wa wb).2.1
      refine ⟨hu.1, fun j => ?_⟩
      rw [hu.2 j, Bool.or_eq_true, and_bit wf.ttypes wt, and_bit ws wt]
      tauto
  · obtain ⟨f1, f2, f3, f4⟩ := flag_not h
    rw [if_pos f1]
    cases he : isEmpty na.ttypes with
    | true =>
      rw [if_pos rfl, Ebitmap.cpy_eq]
      have hz := (isEmpty_iff wf.ttypes).mp he
      exact ⟨wt, fun j => ⟨fun h' => ⟨h', .inr (.inr ⟨h, .inl hz⟩)⟩, fun h' => h'.1⟩⟩
    | false =>
      rw [if_neg (by simp)]
      obtain ⟨b, hb⟩ := (isEmpty_false wf.ttypes).mp he
      refine ⟨and_wf wf.ttypes wt, fun j => ?_⟩
      rw [and_bit wf.ttypes wt]
      have : ¬ ∀ b, Ebitmap.getBit na.ttypes b = false := fun hc => by rw [hc b] at hb; cases hb
      tauto

theorem considered_iff {na : Avrule} (wf : RuleWF na) (i j : Nat) :
    considered na i j = true ↔ (HasSelf na → i = j) ∧ (HasNotSelf na → i ≠ j) := by
  unfold considered
  rcases wf.flags with h | h | h
  · obtain ⟨f1, f2, f3, f4⟩ := flag_none h
    simp [f1, f2, f3, f4]
  · obtain ⟨f1, f2, f3, f4⟩ := flag_self h
    have : (na.flags &&& RULE_SELF != 0#32) = true := by simpa using f2
    simp [f1, this, h, f4]
  · obtain ⟨f1, f2, f3, f4⟩ := flag_not h
    have : (na.flags &&& RULE_NOTSELF != 0#32) = true := by simpa using f1
    simp [f2, this, h, f4]

/-- The pairs of types the loops visit. -/
theorem pairs_iff {p : OPolicy} {σ0 : Cond.State} (ok : AssertOk p σ0) {na : Avrule} (wf : RuleWF na) {k : Key} (hk : KeyOk p k) :
    let src := Ebitmap.and na.stypes (p.attrType (k.source - 1))
    let tgt := targetMatches na src (p.attrType (k.target - 1))
    ∃ ss ts, bitsOf src = some ss ∧ bitsOf tgt = some ts ∧
      (∀ i j, ((i, j) ∈ pairsOf ss ts ∧ considered na i j = true → Common p na k i j)) ∧
      (∀ i j, Common p na k i j → (HasSelf na → i = j) → (i, j) ∈ pairsOf ss ts ∧ considered na i j = true) ∧
      (isEmpty src = true ∨ isEmpty tgt = true → pairsOf ss ts = []) := by
  intro src tgt
  have ws := ok.attrTypeWF (k.source - 1)
  have wt := ok.attrTypeWF (k.target - 1)
  have wsrc : Ebitmap.WF src := and_wf wf.stypes ws
  obtain ⟨wtgt, btgt⟩ := targetMatches_spec wf wsrc wt
  obtain ⟨ss, hss, mss⟩ := bits_spec wsrc
  obtain ⟨ts, hts, mts⟩ := bits_spec wtgt
  refine ⟨ss, ts, hss, hts, ?_, ?_, ?_⟩
  · rintro i j ⟨h1, h2⟩
    rw [mem_pairsOf, mss, mts, btgt, and_bit wf.stypes ws] at h1
    rw [considered_iff wf] at h2
    obtain ⟨⟨h3, h4⟩, h5, h6⟩ := h1
    refine ⟨h4, h5, h3, ?_⟩
    rcases h6 with h6 | ⟨h6, h7⟩ | ⟨h6, h7⟩
    · exact .inl h6
    · exact .inr (.inl ⟨h6, .inr (h2.1 h6)⟩)
    · exact .inr (.inr ⟨h6, h2.2 h6, h7⟩)
  · rintro i j ⟨h4, h5, h3, h6⟩ hself
    rw [mem_pairsOf, mss, mts, btgt, and_bit wf.stypes ws, considered_iff wf]
    refine ⟨⟨⟨h3, h4⟩, h5, ?_⟩, hself, ?_⟩
    · rcases h6 with h6 | ⟨h6, h7⟩ | ⟨h6, h8, h7⟩
      · exact .inl h6
      · have := hself h6
        subst this
        exact .inr (.inl ⟨h6, .inr ((and_bit wf.stypes ws _).mpr ⟨h3, h4⟩)⟩)
      · exact .inr (.inr ⟨h6, h7⟩)
    · intro hn
      rcases h6 with ⟨h6, -⟩ | ⟨h6, -⟩ | ⟨h6, h8, -⟩
      · exact absurd hn (flag_none h6).2.2.2
      · exact absurd hn (flag_self h6).2.2.2
      · exact h8
  · rintro (h | h)
    · have hz := (isEmpty_iff wsrc).mp h
      have : ss = [] := by
        rw [List.eq_nil_iff_forall_not_mem]
        intro a ha
        rw [mss, hz] at ha; cases ha
      rw [this]; rfl
    · have hz := (isEmpty_iff wtgt).mp h
      have : ts = [] := by
        rw [List.eq_nil_iff_forall_not_mem]
        intro a ha
        rw [mts, hz] at ha; cases ha
      rw [this]
      unfold pairsOf
      simp

theorem common_lt {p : OPolicy} {σ0 : Cond.State} (ok : AssertOk p σ0) {na : Avrule} {k : Key} (hk : KeyOk p k) {i j : Nat}
    (h : Common p na k i j) : PlainType p (i + 1) ∧ PlainType p (j + 1) :=
  ⟨ok.members _ _ (by have := hk.1; omega) h.1, ok.members _ _ (by have := hk.2; omega) h.2.1⟩

theorem xpermPairs_spec {p : OPolicy} {na : Avrule} {k : Key} {cd : Bool} (l : List (Nat × Nat))
    (tot : ∀ a ∈ l, considered na a.1 a.2 = true → ∃ r, checkXpermsAvtab p na a.1 a.2 k cd = some r) :
    ∃ r, xpermPairs p na k cd l = some r ∧
      (r = true ↔ ∃ a ∈ l, considered na a.1 a.2 = true ∧ checkXpermsAvtab p na a.1 a.2 k cd = some true) := by
  induction l with
  | nil => exact ⟨false, rfl, by simp⟩
  | cons a l ih =>
    obtain ⟨r, h1, h2⟩ := ih (fun x hx => tot x (List.mem_cons_of_mem _ hx))
    obtain ⟨i, j⟩ := a
    unfold xpermPairs
    by_cases hc : considered na i j = false
    · rw [if_pos hc]
      refine ⟨r, h1, ?_⟩
      rw [h2]
      simp [hc]
    · rw [if_neg hc]
      obtain ⟨r', h'⟩ := tot (i, j) (List.mem_cons_self ..) (eq_true_of_ne_false hc)
      simp only at h'
      rw [h']
      simp only [Option.bind_some]
      cases r' with
      | true => exact ⟨true, rfl, by simp [h', hc]⟩
      | false =>
        refine ⟨r, h1, ?_⟩
        rw [h2]; simp [h']

theorem checkXperms_spec {p : OPolicy} {σ0 : Cond.State} (ok : AssertOk p σ0) {na : Avrule} (wf : RuleWF na) {k : Key} (hk : KeyOk p k)
    (cd : Bool) : ∃ r, checkXperms p na k cd = some r ∧
      (r = true → ∃ i j, Common p na k i j ∧ considered na i j = true ∧ checkXpermsAvtab p na i j k cd = some true) ∧
      (∀ i j, Common p na k i j → (HasSelf na → i = j) → checkXpermsAvtab p na i j k cd = some true → r = true) := by
  obtain ⟨ss, ts, h1, h2, h3, h4, h5⟩ := pairs_iff ok wf hk
  unfold checkXperms
  rw [attrTypeAt_eq hk.1]
  simp only [Option.bind_some]
  obtain ⟨r, r1, r2⟩ := xpermPairs_spec (p := p) (na := na) (k := k) (cd := cd) (pairsOf ss ts) (by
    intro a ha hc
    obtain ⟨q1, q2⟩ := common_lt ok hk (h3 a.1 a.2 ⟨ha, hc⟩)
    obtain ⟨_, _, _, _, -, -, -, -, -, -, h⟩ := xpermsAvtab_spec ok na k cd (i := a.1) (j := a.2) (by have := q1.2.1; omega) (by have := q2.2.1; omega)
    exact ⟨_, h⟩)
  have res : ∀ rr, rr = r → (rr = true → ∃ i j, Common p na k i j ∧ considered na i j = true ∧ checkXpermsAvtab p na i j k cd = some true) ∧
      (∀ i j, Common p na k i j → (HasSelf na → i = j) → checkXpermsAvtab p na i j k cd = some true → rr = true) := by
    rintro rr rfl
    refine ⟨fun h => ?_, fun i j hc hs h => ?_⟩
    · obtain ⟨a, ha, hc, hx⟩ := r2.mp h
      exact ⟨a.1, a.2, h3 a.1 a.2 ⟨ha, hc⟩, hc, hx⟩
    · obtain ⟨q1, q2⟩ := h4 i j hc hs
      exact r2.mpr ⟨(i, j), q1, q2, h⟩
  have emp : pairsOf ss ts = [] → r = false := by
    intro h
    rw [h] at r1
    unfold xpermPairs at r1
    simpa using r1.symm
  cases he : isEmpty (Ebitmap.and na.stypes (p.attrType (k.source - 1))) with
  | true =>
    rw [if_pos rfl]
    exact ⟨false, rfl, res false (emp (h5 (.inl he))).symm⟩
  | false =>
    rw [if_neg (by simp), attrTypeAt_eq hk.2]
    simp only [Option.bind_some]
    cases he2 : isEmpty (targetMatches na (Ebitmap.and na.stypes (p.attrType (k.source - 1))) (p.attrType (k.target - 1))) with
    | true =>
      rw [if_pos rfl]
      exact ⟨false, rfl, res false (emp (h5 (.inr he2))).symm⟩
    | false =>
      rw [if_neg (by simp), h1, h2]
      exact ⟨r, r1, res r rfl⟩

/-! ## Rules found by the search -/

theorem tmp_answers {p : OPolicy} {k : Key} {i j : Nat} (hi : i + 1 < 2 ^ 16) (hj : j + 1 < 2 ^ 16) {n : Avtab.Node} (hn : RuleOk p.sp n) :
    Answers (tmpKey k i j) n ↔ n.key.specified = XPERMS_ALLOWED ∧ n.key.source = i + 1 ∧ n.key.target = j + 1 ∧ n.key.cls = k.cls := by
  unfold Answers tmpKey
  simp only
  rw [Nat.mod_eq_of_lt hi, Nat.mod_eq_of_lt hj]
  have hb : (∃ b < 15, XPERMS_ALLOWED.getLsbD b = true ∧ n.key.specified.getLsbD b = true) ↔ n.key.specified = XPERMS_ALLOWED := by
    have h := hn.kind
    generalize n.key.specified = kind at h
    simp only [avKinds, xKinds, typeKinds, List.cons_append, List.nil_append, List.mem_cons, List.not_mem_nil, or_false] at h
    rcases h with rfl | rfl | rfl | rfl | rfl | rfl | rfl | rfl | rfl <;> decide
  rw [hb]
  constructor
  · rintro ⟨a, b, c, d⟩; exact ⟨d, a.symm, b.symm, c.symm⟩
  · rintro ⟨a, b, c, d⟩; exact ⟨b.symm, c.symm, d.symm, a⟩

theorem mem_te {p : OPolicy} {σ0 : Cond.State} (ok : AssertOk p σ0) {k : Key} {i j : Nat} (hi : i + 1 < 2 ^ 16) (hj : j + 1 < 2 ^ 16) (n : Avtab.Node) :
    n ∈ enumerate p.sp.te (tmpKey k i j) ↔ n ∈ Avtab.nodes p.sp.te ∧ n.key.specified = XPERMS_ALLOWED ∧ n.key.source = i + 1 ∧
      n.key.target = j + 1 ∧ n.key.cls = k.cls := by
  rw [(contains_nodes ok.te (tmpKey k i j)).mem_iff]
  simp only [List.mem_filter, decide_eq_true_eq]
  constructor
  · rintro ⟨a, b⟩; exact ⟨a, (tmp_answers hi hj (ok.teRules n a)).mp b⟩
  · rintro ⟨a, b⟩; exact ⟨a, (tmp_answers hi hj (ok.teRules n a)).mpr b⟩

theorem matchNodeKey_iff {k : Key} {i j : Nat} (hi : i + 1 < 2 ^ 16) (hj : j + 1 < 2 ^ 16) (n : Avtab.Node) :
    matchNodeKey n.key (tmpKey k i j) = true ↔ n.key.source = i + 1 ∧ n.key.target = j + 1 ∧ n.key.cls = k.cls := by
  unfold matchNodeKey tmpKey
  simp only [Bool.and_eq_true, beq_iff_eq, Nat.mod_eq_of_lt hi, Nat.mod_eq_of_lt hj]
  tauto

/-- The rule is about extended permissions of the given kind. -/
theorem xB_iff {p : OPolicy} {na : Avrule} {k : Key} {i j : Nat} (hi : i + 1 < 2 ^ 16) (hj : j + 1 < 2 ^ 16) {n : Avtab.Node}
    (hn : RuleOk p.sp n) (e : Bool) : xB na (tmpKey k i j) (stampedNode e n) = true ↔
      n.key.specified = XPERMS_ALLOWED ∧ n.key.source = i + 1 ∧ n.key.target = j + 1 ∧ n.key.cls = k.cls ∧ knownKind (xpermsOf n) = true := by
  have hk := allowed_iff hn.kind e
  have hm := matchNodeKey_iff (k := k) hi hj (stampedNode e n)
  have hk1 : (stampedNode e n).key.specified &&& ALLOWED = 0#16 ↔ n.key.specified ≠ ALLOWED := hk.1
  have hk2 : (stampedNode e n).key.specified &&& XPERMS_ALLOWED = 0#16 ↔ n.key.specified ≠ XPERMS_ALLOWED := hk.2
  have hm' : matchNodeKey (stampedNode e n).key (tmpKey k i j) = true ↔ n.key.source = i + 1 ∧ n.key.target = j + 1 ∧ n.key.cls = k.cls := hm
  have hx : xpermsOf (stampedNode e n) = xpermsOf n := rfl
  unfold xB
  rw [Bool.and_eq_true, Bool.and_eq_true, Bool.and_eq_true, hm', hx, decide_eq_true_eq, Ne, hk2, not_not]
  constructor
  · rintro ⟨⟨⟨a, -⟩, b⟩, c⟩; exact ⟨b, a.1, a.2.1, a.2.2, c⟩
  · rintro ⟨b, a1, a2, a3, c⟩
    refine ⟨⟨⟨⟨a1, a2, a3⟩, ?_⟩, b⟩, c⟩
    have : (stampedNode e n).key.specified &&& ALLOWED = 0#16 := hk1.mpr (by rw [b]; decide)
    simp [baseB, this]

theorem baseB_iff {p : OPolicy} {na : Avrule} {k : Key} {i j : Nat} (hi : i + 1 < 2 ^ 16) (hj : j + 1 < 2 ^ 16) {n : Avtab.Node}
    (hn : RuleOk p.sp n) (e : Bool) : baseB na (tmpKey k i j) (stampedNode e n) = true ↔
      n.key.specified = ALLOWED ∧ n.key.source = i + 1 ∧ n.key.target = j + 1 ∧ n.key.cls = k.cls ∧
      matchAnyClassPermissions na.perms n.key.cls n.datum.data = true := by
  have hk := allowed_iff hn.kind e
  have hk1 : (stampedNode e n).key.specified &&& ALLOWED = 0#16 ↔ n.key.specified ≠ ALLOWED := hk.1
  have hm' : matchNodeKey (stampedNode e n).key (tmpKey k i j) = true ↔ n.key.source = i + 1 ∧ n.key.target = j + 1 ∧ n.key.cls = k.cls :=
    matchNodeKey_iff (k := k) hi hj (stampedNode e n)
  unfold baseB
  rw [Bool.and_eq_true, Bool.and_eq_true, hm', decide_eq_true_eq, Ne, hk1, not_not]
  show _ ∧ matchAnyClassPermissions na.perms n.key.cls n.datum.data = true ↔ _
  tauto

/-! ## Commands -/

theorem and_xbit (a b : List (BitVec 32)) : extendedPermissionsAnd a b = true ↔ ∃ n, n < 256 ∧ xbit a n ∧ xbit b n := by
  unfold extendedPermissionsAnd xbit
  simp only [List.any_eq_true, List.mem_range, bne_iff_ne]
  constructor
  · rintro ⟨i, hi, h⟩
    by_contra hc
    apply h
    apply BitVec.eq_of_getLsbD_eq
    intro j hj
    rw [BitVec.getLsbD_and, BitVec.getLsbD_zero]
    cases h1 : (a.getD i 0#32).getLsbD j <;> cases h2 : (b.getD i 0#32).getLsbD j <;> try rfl
    refine absurd ⟨32 * i + j, by omega, ?_, ?_⟩ hc
    · rw [show (32 * i + j) / 32 = i by omega, show (32 * i + j) % 32 = j by omega]; exact h1
    · rw [show (32 * i + j) / 32 = i by omega, show (32 * i + j) % 32 = j by omega]; exact h2
  · rintro ⟨n, hn, h1, h2⟩
    refine ⟨n / 32, by omega, fun h => ?_⟩
    have := congrArg (fun v => v.getLsbD (n % 32)) h
    simp only [BitVec.getLsbD_and, h1, h2, BitVec.getLsbD_zero] at this
    cases this

theorem xpermTest_iff (x : Nat) (l : List (BitVec 32)) : xpermTest x l = true ↔ xbit l x := Iff.rfl

/-- Two blocks that list a common command are recognised. -/
theorem check_of_common {a b : XPerms} {c : Cmd} (h1 : Lists a c) (h2 : Lists b c) : checkExtendedPermissions a b = true := by
  have d1 : FUNCTION ≠ DRIVER := by decide
  have d2 : FUNCTION ≠ NLMSG := by decide
  have d3 : DRIVER ≠ NLMSG := by decide
  unfold checkExtendedPermissions
  cases c with
  | ioctl dr fn =>
    obtain ⟨b1, b2, ⟨a1, a2, a3⟩ | ⟨a1, a2⟩⟩ := h1 <;> obtain ⟨-, -, ⟨c1, c2, c3⟩ | ⟨c1, c2⟩⟩ := h2
    · rw [if_pos ⟨a1, c1⟩, if_pos (BitVec.eq_of_toNat_eq (by rw [a2, c2])), and_xbit]
      exact ⟨fn, b2, a3, c3⟩
    · rw [if_neg (by rw [c1]; exact fun h => d1 h.2.symm), if_pos ⟨a1, c1⟩, a2]; exact c2
    · rw [if_neg (by rw [a1]; exact fun h => d1 h.1.symm), if_neg (by rw [a1]; exact fun h => d1 h.1.symm), if_pos ⟨a1, c1⟩, c2]; exact a2
    · rw [if_neg (by rw [a1]; exact fun h => d1 h.1.symm), if_neg (by rw [a1]; exact fun h => d1 h.1.symm), if_neg (by rw [c1]; exact fun h => d1 h.2.symm),
        if_pos ⟨a1, c1⟩, and_xbit]
      exact ⟨dr, b1, a2, c2⟩
  | nlmsg dr fn =>
    obtain ⟨b1, b2, a1, a2, a3⟩ := h1
    obtain ⟨-, -, c1, c2, c3⟩ := h2
    rw [if_neg (by rw [a1]; exact fun h => d2 h.1.symm), if_neg (by rw [a1]; exact fun h => d2 h.1.symm), if_neg (by rw [a1]; exact fun h => d3 h.1.symm),
      if_neg (by rw [a1]; exact fun h => d3 h.1.symm), if_pos ⟨a1, c1⟩, if_pos (BitVec.eq_of_toNat_eq (by rw [a2, c2])), and_xbit]
    exact ⟨fn, b2, a3, c3⟩

/-- Blocks that each list something and overlap have a common command. -/
theorem common_of_check {a b : XPerms} (ha : ∃ c, Lists a c) (hb : ∃ c, Lists b c) (h : checkExtendedPermissions a b = true) :
    ∃ c, Lists a c ∧ Lists b c := by
  have d1 : FUNCTION ≠ DRIVER := by decide
  have d2 : FUNCTION ≠ NLMSG := by decide
  have d3 : DRIVER ≠ NLMSG := by decide
  have fnOf : ∀ x : XPerms, (∃ c, Lists x c) → x.specified = FUNCTION → ∃ fn, fn < 256 ∧ xbit x.perms fn := by
    rintro x ⟨c, hc⟩ hx
    cases c with
    | ioctl dr fn =>
      obtain ⟨-, b2, ⟨-, -, a3⟩ | ⟨a1, -⟩⟩ := hc
      · exact ⟨fn, b2, a3⟩
      · rw [hx] at a1; exact absurd a1 d1
    | nlmsg dr fn =>
      have := hc.2.2.1
      rw [hx] at this; exact absurd this d2
  have lt : ∀ x : BitVec 8, x.toNat < 256 := fun x => x.isLt
  unfold checkExtendedPermissions at h
  split at h
  · rename_i h1
    split at h
    · rename_i h2
      obtain ⟨n, hn, n1, n2⟩ := (and_xbit _ _).mp h
      exact ⟨.ioctl a.driver.toNat n, ⟨lt _, hn, .inl ⟨h1.1, rfl, n1⟩⟩, ⟨lt _, hn, .inl ⟨h1.2, by rw [h2], n2⟩⟩⟩
    · cases h
  · split at h
    · rename_i h1
      obtain ⟨fn, f1, f2⟩ := fnOf a ha h1.1
      exact ⟨.ioctl a.driver.toNat fn, ⟨lt _, f1, .inl ⟨h1.1, rfl, f2⟩⟩, ⟨lt _, f1, .inr ⟨h1.2, h⟩⟩⟩
    · split at h
      · rename_i h1
        obtain ⟨fn, f1, f2⟩ := fnOf b hb h1.2
        exact ⟨.ioctl b.driver.toNat fn, ⟨lt _, f1, .inr ⟨h1.1, h⟩⟩, ⟨lt _, f1, .inl ⟨h1.2, rfl, f2⟩⟩⟩
      · split at h
        · rename_i h1
          obtain ⟨n, hn, n1, n2⟩ := (and_xbit _ _).mp h
          exact ⟨.ioctl n 0, ⟨hn, by decide, .inr ⟨h1.1, n1⟩⟩, ⟨hn, by decide, .inr ⟨h1.2, n2⟩⟩⟩
        · split at h
          · rename_i h1
            split at h
            · rename_i h2
              obtain ⟨n, hn, n1, n2⟩ := (and_xbit _ _).mp h
              exact ⟨.nlmsg a.driver.toNat n, ⟨lt _, hn, h1.1, rfl, n1⟩, ⟨lt _, hn, h1.2, by rw [h2], n2⟩⟩
            · cases h
          · cases h

/-- What an allowxperm rule says. -/
theorem grants_listed {d : Datum} {c : Cmd} : Grants XPERMS_ALLOWED d c.listed ↔ ∃ x, d.xperms = some x ∧ Lists x c := by
  have hk : XPERMS_ALLOWED ∈ xKinds := by decide
  cases c with
  | ioctl dr fn =>
    show (_ ∧ _ ∧ _ ∧ _ ∧ _) ↔ _
    constructor
    · rintro ⟨-, -, h1, h2, x, hx, h3⟩; exact ⟨x, hx, h1, h2, h3⟩
    · rintro ⟨x, hx, h1, h2, h3⟩; exact ⟨rfl, hk, h1, h2, x, hx, h3⟩
  | nlmsg dr fn =>
    show (_ ∧ _ ∧ _ ∧ _ ∧ _) ↔ _
    constructor
    · rintro ⟨-, -, h1, h2, x, hx, h3⟩; exact ⟨x, hx, h1, h2, h3⟩
    · rintro ⟨x, hx, h1, h2, h3⟩; exact ⟨rfl, hk, h1, h2, x, hx, h3⟩

theorem listed_kind {kind : BitVec 16} {d : Datum} {c : Cmd} (h : Grants kind d c.listed) : kind = XPERMS_ALLOWED := by
  cases c with
  | ioctl dr fn => exact h.1
  | nlmsg dr fn => exact h.1

theorem lists_kind {x : XPerms} {c : Cmd} (h : Lists x c) : x.specified = NLMSG ↔ ∃ dr fn, c = .nlmsg dr fn := by
  have d2 : FUNCTION ≠ NLMSG := by decide
  have d3 : DRIVER ≠ NLMSG := by decide
  cases c with
  | ioctl dr fn =>
    constructor
    · intro hx
      obtain ⟨-, -, ⟨a1, -⟩ | ⟨a1, -⟩⟩ := h
      · rw [hx] at a1; exact absurd a1.symm d2
      · rw [hx] at a1; exact absurd a1.symm d3
    · rintro ⟨_, _, h⟩; cases h
  | nlmsg dr fn => exact ⟨fun _ => ⟨dr, fn, rfl⟩, fun _ => h.2.2.1⟩

/-- A rule of the right kind filters. -/
theorem grants_filtered {d : Datum} {c : Cmd} {x : XPerms} (hx : d.xperms = some x) (hk : knownKind x = true)
    (hs : x.specified = NLMSG ↔ ∃ dr fn, c = .nlmsg dr fn) : Grants XPERMS_ALLOWED d c.filtered := by
  have hkk : XPERMS_ALLOWED ∈ xKinds := by decide
  unfold knownKind at hk
  simp only [Bool.or_eq_true, beq_iff_eq] at hk
  cases c with
  | ioctl dr fn =>
    refine ⟨rfl, hkk, x, hx, ?_⟩
    rcases hk with hk | hk
    · exact hk
    · obtain ⟨_, _, h⟩ := hs.mp hk
      cases h
  | nlmsg dr fn => exact ⟨rfl, hkk, x, hx, hs.mpr ⟨_, _, rfl⟩⟩

end Verif.Assertion
