import Verif.Assertion.Lemmas

/-!
# Lemmas: the plain check
-/

namespace Verif.Assertion
open Verif.Avtab Verif.Policy Verif.Optimize

/-- `Names` for type indices. -/
def NamesIx (na : Avrule) (i j : Nat) : Prop :=
  Ebitmap.getBit na.stypes i = true ∧
  ((na.flags = 0#32 ∧ Ebitmap.getBit na.ttypes j = true) ∨ (HasSelf na ∧ (Ebitmap.getBit na.ttypes j = true ∨ i = j)) ∨
   (HasNotSelf na ∧ i ≠ j ∧ ((∀ b, Ebitmap.getBit na.ttypes b = false) ∨ Ebitmap.getBit na.ttypes j = true)))

theorem names_ix {na : Avrule} {s t : Nat} (hs : 1 ≤ s) (ht : 1 ≤ t) : Names na s t ↔ NamesIx na (s - 1) (t - 1) := by
  unfold Names NamesIx In
  have : s = t ↔ s - 1 = t - 1 := by omega
  rw [this, Ne, this]

/-- The pairs of type indices the rule and the key have in common. -/
def Common (p : OPolicy) (na : Avrule) (k : Key) (i j : Nat) : Prop :=
  Ebitmap.getBit (p.attrType (k.source - 1)) i = true ∧ Ebitmap.getBit (p.attrType (k.target - 1)) j = true ∧ NamesIx na i j

theorem flag_self {na : Avrule} (h : HasSelf na) : na.flags &&& RULE_NOTSELF = 0#32 ∧ na.flags &&& RULE_SELF ≠ 0#32 ∧ na.flags ≠ 0#32 ∧ ¬ HasNotSelf na := by
  unfold HasSelf at h
  unfold HasNotSelf
  rw [h]; decide

theorem flag_not {na : Avrule} (h : HasNotSelf na) : na.flags &&& RULE_NOTSELF ≠ 0#32 ∧ na.flags &&& RULE_SELF = 0#32 ∧ na.flags ≠ 0#32 ∧ ¬ HasSelf na := by
  unfold HasNotSelf at h
  unfold HasSelf
  rw [h]; decide

theorem flag_none {na : Avrule} (h : na.flags = 0#32) : na.flags &&& RULE_NOTSELF = 0#32 ∧ na.flags &&& RULE_SELF = 0#32 ∧ ¬ HasSelf na ∧ ¬ HasNotSelf na := by
  unfold HasSelf HasNotSelf
  rw [h]; decide

/-- Keys with existing types. -/
def KeyOk (p : OPolicy) (k : Key) : Prop := (1 ≤ k.source ∧ k.source ≤ p.sp.pol.nTypes) ∧ (1 ≤ k.target ∧ k.target ≤ p.sp.pol.nTypes)

theorem target_test {p : OPolicy} {σ0 : Cond.State} (ok : AssertOk p σ0) {na : Avrule} (wf : RuleWF na) {k : Key} (hk : KeyOk p k) :
    ∃ r, targetTest p na k = some r ∧
      (r = true ∧ Ebitmap.matchAny na.stypes (p.attrType (k.source - 1)) = true ↔ ∃ i j, Common p na k i j) := by
  have ws := ok.attrTypeWF (k.source - 1)
  have wt := ok.attrTypeWF (k.target - 1)
  have hs := attrTypeAt_eq hk.1
  have ht := attrTypeAt_eq hk.2
  unfold targetTest
  rcases wf.flags with h | h | h
  · obtain ⟨f1, f2, f3, f4⟩ := flag_none h
    have f5 : ¬ na.flags = RULE_SELF := f3
    rw [if_neg (by simp [f1]), ht]
    simp only [Option.bind_some]
    rw [if_neg f5]
    refine ⟨Ebitmap.matchAny na.ttypes (p.attrType (k.target - 1)), by split <;> simp_all, ?_⟩
    rw [any_iff wf.ttypes wt, any_iff wf.stypes ws]
    constructor
    · rintro ⟨⟨j, j1, j2⟩, i, i1, i2⟩
      exact ⟨i, j, i2, j2, i1, .inl ⟨h, j1⟩⟩
    · rintro ⟨i, j, i2, j2, i1, ⟨-, j1⟩ | ⟨h', -⟩ | ⟨h', -⟩⟩
      · exact ⟨⟨j, j1, j2⟩, i, i1, i2⟩
      · exact absurd h' f3
      · exact absurd h' f4
  · obtain ⟨f1, f2, f3, f4⟩ := flag_self h
    have f5 : na.flags = RULE_SELF := h
    rw [if_neg (by simp [f1]), ht]
    simp only [Option.bind_some]
    rw [if_pos f5]
    unfold selfMatch
    rw [hs, ht]
    simp only [Option.bind_some]
    refine ⟨Ebitmap.matchAny na.ttypes (p.attrType (k.target - 1)) ||
      Ebitmap.matchAny (Ebitmap.and na.stypes (p.attrType (k.source - 1))) (p.attrType (k.target - 1)), by split <;> simp_all, ?_⟩
    rw [Bool.or_eq_true, any_iff wf.ttypes wt, any_iff (and_wf wf.stypes ws) wt, any_iff wf.stypes ws]
    constructor
    · rintro ⟨⟨j, j1, j2⟩ | ⟨i, i1, i2⟩, i', i1', i2'⟩
      · exact ⟨i', j, i2', j2, i1', .inr (.inl ⟨h, .inl j1⟩)⟩
      · rw [and_bit wf.stypes ws] at i1
        exact ⟨i, i, i1.2, i2, i1.1, .inr (.inl ⟨h, .inr rfl⟩)⟩
    · rintro ⟨i, j, i2, j2, i1, ⟨h', -⟩ | ⟨-, j1 | rfl⟩ | ⟨h', -⟩⟩
      · exact absurd h' f3
      · exact ⟨.inl ⟨j, j1, j2⟩, i, i1, i2⟩
      · exact ⟨.inr ⟨i, (and_bit wf.stypes ws i).mpr ⟨i1, i2⟩, j2⟩, i, i1, i2⟩
      · exact absurd h' f4
  · obtain ⟨f1, f2, f3, f4⟩ := flag_not h
    rw [if_pos f1]
    unfold notselfMatch
    rw [hs, ht]
    simp only [Option.bind_some]
    have key : ∀ tgt : Ebitmap.Ebitmap, Ebitmap.WF tgt →
        (∀ j, Ebitmap.getBit tgt j = true ↔ Ebitmap.getBit (p.attrType (k.target - 1)) j = true ∧
          ((∀ b, Ebitmap.getBit na.ttypes b = false) ∨ Ebitmap.getBit na.ttypes j = true)) →
        ∃ r, (if Ebitmap.cardinality (Ebitmap.and na.stypes (p.attrType (k.source - 1))) = 0 ∨ Ebitmap.cardinality tgt = 0 then some false
          else if Ebitmap.cardinality (Ebitmap.and na.stypes (p.attrType (k.source - 1))) = 1 ∧ Ebitmap.cardinality tgt = 1 ∧
            Ebitmap.cardinality (Ebitmap.and (Ebitmap.and na.stypes (p.attrType (k.source - 1))) tgt) = 1 then some false
          else some true) = some r ∧
          (r = true ∧ Ebitmap.matchAny na.stypes (p.attrType (k.source - 1)) = true ↔ ∃ i j, Common p na k i j) := by
      intro tgt wtgt htgt
      have hc := notself_card (and_wf wf.stypes ws) wtgt
      have hr : (∃ i j, Ebitmap.getBit (Ebitmap.and na.stypes (p.attrType (k.source - 1))) i = true ∧ Ebitmap.getBit tgt j = true ∧ i ≠ j) ↔
          ∃ i j, Common p na k i j := by
        constructor
        · rintro ⟨i, j, h1, h2, h3⟩
          rw [and_bit wf.stypes ws] at h1
          rw [htgt] at h2
          exact ⟨i, j, h1.2, h2.1, h1.1, .inr (.inr ⟨h, h3, h2.2⟩)⟩
        · rintro ⟨i, j, i2, j2, i1, ⟨h', -⟩ | ⟨h', -⟩ | ⟨-, h3, h4⟩⟩
          · exact absurd h' f3
          · exact absurd h' f4
          · exact ⟨i, j, (and_bit wf.stypes ws i).mpr ⟨i1, i2⟩, (htgt j).mpr ⟨j2, h4⟩, h3⟩
      rw [← hr, ← hc]
      by_cases h1 : Ebitmap.cardinality (Ebitmap.and na.stypes (p.attrType (k.source - 1))) = 0 ∨ Ebitmap.cardinality tgt = 0
      · exact ⟨false, if_pos h1, by simp [h1]⟩
      · rw [if_neg h1]
        by_cases h2 : Ebitmap.cardinality (Ebitmap.and na.stypes (p.attrType (k.source - 1))) = 1 ∧ Ebitmap.cardinality tgt = 1 ∧
            Ebitmap.cardinality (Ebitmap.and (Ebitmap.and na.stypes (p.attrType (k.source - 1))) tgt) = 1
        · exact ⟨false, if_pos h2, by simp [h2]⟩
        · refine ⟨true, if_neg h2, ?_⟩
          have hm := hr.mp (hc.mp ⟨h1, h2⟩)
          obtain ⟨i, j, i2, j2, i1, -⟩ := hm
          have : Ebitmap.matchAny na.stypes (p.attrType (k.source - 1)) = true := (any_iff wf.stypes ws).mpr ⟨i, i1, i2⟩
          simp only [this, and_self, true_iff]
          exact ⟨h1, h2⟩
    cases he : isEmpty na.ttypes with
    | true =>
      rw [Ebitmap.cpy_eq]
      apply key _ wt
      intro j
      have := (isEmpty_iff wf.ttypes).mp he
      exact ⟨fun h => ⟨h, .inl this⟩, fun h => h.1⟩
    | false =>
      apply key _ (and_wf wf.ttypes wt)
      intro j
      rw [and_bit wf.ttypes wt]
      obtain ⟨b, hb⟩ := (isEmpty_false wf.ttypes).mp he
      constructor
      · rintro ⟨a, b⟩; exact ⟨b, .inr a⟩
      · rintro ⟨a, h1 | h1⟩
        · rw [h1 b] at hb; cases hb
        · exact ⟨h1, a⟩

/-- The rule `n` allows something the assertion forbids, to the types with indices `i` and `j`. -/
def Hit (p : OPolicy) (na : Avrule) (n : Avtab.Node) (i j : Nat) : Prop :=
  n.key.specified = ALLOWED ∧ Common p na n.key i j ∧
    ∃ cp ∈ na.perms, cp.1 = n.key.cls ∧ ∃ b, b < 32 ∧ cp.2.getLsbD b = true ∧ n.datum.data.getLsbD b = true

/-- The stored form of a rule. -/
def stampedNode (e : Bool) (n : Avtab.Node) : Avtab.Node :=
  ⟨{ n.key with specified := if e then n.key.specified ||| ENABLED else n.key.specified }, n.datum⟩

theorem stamped_eq (en : Nat → Bool) (node : Nat → Avtab.Node) (id : Nat) : stamped en node id = stampedNode (en id) (node id) := by
  unfold stamped stampedNode specOf
  cases en id <;> rfl

theorem stamp_false (n : Avtab.Node) : stampedNode false n = n := rfl

theorem rule_keyOk {p : OPolicy} {n : Avtab.Node} (h : RuleOk p.sp n) : KeyOk p n.key :=
  ⟨⟨h.source.1, h.source.2.1⟩, ⟨h.target.1, h.target.2.1⟩⟩

theorem tmpKey_congr {k k' : Key} (h : k.cls = k'.cls) (i j : Nat) : tmpKey k i j = tmpKey k' i j := by
  unfold tmpKey; rw [h]

theorem pairScan_congr (p : OPolicy) (na : Avrule) {k k' : Key} (h : k.cls = k'.cls) (c : Bool) (l : List (Nat × Nat)) :
    ∀ s, pairScan p na k c l s = pairScan p na k' c l s := by
  induction l with
  | nil => intro s; rfl
  | cons a l ih =>
    intro s
    obtain ⟨i, j⟩ := a
    unfold pairScan
    rw [tmpKey_congr h]
    simp only [ih]

theorem checkXperms_congr (p : OPolicy) (na : Avrule) {k k' : Key} (h1 : k.source = k'.source) (h2 : k.target = k'.target) (h : k.cls = k'.cls)
    (c : Bool) : checkXperms p na k c = checkXperms p na k' c := by
  have e1 : ∀ i j, checkXpermsAvtab p na i j k c = checkXpermsAvtab p na i j k' c := by
    intro i j
    unfold checkXpermsAvtab
    simp only [pairScan_congr p na h]
  have e2 : ∀ l, xpermPairs p na k c l = xpermPairs p na k' c l := by
    intro l
    induction l with
    | nil => rfl
    | cons a l ih =>
      obtain ⟨i, j⟩ := a
      unfold xpermPairs
      rw [e1, ih]
  unfold checkXperms
  simp only [h1, h2, e2]

/-- The test of one rule, without extended permissions. -/
theorem avtabMatch_base {p : OPolicy} {σ0 : Cond.State} (ok : AssertOk p σ0) {na : Avrule} (wf : RuleWF na) {n : Avtab.Node}
    (hn : RuleOk p.sp n) (e conditional : Bool) :
    ((∃ i j, Hit p na n i j) → avtabMatch p na conditional (stampedNode e n) =
      if na.specified = XPERMS_NEVERALLOW then checkXperms p na n.key conditional else some true) ∧
    ((¬ ∃ i j, Hit p na n i j) → avtabMatch p na conditional (stampedNode e n) = some false) := by
  have hk := allowed_iff hn.kind e
  obtain ⟨r, hr, hr2⟩ := target_test ok wf (rule_keyOk hn)
  have hs := attrTypeAt_eq (rule_keyOk hn).1
  have mp := matchAny_perms na.perms n.key.cls n.datum.data
  have htt : targetTest p na (stampedNode e n).key = targetTest p na n.key := rfl
  have hx : checkXperms p na (stampedNode e n).key conditional = checkXperms p na n.key conditional :=
    checkXperms_congr p na (k := (stampedNode e n).key) (k' := n.key) rfl rfl rfl _
  have hdef : avtabMatch p na conditional (stampedNode e n) =
      if n.key.specified ≠ ALLOWED then some false
      else if matchAnyClassPermissions na.perms n.key.cls n.datum.data = false then some false
      else if Ebitmap.matchAny na.stypes (p.attrType (n.key.source - 1)) = false then some false
      else if r = false then some false
      else if na.specified = XPERMS_NEVERALLOW then checkXperms p na n.key conditional else some true := by
    unfold avtabMatch
    rw [hx, htt, hr]
    have : attrTypeAt p (stampedNode e n).key.source = some (p.attrType (n.key.source - 1)) := hs
    rw [this]
    simp only [Option.bind_some]
    have hk1 : (stampedNode e n).key.specified &&& ALLOWED = 0#16 ↔ n.key.specified ≠ ALLOWED := hk.1
    by_cases h1 : n.key.specified = ALLOWED
    · rw [if_neg (fun h => hk1.mp h h1), if_neg (show ¬ n.key.specified ≠ ALLOWED from fun h => h h1)]
      rfl
    · rw [if_pos (hk1.mpr h1), if_pos h1]
  rw [hdef]
  constructor
  · rintro ⟨i, j, h1, h2, h3⟩
    have := hr2.mpr ⟨i, j, h2⟩
    have h4 := mp.mpr h3
    rw [if_neg (fun h => h h1), h4, this.1, this.2]
    simp
  · intro hno
    split
    · rfl
    · rename_i h1
      have h1 := not_not.mp h1
      split
      · rfl
      · rename_i h2
        have h2 := mp.mp (by simpa using h2)
        split
        · rfl
        · rename_i h3
          split
          · rfl
          · rename_i h4
            obtain ⟨i, j, hc⟩ := hr2.mp ⟨by simpa using h4, by simpa using h3⟩
            exact absurd ⟨i, j, h1, hc, h2⟩ hno

theorem mapAny_spec (f : Avtab.Node → Option Bool) (l : List Avtab.Node) (h : ∀ n ∈ l, ∃ r, f n = some r) :
    ∃ r, mapAny f l = some r ∧ (r = true ↔ ∃ n ∈ l, f n = some true) := by
  induction l with
  | nil => exact ⟨false, rfl, by simp⟩
  | cons n l ih =>
    obtain ⟨r, hr⟩ := h n (List.mem_cons_self ..)
    obtain ⟨r', hr', h'⟩ := ih (fun x hx => h x (List.mem_cons_of_mem _ hx))
    unfold mapAny
    rw [hr]
    simp only [Option.bind_some]
    cases r with
    | true => exact ⟨true, rfl, by simp [hr]⟩
    | false =>
      refine ⟨r', by simpa using hr', ?_⟩
      rw [h']
      simp [hr]

theorem condNodes_eq (p : OPolicy) : condNodes p = p.tab.ids.map (fun id => stampedNode (p.enabled id) (p.tab.node id)) := by
  unfold condNodes
  rw [tab_nodes]
  apply List.map_congr_left
  intro id _
  exact stamped_eq _ _ _

/-- `check_assertion` in terms of its tests of single rules. -/
theorem checkAssertion_iff {p : OPolicy} {σ0 : Cond.State} (ok : AssertOk p σ0) {na : Avrule}
    (tot : ∀ n, RuleOk p.sp n → ∀ c e, ∃ r, avtabMatch p na c (stampedNode e n) = some r) :
    ∃ r, checkAssertion p na = some r ∧ (r = true ↔ (∃ n ∈ Avtab.nodes p.sp.te, avtabMatch p na false n = some true) ∨
      ∃ id ∈ listed p.conds, avtabMatch p na true (stampedNode (p.enabled id) (p.tab.node id)) = some true) := by
  unfold checkAssertion
  obtain ⟨r1, h1, h1'⟩ := mapAny_spec (avtabMatch p na false) (Avtab.nodes p.sp.te) (fun n hn => tot n (ok.teRules n hn) false false)
  obtain ⟨r2, h2, h2'⟩ := mapAny_spec (avtabMatch p na true) (condNodes p) (by
    intro n hn
    rw [condNodes_eq, List.mem_map] at hn
    obtain ⟨id, hid, rfl⟩ := hn
    exact tot _ (ok.condRules id hid) true _)
  rw [h1, h2]
  simp only [Option.bind_some]
  have e2 : (∃ n ∈ condNodes p, avtabMatch p na true n = some true) ↔
      ∃ id ∈ listed p.conds, avtabMatch p na true (stampedNode (p.enabled id) (p.tab.node id)) = some true := by
    rw [condNodes_eq]
    simp only [List.mem_map]
    constructor
    · rintro ⟨n, ⟨id, hid, rfl⟩, h⟩; exact ⟨id, (ok.all id).mpr hid, h⟩
    · rintro ⟨id, hid, h⟩; exact ⟨_, ⟨id, (ok.all id).mp hid, rfl⟩, h⟩
  rw [← e2, ← h1', ← h2']
  cases r1 with
  | true => exact ⟨true, rfl, by simp⟩
  | false => exact ⟨r2, rfl, by simp⟩

theorem common_types {p : OPolicy} {σ0 : Cond.State} (ok : AssertOk p σ0) {na : Avrule} {n : Avtab.Node} (hn : RuleOk p.sp n) (s t : Nat)
    (hs : 1 ≤ s) (ht : 1 ≤ t) : Common p na n.key (s - 1) (t - 1) ↔
      PlainType p s ∧ PlainType p t ∧ Services.Covers p.sp s n.key.source ∧ Services.Covers p.sp t n.key.target ∧ Names na s t := by
  unfold Common
  rw [names_ix hs ht]
  constructor
  · rintro ⟨h1, h2, h3⟩
    have a := ok.members _ _ (by have := hn.source; omega) h1
    have b := ok.members _ _ (by have := hn.target; omega) h2
    rw [show s - 1 + 1 = s by omega] at a
    rw [show t - 1 + 1 = t by omega] at b
    exact ⟨a, b, (covers_iff ok a hn.source).mpr h1, (covers_iff ok b hn.target).mpr h2, h3⟩
  · rintro ⟨a, b, h1, h2, h3⟩
    exact ⟨(covers_iff ok a hn.source).mp h1, (covers_iff ok b hn.target).mp h2, h3⟩

/-- The rule allows one of the forbidden permissions to types the assertion names. -/
theorem hit_iff {p : OPolicy} {σ0 : Cond.State} (ok : AssertOk p σ0) {na : Avrule} {n : Avtab.Node} (hn : RuleOk p.sp n) :
    (∃ i j, Hit p na n i j) ↔ ∃ s t, PlainType p s ∧ PlainType p t ∧ Names na s t ∧ ∃ cp ∈ na.perms, ∃ b, cp.2.getLsbD b = true ∧
      Says p.sp s t cp.1 (.allow b) n := by
  constructor
  · rintro ⟨i, j, h1, h2, cp, h3, h4, b, hb, h5, h6⟩
    have := (common_types ok hn (i + 1) (j + 1) (by omega) (by omega)).mp h2
    exact ⟨i + 1, j + 1, this.1, this.2.1, this.2.2.2.2, cp, h3, b, h5, this.2.2.1, this.2.2.2.1, h4.symm, h1, hb, h6⟩
  · rintro ⟨s, t, h1, h2, h3, cp, h4, b, h5, c1, c2, h6, h7, h8, h9⟩
    exact ⟨s - 1, t - 1, h7, (common_types ok hn s t h1.1 h2.1).mpr ⟨h1, h2, c1, c2, h3⟩, cp, h4, h6.symm, b, h8, h5, h9⟩

theorem violated_iff {p : OPolicy} {σ0 : Cond.State} (ok : AssertOk p σ0) {na : Avrule} :
    Violated p na ↔ (∃ n ∈ Avtab.nodes p.sp.te, ∃ i j, Hit p na n i j) ∨ ∃ id ∈ listed p.conds, ∃ i j, Hit p na (p.tab.node id) i j := by
  unfold Violated SomeAllow
  constructor
  · rintro ⟨s, t, h1, h2, h3, cp, h4, b, h5, ⟨n, hn, h6⟩ | ⟨id, hid, h6⟩⟩
    · exact .inl ⟨n, hn, (hit_iff ok (ok.teRules n hn)).mpr ⟨s, t, h1, h2, h3, cp, h4, b, h5, h6⟩⟩
    · exact .inr ⟨id, hid, (hit_iff ok (ok.condRules id ((ok.all id).mp hid))).mpr ⟨s, t, h1, h2, h3, cp, h4, b, h5, h6⟩⟩
  · rintro (⟨n, hn, h⟩ | ⟨id, hid, h⟩)
    · obtain ⟨s, t, h1, h2, h3, cp, h4, b, h5, h6⟩ := (hit_iff ok (ok.teRules n hn)).mp h
      exact ⟨s, t, h1, h2, h3, cp, h4, b, h5, .inl ⟨n, hn, h6⟩⟩
    · obtain ⟨s, t, h1, h2, h3, cp, h4, b, h5, h6⟩ := (hit_iff ok (ok.condRules id ((ok.all id).mp hid))).mp h
      exact ⟨s, t, h1, h2, h3, cp, h4, b, h5, .inr ⟨id, hid, h6⟩⟩

theorem plain_match {p : OPolicy} {σ0 : Cond.State} (ok : AssertOk p σ0) {na : Avrule} (wf : RuleWF na) (hk : na.specified = NEVERALLOW)
    {n : Avtab.Node} (hn : RuleOk p.sp n) (c e : Bool) :
    ∃ r, avtabMatch p na c (stampedNode e n) = some r ∧ (r = true ↔ ∃ i j, Hit p na n i j) := by
  have hx : na.specified ≠ XPERMS_NEVERALLOW := by rw [hk]; decide
  obtain ⟨h1, h2⟩ := avtabMatch_base ok wf hn e c
  rw [if_neg hx] at h1
  by_cases h : ∃ i j, Hit p na n i j
  · exact ⟨true, h1 h, by simp [h]⟩
  · exact ⟨false, h2 h, by simp [h]⟩

theorem check_plain {p : OPolicy} {σ0 : Cond.State} (ok : AssertOk p σ0) {na : Avrule} (wf : RuleWF na) (hk : na.specified = NEVERALLOW) :
    ∃ r, checkAssertion p na = some r ∧ (r = true ↔ Violated p na) := by
  obtain ⟨r, h1, h2⟩ := checkAssertion_iff ok (na := na) (fun n hn c e => by
    obtain ⟨r, h, -⟩ := plain_match ok wf hk hn c e
    exact ⟨r, h⟩)
  refine ⟨r, h1, ?_⟩
  rw [h2, violated_iff ok]
  have key : ∀ n, RuleOk p.sp n → ∀ c e, avtabMatch p na c (stampedNode e n) = some true ↔ ∃ i j, Hit p na n i j := by
    intro n hn c e
    obtain ⟨r, ha, hb⟩ := plain_match ok wf hk hn c e
    rw [ha, ← hb]; simp
  constructor
  · rintro (⟨n, hn, h⟩ | ⟨id, hid, h⟩)
    · exact .inl ⟨n, hn, (key n (ok.teRules n hn) false false).mp h⟩
    · exact .inr ⟨id, hid, (key _ (ok.condRules id ((ok.all id).mp hid)) true _).mp h⟩
  · rintro (⟨n, hn, h⟩ | ⟨id, hid, h⟩)
    · exact .inl ⟨n, hn, (key n (ok.teRules n hn) false false).mpr h⟩
    · exact .inr ⟨id, hid, (key _ (ok.condRules id ((ok.all id).mp hid)) true _).mpr h⟩

end Verif.Assertion
