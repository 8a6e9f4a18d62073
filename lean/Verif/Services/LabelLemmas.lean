import Verif.Services.LabelSpec
import Verif.Sidtab.Props
import Verif.Avtab.Props

namespace Verif.Services
open Verif.Policy Verif.Mls

theorem defaultsOf_some {p : LPolicy} {cls : Nat} {d : Defaults} (h : classDefaults p cls = some d) : DefaultsOf p cls d := by
  unfold classDefaults at h
  split at h
  · rename_i hc; exact .inl ⟨by omega, hc.2, h⟩
  · cases h

theorem defaultsOf_none {p : LPolicy} {cls : Nat} (h : classDefaults p cls = none) : DefaultsOf p cls ⟨0, 0, 0, 0⟩ := by
  unfold classDefaults at h
  refine .inr ⟨?_, rfl⟩
  rintro ⟨h1, h2, d, hd⟩
  rw [if_pos ⟨by omega, h2⟩, hd] at h
  cases h

theorem defaultsOf_iff {p : LPolicy} {cls : Nat} {d : Defaults} :
    DefaultsOf p cls d ↔ d = (classDefaults p cls).getD ⟨0, 0, 0, 0⟩ := by
  constructor
  · rintro (⟨h1, h2, h3⟩ | ⟨h1, h2⟩)
    · unfold classDefaults; rw [if_pos ⟨by omega, h2⟩, h3]; rfl
    · cases h : classDefaults p cls with
      | none => exact h2
      | some d' =>
        rcases defaultsOf_some h with h' | ⟨_, h'⟩
        · exact absurd ⟨h'.1, h'.2.1, _, h'.2.2⟩ h1
        · rw [h2, h']; rfl
  · intro h
    cases hc : classDefaults p cls with
    | none => rw [h, hc]; exact defaultsOf_none hc
    | some d' => rw [h, hc]; exact defaultsOf_some hc

theorem newUser_spec (p : LPolicy) (s t : Context) (cls : Nat) (k : Kind) : UserOf p s t cls k (newUser p s t cls k) := by
  have gen : ∀ k, k ≠ Kind.member → newUser p s t cls k = match classDefaults p cls with
      | some d => if d.user = DEFAULT_TARGET then t.user else s.user
      | none => s.user := by
    intro k hk; cases k <;> first | rfl | exact absurd rfl hk
  by_cases hk : k = .member
  · subst hk; exact .member
  · rw [gen k hk]
    cases h : classDefaults p cls with
    | none => exact .source k _ hk (defaultsOf_none h) (by simp)
    | some d =>
      dsimp only
      split
      · rename_i h'; exact .target k d hk (defaultsOf_some h) h'
      · rename_i h'; exact .source k d hk (defaultsOf_some h) h'

theorem defaultRole_spec (p : LPolicy) (s t : Context) (cls : Nat) : DefaultRoleOf p s t cls (defaultRole p s t cls) := by
  unfold defaultRole
  dsimp only
  cases h : classDefaults p cls with
  | none =>
    dsimp only
    split
    · rename_i hc; exact .process _ (defaultsOf_none h) (by simp) (by simp) hc
    · rename_i hc; exact .object _ (defaultsOf_none h) (by simp) (by simp) hc
  | some d =>
    dsimp only
    split
    · rename_i h1; exact .source d (defaultsOf_some h) h1
    · rename_i h1
      split
      · rename_i h2; exact .target d (defaultsOf_some h) h2
      · rename_i h2
        split
        · rename_i hc; exact .process d (defaultsOf_some h) h1 h2 hc
        · rename_i hc; exact .object d (defaultsOf_some h) h1 h2 hc

theorem defaultType_spec (p : LPolicy) (s t : Context) (cls : Nat) : DefaultTypeOf p s t cls (defaultType p s t cls) := by
  unfold defaultType
  dsimp only
  cases h : classDefaults p cls with
  | none =>
    dsimp only
    split
    · rename_i hc; exact .process _ (defaultsOf_none h) (by simp) (by simp) hc
    · rename_i hc; exact .object _ (defaultsOf_none h) (by simp) (by simp) hc
  | some d =>
    dsimp only
    split
    · rename_i h1; exact .source d (defaultsOf_some h) h1
    · rename_i h1
      split
      · rename_i h2; exact .target d (defaultsOf_some h) h2
      · rename_i h2
        split
        · rename_i hc; exact .process d (defaultsOf_some h) h1 h2 hc
        · rename_i hc; exact .object d (defaultsOf_some h) h1 h2 hc

theorem newRole_spec (p : LPolicy) (s t : Context) (cls : Nat) (k : Kind) : RoleOf p s t cls k (newRole p s t cls k) := by
  cases k with
  | change => exact .other _ _ (by simp) (defaultRole_spec p s t cls)
  | member => exact .other _ _ (by simp) (defaultRole_spec p s t cls)
  | transition =>
    unfold newRole
    dsimp only
    cases h : p.roleTr.find? (fun r => r.role == s.role && r.type == t.type && r.cls == cls) with
    | none =>
      refine .none _ (fun r hr hm => ?_) (defaultRole_spec p s t cls)
      have := List.find?_eq_none.mp h r hr
      simp [hm.1, hm.2.1, hm.2.2] at this
    | some r =>
      have h1 := List.find?_some h
      simp only [Bool.and_eq_true, beq_iff_eq] at h1
      exact .rule r (List.mem_of_find?_eq_some h) ⟨h1.1.1, h1.1.2, h1.2⟩

theorem code_and (k : Kind) (x : BitVec 16) : (x &&& k.code = k.code) ↔ ∃ i < 15, k.code.getLsbD i = true ∧ x.getLsbD i = true := by
  obtain ⟨j, hj, hk⟩ : ∃ j < 15, k.code = BitVec.twoPow 16 j := by
    cases k
    · exact ⟨4, by decide, by decide⟩
    · exact ⟨6, by decide, by decide⟩
    · exact ⟨5, by decide, by decide⟩
  rw [hk]
  constructor
  · intro h
    refine ⟨j, hj, ?_⟩
    have := congrArg (fun v => BitVec.getLsbD v j) h
    simp only [BitVec.getLsbD_and, BitVec.getLsbD_twoPow] at this ⊢
    have h16 : j < 16 := by omega
    simpa [h16] using this
  · rintro ⟨i, hi, h1, h2⟩
    rw [BitVec.getLsbD_twoPow] at h1
    simp only [Bool.and_eq_true, decide_eq_true_eq] at h1
    obtain ⟨_, rfl⟩ := h1
    apply BitVec.eq_of_getLsbD_eq
    intro b hb
    rw [BitVec.getLsbD_and, BitVec.getLsbD_twoPow]
    by_cases hbi : j = b
    · subst hbi; simp [h2]
    · simp [hbi]

theorem answers_iff {s t : Context} {cls : Nat} {k : Kind} (hs : s.type < 2 ^ 16) (ht : t.type < 2 ^ 16) (r : Avtab.Node) :
    Avtab.Answers ⟨s.type % 2 ^ 16, t.type % 2 ^ 16, cls, k.code⟩ r ↔ TypeRuleFor s t cls k r := by
  unfold Avtab.Answers TypeRuleFor
  rw [Nat.mod_eq_of_lt hs, Nat.mod_eq_of_lt ht, code_and]
  simp only [eq_comm]

theorem search_enumerate (h : Avtab.Avtab) (k : Avtab.Key) :
    Avtab.search h k = (Avtab.enumerate h k).head?.map (·.datum) := by
  unfold Avtab.search Avtab.enumerate Avtab.searchNode
  cases h.htable with
  | none => rfl
  | some tb =>
    dsimp only
    cases hc : Avtab.searchChain k (tb (Avtab.hash k h.mask)) with
    | none => rfl
    | some l =>
      cases l with
      | nil => exact absurd rfl (Avtab.searchChain_length _ _ _ hc).2
      | cons n l =>
        simp only [Option.bind_some, List.head?_cons, Option.map_some]
        rw [Avtab.enumFrom.eq_def]
        dsimp only
        split <;> rfl

theorem enabled_iff (x : BitVec 16) : (x &&& Avtab.ENABLED != 0#16) = true ↔ x &&& Avtab.ENABLED = Avtab.ENABLED := by
  have he : Avtab.ENABLED = BitVec.twoPow 16 15 := by decide
  rw [he, bne_iff_ne]
  constructor
  · intro h
    apply BitVec.eq_of_getLsbD_eq
    intro b hb
    rw [BitVec.getLsbD_and, BitVec.getLsbD_twoPow]
    by_cases hb15 : b = 15
    · subst hb15
      have : x.getLsbD 15 = true := by
        by_contra hc
        apply h
        apply BitVec.eq_of_getLsbD_eq
        intro i hi
        rw [BitVec.getLsbD_and, BitVec.getLsbD_twoPow]
        by_cases h15 : 15 = i
        · subst h15; simp at hc; simp [hc]
        · simp [h15]
      rw [this]; rfl
    · have : ¬ 15 = b := fun h => hb15 h.symm
      simp [this]
  · intro h hc
    rw [h] at hc
    exact absurd hc (by decide)

theorem newType_spec {p : LPolicy} {R : Rules} (hp : LabelPolicyOk p R) {s t : Context} (hs : s.type < 2 ^ 16)
    (ht : t.type < 2 ^ 16) (cls : Nat) (k : Kind) : TypeOf p R s t cls k (newType p s t cls k) := by
  have mem : ∀ (h : Avtab.Avtab) (rs : List Avtab.Node), Contains h rs → ∀ n,
      n ∈ Avtab.enumerate h ⟨s.type % 2 ^ 16, t.type % 2 ^ 16, cls, k.code⟩ ↔ n ∈ rs ∧ TypeRuleFor s t cls k n := by
    intro h rs hc n
    rw [(hc _).mem_iff, List.mem_filter, ← answers_iff hs ht]
    simp only [decide_eq_true_eq]
  unfold newType typeRule
  dsimp only
  rw [search_enumerate]
  have hte := mem p.te R.te hp.te
  have hco := mem p.cond R.cond hp.cond
  revert hte hco
  generalize Avtab.enumerate p.te ⟨s.type % 2 ^ 16, t.type % 2 ^ 16, cls, k.code⟩ = lt
  generalize Avtab.enumerate p.cond ⟨s.type % 2 ^ 16, t.type % 2 ^ 16, cls, k.code⟩ = lc
  intro hte hco
  cases lt with
  | cons n l =>
    have := (hte n).mp List.mem_cons_self
    exact .rule n this.1 this.2
  | nil =>
    have hno : ∀ r ∈ R.te, ¬ TypeRuleFor s t cls k r := fun r h1 h2 => by
      have := (hte r).mpr ⟨h1, h2⟩; simp at this
    simp only [List.head?_nil, Option.map_none]
    cases hf : lc.find? (fun n => n.key.specified &&& Avtab.ENABLED != 0#16) with
    | none =>
      refine .none _ hno (fun r hr hm ha => ?_) (defaultType_spec p s t cls)
      have := List.find?_eq_none.mp hf r ((hco r).mpr ⟨hr, hm⟩)
      exact this ((enabled_iff _).mpr ha)
    | some n =>
      have h1 := (hco n).mp (List.mem_of_find?_eq_some hf)
      have h2 : (n.key.specified &&& Avtab.ENABLED != 0#16) = true := by simpa using List.find?_some hf
      exact .cond n hno h1.1 h1.2 ((enabled_iff _).mp h2)

theorem glblub_spec {r1 r2 : Range} (h1 : WFRange r1) (h2 : WFRange r2) :
    (∀ r, rangeGlblub r1 r2 = some r → WFRange r ∧ GlbLub r1 r2 r) ∧ (rangeGlblub r1 r2 = none → ∀ r, ¬ GlbLub r1 r2 r) := by
  unfold rangeGlblub
  constructor
  · intro r hr
    split at hr
    · cases hr
    · rename_i h
      cases hr
      refine ⟨⟨wf_of_inv (Ebitmap.inv_and (inv_of_wf h1.1) (inv_of_wf h2.1)),
        wf_of_inv (Ebitmap.inv_and (inv_of_wf h1.2) (inv_of_wf h2.2))⟩, by omega, by omega, rfl, rfl, ?_, ?_⟩
      · intro b
        show Ebitmap.getBit (Ebitmap.and r1.low.cat r2.low.cat) b = true ↔ _
        rw [(Ebitmap.C02_or_and_xor h1.1 h2.1).2.2.1.2 b, Bool.and_eq_true]; rfl
      · intro b
        show Ebitmap.getBit (Ebitmap.and r1.high.cat r2.high.cat) b = true ↔ _
        rw [(Ebitmap.C02_or_and_xor h1.2 h2.2).2.2.1.2 b, Bool.and_eq_true]; rfl
  · intro h r hr
    split at h
    · obtain ⟨a, b, _⟩ := hr; omega
    · cases h

theorem changeRange_spec (p : LPolicy) (s : Context) (cls : Nat) : PlainRangeOf p s cls (changeRange p s cls) := by
  unfold changeRange rangeLow
  split
  · rename_i h; rw [rangeCpy_eq]; exact .process h
  · rename_i h; rw [levelCpy_eq]; exact .object h

theorem classRange_spec (p : LPolicy) (s t : Context) (hs : WFRange s.range) (ht : WFRange t.range) (cls v : Nat) :
    let o := if v = DEFAULT_SOURCE_LOW then some (rangeLow s.range)
        else if v = DEFAULT_SOURCE_HIGH then some (rangeHigh s.range)
        else if v = DEFAULT_SOURCE_LOW_HIGH then some (rangeCpy s.range)
        else if v = DEFAULT_TARGET_LOW then some (rangeLow t.range)
        else if v = DEFAULT_TARGET_HIGH then some (rangeHigh t.range)
        else if v = DEFAULT_TARGET_LOW_HIGH then some (rangeCpy t.range)
        else if v = DEFAULT_GLBLUB then rangeGlblub s.range t.range
        else some (changeRange p s cls)
    (∀ r, o = some r → WFRange r ∧ ClassRange p s t cls v r) ∧ (o = none → ∀ r, ¬ ClassRange p s t cls v r) := by
  unfold DEFAULT_SOURCE_LOW DEFAULT_SOURCE_HIGH DEFAULT_SOURCE_LOW_HIGH DEFAULT_TARGET_LOW DEFAULT_TARGET_HIGH
    DEFAULT_TARGET_LOW_HIGH DEFAULT_GLBLUB rangeLow rangeHigh
  simp only [rangeCpy_eq, levelCpy_eq]
  by_cases h1 : v = 1
  · subst h1; rw [if_pos rfl]; exact ⟨fun r h => by cases h; exact ⟨⟨hs.1, hs.1⟩, .sourceLow⟩, fun h => by cases h⟩
  rw [if_neg h1]
  by_cases h2 : v = 2
  · subst h2; rw [if_pos rfl]; exact ⟨fun r h => by cases h; exact ⟨⟨hs.2, hs.2⟩, .sourceHigh⟩, fun h => by cases h⟩
  rw [if_neg h2]
  by_cases h3 : v = 3
  · subst h3; rw [if_pos rfl]; exact ⟨fun r h => by cases h; exact ⟨hs, .sourceRange⟩, fun h => by cases h⟩
  rw [if_neg h3]
  by_cases h4 : v = 4
  · subst h4; rw [if_pos rfl]; exact ⟨fun r h => by cases h; exact ⟨⟨ht.1, ht.1⟩, .targetLow⟩, fun h => by cases h⟩
  rw [if_neg h4]
  by_cases h5 : v = 5
  · subst h5; rw [if_pos rfl]; exact ⟨fun r h => by cases h; exact ⟨⟨ht.2, ht.2⟩, .targetHigh⟩, fun h => by cases h⟩
  rw [if_neg h5]
  by_cases h6 : v = 6
  · subst h6; rw [if_pos rfl]; exact ⟨fun r h => by cases h; exact ⟨ht, .targetRange⟩, fun h => by cases h⟩
  rw [if_neg h6]
  by_cases h7 : v = 7
  · subst h7; rw [if_pos rfl]
    obtain ⟨g1, g2⟩ := glblub_spec hs ht
    refine ⟨fun r h => ⟨(g1 r h).1, .glblub r (g1 r h).2⟩, fun h r hr => ?_⟩
    cases hr with
    | glblub _ h' => exact g2 h r h'
    | unset _ _ h' => omega
  rw [if_neg h7]
  refine ⟨fun r h => ?_, fun h => by cases h⟩
  cases h
  refine ⟨?_, .unset _ _ (by omega) (changeRange_spec p s cls)⟩
  unfold changeRange rangeLow
  split
  · rw [rangeCpy_eq]; exact hs
  · rw [levelCpy_eq]; exact ⟨hs.1, hs.1⟩

theorem mlsComputeSid_spec {p : LPolicy} {R : Rules} (hp : LabelPolicyOk p R) {s t : Context} (hs : WFRange s.range)
    (ht : WFRange t.range) (cls : Nat) (k : Kind) :
    (∀ r, mlsComputeSid p s t cls k = some r → WFRange r ∧ (p.pol.mls = true → RangeOf p s t cls k r) ∧
      (p.pol.mls = false → r = emptyRange)) ∧
    (mlsComputeSid p s t cls k = none → p.pol.mls = true ∧ ∀ r, ¬ RangeOf p s t cls k r) := by
  unfold mlsComputeSid
  cases hm : p.pol.mls with
  | false =>
    rw [if_pos rfl]
    exact ⟨fun r h => by cases h; exact ⟨wf_empty, by simp, fun _ => rfl⟩, fun h => by cases h⟩
  | true =>
    rw [if_neg (by simp)]
    simp only [reduceCtorEq, false_imp_iff, and_true, true_and, forall_const]
    cases k with
    | member =>
      unfold rangeLow
      simp only [levelCpy_eq]
      exact ⟨fun r h => by cases h; exact ⟨⟨hs.1, hs.1⟩, .member⟩, fun h => by cases h⟩
    | change =>
      refine ⟨fun r h => ?_, fun h => by cases h⟩
      cases h
      refine ⟨?_, .change _ (changeRange_spec p s cls)⟩
      unfold changeRange rangeLow
      split
      · rw [rangeCpy_eq]; exact hs
      · rw [levelCpy_eq]; exact ⟨hs.1, hs.1⟩
    | transition =>
      dsimp only
      cases hr : p.rangeTr s.type t.type cls with
      | some r =>
        dsimp only
        rw [rangeCpy_eq]
        exact ⟨fun r' h => by cases h; exact ⟨hp.ranges _ _ _ _ hr, .rule r hr⟩, fun h => by cases h⟩
      | none =>
        dsimp only
        have hd : DefaultsOf p cls ((classDefaults p cls).getD ⟨0, 0, 0, 0⟩) := defaultsOf_iff.mpr rfl
        have he : defaultRange p cls = ((classDefaults p cls).getD ⟨0, 0, 0, 0⟩).range := by
          unfold defaultRange; cases classDefaults p cls <;> rfl
        rw [he]
        obtain ⟨c1, c2⟩ := classRange_spec p s t hs ht cls ((classDefaults p cls).getD ⟨0, 0, 0, 0⟩).range
        refine ⟨fun r h => ⟨(c1 r h).1, .default _ r hr hd (c1 r h).2⟩, fun h r hc => ?_⟩
        cases hc with
        | rule _ h' => rw [hr] at h'; cases h'
        | default d _ _ h1 h2 =>
          rw [defaultsOf_iff.mp h1] at h2
          exact c2 h r h2

theorem newContext_spec {p : LPolicy} {R : Rules} (hp : LabelPolicyOk p R) {s t : Context} (hs : WFRange s.range)
    (ht : WFRange t.range) (hst : s.type < 2 ^ 16) (htt : t.type < 2 ^ 16) (cls : Nat) (k : Kind) :
    (∀ n, newContext p s t cls k = some n → WFRange n.range ∧ LabelOf p R s t cls k n) ∧
    (newContext p s t cls k = none → ∀ n, ¬ LabelOf p R s t cls k n) := by
  obtain ⟨h1, h2⟩ := mlsComputeSid_spec hp hs ht cls k
  unfold newContext
  constructor
  · intro n h
    rw [Option.map_eq_some_iff] at h
    obtain ⟨r, hr, rfl⟩ := h
    obtain ⟨a, b, c⟩ := h1 r hr
    exact ⟨a, newUser_spec p s t cls k, newRole_spec p s t cls k, newType_spec hp hst htt cls k, b, c⟩
  · intro h n hn
    rw [Option.map_eq_none_iff] at h
    obtain ⟨hm, h3⟩ := h2 h
    exact h3 _ (hn.range hm)

theorem search_wf {st : Sidtab.Sidtab} (hi : Sidtab.Inv st) {x : Nat} {c : Context} (h : Sidtab.search st x = some c) :
    WFRange c.range := by
  unfold Sidtab.search at h
  have : ∀ y, Sidtab.lookup st y = some c → WFRange c.range := fun y hy =>
    hi.wf _ _ ((Sidtab.lookup_iff hi y c).mp hy)
  split at h
  · rename_i c' hc; cases h; exact this _ hc
  · exact this _ h

end Verif.Services
