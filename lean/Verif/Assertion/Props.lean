import Verif.Assertion.Lemmas6
import Verif.Optimize.Props

/-!
# C23: neverallow checking
-/

namespace Verif.Assertion
open Verif.Avtab Verif.Policy Verif.Optimize
open Verif.Services (word word_wf word_lt)

/-! ## Data for the examples -/

/-- Types `a` (1), `b` (2), attribute 3 = {a}, attribute 4 = {a, b}, with the given rules in one chain each. -/
def exA (rules : List Avtab.Node) (crules : List Avtab.Node) (conds : List Cond.Node) : OPolicy :=
  { sp := exSp ⟨some (fun i => if i = 0 then rules else []), rules.length, 1, 0⟩
    attrType := fun i => if i = 0 then word 1#64 else if i = 1 then word 2#64 else if i = 2 then word 1#64 else
      if i = 3 then word 3#64 else Ebitmap.init
    tab := ⟨fun i => if i = 0 then List.range crules.length else [], crules.length, 1, 0, fun id => crules.getD id ⟨⟨1, 1, 1, ALLOWED⟩, ⟨0#32, none⟩⟩⟩
    conds := conds
    enabled := fun _ => false }

theorem hash_zero (k : Key) : Avtab.hash k 0 = 0 := by
  unfold Avtab.hash
  simp

/-- What the rules of an example must satisfy. -/
def ExRule (n : Avtab.Node) : Prop :=
  n.key.specified ∈ avKinds ++ xKinds ++ typeKinds ∧ (1 ≤ n.key.source ∧ n.key.source ≤ 4) ∧ (1 ≤ n.key.target ∧ n.key.target ≤ 4) ∧
  (n.key.specified ∈ xKinds → n.datum.data = 0#32 ∧ ((n.datum.xperms.map fun x => x.perms.length) = some 8))

instance (n : Avtab.Node) : Decidable (ExRule n) := by unfold ExRule; infer_instance

theorem exRule_ok {rules crules : List Avtab.Node} {conds : List Cond.Node} {n : Avtab.Node} (h : ExRule n) : RuleOk (exA rules crules conds).sp n := by
  obtain ⟨h1, h2, h3, h4⟩ := h
  have ts : ∀ i, i < 4 → (exA rules crules conds).sp.typeStruct i ≠ none := by
    intro i hi
    have : i = 0 ∨ i = 1 ∨ i = 2 ∨ i = 3 := by omega
    rcases this with rfl | rfl | rfl | rfl <;> simp [exA, exSp]
  refine ⟨h1, ⟨h2.1, h2.2, ts _ (by omega)⟩, ⟨h3.1, h3.2, ts _ (by omega)⟩, fun hk => ?_⟩
  obtain ⟨-, h5⟩ := h4 hk
  cases hx : n.datum.xperms with
  | none => rw [hx] at h5; cases h5
  | some x => rw [hx] at h5; exact ⟨x, rfl, by simpa using h5⟩

theorem exA_ok {rules crules : List Avtab.Node} {conds : List Cond.Node}
    (s1 : rules.Pairwise (fun a b => before b.key a.key = false)) (s2 : crules.Pairwise (fun a b => before b.key a.key = false))
    (r1 : ∀ n ∈ rules, ExRule n) (r2 : ∀ n ∈ crules, ExRule n)
    (own : (listed conds).Nodup) (all : ∀ id, id ∈ listed conds ↔ id < crules.length)
    (cons : Cond.Consistent (fun _ => false) conds (fun _ => false)) : AssertOk (exA rules crules conds) (fun _ => false) := by
  have hte : Avtab.nodes (exA rules crules conds).sp.te = rules := by
    simp [exA, exSp, Avtab.nodes]
  have hids : (exA rules crules conds).tab.ids = List.range crules.length := by
    simp [exA, CondTab.ids]
  have hnode : ∀ id ∈ (exA rules crules conds).tab.ids, (exA rules crules conds).tab.node id ∈ crules := by
    intro id hid
    rw [hids, List.mem_range] at hid
    show crules.getD id _ ∈ crules
    rw [List.getD_eq_getElem?_getD, List.getElem?_eq_getElem hid]
    exact List.getElem_mem hid
  have hat : ∀ i m, (exA rules crules conds).sp.typeAttr i = some m →
      (i = 0 ∧ m = word 13#64) ∨ (i = 1 ∧ m = word 10#64) ∨ (i = 2 ∧ m = word 4#64) ∨ (i = 3 ∧ m = word 8#64) := by
    intro i m h
    unfold exA exSp at h
    dsimp only at h
    split at h
    · cases h; exact .inl ⟨by assumption, rfl⟩
    · split at h
      · cases h; exact .inr (.inl ⟨by assumption, rfl⟩)
      · split at h
        · cases h; exact .inr (.inr (.inl ⟨by assumption, rfl⟩))
        · split at h
          · cases h; exact .inr (.inr (.inr ⟨by assumption, rfl⟩))
          · cases h
  have bits : ∀ m : BitVec 64, m.toNat < 16 → ∀ b, Ebitmap.getBit (word m) b = true → b < 4 := by
    intro m hm b hb
    have h := ((word_bit m b).mp hb).2
    by_contra hc
    have : m.toNat < 2 ^ b := Nat.lt_of_lt_of_le hm (Nat.pow_le_pow_right (n := 2) (i := 4) (by decide) (show 4 ≤ b by omega))
    rw [BitVec.getLsbD, Nat.testBit_lt_two_pow this] at h
    cases h
  have plain : ∀ i, PlainType (exA rules crules conds) (i + 1) ↔ i = 0 ∨ i = 1 := by
    intro i
    unfold PlainType
    constructor
    · rintro ⟨-, h1, d, h2, h3⟩
      have h1 : i + 1 ≤ 4 := h1
      have : i = 0 ∨ i = 1 ∨ i = 2 ∨ i = 3 := by omega
      rcases this with rfl | rfl | rfl | rfl
      · exact .inl rfl
      · exact .inr rfl
      · simp [exA, exSp] at h2; subst h2; exact absurd rfl h3
      · simp [exA, exSp] at h2; subst h2; exact absurd rfl h3
    · rintro (rfl | rfl)
      · exact ⟨by decide, by show 1 ≤ 4; decide, ⟨1, 0, 0⟩, by simp [exA, exSp], by decide⟩
      · exact ⟨by decide, by show 2 ≤ 4; decide, ⟨2, 0, 0⟩, by simp [exA, exSp], by decide⟩
  have amap : ∀ a i, Ebitmap.getBit ((exA rules crules conds).attrType a) i = true →
      (a = 0 ∧ i = 0) ∨ (a = 1 ∧ i = 1) ∨ (a = 2 ∧ i = 0) ∨ (a = 3 ∧ (i = 0 ∨ i = 1)) := by
    intro a i h
    change Ebitmap.getBit (if a = 0 then word 1#64 else if a = 1 then word 2#64 else if a = 2 then word 1#64 else
      if a = 3 then word 3#64 else Ebitmap.init) i = true at h
    have small : ∀ m : BitVec 64, m.toNat < 16 → Ebitmap.getBit (word m) i = true → i < 4 := fun m hm hb => bits m hm i hb
    split at h
    · have := small _ (by decide) h
      have : i = 0 ∨ i = 1 ∨ i = 2 ∨ i = 3 := by omega
      rcases this with rfl | rfl | rfl | rfl
      · exact .inl ⟨by assumption, rfl⟩
      all_goals exact absurd h (by decide +kernel)
    · split at h
      · have := small _ (by decide) h
        have : i = 0 ∨ i = 1 ∨ i = 2 ∨ i = 3 := by omega
        rcases this with rfl | rfl | rfl | rfl
        · exact absurd h (by decide +kernel)
        · exact .inr (.inl ⟨by assumption, rfl⟩)
        all_goals exact absurd h (by decide +kernel)
      · split at h
        · have := small _ (by decide) h
          have : i = 0 ∨ i = 1 ∨ i = 2 ∨ i = 3 := by omega
          rcases this with rfl | rfl | rfl | rfl
          · exact .inr (.inr (.inl ⟨by assumption, rfl⟩))
          all_goals exact absurd h (by decide +kernel)
        · split at h
          · have := small _ (by decide) h
            have : i = 0 ∨ i = 1 ∨ i = 2 ∨ i = 3 := by omega
            rcases this with rfl | rfl | rfl | rfl
            · exact .inr (.inr (.inr ⟨by assumption, .inl rfl⟩))
            · exact .inr (.inr (.inr ⟨by assumption, .inr rfl⟩))
            all_goals exact absurd h (by decide +kernel)
          · simp [Ebitmap.getBit, Ebitmap.init, Ebitmap.getBitNodes] at h
  refine ⟨⟨⟨?_, ?_, ?_, ?_⟩, ?_, ⟨?_, ?_, ?_, ?_⟩, ?_, ?_, own, ?_, cons, by show 4 < 2 ^ 16; decide, ?_, ?_, ?_, ?_, ?_⟩, ?_, ?_, ?_, ?_⟩
  · rintro tb ⟨⟩ i
    by_cases h : i = 0
    · subst h; simpa using s1
    · simp [h]
  · rintro tb ⟨⟩ i n hn
    by_cases h : i = 0
    · subst h
      exact ⟨hash_zero _, by show 0 < 1; decide⟩
    · simp [h] at hn
  · intro h; cases h
  · rw [hte]; rfl
  · intro n hn
    rw [hte] at hn
    exact exRule_ok (r1 n hn)
  · rintro tb ⟨⟩ i
    by_cases h : i = 0
    · subst h
      have : ((exA rules crules conds).tab.htable 0).map (stamped (exA rules crules conds).enabled (exA rules crules conds).tab.node) = crules := by
        show (List.range crules.length).map (fun id => crules.getD id ⟨⟨1, 1, 1, ALLOWED⟩, ⟨0#32, none⟩⟩) = crules
        apply List.ext_getElem
        · simp
        · intro i h1 h2
          simp [h2]
      change List.Pairwise _ (((exA rules crules conds).tab.htable 0).map (stamped (exA rules crules conds).enabled (exA rules crules conds).tab.node))
      rw [this]
      exact s2
    · simp [exA, h]
  · rintro tb ⟨⟩ i n hn
    by_cases h : i = 0
    · subst h
      exact ⟨hash_zero _, by show 0 < 1; decide⟩
    · simp [exA, h] at hn
  · intro h; cases h
  · rw [tab_nodes, hids, List.length_map, List.length_range]; rfl
  · rw [hids]; exact List.nodup_range
  · intro id hid
    exact exRule_ok (r2 _ (hnode id hid))
  · intro id
    rw [hids, List.mem_range]
    exact all id
  · intro i hi
    have : i = 0 ∨ i = 1 ∨ i = 2 ∨ i = 3 := by
      have : i < 4 := hi
      omega
    rcases this with rfl | rfl | rfl | rfl <;> exact ⟨_, rfl⟩
  · intro i m h
    rcases hat i m h with ⟨-, rfl⟩ | ⟨-, rfl⟩ | ⟨-, rfl⟩ | ⟨-, rfl⟩
    all_goals exact ⟨word_wf (by decide), bits _ (by decide)⟩
  · intro i
    show Ebitmap.WF (if i = 0 then word 1#64 else if i = 1 then word 2#64 else if i = 2 then word 1#64 else
      if i = 3 then word 3#64 else Ebitmap.init)
    repeat' split
    all_goals first
      | exact word_wf (by decide)
      | exact (Ebitmap.wf_iff_inv _).2 ⟨trivial, rfl, by decide⟩
  · intro i m b hi hm hb
    have hlt : b < 4 := by
      rcases hat i m hm with ⟨-, rfl⟩ | ⟨-, rfl⟩ | ⟨-, rfl⟩ | ⟨-, rfl⟩ <;> exact bits _ (by decide) b hb
    show b = i ∨ isAttr (exSp (exA rules crules conds).sp.te) b = true
    rw [exP_attr]
    have hi' : ¬ (i = 2 ∨ i = 3) := fun h => by
      have := (exP_attr (exA rules crules conds).sp.te i).mpr h
      change isAttr (exSp (exA rules crules conds).sp.te) i = false at hi
      rw [hi] at this; cases this
    rcases hat i m hm with ⟨rfl, rfl⟩ | ⟨rfl, rfl⟩ | ⟨rfl, -⟩ | ⟨rfl, -⟩
    · have : b ≠ 1 := by rintro rfl; exact absurd hb (by decide +kernel)
      omega
    · have : b ≠ 0 := by rintro rfl; exact absurd hb (by decide +kernel)
      omega
    · exact absurd (.inl rfl) hi'
    · exact absurd (.inr rfl) hi'
  · intro i m a hi ha hm
    have hi' : ¬ (i = 2 ∨ i = 3) := fun h => by
      have := (exP_attr (exA rules crules conds).sp.te i).mpr h
      change isAttr (exSp (exA rules crules conds).sp.te) i = false at hi
      rw [hi] at this; cases this
    have ha' := (exP_attr _ a).mp ha
    have e2 : (exA rules crules conds).attrType 2 = word 1#64 := rfl
    have e3 : (exA rules crules conds).attrType 3 = word 3#64 := rfl
    rcases hat i m hm with ⟨rfl, rfl⟩ | ⟨rfl, rfl⟩ | ⟨rfl, -⟩ | ⟨rfl, -⟩
    · rcases ha' with rfl | rfl
      · rw [e2]; decide +kernel
      · rw [e3]; decide +kernel
    · rcases ha' with rfl | rfl
      · rw [e2]; decide +kernel
      · rw [e3]; decide +kernel
    · exact absurd (.inl rfl) hi'
    · exact absurd (.inr rfl) hi'
  · intro a i _ h
    rw [plain]
    have := amap a i h
    omega
  · intro i hi
    rw [plain] at hi
    have e0 : (exA rules crules conds).attrType 0 = word 1#64 := rfl
    have e1 : (exA rules crules conds).attrType 1 = word 2#64 := rfl
    rcases hi with rfl | rfl
    · refine ⟨by rw [e0]; decide +kernel, fun m hm => ?_⟩
      rcases hat 0 m hm with ⟨-, rfl⟩ | ⟨h, -⟩ | ⟨h, -⟩ | ⟨h, -⟩
      · decide +kernel
      all_goals cases h
    · refine ⟨by rw [e1]; decide +kernel, fun m hm => ?_⟩
      rcases hat 1 m hm with ⟨h, -⟩ | ⟨-, rfl⟩ | ⟨h, -⟩ | ⟨h, -⟩
      · cases h
      · decide +kernel
      all_goals cases h
  · intro a i ha h
    rw [plain] at ha
    have := amap a i h
    omega
  · intro id hid hk
    exact ((r2 _ (hnode id hid)).2.2.2 hk).1

/-! ## Plain neverallow rules -/

/-- C23: the check of one neverallow rule succeeds and says exactly whether it is violated: whether some allow rule, unconditional or
in any branch of a conditional, gives a permission the rule names to a source and target type it names. -/
theorem C23_check_plain {p : OPolicy} {σ0 : Cond.State} (ok : AssertOk p σ0) {na : Avrule} (wf : RuleWF na) (hk : na.specified = NEVERALLOW) :
    ∃ r, checkAssertion p na = some r ∧ (r = true ↔ Violated p na) := check_plain ok wf hk

/-- A neverallow rule that is not violated holds with every assignment of the booleans. -/
theorem C23_never_allowed {p : OPolicy} {σ0 : Cond.State} (ok : AssertOk p σ0) {na : Avrule} (wf : RuleWF na) (hk : na.specified = NEVERALLOW)
    (h : checkAssertion p na = some false) (σ : Cond.State) {s t : Nat} (hs : PlainType p s) (ht : PlainType p t) (nm : Names na s t)
    {cp : Nat × BitVec 32} (hcp : cp ∈ na.perms) {b : Nat} (hb : cp.2.getLsbD b = true) : ¬ Decides p σ s t cp.1 (.allow b) := by
  intro hd
  obtain ⟨r, h1, h2⟩ := check_plain ok wf hk
  rw [h] at h1
  cases h1
  have : Violated p na := by
    refine ⟨s, t, hs, ht, nm, cp, hcp, b, hb, ?_⟩
    rcases hd with h' | ⟨id, ⟨cn, hcn, h'⟩, h''⟩
    · exact .inl h'
    · right
      rcases h' with ⟨-, m⟩ | ⟨-, m⟩
      · exact ⟨id, listed_true hcn m, h''⟩
      · exact ⟨id, listed_false hcn m, h''⟩
  exact absurd (h2.mpr this) (by decide)

/-- C23: the check of a neverallowxperm rule finds every command it forbids that is permitted with some assignment of the booleans.
The allowxperm rules on its classes are of the kind (ioctl or netlink message) of the rule, and `self` is its only target if it is
one. -/
theorem C23_xperms_sound_partial {p : OPolicy} {σ0 : Cond.State} (ok : AssertOk p σ0) {na : Avrule} (wf : RuleWF na)
    (hk : na.specified = XPERMS_NEVERALLOW) (self : HasSelf na → ∀ b, Ebitmap.getBit na.ttypes b = false) (same : SameKind p na)
    (cdef : CondsDefined p) {σ : Cond.State} (h : XViolated p σ na) : checkAssertion p na = some true :=
  check_xperm_sound ok wf hk self same cdef h

/-- C23: in a policy without conditionals whose extended permission rules are not empty, the check of a neverallowxperm rule says
exactly whether it is violated. -/
theorem C23_xperms_exact_partial {p : OPolicy} {σ0 : Cond.State} (ok : AssertOk p σ0) {na : Avrule} (wf : RuleWF na)
    (hk : na.specified = XPERMS_NEVERALLOW) (self : HasSelf na → ∀ b, Ebitmap.getBit na.ttypes b = false) (same : SameKind p na)
    (nocond : p.conds = []) (hna : ∃ c, Lists na.xperms c)
    (hal : ∀ n ∈ Avtab.nodes p.sp.te, n.key.specified = XPERMS_ALLOWED → ∀ x, n.datum.xperms = some x → ∃ c, Lists x c) (σ : Cond.State) :
    ∃ r, checkAssertion p na = some r ∧ (r = true ↔ XViolated p σ na) := by
  obtain ⟨r, h1, -⟩ := checkAssertion_iff ok (na := na) (fun n hn c e => match_total ok wf hn c e)
  refine ⟨r, h1, fun h => check_xperm_complete ok wf hk nocond hna hal (by rw [h1, h]) σ, fun h => ?_⟩
  have := check_xperm_sound ok wf hk self same (fun c hc => by rw [nocond] at hc; cases hc) h
  rw [h1] at this
  cases this; rfl

/-- C23: what the check of a rule finds is reported, and nothing else makes `check_assertions` fail.  No rule has more than 2³² - 1
reports, and plain rules with `self` have no other target. -/
theorem C23_assertions_partial {p : OPolicy} {σ0 : Cond.State} (ok : AssertOk p σ0) (l : List Avrule)
    (wf : ∀ na ∈ l, na.specified &&& (NEVERALLOW ||| XPERMS_NEVERALLOW) ≠ 0#32 → RuleWF na)
    (self : ∀ na ∈ l, HasSelf na → na.specified = NEVERALLOW → ∀ b, Ebitmap.getBit na.ttypes b = false)
    (small : ∀ na ∈ l, ∀ n, reportFailures p na = some n → n < 2 ^ 32) (len : l.length < 2 ^ 32) :
    ∃ r, checkAssertions p l = some r ∧ (r = 0 ∨ r = -1) ∧
      (r = 0 ↔ ∀ na ∈ l, na.specified &&& (NEVERALLOW ||| XPERMS_NEVERALLOW) ≠ 0#32 → checkAssertion p na = some false) := by
  obtain ⟨h1, h2, r, h3, -⟩ := loop_spec ok l wf self small 0 (2 ^ 63) (by omega) (by decide)
  unfold checkAssertions
  by_cases h : ∀ na ∈ l, na.specified &&& (NEVERALLOW ||| XPERMS_NEVERALLOW) ≠ 0#32 → checkAssertion p na = some false
  · rw [h1 h]
    exact ⟨0, rfl, .inl rfl, by simp only [true_iff]; exact h⟩
  · have hex : ∃ na ∈ l, na.specified &&& (NEVERALLOW ||| XPERMS_NEVERALLOW) ≠ 0#32 ∧ checkAssertion p na = some true := by
      by_contra hc
      apply h
      intro na hna hk
      obtain ⟨r, hr, -⟩ := checkAssertion_iff ok (na := na) (fun n hn c e => match_total ok (wf na hna hk) hn c e)
      cases r with
      | false => exact hr
      | true => exact absurd ⟨na, hna, hk, hr⟩ hc
    have hf : (-1 : Int) = 0 ↔ ∀ na ∈ l, na.specified &&& (NEVERALLOW ||| XPERMS_NEVERALLOW) ≠ 0#32 → checkAssertion p na = some false :=
      ⟨fun h => (by cases h), fun h' => absurd h' h⟩
    rcases h2 hex with h4 | ⟨e', he, h4⟩
    · rw [h4]
      exact ⟨-1, rfl, .inr rfl, hf⟩
    · rw [h4]
      refine ⟨-1, ?_, .inr rfl, hf⟩
      show some (if e' ≠ 0 then (-1 : Int) else 0) = some (-1)
      rw [if_pos (by omega)]

/-- C23: a list of plain neverallow rules is accepted exactly when none is violated. -/
theorem C23_accepts_partial {p : OPolicy} {σ0 : Cond.State} (ok : AssertOk p σ0) (l : List Avrule)
    (wf : ∀ na ∈ l, RuleWF na ∧ na.specified = NEVERALLOW)
    (self : ∀ na ∈ l, HasSelf na → ∀ b, Ebitmap.getBit na.ttypes b = false)
    (small : ∀ na ∈ l, ∀ n, reportFailures p na = some n → n < 2 ^ 32) (len : l.length < 2 ^ 32) :
    (checkAssertions p l = some 0 ∧ ∀ na ∈ l, ¬ Violated p na) ∨ (checkAssertions p l = some (-1) ∧ ∃ na ∈ l, Violated p na) := by
  obtain ⟨r, h1, h2, h3⟩ := C23_assertions_partial ok l (fun na h _ => (wf na h).1) (fun na h hs _ => self na h hs) small len
  have key : ∀ na ∈ l, (checkAssertion p na = some false ↔ ¬ Violated p na) := by
    intro na hna
    obtain ⟨r, q1, q2⟩ := check_plain ok (wf na hna).1 (wf na hna).2
    rw [q1, ← q2]
    cases r <;> simp
  have kd : ∀ na ∈ l, na.specified &&& (NEVERALLOW ||| XPERMS_NEVERALLOW) ≠ 0#32 := by
    intro na hna
    rw [(wf na hna).2]; decide
  rcases h2 with rfl | rfl
  · left
    exact ⟨h1, fun na hna => (key na hna).mp (h3.mp rfl na hna (kd na hna))⟩
  · right
    refine ⟨h1, ?_⟩
    by_contra hc
    have := h3.mpr (fun na hna _ => (key na hna).mpr (fun hv => hc ⟨na, hna, hv⟩))
    cases this

/-! ## Examples -/

def allowAB : Avtab.Node := ⟨⟨1, 2, 1, ALLOWED⟩, ⟨3#32, none⟩⟩
def allowx (x : XPerms) : Avtab.Node := ⟨⟨1, 2, 1, XPERMS_ALLOWED⟩, ⟨0#32, some x⟩⟩
/-- Ioctl 0x1205, ioctl 0x1206, netlink message 5. -/
def x5 : XPerms := ⟨FUNCTION, 0x12#8, [0x20#32, 0, 0, 0, 0, 0, 0, 0]⟩
def x6 : XPerms := ⟨FUNCTION, 0x12#8, [0x40#32, 0, 0, 0, 0, 0, 0, 0]⟩
def n5 : XPerms := ⟨NLMSG, 0#8, [0x20#32, 0, 0, 0, 0, 0, 0, 0]⟩
def condOne : List Cond.Node := [⟨0, [.bool 1], [0], [], [], [], 0, [], 0, 0⟩]

/-- Rules `neverallow a …` of class 1 permission 0. -/
def naRule (kind flags : BitVec 32) (tt : Ebitmap.Ebitmap) (x : XPerms) : Avrule := ⟨kind, flags, word 1#64, tt, [(1, 1#32)], x⟩

theorem na_wf {kind flags : BitVec 32} {tt : Ebitmap.Ebitmap} {x : XPerms} (h1 : kind = NEVERALLOW ∨ kind = XPERMS_NEVERALLOW)
    (h2 : flags = 0#32 ∨ flags = RULE_SELF ∨ flags = RULE_NOTSELF) (h3 : Ebitmap.WF tt)
    (h4 : x.specified = FUNCTION ∨ x.specified = DRIVER ∨ x.specified = NLMSG) (h5 : x.perms.length = 8) : RuleWF (naRule kind flags tt x) :=
  ⟨h1, h2, word_wf (by decide), h3, h4, h5⟩

/-- `allow a b`, `allowxperm a b ioctl 0x1205`. -/
def polU (x : XPerms) : OPolicy := exA [allowAB, allowx x] [] []
/-- `allowxperm a b ioctl 0x1205`, `if bool { allow a b }`. -/
def polC : OPolicy := exA [allowx x5] [allowAB] condOne

theorem polU_ok (x : XPerms) (h : x.perms.length = 8) : AssertOk (polU x) (fun _ => false) := by
  refine exA_ok ?_ (by decide) ?_ (by simp) (by decide) (by simp [listed]) (by intro c hc; cases hc)
  · simp [allowAB, allowx, before]
  · intro n hn
    simp only [List.mem_cons, List.not_mem_nil, or_false] at hn
    rcases hn with rfl | rfl
    · decide
    · refine ⟨(by decide : XPERMS_ALLOWED ∈ _), (by decide : 1 ≤ 1 ∧ 1 ≤ 4), (by decide : 1 ≤ 2 ∧ 2 ≤ 4), fun _ => ⟨rfl, ?_⟩⟩
      simp [allowx, h]

theorem polC_ok : AssertOk polC (fun _ => false) := by
  refine exA_ok (by decide) (by decide) (by decide) (by decide) (by decide) ?_ ?_
  · intro id; simp [listed, condOne]
  · intro c hc
    simp only [condOne, List.mem_cons, List.not_mem_nil, or_false] at hc
    subst hc; decide

/-- A violated rule, a rule that is not violated (with `-self`), and an accepted list. -/
example : checkAssertion (polU x5) (naRule NEVERALLOW 0#32 (word 2#64) XPerms.zero) = some true ∧
    checkAssertion (polU x5) (naRule NEVERALLOW 0#32 (word 1#64) XPerms.zero) = some false ∧
    checkAssertion (polU x5) (naRule NEVERALLOW RULE_NOTSELF Ebitmap.init XPerms.zero) = some true ∧
    checkAssertion polC (naRule NEVERALLOW 0#32 (word 2#64) XPerms.zero) = some true ∧
    checkAssertions polC [naRule NEVERALLOW 0#32 (word 1#64) XPerms.zero, naRule NEVERALLOW RULE_SELF Ebitmap.init XPerms.zero] = some 0 ∧
    checkAssertions polC [naRule NEVERALLOW 0#32 (word 2#64) XPerms.zero] = some (-1) := by
  decide +kernel

example : RuleWF (naRule NEVERALLOW 0#32 (word 2#64) x5) ∧ RuleWF (naRule XPERMS_NEVERALLOW RULE_NOTSELF Ebitmap.init x5) :=
  ⟨na_wf (.inl rfl) (.inl rfl) (word_wf (by decide)) (.inl rfl) rfl,
   na_wf (.inr rfl) (.inr (.inr rfl)) ((Ebitmap.wf_iff_inv _).2 ⟨trivial, rfl, by decide⟩) (.inl rfl) rfl⟩

/-- Ioctl 0x1205 is listed; ioctl 0x1206 is not. -/
example : checkAssertion (polU x5) (naRule XPERMS_NEVERALLOW 0#32 (word 2#64) x5) = some true ∧
    checkAssertion (polU x5) (naRule XPERMS_NEVERALLOW 0#32 (word 2#64) x6) = some false := by
  decide +kernel

theorem covers_a (rules crules : List Avtab.Node) (conds : List Cond.Node) : Services.Covers (exA rules crules conds).sp 1 1 ∧
    Services.Covers (exA rules crules conds).sp 2 2 := by
  have e0 : (exA rules crules conds).sp.typeAttr (1 - 1) = some (word 13#64) := rfl
  have e1 : (exA rules crules conds).sp.typeAttr (2 - 1) = some (word 10#64) := rfl
  exact ⟨(covers_attr e0).mpr ⟨by decide, by decide +kernel⟩, (covers_attr e1).mpr ⟨by decide, by decide +kernel⟩⟩

theorem plain_ab (rules crules : List Avtab.Node) (conds : List Cond.Node) : PlainType (exA rules crules conds) 1 ∧ PlainType (exA rules crules conds) 2 :=
  ⟨⟨by decide, by show 1 ≤ 4; decide, ⟨1, 0, 0⟩, by simp [exA, exSp], by decide⟩,
   ⟨by decide, by show 2 ≤ 4; decide, ⟨2, 0, 0⟩, by simp [exA, exSp], by decide⟩⟩

/-- The hypotheses of the theorems on neverallowxperm rules hold of a policy and a rule that is violated in it. -/
example : SameKind (polU x5) (naRule XPERMS_NEVERALLOW 0#32 (word 2#64) x5) ∧ CondsDefined (polU x5) ∧
    (∃ c, Lists x5 c) ∧ ∀ σ, XViolated (polU x5) σ (naRule XPERMS_NEVERALLOW 0#32 (word 2#64) x5) := by
  have hn : Avtab.nodes (polU x5).sp.te = [allowAB, allowx x5] := by simp [polU, exA, exSp, Avtab.nodes]
  have hl : Lists x5 (.ioctl 0x12 5) := ⟨by decide, by decide, .inl ⟨rfl, by decide, by unfold xbit; decide⟩⟩
  refine ⟨?_, fun c hc => by simp [polU, exA] at hc, ⟨_, hl⟩, fun σ => ?_⟩
  · intro n hr hk _ x hx
    rcases hr with hr | ⟨id, hid, -⟩
    · rw [hn] at hr
      simp only [List.mem_cons, List.not_mem_nil, or_false] at hr
      rcases hr with rfl | rfl
      · exact absurd hk (by decide)
      · cases hx; exact Iff.rfl
    · simp [polU, exA, listed] at hid
  · have hc := covers_a [allowAB, allowx x5] [] []
    have hp := plain_ab [allowAB, allowx x5] [] []
    refine ⟨1, 2, hp.1, hp.2, ⟨by unfold In; decide +kernel, .inl ⟨rfl, by unfold In; decide +kernel⟩⟩, (1, 1#32), by decide, 0, by decide, .ioctl 0x12 5, hl, ?_, fun _ => ?_⟩
    · exact .inl ⟨allowAB, by rw [hn]; simp, hc.1, hc.2, rfl, by decide, by decide, by decide⟩
    · exact .inl ⟨allowx x5, by rw [hn]; simp, hc.1, hc.2, rfl, rfl, by decide, by decide, by decide, x5, rfl, hl.2.2⟩

/-! ## What does not hold -/

/-- C23 fails: `neverallow a { b self }` is violated by `allow a b`, the check of the rule finds that, but the report considers only
equal source and target, counts nothing, and `check_assertions` succeeds. -/
theorem C23_self_with_targets_refuted :
    ∃ (p : OPolicy) (σ0 : Cond.State) (na : Avrule), AssertOk p σ0 ∧ RuleWF na ∧ na.specified = NEVERALLOW ∧
      Violated p na ∧ checkAssertion p na = some true ∧ checkAssertions p [na] = some 0 := by
  have ok := polU_ok x5 rfl
  have wf : RuleWF (naRule NEVERALLOW RULE_SELF (word 2#64) x5) := na_wf (.inl rfl) (.inr (.inl rfl)) (word_wf (by decide)) (.inl rfl) rfl
  have hc : checkAssertion (polU x5) (naRule NEVERALLOW RULE_SELF (word 2#64) x5) = some true := by decide +kernel
  refine ⟨polU x5, fun _ => false, naRule NEVERALLOW RULE_SELF (word 2#64) x5, ok, wf, rfl, ?_, hc, by decide +kernel⟩
  obtain ⟨r, h1, h2⟩ := check_plain ok wf rfl
  rw [hc] at h1
  cases h1
  exact h2.mp rfl

/-- C23 fails for neverallowxperm rules and conditionals: with `allowxperm a b ioctl 0x1205` and `if c { allow a b : ioctl }`,
`neverallowxperm a b ioctl 0x1206` is reported although no assignment of the booleans permits that command. -/
theorem C23_conditional_false_report_refuted :
    ∃ (p : OPolicy) (σ0 : Cond.State) (na : Avrule), AssertOk p σ0 ∧ RuleWF na ∧ na.specified = XPERMS_NEVERALLOW ∧ SameKind p na ∧
      CondsDefined p ∧ (∀ σ, ¬ XViolated p σ na) ∧ checkAssertions p [na] = some (-1) := by
  have hn : Avtab.nodes polC.sp.te = [allowx x5] := by simp [polC, exA, exSp, Avtab.nodes]
  have hrule : ∀ n, IsRule polC n → n.key.specified = XPERMS_ALLOWED → n = allowx x5 := by
    rintro n (hr | ⟨id, hid, rfl⟩) hk
    · rw [hn] at hr; simpa using hr
    · simp only [polC, exA, listed, condOne] at hid
      simp at hid
      subst hid
      exact absurd hk (by decide)
  refine ⟨polC, fun _ => false, naRule XPERMS_NEVERALLOW 0#32 (word 2#64) x6, polC_ok,
    na_wf (.inr rfl) (.inl rfl) (word_wf (by decide)) (.inl rfl) rfl, rfl, ?_, ?_, ?_, by decide +kernel⟩
  · intro n hr hk _ x hx
    rw [hrule n hr hk] at hx
    cases hx; exact Iff.rfl
  · intro c hc σ
    simp only [polC, exA, condOne, List.mem_cons, List.not_mem_nil, or_false] at hc
    subst hc
    simp [Cond.evaluate, Cond.run, Cond.maxDepth]
  · rintro σ ⟨s, t, hs, ht, nm, cp, hcp, b, hb, c, hc, hd, hf⟩
    have hcov := covers_a [allowx x5] [allowAB] condOne
    -- the rule names a and b
    have hs1 : s = 1 := by
      have : Ebitmap.getBit (word 1#64) (s - 1) = true := nm.1
      have h1 := (word_bit _ _).mp this
      have h2 := hs.1
      have : s - 1 = 0 := by
        have h3 := h1.2
        by_contra hne
        have : (1#64).toNat < 2 ^ (s - 1) := Nat.one_lt_two_pow hne
        rw [BitVec.getLsbD, Nat.testBit_lt_two_pow this] at h3
        cases h3
      omega
    have ht2 : t = 2 := by
      rcases nm.2 with ⟨-, h⟩ | ⟨h, -⟩ | ⟨h, -⟩
      · have h1 := (word_bit _ _).mp h
        have h2 := ht.1
        have h4 : t ≤ 4 := ht.2.1
        have : t - 1 = 0 ∨ t - 1 = 1 ∨ t - 1 = 2 ∨ t - 1 = 3 := by omega
        rcases this with h5 | h5 | h5 | h5
        · rw [h5] at h1; exact absurd h1.2 (by decide)
        · omega
        · rw [h5] at h1; exact absurd h1.2 (by decide)
        · rw [h5] at h1; exact absurd h1.2 (by decide)
      · exact absurd h (by unfold HasSelf; decide)
      · exact absurd h (by unfold HasNotSelf; decide)
    have hcp1 : cp = (1, 1#32) := by simpa [naRule] using hcp
    subst hs1 ht2 hcp1
    -- the command is ioctl 0x1206
    have hcmd : c = .ioctl 0x12 6 := by
      cases c with
      | ioctl dr fn =>
        obtain ⟨h1, h2, ⟨h3, h4, h5⟩ | ⟨h3, -⟩⟩ := hc
        · have h4 : (0x12 : Nat) = dr := h4
          have : fn = 6 := by
            revert h5
            clear hf hb
            unfold xbit
            show (([0x40#32, 0, 0, 0, 0, 0, 0, 0] : List (BitVec 32)).getD (fn / 32) 0#32).getLsbD (fn % 32) = true → fn = 6
            revert h2
            revert fn
            decide +kernel
          rw [← h4, this]
        · exact absurd h3 (by decide)
      | nlmsg dr fn => exact absurd hc.2.2.1 (by decide)
    subst hcmd
    have hfil : Decides polC σ 1 2 1 (Cmd.ioctl 0x12 6).filtered :=
      .inl ⟨allowx x5, by rw [hn]; simp, hcov.1, hcov.2, rfl, rfl, by decide, x5, rfl, .inl rfl⟩
    have isr : ∀ id, Cond.SelectedBy σ polC.conds id → id ∈ listed polC.conds := by
      rintro id ⟨cn, hcn, ⟨-, m⟩ | ⟨-, m⟩⟩
      · exact listed_true hcn m
      · exact listed_false hcn m
    have fin : ∀ n, IsRule polC n → ¬ Says polC.sp 1 2 1 (Cmd.ioctl 0x12 6).listed n := by
      rintro n hr ⟨-, -, -, h4⟩
      have hk := listed_kind h4
      have he := hrule n hr hk
      subst he
      obtain ⟨x, hx, -, -, ⟨-, -, h6⟩ | ⟨h6, -⟩⟩ := grants_listed.mp h4
      · cases hx; exact absurd h6 (by unfold xbit; decide)
      · cases hx; exact absurd h6 (by decide)
    rcases hf hfil with ⟨n, h1, h2⟩ | ⟨id, h1, h2⟩
    · exact fin n (.inl h1) h2
    · exact fin _ (.inr ⟨id, isr id h1, rfl⟩) h2

/-- C23 fails when ioctl and netlink message rules meet on one class: netlink message 5 is not filtered, so permitted, but because
an ioctl allowxperm rule exists the violation of `neverallowxperm a b nlmsg 5` is not found. -/
theorem C23_nlmsg_refuted :
    ∃ (p : OPolicy) (σ0 : Cond.State) (na : Avrule), AssertOk p σ0 ∧ RuleWF na ∧ na.specified = XPERMS_NEVERALLOW ∧ CondsDefined p ∧
      (∀ σ, XViolated p σ na) ∧ checkAssertions p [na] = some 0 := by
  have hn : Avtab.nodes (polU x5).sp.te = [allowAB, allowx x5] := by simp [polU, exA, exSp, Avtab.nodes]
  have hl : Lists n5 (.nlmsg 0 5) := ⟨by decide, by decide, rfl, by decide, by unfold xbit; decide⟩
  have hc := covers_a [allowAB, allowx x5] [] []
  have hp := plain_ab [allowAB, allowx x5] [] []
  refine ⟨polU x5, fun _ => false, naRule XPERMS_NEVERALLOW 0#32 (word 2#64) n5, polU_ok x5 rfl,
    na_wf (.inr rfl) (.inl rfl) (word_wf (by decide)) (.inr (.inr rfl)) rfl, rfl, fun c hc => by simp [polU, exA] at hc, fun σ => ?_, by decide +kernel⟩
  refine ⟨1, 2, hp.1, hp.2, ⟨by unfold In; decide +kernel, .inl ⟨rfl, by unfold In; decide +kernel⟩⟩, (1, 1#32), by decide, 0, by decide, .nlmsg 0 5, hl, ?_, fun hf => ?_⟩
  · exact .inl ⟨allowAB, by rw [hn]; simp, hc.1, hc.2, rfl, by decide, by decide, by decide⟩
  · exfalso
    rcases hf with ⟨n, h1, -, -, -, h2⟩ | ⟨id, ⟨cn, hcn, -⟩, -⟩
    · rw [hn] at h1
      simp only [List.mem_cons, List.not_mem_nil, or_false] at h1
      obtain ⟨h3, -, x, hx, h4⟩ := h2
      rcases h1 with rfl | rfl
      · exact absurd h3 (by decide)
      · cases hx; exact absurd h4 (by decide)
    · simp [polU, exA] at hcn

end Verif.Assertion
