import Verif.Context.Lemmas

/-!
# C32: context handles

`Splits`, `Valid` and `orNull` are in `Verif/Context/Spec.lean`.
-/

namespace Verif.Context

/-- All allocations succeed. -/
abbrev allMem : Nat → Bool := fun _ => true

/-- A handle the application can hold: made by `context_new`, then changed by
any calls of the setters, whatever allocations failed. -/
def Reachable (h : Handle) : Prop :=
  ∃ mem0 mem s h0 os, contextNew mem0 mem s = .ok h0 ∧ h = setters h0 os

/-- "user_u:r" and so on, for the examples. -/
def b (s : String) : Bytes := s.toUTF8.toList

/-- **C32** (acceptance).  `context_new` accepts exactly the valid context
strings when memory suffices; for every other string, and when memory runs
out, it reports failure, and for no string does it write outside its array. -/
theorem C32_accept (s : Bytes) :
    ((∃ h, contextNew true allMem s = .ok h) ↔ Valid s) ∧
    (∀ mem0 mem, (∃ h, contextNew mem0 mem s = .ok h) → Valid s) ∧
    (∀ mem0 mem, contextNew mem0 mem s ≠ .ub) := by
  refine ⟨⟨?_, ?_⟩, ?_, fun mem0 mem => contextNew_not_ub s mem0 mem⟩
  · rintro ⟨h, e⟩
    obtain ⟨u, r, t, g, a, b, c, d, e, f, _⟩ := contextNew_ok e
    exact ⟨u, r, t, g, a, b, c, d, e, f⟩
  · rintro ⟨u, r, t, g, a, b, c, d, e, f⟩
    exact ⟨_, contextNew_of_valid a b c d e f⟩
  · rintro mem0 mem ⟨h, e⟩
    obtain ⟨u, r, t, g, a, b, c, d, e, f, _⟩ := contextNew_ok e
    exact ⟨u, r, t, g, a, b, c, d, e, f⟩

example : Valid (b "u:r:t:s0-s0:c1,c3") :=
  ((C32_accept _).1).1 ⟨[some (b "u"), some (b "r"), some (b "t"), some (b "s0-s0:c1,c3")],
    by decide +kernel⟩
example : contextNew true allMem (b "u:r t:t") = .err := by decide +kernel
example : contextNew true allMem (b "u:r:t:a:b:c:d") = .err := by decide +kernel

theorem append_cut {u v u' v' : Bytes} (hu : 58 ∉ u) (hu' : 58 ∉ u')
    (h : u ++ 58 :: v = u' ++ 58 :: v') : u = u' ∧ v = v' := by
  have e : u = u' := by
    have := congrArg (List.takeWhile (· ≠ colon)) h
    rwa [takeWhile_part u v hu, takeWhile_part u' v' hu'] at this
  subst e
  exact ⟨rfl, by simpa using h⟩

theorem splits_unique {s u r t u' r' t' : Bytes} {g g' : Option Bytes}
    (h : Splits s u r t g) (h' : Splits s u' r' t' g') : u = u' ∧ r = r' ∧ t = t' ∧ g = g' := by
  have e := h.eq.symm.trans h'.eq
  have f : ∀ (u r t x : Bytes), u ++ [58] ++ r ++ [58] ++ t ++ x = u ++ 58 :: (r ++ 58 :: (t ++ x)) := by
    intros; simp
  rw [f, f] at e
  obtain ⟨rfl, e1⟩ := append_cut h.user h'.user e
  obtain ⟨rfl, e2⟩ := append_cut h.role h'.role e1
  cases g with
  | none =>
    cases g' with
    | none => exact ⟨rfl, rfl, by simpa using e2, rfl⟩
    | some g' =>
      exfalso; apply h.type; simp only [List.append_nil] at e2; rw [e2]; simp
  | some g =>
    cases g' with
    | none => exfalso; apply h'.type; simp only [List.append_nil] at e2; rw [← e2]; simp
    | some g' =>
      obtain ⟨rfl, rfl⟩ := append_cut h.type h'.type e2
      exact ⟨rfl, rfl, rfl, rfl⟩

/-- **C32** (getters).  The getters of a new handle return the components of
the string; an empty last component is returned as NULL. -/
theorem C32_components (mem0 : Bool) (mem : Nat → Bool) (s u r t : Bytes) (g : Option Bytes)
    (h : Handle) (e : contextNew mem0 mem s = .ok h) (hs : Splits s u r t g) :
    userGet h = some u ∧ roleGet h = some r ∧
    typeGet h = (if g = none then orNull t else some t) ∧
    rangeGet h = g.bind orNull := by
  obtain ⟨u', r', t', g', hs', -, -, -, -, -, rfl⟩ := contextNew_ok e
  obtain ⟨rfl, rfl, rfl, rfl⟩ := splits_unique hs hs'
  cases g <;> simp [handleOf, userGet, roleGet, typeGet, rangeGet]

example : ∃ h, contextNew true allMem (b "u:r:t:s0-s0:c1") = .ok h ∧
    rangeGet h = some (b "s0-s0:c1") :=
  ⟨[some (b "u"), some (b "r"), some (b "t"), some (b "s0-s0:c1")], by decide +kernel⟩
example : Splits (b "u:r:t:s0-s0:c1") (b "u") (b "r") (b "t") (some (b "s0-s0:c1")) :=
  ⟨by decide +kernel, by decide +kernel, by decide +kernel, by decide +kernel⟩

/-- **C32** (round trip, exact).  `context_str` gives back the string given to
`context_new`, except that a colon at the end of a string with at most three
colons (an empty last component) is lost. -/
theorem C32_roundtrip_partial (mem0 : Bool) (mem : Nat → Bool) (s : Bytes) (h : Handle)
    (e : contextNew mem0 mem s = .ok h) :
    contextStr true h =
      .ok (if s.count 58 ≤ 3 ∧ s.getLast? = some 58 then s.dropLast else s) := by
  obtain ⟨u, r, t, g, hs, -, -, -, -, -, rfl⟩ := contextNew_ok e
  obtain ⟨hu, hr, ht, rfl⟩ := hs
  have cu := List.count_eq_zero.2 hu
  have cr := List.count_eq_zero.2 hr
  have ct := List.count_eq_zero.2 ht
  cases g with
  | none =>
    simp only [handleOf]
    rw [contextStr_some]
    by_cases h0 : t = []
    · subst h0
      have e1 : u ++ [58] ++ r ++ [58] ++ [] ++ [] = (u ++ 58 :: r) ++ [58] := by simp
      rw [e1, if_pos, List.dropLast_concat]
      · simp [orNull, copyRest]
      · exact ⟨by simp [List.count_append, List.count_cons, cu, cr], List.getLast?_concat⟩
    · rw [if_neg]
      · simp [orNull, copyRest, h0]
      · rintro ⟨_, hl⟩
        apply ht
        rw [List.append_nil, List.getLast?_append] at hl
        cases hx : t.getLast? with
        | none => rw [List.getLast?_eq_none_iff] at hx; exact absurd hx h0
        | some x =>
          rw [hx] at hl; simp at hl; subst hl
          exact List.mem_of_getLast? hx
  | some g =>
    simp only [handleOf]
    rw [contextStr_some]
    by_cases h0 : g = []
    · subst h0
      have e1 : u ++ [58] ++ r ++ [58] ++ t ++ [58] = (u ++ 58 :: (r ++ 58 :: t)) ++ [58] := by
        simp
      rw [e1, if_pos, List.dropLast_concat]
      · simp [orNull, copyRest]
      · exact ⟨by simp [List.count_append, List.count_cons, cu, cr, ct], List.getLast?_concat⟩
    · rw [if_neg]
      · simp [orNull, copyRest, h0]
      · rintro ⟨hc, hl⟩
        rw [List.getLast?_append, List.getLast?_cons] at hl
        have hg : (58 : UInt8) ∈ g := by
          cases hx : g.getLast? with
          | none => rw [List.getLast?_eq_none_iff] at hx; exact absurd hx h0
          | some x =>
            rw [hx] at hl; simp at hl; subst hl
            exact List.mem_of_getLast? hx
        have : 0 < g.count 58 := List.count_pos_iff.2 hg
        simp [List.count_append, List.count_cons, cu, cr, ct] at hc
        omega

example : ∃ h, contextNew true allMem (b "u:r:t:s0:c1") = .ok h ∧
    contextStr true h = .ok (b "u:r:t:s0:c1") :=
  ⟨[some (b "u"), some (b "r"), some (b "t"), some (b "s0:c1")], by decide +kernel⟩

/-- **C32** (round trip, refuted as stated in the property list): the string
"u:r:" is accepted, its type is reported as NULL, and `context_str` gives
"u:r". -/
theorem C32_roundtrip_refuted :
    ∃ s h, contextNew true allMem s = .ok h ∧ typeGet h = none ∧
      ∃ s', contextStr true h = .ok s' ∧ s' ≠ s :=
  ⟨b "u:r:", [some (b "u"), some (b "r"), none, none], by decide +kernel, by decide +kernel,
    b "u:r", by decide +kernel, by decide +kernel⟩

/-- The components a handle shows through the getters. -/
def view (h : Handle) : List (Option Bytes) := [userGet h, roleGet h, typeGet h, rangeGet h]

/-- The argument of a setter is acceptable: NULL, or without control
characters and, except for the range, without colons and spaces. -/
def ArgOk (range : Bool) (a : Option Bytes) : Prop :=
  ∀ s, a = some s → NoCtrl s ∧ (range = false → 58 ∉ s ∧ 32 ∉ s)

theorem reachable_inv {h : Handle} (hr : Reachable h) : Inv h := by
  obtain ⟨mem0, mem, s, h0, os, e, rfl⟩ := hr
  obtain ⟨u, r, t, g, a, b, c, d, f, -, rfl⟩ := contextNew_ok e
  exact inv_setters (inv_handleOf a b c d f) os

theorem handle4 {h : Handle} (hi : h.length = 4) : ∃ a b c d, h = [a, b, c, d] := by
  match h, hi with
  | [a, b, c, d], _ => exact ⟨a, b, c, d, rfl⟩

theorem compOk_arg (i : Nat) (a : Option Bytes) (h : Handle) (mem : Bool)
    (hi : (a = none ∨ mem = true)) :
    ((setComp mem h i a).2 = true ↔ ∀ s, a = some s → CompOk i s) ∧
    ((setComp mem h i a).2 = true → (setComp mem h i a).1 = h.set i a) ∧
    ((setComp mem h i a).2 = false → (setComp mem h i a).1 = h) := by
  cases a with
  | none => simp [setComp]
  | some s =>
    rcases hi with hi | rfl
    · cases hi
    · simp only [setComp]
      by_cases hb : s.any (badChar i) = true
      · have : ¬ CompOk i s := fun hc => by rw [(any_badChar i s).2 hc] at hb; cases hb
        rw [if_pos hb]; simp [this]
      · have : CompOk i s := (any_badChar i s).1 (by simpa using hb)
        rw [if_neg hb]; simp [this]

theorem setComp_fail (i : Nat) (a : Option Bytes) (h : Handle) (mem : Bool)
    (hf : (setComp mem h i a).2 = false) : (setComp mem h i a).1 = h := by
  unfold setComp at hf ⊢
  cases a with
  | none => cases hf
  | some s =>
    dsimp only at hf ⊢
    split
    · rfl
    · split
      · rename_i h1 h2; rw [if_neg h1, if_pos h2] at hf; cases hf
      · rfl

/-- **C32** (setters).  On any handle, when memory suffices, a setter succeeds
exactly when its argument is acceptable for that component; it then changes
that component only.  A setter that fails, also for lack of memory, changes
nothing. -/
theorem C32_set (h : Handle) (hr : Reachable h) (a : Option Bytes) :
    ((setter true h (.user a)).2 = true ↔ ArgOk false a) ∧
    ((setter true h (.role a)).2 = true ↔ ArgOk false a) ∧
    ((setter true h (.type a)).2 = true ↔ ArgOk false a) ∧
    ((setter true h (.range a)).2 = true ↔ ArgOk true a) ∧
    (∀ mem, (setter mem h (.user a)).2 = true →
      view (setter mem h (.user a)).1 = [a, roleGet h, typeGet h, rangeGet h]) ∧
    (∀ mem, (setter mem h (.role a)).2 = true →
      view (setter mem h (.role a)).1 = [userGet h, a, typeGet h, rangeGet h]) ∧
    (∀ mem, (setter mem h (.type a)).2 = true →
      view (setter mem h (.type a)).1 = [userGet h, roleGet h, a, rangeGet h]) ∧
    (∀ mem, (setter mem h (.range a)).2 = true →
      view (setter mem h (.range a)).1 = [userGet h, roleGet h, typeGet h, a]) ∧
    (∀ mem o, (setter mem h o).2 = false → (setter mem h o).1 = h) := by
  obtain ⟨w, x, y, z, rfl⟩ := handle4 (reachable_inv hr).1
  have key : ∀ i mem, (setComp mem [w, x, y, z] i a).2 = true →
      (setComp mem [w, x, y, z] i a).1 = [w, x, y, z].set i a := by
    intro i mem h2
    cases mem with
    | true => exact (compOk_arg i a _ true (Or.inr rfl)).2.1 h2
    | false =>
      cases a with
      | none => rfl
      | some s =>
        exfalso
        simp only [setComp] at h2
        split at h2 <;> simp at h2
  refine ⟨?_, ?_, ?_, ?_, ?_, ?_, ?_, ?_, ?_⟩
  · exact ((compOk_arg 0 a _ true (Or.inr rfl)).1).trans
      ⟨fun h s e => ⟨(h s e).1, fun _ => (h s e).2 (by omega)⟩,
        fun h s e => ⟨(h s e).1, fun _ => (h s e).2 rfl⟩⟩
  · exact ((compOk_arg 1 a _ true (Or.inr rfl)).1).trans
      ⟨fun h s e => ⟨(h s e).1, fun _ => (h s e).2 (by omega)⟩,
        fun h s e => ⟨(h s e).1, fun _ => (h s e).2 rfl⟩⟩
  · exact ((compOk_arg 2 a _ true (Or.inr rfl)).1).trans
      ⟨fun h s e => ⟨(h s e).1, fun _ => (h s e).2 (by omega)⟩,
        fun h s e => ⟨(h s e).1, fun _ => (h s e).2 rfl⟩⟩
  · exact ((compOk_arg 3 a _ true (Or.inr rfl)).1).trans
      ⟨fun h s e => ⟨(h s e).1, fun h => by cases h⟩,
        fun h s e => ⟨(h s e).1, fun h => absurd rfl h⟩⟩
  · intro mem h2
    show view (setComp mem [w, x, y, z] 0 a).1 = _
    rw [key 0 mem h2]; rfl
  · intro mem h2
    show view (setComp mem [w, x, y, z] 1 a).1 = _
    rw [key 1 mem h2]; rfl
  · intro mem h2
    show view (setComp mem [w, x, y, z] 2 a).1 = _
    rw [key 2 mem h2]; rfl
  · intro mem h2
    show view (setComp mem [w, x, y, z] 3 a).1 = _
    rw [key 3 mem h2]; rfl
  · intro mem o h2
    rw [setter_eq] at h2 ⊢
    exact setComp_fail _ _ _ _ h2

example : Reachable [some (b "u"), some (b "r"), some (b "t2"), none] :=
  ⟨true, allMem, b "u:r:t", [some (b "u"), some (b "r"), some (b "t"), none],
    [(true, .type (some (b "t2"))), (true, .role (some (b "a:b"))), (false, .user (some (b "x")))],
    by decide +kernel, by decide +kernel⟩

/-- **C32** (no overflow).  On every handle whose user is not NULL,
`context_str` stays inside the buffer it allocates and gives the non-NULL
components, joined by colons. -/
theorem C32_str (h : Handle) (hr : Reachable h) (u : Bytes) (hu : userGet h = some u) :
    contextStr true h = .ok (u ++
      ((roleGet h).elim [] fun c => 58 :: c) ++
      ((typeGet h).elim [] fun c => 58 :: c) ++
      ((rangeGet h).elim [] fun c => 58 :: c)) := by
  obtain ⟨w, x, y, z, rfl⟩ := handle4 (reachable_inv hr).1
  simp only [userGet, List.getD_cons_zero] at hu
  subst hu
  rw [contextStr_some]
  cases x <;> cases y <;> cases z <;>
    simp [copyRest, roleGet, typeGet, rangeGet]

/-- **C32** (refuted): after `context_user_set(con, NULL)`, which succeeds,
`context_str` copies from the NULL pointer. -/
theorem C32_str_refuted :
    ∃ h, Reachable h ∧ (∃ h', setter true h' (.user none) = (h, true)) ∧
      contextStr true h = .ub :=
  ⟨[none, some (b "r"), some (b "t"), none],
    ⟨true, allMem, b "u:r:t", [some (b "u"), some (b "r"), some (b "t"), none],
      [(true, .user none)], by decide +kernel, by decide +kernel⟩,
    ⟨[some (b "u"), some (b "r"), some (b "t"), none], by decide +kernel⟩, by decide +kernel⟩

/-- **C32** (edited contexts).  However a handle was edited, if user, role and
type are present, the last component is not empty and the range has at most
two colons, then the string written is a valid context and reading it back
gives the same components: no component can smuggle in another. -/
theorem C32_reparse (h : Handle) (hr : Reachable h) (u r t : Bytes) (g : Option Bytes)
    (hu : userGet h = some u) (hro : roleGet h = some r) (ht : typeGet h = some t)
    (hg : rangeGet h = g) (h0 : g = none → t ≠ []) (h1 : ∀ x, g = some x → x ≠ [] ∧ x.count 58 ≤ 2) :
    ∃ s, contextStr true h = .ok s ∧ contextNew true allMem s = .ok h := by
  have hi := reachable_inv hr
  have hst := C32_str h hr u hu
  obtain ⟨w, x, y, z, rfl⟩ := handle4 hi.1
  simp only [userGet, roleGet, typeGet, rangeGet, List.getD_cons_zero, List.getD_cons_succ] at hu hro ht hg
  subst hu hro ht hg
  have c0 := hi.2 0 u rfl
  have c1 := hi.2 1 r rfl
  have c2 := hi.2 2 t rfl
  refine ⟨_, hst, ?_⟩
  have n0 := c0.1; have n1 := c1.1; have n2 := c2.1
  have hcol : NoCtrl [58] := by simp [NoCtrl]
  cases z with
  | none =>
    have hsp : Splits (u ++ [58] ++ r ++ [58] ++ t) u r t none :=
      ⟨(c0.2 (by omega)).1, (c1.2 (by omega)).1, (c2.2 (by omega)).1, by simp⟩
    have := contextNew_of_valid hsp (by simp only [noCtrl_append]; exact ⟨⟨⟨⟨n0, hcol⟩, n1⟩, hcol⟩, n2⟩)
      (c0.2 (by omega)).2 (c1.2 (by omega)).2 (c2.2 (by omega)).2 (by intro x hx; cases hx)
    simp [handleOf, orNull, h0 rfl] at this
    simpa [roleGet, typeGet, rangeGet] using this
  | some g =>
    have c3 := hi.2 3 g rfl
    obtain ⟨g0, g2⟩ := h1 g rfl
    have hsp : Splits (u ++ [58] ++ r ++ [58] ++ t ++ ([58] ++ g)) u r t (some g) :=
      ⟨(c0.2 (by omega)).1, (c1.2 (by omega)).1, (c2.2 (by omega)).1, by simp⟩
    have := contextNew_of_valid hsp
      (by simp only [noCtrl_append]; exact ⟨⟨⟨⟨⟨n0, hcol⟩, n1⟩, hcol⟩, n2⟩, hcol, c3.1⟩)
      (c0.2 (by omega)).2 (c1.2 (by omega)).2 (c2.2 (by omega)).2
      (by intro x hx; cases hx; exact g2)
    simp [handleOf, orNull, g0] at this
    simpa [roleGet, typeGet, rangeGet] using this

end Verif.Context
