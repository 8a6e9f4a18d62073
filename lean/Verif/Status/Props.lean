import Verif.Status.Model

/-!
# C30: reads of the status page are consistent snapshots
-/

namespace Verif.Status

/-! ## Specification -/

/-- At some moment during the call (after some turns of the schedule) no update was in progress,
and the page satisfied `P`. -/
def AtSomeMoment (pr : Prog) (p0 : Page) (sched : List Turn) (P : Page → Prop) : Prop :=
  ∃ pre post, sched = pre ++ post ∧ odd (exec pr (p0, Pc.first) pre).1.seq = false ∧
    P (exec pr (p0, Pc.first) pre).1

/-- The number of updates the kernel starts. -/
def updates (sched : List Turn) : Nat := sched.count (Turn.kernel KStep.start)

/-! ## Lemmas -/

theorem odd_succ (s : BitVec 32) : odd (s + 1) = !odd s := by
  unfold odd
  have h1 : ∀ x : BitVec 32, x.getLsbD 0 = decide (x.toNat % 2 = 1) := by
    intro x
    rw [BitVec.getLsbD, Nat.testBit_zero]
  rw [h1, h1, BitVec.toNat_add]
  have : (1 : BitVec 32).toNat = 1 := rfl
  rw [this]
  have : s.toNat < 2 ^ 32 := s.isLt
  rcases Nat.mod_two_eq_zero_or_one s.toNat with h | h
  · have : (s.toNat + 1) % 2 ^ 32 % 2 = 1 := by omega
    simp [this, h]
  · have : (s.toNat + 1) % 2 ^ 32 % 2 = 0 := by omega
    simp [this, h]

theorem odd_set (p : Page) (f : Field) (v : BitVec 32) : (p.set f v).seq = p.seq := by
  cases f <;> rfl

/-- The number of changes of the sequence number a kernel step makes (0 or 1). -/
def changes (p : Page) (k : KStep) : Nat := if (p.step k).seq = p.seq then 0 else 1

theorem succ_ne (s : BitVec 32) : s + 1 ≠ s := by
  intro h
  have := odd_succ s
  rw [h] at this
  cases odd s <;> simp at this

/-- What one kernel step does. -/
theorem step_cases (p : Page) (k : KStep) :
    (changes p k = 0 ∧ (p.step k).seq = p.seq ∧ (odd p.seq = false → p.step k = p)) ∨
    (changes p k = 1 ∧ (p.step k).seq = p.seq + 1 ∧ (odd p.seq = false → k = KStep.start)) := by
  unfold changes
  cases k with
  | start =>
    unfold Page.step
    by_cases h : odd p.seq = true
    · simp [h]
    · right
      simp [h, succ_ne]
  | commit =>
    unfold Page.step
    by_cases h : odd p.seq = true
    · right
      simp [h, succ_ne]
    · left
      simp [h]
  | write f v =>
    unfold Page.step
    by_cases h : odd p.seq = true
    · left
      simp [h, odd_set]
    · left
      simp [h]

theorem ofNat_succ (b : BitVec 32) (c : Nat) : b + BitVec.ofNat 32 (c + 1) = b + BitVec.ofNat 32 c + 1 := by
  rw [BitVec.add_assoc]
  congr 1
  rw [← BitVec.toNat_inj]
  simp

/-- 0 or 1. -/
def bit (b : Bool) : Nat := if b then 1 else 0

/-- What is known about a reader, when the sequence number changed `c` times, the page is `p` and
`M P` says that at some moment so far the page was stable and satisfied `P`. -/
def PcOk (pr : Prog) (b : BitVec 32) (c : Nat) (p : Page) (M : (Page → Prop) → Prop) : Pc → Prop
  | Pc.first => True
  | Pc.fields s todo vals => ∃ c0 ≤ c, s = b + BitVec.ofNat 32 c0 ∧ odd s = false ∧
      (c0 = c → ∃ got, pr.fs = got ++ todo ∧ vals = got.map p.get)
  | Pc.again s vals => ∃ c0 ≤ c, s = b + BitVec.ofNat 32 c0 ∧ odd s = false ∧
      (c0 = c → vals = pr.fs.map p.get)
  | Pc.same s => M fun p => p.seq = s ∧ ∃ last, pr.last = some last ∧ (odd last = true ∨ last = s)
  | Pc.done s vals => M fun p => p.seq = s ∧ vals = pr.fs.map p.get

/-- The invariant: `c` changes of the sequence number so far, `st` updates started. -/
structure Inv (pr : Prog) (p0 : Page) (sched : List Turn) (c st : Nat) : Prop where
  seq : (exec pr (p0, Pc.first) sched).1.seq = p0.seq + BitVec.ofNat 32 c
  started : st ≤ updates sched
  count : c + bit (odd (exec pr (p0, Pc.first) sched).1.seq) = 2 * st + bit (odd p0.seq)
  pc : PcOk pr p0.seq c (exec pr (p0, Pc.first) sched).1 (AtSomeMoment pr p0 sched)
    (exec pr (p0, Pc.first) sched).2

theorem AtSomeMoment.snoc {pr p0 sched P} (h : AtSomeMoment pr p0 sched P) (t : Turn) :
    AtSomeMoment pr p0 (sched ++ [t]) P := by
  obtain ⟨pre, post, rfl, h1, h2⟩ := h
  exact ⟨pre, post ++ [t], by simp, h1, h2⟩

theorem AtSomeMoment.now {pr p0 sched} {P : Page → Prop} (h1 : odd (exec pr (p0, Pc.first) sched).1.seq = false)
    (h2 : P (exec pr (p0, Pc.first) sched).1) (t : Turn) : AtSomeMoment pr p0 (sched ++ [t]) P :=
  ⟨sched, [t], rfl, h1, h2⟩

theorem inv_start (pr : Prog) (p0 : Page) : Inv pr p0 [] 0 0 :=
  ⟨by simp [exec], by simp [updates], by simp [exec], trivial⟩

/-- A turn of the kernel. -/
theorem Inv.kernel {pr p0 sched c st} (h : Inv pr p0 sched c st) (k : KStep) :
    ∃ c' st', Inv pr p0 (sched ++ [Turn.kernel k]) c' st' := by
  have he : exec pr (p0, Pc.first) (sched ++ [Turn.kernel k]) =
      ((exec pr (p0, Pc.first) sched).1.step k, (exec pr (p0, Pc.first) sched).2) := by
    unfold exec
    rw [List.foldl_append]
    rfl
  have hup : updates (sched ++ [Turn.kernel k]) = updates sched + (if k = KStep.start then 1 else 0) := by
    unfold updates
    rw [List.count_append, List.count_singleton]
    by_cases hk : k = KStep.start
    · simp [hk]
    · simp [hk]
  generalize hx : exec pr (p0, Pc.first) sched = x at he
  obtain ⟨p, pc⟩ := x
  have h1 : p.seq = p0.seq + BitVec.ofNat 32 c := by have := h.seq; rwa [hx] at this
  have h3 : c + bit (odd p.seq) = 2 * st + bit (odd p0.seq) := by have := h.count; rwa [hx] at this
  have h4 : PcOk pr p0.seq c p (AtSomeMoment pr p0 sched) pc := by have := h.pc; rwa [hx] at this
  rcases step_cases p k with ⟨_, hs, heq⟩ | ⟨_, hs, heq⟩
  · refine ⟨c, st, ?_, ?_, ?_, ?_⟩
    · rw [he]; exact hs.trans h1
    · rw [hup]; exact Nat.le_trans h.started (Nat.le_add_right _ _)
    · rw [he]; dsimp only; rw [hs]; exact h3
    · rw [he]
      dsimp only
      cases pc with
      | first => trivial
      | fields s todo vals =>
        obtain ⟨c0, a, b, d, f⟩ := h4
        refine ⟨c0, a, b, d, fun e => ?_⟩
        obtain ⟨got, g1, g2⟩ := f e
        have : odd p.seq = false := by rw [h1, ← e, ← b]; exact d
        rw [heq this]
        exact ⟨got, g1, g2⟩
      | again s vals =>
        obtain ⟨c0, a, b, d, f⟩ := h4
        refine ⟨c0, a, b, d, fun e => ?_⟩
        have : odd p.seq = false := by rw [h1, ← e, ← b]; exact d
        rw [heq this]
        exact f e
      | same s => (simp only [PcOk] at h4 ⊢; exact h4.snoc _)
      | done s vals => (simp only [PcOk] at h4 ⊢; exact h4.snoc _)
  · have hodd : odd (p.step k).seq = !odd p.seq := by rw [hs, odd_succ]
    refine ⟨c + 1, if odd p.seq then st else st + 1, ?_, ?_, ?_, ?_⟩
    · rw [he]; dsimp only; rw [hs, h1, ofNat_succ]
    · rw [hup]
      cases ho : odd p.seq with
      | true =>
        have := h.started
        simp only [if_true]
        omega
      | false =>
        have := h.started
        rw [heq ho]
        simp only [Bool.false_eq_true, if_false, if_true]
        omega
    · rw [he]
      dsimp only
      rw [hodd]
      cases ho : odd p.seq with
      | true =>
        rw [ho] at h3
        simp only [bit, Bool.not_true, Bool.false_eq_true, if_true, if_false] at h3 ⊢
        omega
      | false =>
        rw [ho] at h3
        simp only [bit, Bool.not_false, Bool.false_eq_true, if_true, if_false] at h3 ⊢
        omega
    · rw [he]
      dsimp only
      cases pc with
      | first => trivial
      | fields s todo vals =>
        obtain ⟨c0, a, b, d, f⟩ := h4
        exact ⟨c0, by omega, b, d, fun e => by omega⟩
      | again s vals =>
        obtain ⟨c0, a, b, d, f⟩ := h4
        exact ⟨c0, by omega, b, d, fun e => by omega⟩
      | same s => (simp only [PcOk] at h4 ⊢; exact h4.snoc _)
      | done s vals => (simp only [PcOk] at h4 ⊢; exact h4.snoc _)

/-- A turn of the reader. -/
theorem Inv.reader {pr p0 sched c st} (h : Inv pr p0 sched c st) (hu : updates sched < 2 ^ 31) :
    Inv pr p0 (sched ++ [Turn.reader]) c st := by
  have he : exec pr (p0, Pc.first) (sched ++ [Turn.reader]) =
      ((exec pr (p0, Pc.first) sched).1,
        rstep pr (exec pr (p0, Pc.first) sched).1 (exec pr (p0, Pc.first) sched).2) := by
    unfold exec
    rw [List.foldl_append]
    rfl
  have hup : updates (sched ++ [Turn.reader]) = updates sched := by
    unfold updates
    rw [List.count_append]
    rfl
  refine ⟨by rw [he]; exact h.seq, by rw [hup]; exact h.started, by rw [he]; exact h.count, ?_⟩
  rw [he]
  dsimp only
  have h1 := h.seq
  have h3 := h.count
  have h4 := h.pc
  have hnow : ∀ P : Page → Prop, odd (exec pr (p0, Pc.first) sched).1.seq = false →
      P (exec pr (p0, Pc.first) sched).1 → AtSomeMoment pr p0 (sched ++ [Turn.reader]) P :=
    fun P a b => AtSomeMoment.now a b _
  generalize exec pr (p0, Pc.first) sched = x at *
  obtain ⟨p, pc⟩ := x
  dsimp only at *
  cases pc with
  | first =>
    unfold rstep
    cases ho : odd p.seq with
    | true => simp [PcOk]
    | false =>
      simp only [Bool.false_eq_true, if_false]
      unfold begun
      cases hl : pr.last with
      | none => exact ⟨c, Nat.le_refl _, h1, ho, fun _ => ⟨[], rfl, rfl⟩⟩
      | some last =>
        dsimp only
        by_cases hs : (if odd last then p.seq else last) = p.seq
        · rw [if_pos hs]
          simp only [PcOk]
          refine hnow _ ho ⟨rfl, last, hl, ?_⟩
          cases hol : odd last with
          | true => exact Or.inl rfl
          | false =>
            rw [hol] at hs
            simp only [Bool.false_eq_true, if_false] at hs
            exact Or.inr hs
        · rw [if_neg hs]
          exact ⟨c, Nat.le_refl _, h1, ho, fun _ => ⟨[], rfl, rfl⟩⟩
  | fields s todo vals =>
    obtain ⟨c0, a, b, d, f⟩ := h4
    cases todo with
    | nil =>
      refine ⟨c0, a, b, d, fun e => ?_⟩
      obtain ⟨got, g1, g2⟩ := f e
      rw [List.append_nil] at g1
      rw [g1]; exact g2
    | cons x todo =>
      refine ⟨c0, a, b, d, fun e => ?_⟩
      obtain ⟨got, g1, g2⟩ := f e
      exact ⟨got ++ [x], by rw [g1]; simp, by rw [g2]; simp⟩
  | again s vals =>
    obtain ⟨c0, a, b, d, f⟩ := h4
    unfold rstep
    cases ho : odd p.seq with
    | true =>
      simp only [if_true]
      exact ⟨c0, a, b, d, f⟩
    | false =>
      simp only [Bool.false_eq_true, if_false]
      unfold checked
      by_cases hs : p.seq = s
      · rw [if_pos hs]
        have hc : c0 = c := by
          rw [h1, b] at hs
          have h5 : BitVec.ofNat 32 c = BitVec.ofNat 32 c0 := by
            have := congrArg (fun v => v - p0.seq) hs
            simpa [BitVec.add_comm p0.seq] using this
          have h6 := congrArg BitVec.toNat h5
          rw [BitVec.toNat_ofNat, BitVec.toNat_ofNat] at h6
          have h7 : c < 2 ^ 32 := by
            have := h.started
            have hb : bit (odd p0.seq) ≤ 1 := by unfold bit; split <;> omega
            omega
          rw [Nat.mod_eq_of_lt h7, Nat.mod_eq_of_lt (by omega)] at h6
          exact h6.symm
        simp only [PcOk]
        exact hnow _ ho ⟨hs, f hc⟩
      · rw [if_neg hs]
        cases hl : pr.last with
        | none => trivial
        | some last => exact ⟨c, Nat.le_refl _, h1, ho, fun _ => ⟨[], rfl, rfl⟩⟩
  | same s => (simp only [PcOk] at h4 ⊢; exact h4.snoc _)
  | done s vals => (simp only [PcOk] at h4 ⊢; exact h4.snoc _)

theorem inv_exec (pr : Prog) (p0 : Page) (sched : List Turn) (hu : updates sched < 2 ^ 31) :
    ∃ c st, Inv pr p0 sched c st := by
  have gen : ∀ (l pre : List Turn), updates (pre ++ l) < 2 ^ 31 → (∃ c st, Inv pr p0 pre c st) →
      ∃ c st, Inv pr p0 (pre ++ l) c st := by
    intro l
    induction l with
    | nil => intro pre _ h; rwa [List.append_nil]
    | cons t l ih =>
      rintro pre hu ⟨c, st, h⟩
      have hle : updates pre ≤ updates (pre ++ t :: l) := by
        unfold updates
        rw [List.count_append]
        omega
      rw [show pre ++ t :: l = (pre ++ [t]) ++ l by simp] at hu ⊢
      refine ih _ hu ?_
      cases t with
      | kernel k => exact h.kernel k
      | reader =>
        refine ⟨c, st, h.reader ?_⟩
        rw [show pre ++ Turn.reader :: l = (pre ++ [Turn.reader]) ++ l by simp] at hle
        omega
  exact gen sched [] hu ⟨0, 0, inv_start pr p0⟩

/-! ## C30 -/

/-- For every order in which the loads of a reader and the stores of the kernel are executed: the
values a call works with are those the page had at one moment during the call at which no update
was in progress.  (Fewer than 2^31 updates happen during the call.) -/
theorem C30_snapshot_partial (pr : Prog) (p0 : Page) (sched : List Turn) (hu : updates sched < 2 ^ 31)
    (s : BitVec 32) (vals : List (BitVec 32)) (hd : (exec pr (p0, Pc.first) sched).2 = Pc.done s vals) :
    AtSomeMoment pr p0 sched fun p => p.seq = s ∧ vals = pr.fs.map p.get := by
  obtain ⟨c, st, h⟩ := inv_exec pr p0 sched hu
  have := h.pc
  rw [hd] at this
  exact this

/-- The case of `selinux_status_updated`: mode and policy version belong together. -/
theorem C30_updated_partial (last : BitVec 32) (p0 : Page) (sched : List Turn) (hu : updates sched < 2 ^ 31)
    (s e l : BitVec 32) (hd : (exec (updated last) (p0, Pc.first) sched).2 = Pc.done s [e, l]) :
    AtSomeMoment (updated last) p0 sched fun p => p.seq = s ∧ p.enforcing = e ∧ p.policyload = l := by
  obtain ⟨pre, post, h1, h2, h3, h4⟩ := C30_snapshot_partial _ p0 sched hu s _ hd
  refine ⟨pre, post, h1, h2, h3, ?_⟩
  simp only [updated, List.map_cons, List.map_nil, Page.get, List.cons.injEq, and_true] at h4
  exact ⟨h4.1.symm, h4.2.symm⟩

/-- What each of the getters returns is the field it is named after, as it was at one moment during
the call at which no update was in progress. -/
theorem C30_getters_partial (p0 : Page) (sched : List Turn) (hu : updates sched < 2 ^ 31)
    (s v : BitVec 32) :
    ((exec getenforce (p0, Pc.first) sched).2 = Pc.done s [v] →
      AtSomeMoment getenforce p0 sched fun p => p.seq = s ∧ p.enforcing = v) ∧
    ((exec policyload (p0, Pc.first) sched).2 = Pc.done s [v] →
      AtSomeMoment policyload p0 sched fun p => p.seq = s ∧ p.policyload = v) ∧
    ((exec denyUnknown (p0, Pc.first) sched).2 = Pc.done s [v] →
      AtSomeMoment denyUnknown p0 sched fun p => p.seq = s ∧ p.denyUnknown = v) := by
  refine ⟨fun hd => ?_, fun hd => ?_, fun hd => ?_⟩
  · obtain ⟨pre, post, h1, h2, h3, h4⟩ := C30_snapshot_partial _ p0 sched hu s _ hd
    refine ⟨pre, post, h1, h2, h3, ?_⟩
    simp only [getenforce, List.map_cons, List.map_nil, Page.get, List.cons.injEq, and_true] at h4
    exact h4.symm
  · obtain ⟨pre, post, h1, h2, h3, h4⟩ := C30_snapshot_partial _ p0 sched hu s _ hd
    refine ⟨pre, post, h1, h2, h3, ?_⟩
    simp only [policyload, List.map_cons, List.map_nil, Page.get, List.cons.injEq, and_true] at h4
    exact h4.symm
  · obtain ⟨pre, post, h1, h2, h3, h4⟩ := C30_snapshot_partial _ p0 sched hu s _ hd
    refine ⟨pre, post, h1, h2, h3, ?_⟩
    simp only [denyUnknown, List.map_cons, List.map_nil, Page.get, List.cons.injEq, and_true] at h4
    exact h4.symm

/-- When `selinux_status_updated` reports that nothing happened, the page had at some moment
during the call the sequence number noted by the call before, or there was none. -/
theorem C30_unchanged_partial (last : BitVec 32) (p0 : Page) (sched : List Turn) (hu : updates sched < 2 ^ 31)
    (s : BitVec 32) (hd : (exec (updated last) (p0, Pc.first) sched).2 = Pc.same s) :
    AtSomeMoment (updated last) p0 sched fun p => p.seq = s ∧ (odd last = true ∨ last = s) := by
  obtain ⟨c, st, h⟩ := inv_exec (updated last) p0 sched hu
  have := h.pc
  rw [hd] at this
  obtain ⟨pre, post, h1, h2, h3, last', h4, h5⟩ := this
  refine ⟨pre, post, h1, h2, h3, ?_⟩
  simp only [updated, Option.some.injEq] at h4
  rw [h4]; exact h5

/-- An update in the middle of the loads makes the reader start over; it then gets both new values. -/
def exSched : List Turn :=
  [Turn.reader, Turn.reader, Turn.kernel KStep.start, Turn.kernel (KStep.write Field.enforcing 1),
   Turn.reader, Turn.reader, Turn.kernel (KStep.write Field.policyload 7), Turn.reader, Turn.kernel KStep.commit,
   Turn.reader, Turn.reader, Turn.reader, Turn.reader, Turn.reader]

example : (exec (updated 2) (⟨4, 0, 3, 0⟩, Pc.first) exSched).2 = Pc.done 6 [1, 7] ∧
    updates exSched = 1 := by decide +kernel
example : (exec getenforce (⟨4, 0, 3, 0⟩, Pc.first) (exSched ++ exSched)).2 = Pc.done 6 [1] := by decide +kernel
example : (exec (updated 4) (⟨4, 0, 3, 0⟩, Pc.first) exSched).2 = Pc.same 4 := by decide +kernel

/-- Turns of the reader only. -/
theorem exec_reader (pr : Prog) (p : Page) (pc : Pc) (n : Nat) :
    (exec pr (p, pc) (List.replicate n Turn.reader)).1 = p := by
  induction n generalizing pc with
  | zero => rfl
  | succ n ih =>
    rw [List.replicate_succ]
    exact ih (rstep pr p pc)

theorem exec_append (pr : Prog) (x : Page × Pc) (a b : List Turn) :
    exec pr x (a ++ b) = exec pr (exec pr x a) b := by
  unfold exec; rw [List.foldl_append]

/-- The call has returned. -/
def Returned (pc : Pc) : Prop := (∃ s, pc = Pc.same s) ∨ ∃ s vals, pc = Pc.done s vals

theorem fields_run (pr : Prog) (p : Page) (s : BitVec 32) (todo : List Field) (vals : List (BitVec 32)) :
    (exec pr (p, Pc.fields s todo vals) (List.replicate (todo.length + 1) Turn.reader)) =
      (p, Pc.again s (vals ++ todo.map p.get)) := by
  induction todo generalizing vals with
  | nil => simp [exec, turn, rstep]
  | cons f todo ih =>
    rw [List.length_cons, List.replicate_succ]
    show exec pr (turn pr (p, Pc.fields s (f :: todo) vals) Turn.reader) _ = _
    have : turn pr (p, Pc.fields s (f :: todo) vals) Turn.reader = (p, Pc.fields s todo (vals ++ [p.get f])) := rfl
    rw [this, ih]
    simp

/-- From the point where it has loaded the current sequence number, the reader returns. -/
theorem fields_done (pr : Prog) (p : Page) (ho : odd p.seq = false) :
    (exec pr (p, Pc.fields p.seq pr.fs []) (List.replicate (pr.fs.length + 2) Turn.reader)).2 =
      Pc.done p.seq (pr.fs.map p.get) := by
  rw [show pr.fs.length + 2 = (pr.fs.length + 1) + 1 from rfl, List.replicate_succ', exec_append, fields_run]
  simp [exec, turn, rstep, ho, checked]

theorem begun_done (pr : Prog) (p : Page) (ho : odd p.seq = false) :
    Returned (exec pr (p, begun pr p.seq) (List.replicate (pr.fs.length + 2) Turn.reader)).2 := by
  have hf := fields_done pr p ho
  have hs : ∀ (n : Nat) (s : BitVec 32), (exec pr (p, Pc.same s) (List.replicate n Turn.reader)).2 = Pc.same s := by
    intro n s
    induction n with
    | zero => rfl
    | succ n ih => rw [List.replicate_succ]; exact ih
  unfold begun
  cases pr.last with
  | none => exact Or.inr ⟨_, _, hf⟩
  | some last =>
    dsimp only
    by_cases h : (if odd last then p.seq else last) = p.seq
    · rw [if_pos h]
      exact Or.inl ⟨_, hs _ _⟩
    · rw [if_neg h]
      exact Or.inr ⟨_, _, hf⟩

theorem first_done (pr : Prog) (p : Page) (ho : odd p.seq = false) :
    Returned (exec pr (p, Pc.first) (List.replicate (pr.fs.length + 3) Turn.reader)).2 := by
  rw [show pr.fs.length + 3 = (pr.fs.length + 2) + 1 from rfl, List.replicate_succ]
  show Returned (exec pr (turn pr (p, Pc.first) Turn.reader) _).2
  have : turn pr (p, Pc.first) Turn.reader = (p, begun pr p.seq) := by simp [turn, rstep, ho]
  rw [this]
  exact begun_done pr p ho

theorem again_done (pr : Prog) (p : Page) (ho : odd p.seq = false) (s : BitVec 32) (vals : List (BitVec 32)) :
    ∃ n ≤ pr.fs.length + 4, Returned (exec pr (p, Pc.again s vals) (List.replicate n Turn.reader)).2 := by
  have h1 : turn pr (p, Pc.again s vals) Turn.reader = (p, checked pr s p.seq vals) := by simp [turn, rstep, ho]
  by_cases hs : p.seq = s
  · refine ⟨1, by omega, ?_⟩
    show Returned (turn pr (p, Pc.again s vals) Turn.reader).2
    rw [h1]
    unfold checked
    rw [if_pos hs]
    exact Or.inr ⟨_, _, rfl⟩
  · cases hl : pr.last with
    | none =>
      refine ⟨(pr.fs.length + 3) + 1, by omega, ?_⟩
      rw [List.replicate_succ]
      show Returned (exec pr (turn pr (p, Pc.again s vals) Turn.reader) _).2
      rw [h1]
      unfold checked
      rw [if_neg hs, hl]
      exact first_done pr p ho
    | some last =>
      refine ⟨(pr.fs.length + 2) + 1, by omega, ?_⟩
      rw [List.replicate_succ]
      show Returned (exec pr (turn pr (p, Pc.again s vals) Turn.reader) _).2
      rw [h1]
      unfold checked
      rw [if_neg hs, hl]
      exact Or.inr ⟨_, _, fields_done pr p ho⟩

/-- A call does not hang: as soon as the kernel stops updating the page, the reader, wherever it
is, returns after a bounded number of loads of its own. -/
theorem C30_returns (pr : Prog) (p : Page) (ho : odd p.seq = false) (pc : Pc)
    (hpc : ∀ s todo vals, pc = Pc.fields s todo vals → todo.length ≤ pr.fs.length) :
    ∃ n ≤ 2 * pr.fs.length + 5, Returned (exec pr (p, pc) (List.replicate n Turn.reader)).2 := by
  cases pc with
  | first => exact ⟨_, by omega, first_done pr p ho⟩
  | again s vals =>
    obtain ⟨n, hn, h⟩ := again_done pr p ho s vals
    exact ⟨n, by omega, h⟩
  | same s => exact ⟨0, by omega, Or.inl ⟨s, rfl⟩⟩
  | done s vals => exact ⟨0, by omega, Or.inr ⟨s, vals, rfl⟩⟩
  | fields s todo vals =>
    obtain ⟨n, hn, h⟩ := again_done pr p ho s (vals ++ todo.map p.get)
    have := hpc s todo vals rfl
    refine ⟨(todo.length + 1) + n, by omega, ?_⟩
    rw [← List.replicate_append_replicate, exec_append, fields_run]
    exact h

/-! ### Where C30 fails -/

/-- Without the bound on the number of updates: 2^31 updates between two loads bring the sequence
number back, and the reader combines the mode from before them with the policy version from after
them, which were never published together. -/
def wrapSched : List Turn :=
  [Turn.reader, Turn.reader,
   Turn.kernel KStep.start, Turn.kernel (KStep.write Field.enforcing 1), Turn.kernel (KStep.write Field.policyload 1),
   Turn.kernel KStep.commit] ++
  (List.replicate (2 ^ 31 - 1) [Turn.kernel KStep.start, Turn.kernel KStep.commit]).flatten ++
  [Turn.reader, Turn.reader, Turn.reader]

theorem idle_updates (pr : Prog) (n : Nat) (p : Page) (pc : Pc) (ho : odd p.seq = false) :
    exec pr (p, pc) (List.replicate n [Turn.kernel KStep.start, Turn.kernel KStep.commit]).flatten =
      ({ p with seq := p.seq + BitVec.ofNat 32 (2 * n) }, pc) := by
  induction n generalizing p with
  | zero => simp [exec]
  | succ n ih =>
    rw [List.replicate_succ, List.flatten_cons, exec_append]
    have h1 : exec pr (p, pc) [Turn.kernel KStep.start, Turn.kernel KStep.commit] =
        ({ p with seq := p.seq + 1 + 1 }, pc) := by
      have h2 : odd (p.seq + 1#32) = true := by
        have := odd_succ p.seq
        rw [ho] at this
        exact this
      simp [exec, turn, Page.step, ho, h2]
    rw [h1, ih _ (by rw [odd_succ, odd_succ, ho]; rfl)]
    refine Prod.ext ?_ rfl
    show ({ p with seq := p.seq + 1 + 1 + BitVec.ofNat 32 (2 * n) } : Page) = _
    have : p.seq + 1 + 1 + BitVec.ofNat 32 (2 * n) = p.seq + BitVec.ofNat 32 (2 * (n + 1)) := by
      rw [show 2 * (n + 1) = 2 * n + 1 + 1 by omega, ofNat_succ, ofNat_succ]
      rw [BitVec.add_assoc, BitVec.add_assoc, BitVec.add_assoc, BitVec.add_assoc]
      congr 1
      rw [BitVec.add_comm (BitVec.ofNat 32 (2 * n)), BitVec.add_assoc]
    rw [this]

/-- A property of the page kept by the turns of a list is true throughout. -/
theorem always (pr : Prog) (P : Page → Prop) (l : List Turn)
    (hk : ∀ k, Turn.kernel k ∈ l → ∀ p, P p → P (p.step k)) (x : Page × Pc) (hx : P x.1) :
    P (exec pr x l).1 := by
  induction l generalizing x with
  | nil => exact hx
  | cons t l ih =>
    refine ih (fun k hm => hk k (by simp [hm])) (turn pr x t) ?_
    cases t with
    | kernel k => exact hk k (by simp) _ hx
    | reader => exact hx

theorem take6 (a b c d e f : Turn) (l : List Turn) :
    List.take 6 ([a, b, c, d, e, f] ++ l) = [a, b, c, d, e, f] := rfl

/-- The statement of the comment above. -/
theorem C30_wrap_refuted :
    ∃ (p0 : Page) (sched : List Turn) (s e l : BitVec 32),
      (exec (updated 2) (p0, Pc.first) sched).2 = Pc.done s [e, l] ∧
      ¬ AtSomeMoment (updated 2) p0 sched fun p => p.enforcing = e ∧ p.policyload = l := by
  refine ⟨⟨0, 0, 0, 0⟩, wrapSched, 0, 0, 1, ?_, ?_⟩
  · unfold wrapSched
    rw [exec_append, exec_append]
    have h1 : exec (updated 2) (⟨0, 0, 0, 0⟩, Pc.first)
        [Turn.reader, Turn.reader, Turn.kernel KStep.start, Turn.kernel (KStep.write Field.enforcing 1),
          Turn.kernel (KStep.write Field.policyload 1), Turn.kernel KStep.commit] =
        (⟨2, 1, 1, 0⟩, Pc.fields 0 [Field.policyload] [0]) := by decide +kernel
    rw [h1, idle_updates _ _ _ _ (by decide)]
    have h2 : (2 : BitVec 32) + BitVec.ofNat 32 (2 * (2 ^ 31 - 1)) = 0 := by decide
    dsimp only
    rw [h2]
    decide +kernel
  · -- throughout, if no update is in progress, both fields are equal
    rintro ⟨pre, post, e, ho, h1, h2⟩
    have key : ∀ (pre post : List Turn), wrapSched = pre ++ post →
        odd (exec (updated 2) (⟨0, 0, 0, 0⟩, Pc.first) pre).1.seq = false →
        (exec (updated 2) (⟨0, 0, 0, 0⟩, Pc.first) pre).1.enforcing =
          (exec (updated 2) (⟨0, 0, 0, 0⟩, Pc.first) pre).1.policyload := by
      intro pre post e ho
      by_cases hl : pre.length ≤ 6
      · have : pre = (wrapSched.take 6).take pre.length := by
          rw [List.take_take, Nat.min_eq_left hl, e, List.take_left]
        have h6 : wrapSched.take 6 = [Turn.reader, Turn.reader, Turn.kernel KStep.start,
            Turn.kernel (KStep.write Field.enforcing 1), Turn.kernel (KStep.write Field.policyload 1),
            Turn.kernel KStep.commit] := by
          unfold wrapSched
          rw [List.append_assoc, take6]
        rw [h6] at this
        rw [this] at ho ⊢
        have hcases : pre.length = 0 ∨ pre.length = 1 ∨ pre.length = 2 ∨ pre.length = 3 ∨ pre.length = 4 ∨
            pre.length = 5 ∨ pre.length = 6 := by omega
        clear this e h6 h1 h2
        rcases hcases with h | h | h | h | h | h | h <;> rw [h] at ho ⊢ <;> revert ho <;> decide +kernel
      · -- the first six turns have passed
        obtain ⟨rest, hr⟩ : ∃ rest, pre = [Turn.reader, Turn.reader, Turn.kernel KStep.start,
            Turn.kernel (KStep.write Field.enforcing 1), Turn.kernel (KStep.write Field.policyload 1),
            Turn.kernel KStep.commit] ++ rest := by
          refine ⟨pre.drop 6, ?_⟩
          have h6 : pre.take 6 = wrapSched.take 6 := by
            rw [e, List.take_append_of_le_length (by omega)]
          have h7 : wrapSched.take 6 = [Turn.reader, Turn.reader, Turn.kernel KStep.start,
              Turn.kernel (KStep.write Field.enforcing 1), Turn.kernel (KStep.write Field.policyload 1),
              Turn.kernel KStep.commit] := by
            unfold wrapSched
            rw [List.append_assoc, take6]
          rw [← h7, ← h6, List.take_append_drop]
        have hrest : ∀ k, Turn.kernel k ∈ rest → k = KStep.start ∨ k = KStep.commit := by
          intro k hk
          have h8 : rest ++ post = (List.replicate (2 ^ 31 - 1) [Turn.kernel KStep.start, Turn.kernel KStep.commit]).flatten ++
              [Turn.reader, Turn.reader, Turn.reader] := by
            have h9 := e
            rw [hr] at h9
            unfold wrapSched at h9
            rw [List.append_assoc, List.append_assoc] at h9
            exact (List.append_cancel_left h9).symm
          have h10 : Turn.kernel k ∈ (List.replicate (2 ^ 31 - 1) [Turn.kernel KStep.start, Turn.kernel KStep.commit]).flatten ++
              [Turn.reader, Turn.reader, Turn.reader] := by
            rw [← h8]; exact List.mem_append_left _ hk
          rcases List.mem_append.1 h10 with h | h
          · rw [List.mem_flatten] at h
            obtain ⟨l, hl1, hl2⟩ := h
            rw [List.eq_of_mem_replicate hl1] at hl2
            simpa using hl2
          · simp at h
        rw [hr, exec_append]
        refine always (updated 2) (fun p => p.enforcing = p.policyload) rest ?_ _ (by decide +kernel)
        intro k hk p hp
        rcases hrest k hk with rfl | rfl
        · cases ho : odd p.seq <;> simp only [Page.step, ho, if_true, Bool.false_eq_true, if_false] <;> exact hp
        · cases ho : odd p.seq <;> simp only [Page.step, ho, if_true, Bool.false_eq_true, if_false] <;> exact hp
    have := key pre post e ho
    rw [h1, h2] at this
    cases this

/-- With the loads in the order that the missing barrier permits: one update between them
suffices.  The reader combines the mode from before the update with the policy version from
after it. -/
theorem C30_barrier_refuted :
    let p0 : Page := ⟨4, 0, 0, 0⟩
    let sched := [Turn.reader, Turn.reader, Turn.reader, Turn.kernel KStep.start,
      Turn.kernel (KStep.write Field.enforcing 1), Turn.kernel (KStep.write Field.policyload 1),
      Turn.kernel KStep.commit, Turn.reader, Turn.reader]
    (wexec 2 (p0, WeakPc.first) sched).2 = WeakPc.done 4 [0, 1] ∧
    ∀ n ≤ sched.length,
      let p := (wexec 2 (p0, WeakPc.first) (sched.take n)).1
      odd p.seq = false → ¬ (p.enforcing = 0 ∧ p.policyload = 1) := by
  decide +kernel

end Verif.Status
