import Verif.Avc.Lemmas

/-!
# Model of libselinux/src/avc_sidtab.c

A context is a C string without its terminating NUL.  A `security_id_t` is a pointer to a
table node; nodes are never freed while the table lives, and a node is named here by its
`id`, which the code makes unique (`C31_bijection` shows that it is).
-/

namespace Verif.Avc

/-- The bytes of a context string. -/
abbrev Ctx := List (BitVec 8)

/-- SIDTAB_SIZE, avc_sidtab.h. -/
def sidtabSize : Nat := 128

/-- `struct sidtab_node`, avc_sidtab.h. -/
structure SidNode where
  ctx : Ctx
  id : Nat
  deriving DecidableEq, Repr

/-- `struct sidtab`, avc_sidtab.h. -/
structure SidTab where
  htable : Nat → List SidNode
  nel : Nat

/-- `sidtab_hash`, avc_sidtab.c:18-27. -/
def sidHash (key : Ctx) : Nat :=
  (key.foldl (fun (h : BitVec 32) (c : BitVec 8) => ((h <<< (5 : Nat)) + h) ^^^ c.setWidth 32) 5381#32 &&&
    127#32).toNat

/-- `sidtab_init`, avc_sidtab.c:29-45 (its allocation succeeds). -/
def SidTab.init : SidTab := ⟨fun _ => [], 0⟩

/-- `sidtab_insert`, avc_sidtab.c:47-72; `mem`: the allocations succeed. -/
def SidTab.insert (s : SidTab) (ctx : Ctx) (mem : Bool) : SidTab × Option Nat :=
  if s.nel ≥ 2 ^ 32 - 2 then (s, none)
  else if mem then
    (⟨upd s.htable (sidHash ctx) (⟨ctx, s.nel + 1⟩ :: s.htable (sidHash ctx)), s.nel + 1⟩, some (s.nel + 1))
  else (s, none)

/-- `sidtab_context_lookup`, avc_sidtab.c:74-90. -/
def SidTab.lookup (s : SidTab) (ctx : Ctx) : Option Nat :=
  ((s.htable (sidHash ctx)).find? (fun n => n.ctx == ctx)).map SidNode.id

/-- `sidtab_context_to_sid`, avc_sidtab.c:92-113. -/
def SidTab.contextToSid (s : SidTab) (ctx : Ctx) (mem : Bool) : SidTab × Option Nat :=
  match s.lookup ctx with
  | some sid => (s, some sid)
  | none => s.insert ctx mem

/-- `avc_sid_to_context_raw`, avc.c:98-107: the context of the node the pointer refers to. -/
def SidTab.sidToContext (s : SidTab) (sid : Nat) : Option Ctx :=
  (((List.range sidtabSize).flatMap s.htable).find? (fun n => n.id == sid)).map SidNode.ctx

/-- A history of `avc_context_to_sid_raw` calls, with the SIDs returned. -/
def SidTab.run (s : SidTab) : List (Ctx × Bool) → SidTab × List (Option Nat)
  | [] => (s, [])
  | (ctx, mem) :: ops =>
    let r := s.contextToSid ctx mem
    let r' := r.1.run ops
    (r'.1, r.2 :: r'.2)

/-! ### Lemmas -/

/-- The table holds the contexts `L`, the SID being the position. -/
structure SidRepr (s : SidTab) (L : List Ctx) : Prop where
  nodup : L.Nodup
  nel : s.nel = L.length
  mem : ∀ h n, n ∈ s.htable h ↔ sidHash n.ctx = h ∧ ∃ i, L[i]? = some n.ctx ∧ n.id = i + 1

theorem sidRepr_init : SidRepr SidTab.init [] :=
  ⟨List.nodup_nil, rfl, by intro h n; simp [SidTab.init]⟩

theorem idx_unique {L : List Ctx} (hn : L.Nodup) {i j : Nat} {c : Ctx} (hi : L[i]? = some c)
    (hj : L[j]? = some c) : i = j := by
  obtain ⟨h1, e1⟩ := List.getElem?_eq_some_iff.1 hi
  obtain ⟨h2, e2⟩ := List.getElem?_eq_some_iff.1 hj
  exact (List.getElem_inj hn).1 (e1.trans e2.symm)

theorem SidRepr.lookup_some {s L ctx sid} (r : SidRepr s L) :
    s.lookup ctx = some sid ↔ ∃ i, L[i]? = some ctx ∧ sid = i + 1 := by
  unfold SidTab.lookup
  constructor
  · intro h
    rw [Option.map_eq_some_iff] at h
    obtain ⟨n, hn, rfl⟩ := h
    have h1 := List.find?_some hn
    have h2 := List.mem_of_find?_eq_some hn
    rw [beq_iff_eq] at h1
    obtain ⟨_, i, hi, hid⟩ := (r.mem _ _).1 h2
    exact ⟨i, h1 ▸ hi, hid⟩
  · rintro ⟨i, hi, rfl⟩
    have hm : (⟨ctx, i + 1⟩ : SidNode) ∈ s.htable (sidHash ctx) := (r.mem _ _).2 ⟨rfl, i, hi, rfl⟩
    cases hf : (s.htable (sidHash ctx)).find? (fun n => n.ctx == ctx) with
    | none =>
      have := List.find?_eq_none.1 hf _ hm
      simp at this
    | some n =>
      have h1 := List.find?_some hf
      have h2 := List.mem_of_find?_eq_some hf
      rw [beq_iff_eq] at h1
      obtain ⟨_, j, hj, hid⟩ := (r.mem _ _).1 h2
      rw [h1] at hj
      have := idx_unique r.nodup hi hj
      simp [hid, this]

theorem SidRepr.lookup_none {s L ctx} (r : SidRepr s L) : s.lookup ctx = none ↔ ctx ∉ L := by
  constructor
  · intro h hm
    obtain ⟨i, hi⟩ := List.getElem?_of_mem hm
    have := r.lookup_some.2 ⟨i, hi, rfl⟩
    rw [h] at this; cases this
  · intro h
    cases hl : s.lookup ctx with
    | none => rfl
    | some sid =>
      obtain ⟨i, hi, _⟩ := r.lookup_some.1 hl
      exact absurd (List.mem_of_getElem? hi) h

theorem SidRepr.insert {s L ctx} (r : SidRepr s L) (hc : ctx ∉ L) (mem : Bool) :
    (s.insert ctx mem).2 = none ∧ (s.insert ctx mem).1 = s ∧ (mem = false ∨ 2 ^ 32 - 2 ≤ L.length) ∨
    (s.insert ctx mem).2 = some (L.length + 1) ∧ SidRepr (s.insert ctx mem).1 (L ++ [ctx]) := by
  unfold SidTab.insert
  by_cases h1 : s.nel ≥ 2 ^ 32 - 2
  · rw [if_pos h1]
    exact Or.inl ⟨rfl, rfl, Or.inr (by rw [← r.nel]; exact h1)⟩
  · rw [if_neg h1]
    cases mem with
    | false => exact Or.inl ⟨rfl, rfl, Or.inl rfl⟩
    | true =>
      refine Or.inr ⟨by rw [if_pos rfl, r.nel], ?_⟩
      rw [if_pos rfl]
      refine ⟨?_, ?_, ?_⟩
      · rw [List.nodup_append]
        refine ⟨r.nodup, by simp, ?_⟩
        intro a ha b hb e
        rw [List.mem_singleton] at hb
        subst hb; subst e; exact hc ha
      · simp [r.nel]
      · intro h n
        have hold : n ∈ s.htable h ↔ sidHash n.ctx = h ∧ ∃ i, i < L.length ∧
            (L ++ [ctx])[i]? = some n.ctx ∧ n.id = i + 1 := by
          rw [r.mem]
          constructor
          · rintro ⟨a, i, hi, hid⟩
            obtain ⟨hlt, _⟩ := List.getElem?_eq_some_iff.1 hi
            exact ⟨a, i, hlt, by rw [List.getElem?_append_left hlt]; exact hi, hid⟩
          · rintro ⟨a, i, hlt, hi, hid⟩
            rw [List.getElem?_append_left hlt] at hi
            exact ⟨a, i, hi, hid⟩
        have hnew : n ∈ upd s.htable (sidHash ctx) (⟨ctx, s.nel + 1⟩ :: s.htable (sidHash ctx)) h ↔
            n ∈ s.htable h ∨ (sidHash ctx = h ∧ n = ⟨ctx, L.length + 1⟩) := by
          by_cases e : h = sidHash ctx
          · subst e
            rw [upd_same, List.mem_cons, r.nel]
            tauto
          · rw [upd_ne _ _ e]
            constructor
            · exact Or.inl
            · rintro (x | ⟨x, _⟩)
              · exact x
              · exact absurd x.symm e
        show n ∈ upd s.htable (sidHash ctx) (⟨ctx, s.nel + 1⟩ :: s.htable (sidHash ctx)) h ↔ _
        rw [hnew, hold]
        constructor
        · rintro (⟨a, i, _, hi, hid⟩ | ⟨rfl, rfl⟩)
          · exact ⟨a, i, hi, hid⟩
          · exact ⟨rfl, L.length, by simp, rfl⟩
        · rintro ⟨a, i, hi, hid⟩
          by_cases hlt : i < L.length
          · exact Or.inl ⟨a, i, hlt, hi, hid⟩
          · have hl := (List.getElem?_eq_some_iff.1 hi).1
            rw [List.length_append, List.length_singleton] at hl
            have : i = L.length := by omega
            subst this
            simp only [List.getElem?_concat_length, Option.some.injEq] at hi
            refine Or.inr ⟨by rw [hi]; exact a, ?_⟩
            cases n
            simp only at hi hid
            rw [hi, hid]

/-- One call. -/
theorem SidRepr.step {s L} (r : SidRepr s L) (ctx : Ctx) (mem : Bool) :
    ∃ M, SidRepr (s.contextToSid ctx mem).1 (L ++ M) ∧
      (∀ sid, (s.contextToSid ctx mem).2 = some sid → ∃ i, (L ++ M)[i]? = some ctx ∧ sid = i + 1) ∧
      ((s.contextToSid ctx mem).2 = none → mem = false ∨ 2 ^ 32 - 2 ≤ L.length) ∧
      M.length ≤ 1 := by
  unfold SidTab.contextToSid
  cases hl : s.lookup ctx with
  | some sid =>
    refine ⟨[], by simpa using r, ?_, by simp, by simp⟩
    intro x hx
    simp only [Option.some.injEq] at hx
    subst hx
    simpa using r.lookup_some.1 hl
  | none =>
    have hc := r.lookup_none.1 hl
    rcases r.insert hc mem with ⟨a, b, c⟩ | ⟨a, b⟩
    · refine ⟨[], by dsimp only; rw [b]; simpa using r, ?_, fun _ => c, by simp⟩
      intro x hx
      dsimp only at hx
      rw [a] at hx; cases hx
    · refine ⟨[ctx], b, ?_, ?_, by simp⟩
      · intro x hx
        dsimp only at hx
        rw [a] at hx
        simp only [Option.some.injEq] at hx
        exact ⟨L.length, by simp, hx.symm⟩
      · intro hx
        dsimp only at hx
        rw [a] at hx; cases hx

theorem SidRepr.run {s L} (r : SidRepr s L) (ops : List (Ctx × Bool)) :
    ∃ M, SidRepr (s.run ops).1 (L ++ M) ∧ (s.run ops).2.length = ops.length ∧
      (∀ (j : Nat) (c : Ctx) (m : Bool) (sid : Nat), ops[j]? = some (c, m) → (s.run ops).2[j]? = some (some sid) →
        ∃ i, (L ++ M)[i]? = some c ∧ sid = i + 1) ∧
      (∀ (j : Nat) (c : Ctx) (m : Bool), ops[j]? = some (c, m) → (s.run ops).2[j]? = some none →
        m = false ∨ 2 ^ 32 - 2 ≤ L.length + j) ∧ M.length ≤ ops.length := by
  induction ops generalizing s L with
  | nil => exact ⟨[], by simpa [SidTab.run] using r, rfl, by simp, by simp, by simp⟩
  | cons o ops ih =>
    obtain ⟨ctx, mem⟩ := o
    obtain ⟨M1, r1, h1, h2, h3⟩ := r.step ctx mem
    obtain ⟨M2, r2, l2, a2, b2, c2⟩ := ih r1
    refine ⟨M1 ++ M2, ?_, ?_, ?_, ?_, ?_⟩
    · rw [← List.append_assoc]; exact r2
    · simp [SidTab.run, l2]
    · intro j c m sid hj hr
      cases j with
      | zero =>
        simp only [List.getElem?_cons_zero, Option.some.injEq, Prod.mk.injEq] at hj
        simp only [SidTab.run, List.getElem?_cons_zero, Option.some.injEq] at hr
        obtain ⟨i, hi, hs⟩ := h1 sid hr
        refine ⟨i, ?_, hs⟩
        rw [← List.append_assoc, List.getElem?_append_left (List.getElem?_eq_some_iff.1 hi).1, hi, hj.1]
      | succ j =>
        simp only [List.getElem?_cons_succ] at hj
        simp only [SidTab.run, List.getElem?_cons_succ] at hr
        rw [← List.append_assoc]
        exact a2 j c m sid hj hr
    · intro j c m hj hr
      cases j with
      | zero =>
        simp only [List.getElem?_cons_zero, Option.some.injEq, Prod.mk.injEq] at hj
        simp only [SidTab.run, List.getElem?_cons_zero, Option.some.injEq] at hr
        rw [← hj.2]
        exact h2 hr
      | succ j =>
        simp only [List.getElem?_cons_succ] at hj
        simp only [SidTab.run, List.getElem?_cons_succ] at hr
        rcases b2 j c m hj hr with x | x
        · exact Or.inl x
        · rw [List.length_append] at x
          exact Or.inr (by omega)
    · simp only [List.length_append, List.length_cons]; omega

/-- The number of nodes stays below 2^32. -/
theorem SidRepr.nel_le (ops : List (Ctx × Bool)) : (SidTab.init.run ops).1.nel ≤ 2 ^ 32 - 2 := by
  have gen : ∀ (ops : List (Ctx × Bool)) (s : SidTab), s.nel ≤ 2 ^ 32 - 2 → (s.run ops).1.nel ≤ 2 ^ 32 - 2 := by
    intro ops
    induction ops with
    | nil => exact fun s h => h
    | cons o ops ih =>
      intro s h
      refine ih _ ?_
      unfold SidTab.contextToSid SidTab.insert
      cases s.lookup o.1 with
      | some _ => exact h
      | none =>
        dsimp only
        split
        · exact h
        · split
          · dsimp only; omega
          · exact h
  exact gen ops _ (by decide)

theorem sidHash_lt (c : Ctx) : sidHash c < sidtabSize := by
  unfold sidHash sidtabSize
  rw [BitVec.toNat_and]
  exact Nat.lt_of_le_of_lt Nat.and_le_right (by decide)

theorem SidRepr.sidToContext {s L c i} (r : SidRepr s L) (hi : L[i]? = some c) :
    s.sidToContext (i + 1) = some c := by
  unfold SidTab.sidToContext
  have hm : (⟨c, i + 1⟩ : SidNode) ∈ (List.range sidtabSize).flatMap s.htable := by
    rw [List.mem_flatMap]
    exact ⟨sidHash c, List.mem_range.2 (sidHash_lt c), (r.mem _ _).2 ⟨rfl, i, hi, rfl⟩⟩
  cases hf : ((List.range sidtabSize).flatMap s.htable).find? (fun n => n.id == i + 1) with
  | none =>
    have := List.find?_eq_none.1 hf _ hm
    simp at this
  | some n =>
    have h1 := List.find?_some hf
    have h2 := List.mem_of_find?_eq_some hf
    rw [beq_iff_eq] at h1
    rw [List.mem_flatMap] at h2
    obtain ⟨h, _, h2⟩ := h2
    obtain ⟨_, j, hj, hid⟩ := (r.mem _ _).1 h2
    have : j = i := by omega
    subst this
    rw [hi] at hj
    simp only [Option.some.injEq] at hj
    simp [hj]

end Verif.Avc
