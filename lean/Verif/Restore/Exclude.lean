import Verif.Restore.Props2

/-!
# C104: the list of excluded directories
-/

namespace Verif.Restore
open Verif.Context (b)

/-- The path without the slashes at its end; a slash alone stays. -/
def Base (d base : Bytes) : Prop := ∃ n, d = base ++ List.replicate n 47 ∧ (base = [47] ∨ base.getLast? ≠ some 47) ∧ base ≠ []

/-- A directory or what is below it. -/
def At (dir path : Bytes) : Prop := path = dir ∨ ∃ rest, path = dir ++ 47 :: rest

/-- The lists that arise: absolute paths without slashes at the end, each once. -/
structure ListOk (l : List Edir) : Prop where
  abs : ∀ x ∈ l, x.dir.head? = some 47
  trim : ∀ x ∈ l, x.dir = [47] ∨ x.dir.getLast? ≠ some 47

theorem trimEnd_base (d : Bytes) (h : d.head? = some 47) : Base d (trimEnd d) ∧ (trimEnd d).head? = some 47 := by
  induction hn : d.length generalizing d with
  | zero => cases d <;> simp_all
  | succ n ih =>
    rw [trimEnd]
    split
    · rename_i hc
      have hd : d = d.dropLast ++ [47] := by
        obtain ⟨h1, h2⟩ := hc
        have hne : d ≠ [] := by intro h; simp [h] at h1
        conv => lhs; rw [← List.dropLast_concat_getLast hne]
        rw [List.getLast?_eq_some_getLast hne] at h2
        rw [Option.some.inj h2]
      have hh : d.dropLast.head? = some 47 := by
        cases d with
        | nil => simp at hc
        | cons a t =>
          cases t with
          | nil => simp at hc
          | cons c t => simpa using h
      obtain ⟨⟨m, e1, e2, e3⟩, e4⟩ := ih d.dropLast hh (by simp [hn])
      refine ⟨⟨m + 1, ?_, e2, e3⟩, e4⟩
      conv => lhs; rw [hd]
      conv => lhs; rw [e1]
      rw [List.append_assoc, List.replicate_succ']
    · rename_i hc
      refine ⟨⟨0, by simp, ?_, by intro h'; simp [h'] at h⟩, h⟩
      by_cases hl : d.getLast? = some 47
      · left
        have : ¬ d.length > 1 := fun h => hc ⟨h, hl⟩
        cases d with
        | nil => simp at h
        | cons a t => cases t with
          | nil => simpa using h
          | cons c t => simp at this
      · exact Or.inr hl

theorem base_unique {d x y : Bytes} (hx : Base d x) (hy : Base d y) : x = y := by
  obtain ⟨n, h1, h2, h3⟩ := hx
  obtain ⟨m, g1, g2, g3⟩ := hy
  have key : ∀ (x y : Bytes) (n m : Nat), n ≤ m → x ++ List.replicate n 47 = y ++ List.replicate m 47 →
      (x = [47] ∨ x.getLast? ≠ some 47) → y ≠ [] → x = y := by
    intro x y n m hnm he hx hy
    obtain ⟨k, rfl⟩ := Nat.le.dest hnm
    rw [Nat.add_comm n k, ← List.replicate_append_replicate, ← List.append_assoc] at he
    have := List.append_cancel_right he
    cases k with
    | zero => simpa using this
    | succ k =>
      rw [List.replicate_succ', ← List.append_assoc] at this
      rcases hx with rfl | hx
      · have hl := congrArg List.length this
        cases y with
        | nil => exact absurd rfl hy
        | cons a t => simp at hl
      · rw [this] at hx
        simp at hx
  rcases Nat.le_total n m with h | h
  · exact key x y n m h (h1.symm.trans g1) h2 g3
  · exact (key y x m n h (g1.symm.trans h1) g2 h3).symm

theorem excluded_append (l l' : List Edir) (p : Bytes) : Excluded (l ++ l') p ↔ Excluded l p ∨ Excluded l' p := by
  unfold Excluded
  simp only [List.mem_append]
  constructor
  · rintro ⟨x, h | h, hp⟩
    · exact Or.inl ⟨x, h, hp⟩
    · exact Or.inr ⟨x, h, hp⟩
  · rintro (⟨x, h, hp⟩ | ⟨x, h, hp⟩)
    · exact ⟨x, Or.inl h, hp⟩
    · exact ⟨x, Or.inr h, hp⟩

/-- **C104.** A directory is added: then it and what is below it is excluded, with or without slashes at the end of its name, besides what was; a
relative path is refused. -/
theorem C104_add {d : Bytes} {who : Bool} {l : List Edir} (hl : ListOk l) :
    ListOk (addExclude d who l).2 ∧ ((addExclude d who l).1 = true ↔ d.head? = some 47) ∧
      (∀ p, Excluded (addExclude d who l).2 p ↔ Excluded l p ∨ ∃ base, Base d base ∧ d.head? = some 47 ∧ At base p) := by
  unfold addExclude
  by_cases h1 : l.any (fun x => d = x.dir) = true
  · rw [if_pos h1]
    simp only [List.any_eq_true, decide_eq_true_eq] at h1
    obtain ⟨x, hx, rfl⟩ := h1
    have hb : Base x.dir x.dir := ⟨0, by simp, hl.trim x hx, by have := hl.abs x hx; intro h; simp [h] at this⟩
    refine ⟨hl, by simp [hl.abs x hx], fun p => ⟨Or.inl, ?_⟩⟩
    rintro (h | ⟨base, h, -, hp⟩)
    · exact h
    · rw [base_unique h hb] at hp
      exact ⟨x, hx, hp⟩
  · rw [if_neg h1]
    by_cases h2 : d.head? ≠ some 47
    · rw [if_pos h2]
      refine ⟨hl, by simp [h2], fun p => ⟨Or.inl, ?_⟩⟩
      rintro (h | ⟨base, -, h, -⟩)
      · exact h
      · exact absurd h h2
    · rw [if_neg h2]
      have h2 : d.head? = some 47 := by simpa using h2
      obtain ⟨hb, hh⟩ := trimEnd_base d h2
      refine ⟨⟨?_, ?_⟩, by simp [h2], fun p => ?_⟩
      · intro x hx
        rcases List.mem_append.1 hx with hx | hx
        · exact hl.abs x hx
        · rw [List.mem_singleton.1 hx]; exact hh
      · intro x hx
        rcases List.mem_append.1 hx with hx | hx
        · exact hl.trim x hx
        · rw [List.mem_singleton.1 hx]
          obtain ⟨n, -, h, -⟩ := hb
          exact h
      · rw [excluded_append]
        refine or_congr Iff.rfl ?_
        constructor
        · rintro ⟨x, hx, hp⟩
          rw [List.mem_singleton.1 hx] at hp
          exact ⟨trimEnd d, hb, h2, hp⟩
        · rintro ⟨base, hbase, -, hp⟩
          rw [base_unique hbase hb] at hp
          exact ⟨_, List.mem_singleton.2 rfl, hp⟩

/-- **C104.** The list of the caller: if all the directories are there, exactly what the caller lists is excluded, besides what was. -/
theorem C104_list_partial {missing : Bytes → Bool} : ∀ (ds : List Bytes) {l : List Edir}, ListOk l → (∀ d ∈ ds, missing d = false) →
    ListOk (setExcludeList missing ds l) ∧
      ∀ p, Excluded (setExcludeList missing ds l) p ↔ Excluded l p ∨ ∃ d ∈ ds, ∃ base, Base d base ∧ d.head? = some 47 ∧ At base p
  | [], l, hl, _ => ⟨hl, fun p => by simp [setExcludeList]⟩
  | d :: ds, l, hl, hm => by
    obtain ⟨a1, -, a3⟩ := C104_add (d := d) (who := true) hl
    obtain ⟨b1, b2⟩ := C104_list_partial (missing := missing) ds a1 (fun d hd => hm d (List.mem_cons_of_mem _ hd))
    rw [setExcludeList, hm d (by simp)]
    simp only [Bool.false_eq_true, if_false]
    refine ⟨b1, fun p => ?_⟩
    rw [b2 p, a3 p]
    simp only [List.mem_cons, exists_eq_or_imp]
    exact or_assoc

/-- **C104, refuted.** If a directory of the list is not there, those that follow it are not excluded. -/
theorem C104_missing_refuted : ∃ (missing : Bytes → Bool) (ds : List Bytes) (d : Bytes), d ∈ ds ∧ missing d = false ∧ d.head? = some 47 ∧
    ¬ Excluded (setExcludeList missing ds []) d := by
  refine ⟨fun p => decide (p = b "/gone"), [b "/gone", b "/srv"], b "/srv", by simp, by decide +kernel, by decide +kernel, fun h => ?_⟩
  rw [← checkExcluded_iff] at h
  exact absurd h (by decide +kernel)

/-- **C104, refuted.** If the root directory is excluded, no path below it is. -/
theorem C104_root_refuted : ∃ l, (addExclude (b "/") true []) = (true, l) ∧ Excluded l (b "/") ∧ ∀ p c, c ≠ 47 → ¬ Excluded l (47 :: c :: p) := by
  refine ⟨[⟨b "/", true⟩], by decide +kernel, ⟨_, List.mem_singleton.2 rfl, Or.inl rfl⟩, ?_⟩
  rintro p c hc ⟨x, hx, h⟩
  rw [List.mem_singleton] at hx
  subst hx
  have hb : b "/" = [47] := by decide +kernel
  simp only [hb] at h
  rcases h with h | ⟨rest, h⟩
  · simp at h
  · simp only [List.cons_append, List.nil_append, List.cons.injEq, true_and] at h
    exact hc h.1

/-! ## Mounts -/

theorem mem_removeExclude_of {d : Bytes} : ∀ {l : List Edir} {x : Edir}, x ∈ l → (x.dir ≠ d ∨ x.caller = true) → x ∈ removeExclude d l
  | [], x, h, _ => by cases h
  | y :: l, x, h, hx => by
    rw [removeExclude]
    split
    · rename_i hc
      have hxl : x ∈ l := by
        rcases List.mem_cons.1 h with rfl | h
        · rcases hx with hx | hx
          · exact absurd hc.1.symm hx
          · rw [hx] at hc; exact absurd hc.2 (by simp)
        · exact h
      have hne : l ≠ [] := by rintro rfl; cases hxl
      rw [List.getLast?_eq_some_getLast hne]
      simp only
      rw [← List.dropLast_concat_getLast hne] at hxl
      rcases List.mem_append.1 hxl with h | h
      · exact List.mem_cons_of_mem _ h
      · rw [List.mem_singleton.1 h]; simp
    · rcases List.mem_cons.1 h with rfl | h
      · simp
      · exact List.mem_cons_of_mem _ (mem_removeExclude_of h hx)

theorem removeExclude_subset {d : Bytes} : ∀ {l : List Edir} {x : Edir}, x ∈ removeExclude d l → x ∈ l
  | [], x, h => by cases h
  | y :: l, x, h => by
    rw [removeExclude] at h
    split at h
    · cases hl : l.getLast? with
      | none => rw [hl] at h; cases h
      | some z =>
        rw [hl] at h
        rcases List.mem_cons.1 h with rfl | h
        · exact List.mem_cons_of_mem _ (List.mem_of_getLast? hl)
        · exact List.mem_cons_of_mem _ (List.dropLast_subset l h)
    · rcases List.mem_cons.1 h with rfl | h
      · simp
      · exact List.mem_cons_of_mem _ (removeExclude_subset h)

/-- Each directory is in the list once. -/
def Once (l : List Edir) : Prop := l.Pairwise fun x y => x.dir ≠ y.dir

theorem removeExclude_once {d : Bytes} : ∀ {l : List Edir}, Once l → Once (removeExclude d l) ∧ ∀ x ∈ removeExclude d l, x.dir = d → x.caller = true
  | [], _ => ⟨List.Pairwise.nil, by simp [removeExclude]⟩
  | y :: l, h => by
    obtain ⟨h1, h2⟩ := List.pairwise_cons.1 h
    rw [removeExclude]
    split
    · rename_i hc
      have hno : ∀ x ∈ l, x.dir ≠ d := fun x hx he => h1 x hx (hc.1.symm.trans he.symm)
      cases hl : l.getLast? with
      | none => exact ⟨List.Pairwise.nil, by simp⟩
      | some z =>
        simp only
        have hz : z ∈ l := List.mem_of_getLast? hl
        have hne : l ≠ [] := by rintro rfl; cases hz
        have hlast : l.getLast hne = z := by rw [List.getLast?_eq_some_getLast hne] at hl; exact Option.some.inj hl
        have hl2 := h2
        rw [← List.dropLast_concat_getLast hne, hlast] at hl2
        obtain ⟨p1, -, p3⟩ := List.pairwise_append.1 hl2
        refine ⟨List.pairwise_cons.2 ⟨fun x hx => (p3 x hx z (by simp)).symm, p1⟩, fun x hx he => ?_⟩
        refine absurd he (hno x ?_)
        rcases List.mem_cons.1 hx with rfl | hx
        · exact hz
        · exact List.dropLast_subset l hx
    · rename_i hc
      obtain ⟨i1, i2⟩ := removeExclude_once (d := d) h2
      refine ⟨List.pairwise_cons.2 ⟨fun x hx => h1 x (removeExclude_subset hx), i1⟩, fun x hx he => ?_⟩
      rcases List.mem_cons.1 hx with rfl | hx
      · cases hcal : x.caller with
        | true => rfl
        | false => exact absurd ⟨he.symm, hcal⟩ hc
      · exact i2 x hx he

/-- A mount point as the kernel writes it: an absolute path without slashes at the end. -/
def MountPoint (d : Bytes) : Prop := d.head? = some 47 ∧ (d = [47] ∨ d.getLast? ≠ some 47)

theorem trimEnd_self {d : Bytes} (h : MountPoint d) : trimEnd d = d :=
  base_unique (trimEnd_base d h.1).1 ⟨0, by simp, h.2, by have := h.1; intro h; simp [h] at this⟩

theorem addExclude_mount {d : Bytes} (hd : MountPoint d) {l : List Edir} (ho : Once l) :
    Once (addExclude d false l).2 ∧ ∀ x, x ∈ (addExclude d false l).2 ↔ x ∈ l ∨ (x = ⟨d, false⟩ ∧ ∀ y ∈ l, y.dir ≠ d) := by
  unfold addExclude
  by_cases h1 : l.any (fun x => d = x.dir) = true
  · rw [if_pos h1]
    simp only [List.any_eq_true, decide_eq_true_eq] at h1
    obtain ⟨y, hy, rfl⟩ := h1
    exact ⟨ho, fun x => ⟨Or.inl, fun h => h.elim id fun h => absurd rfl (h.2 y hy)⟩⟩
  · rw [if_neg h1, if_neg (by simp [hd.1]), trimEnd_self hd]
    have hno : ∀ y ∈ l, y.dir ≠ d := fun y hy he => h1 (List.any_eq_true.2 ⟨y, hy, by simp [he]⟩)
    refine ⟨List.pairwise_append.2 ⟨ho, List.pairwise_singleton _ _, fun a ha c hc => ?_⟩, fun x => ?_⟩
    · rw [List.mem_singleton.1 hc]; exact hno a ha
    · simp only [List.mem_append, List.mem_singleton]
      exact or_congr Iff.rfl ⟨fun h => ⟨h, hno⟩, And.left⟩

/-- **C104.** Mounts: afterwards the list has what the caller asked for; a mount point is in it besides if the last mount there has no labels; other
directories are in it as before. -/
theorem C104_mounts : ∀ (ms : List (Bytes × Bool)) {l : List Edir}, Once l → (∀ m ∈ ms, MountPoint m.1) →
    Once (excludeMounts ms l) ∧ ∀ d, (∃ x ∈ excludeMounts ms l, x.dir = d) ↔
      (∃ x ∈ l, x.dir = d ∧ x.caller = true) ∨ (∃ pre post, ms = pre ++ (d, false) :: post ∧ ∀ m ∈ post, m.1 ≠ d) ∨
      ((∀ m ∈ ms, m.1 ≠ d) ∧ ∃ x ∈ l, x.dir = d)
  | [], l, ho, _ => ⟨ho, fun d => by
      simp only [excludeMounts, List.not_mem_nil, false_implies, implies_true, true_and]
      constructor
      · exact fun h => Or.inr (Or.inr h)
      · rintro (⟨x, h, h', -⟩ | ⟨pre, post, h, -⟩ | h)
        · exact ⟨x, h, h'⟩
        · cases pre <;> cases h
        · exact h⟩
  | (d0, lab) :: ms, l, ho, hms => by
    obtain ⟨r1, r2⟩ := removeExclude_once (d := d0) ho
    have hd0 : MountPoint d0 := hms (d0, lab) (by simp)
    generalize hl' : (if lab = true then removeExclude d0 l else (addExclude d0 false (removeExclude d0 l)).2) = l'
    have ho' : Once l' := by
      rw [← hl']
      split
      · exact r1
      · exact (addExclude_mount hd0 r1).1
    obtain ⟨i1, i2⟩ := C104_mounts ms ho' (fun m hm => hms m (List.mem_cons_of_mem _ hm))
    rw [excludeMounts, hl']
    refine ⟨i1, fun d => ?_⟩
    rw [i2 d]
    have hcaller : (∃ x ∈ l', x.dir = d ∧ x.caller = true) ↔ ∃ x ∈ l, x.dir = d ∧ x.caller = true := by
      constructor
      · rintro ⟨x, hx, h1, h2⟩
        rw [← hl'] at hx
        refine ⟨x, ?_, h1, h2⟩
        split at hx
        · exact removeExclude_subset hx
        · rcases ((addExclude_mount hd0 r1).2 x).1 hx with hx | ⟨rfl, -⟩
          · exact removeExclude_subset hx
          · cases h2
      · rintro ⟨x, hx, h1, h2⟩
        have hx' := mem_removeExclude_of (d := d0) hx (Or.inr h2)
        refine ⟨x, ?_, h1, h2⟩
        rw [← hl']
        split
        · exact hx'
        · exact ((addExclude_mount hd0 r1).2 x).2 (Or.inl hx')
    rw [hcaller]
    by_cases hd : d0 = d
    · subst hd
      have hin : (∃ x ∈ l', x.dir = d0) ↔ (lab = false ∨ ∃ x ∈ l, x.dir = d0 ∧ x.caller = true) := by
        rw [← hl']
        cases lab with
        | true =>
          simp only [if_true, Bool.true_eq_false, false_or]
          constructor
          · rintro ⟨x, hx, he⟩
            exact ⟨x, removeExclude_subset hx, he, r2 x hx he⟩
          · rintro ⟨x, hx, he, hc⟩
            exact ⟨x, mem_removeExclude_of hx (Or.inr hc), he⟩
        | false =>
          simp only [Bool.false_eq_true, if_false, true_or, iff_true]
          by_cases hex : ∃ y ∈ removeExclude d0 l, y.dir = d0
          · obtain ⟨y, hy, he⟩ := hex
            exact ⟨y, ((addExclude_mount hd0 r1).2 y).2 (Or.inl hy), he⟩
          · exact ⟨⟨d0, false⟩, ((addExclude_mount hd0 r1).2 _).2 (Or.inr ⟨rfl, fun y hy he => hex ⟨y, hy, he⟩⟩), rfl⟩
      rw [hin]
      constructor
      · rintro (h | ⟨pre, post, rfl, h⟩ | ⟨h1, h2 | h2⟩)
        · exact Or.inl h
        · exact Or.inr (Or.inl ⟨(d0, lab) :: pre, post, rfl, h⟩)
        · subst h2
          exact Or.inr (Or.inl ⟨[], ms, rfl, h1⟩)
        · exact Or.inl h2
      · rintro (h | ⟨pre, post, h1, h2⟩ | ⟨h1, -⟩)
        · exact Or.inl h
        · cases pre with
          | nil =>
            cases h1
            exact Or.inr (Or.inr ⟨h2, Or.inl rfl⟩)
          | cons a pre =>
            cases h1
            exact Or.inr (Or.inl ⟨pre, post, rfl, h2⟩)
        · exact absurd rfl (h1 (d0, lab) (by simp))
    · have hin : (∃ x ∈ l', x.dir = d) ↔ ∃ x ∈ l, x.dir = d := by
        rw [← hl']
        constructor
        · rintro ⟨x, hx, he⟩
          refine ⟨x, ?_, he⟩
          split at hx
          · exact removeExclude_subset hx
          · rcases ((addExclude_mount hd0 r1).2 x).1 hx with hx | ⟨rfl, -⟩
            · exact removeExclude_subset hx
            · exact absurd he hd
        · rintro ⟨x, hx, he⟩
          have hx' := mem_removeExclude_of (d := d0) hx (Or.inl (by rw [he]; exact Ne.symm hd))
          refine ⟨x, ?_, he⟩
          split
          · exact hx'
          · exact ((addExclude_mount hd0 r1).2 x).2 (Or.inl hx')
      rw [hin]
      constructor
      · rintro (h | ⟨pre, post, rfl, h⟩ | ⟨h1, h2⟩)
        · exact Or.inl h
        · exact Or.inr (Or.inl ⟨(d0, lab) :: pre, post, rfl, h⟩)
        · refine Or.inr (Or.inr ⟨fun m hm => ?_, h2⟩)
          rcases List.mem_cons.1 hm with rfl | hm
          · exact hd
          · exact h1 m hm
      · rintro (h | ⟨pre, post, h1, h2⟩ | ⟨h1, h2⟩)
        · exact Or.inl h
        · cases pre with
          | nil => cases h1; exact absurd rfl hd
          | cons a pre =>
            cases h1
            exact Or.inr (Or.inl ⟨pre, post, rfl, h2⟩)
        · exact Or.inr (Or.inr ⟨fun m hm => h1 m (List.mem_cons_of_mem _ hm), h2⟩)

/-- A list of a caller and mounts that meet the hypotheses. -/
example : ListOk [] ∧ setExcludeList (fun _ => false) [b "/srv//", b "rel", b "/home"] [] = [⟨b "/srv", true⟩, ⟨b "/home", true⟩] ∧
    Once [⟨b "/srv", true⟩, ⟨b "/home", true⟩] ∧ (∀ m ∈ [(b "/proc", false), (b "/srv", true), (b "/proc", true), (b "/boot", false)], MountPoint m.1) ∧
    excludeMounts [(b "/proc", false), (b "/srv", true), (b "/proc", true), (b "/boot", false)] [⟨b "/srv", true⟩, ⟨b "/home", true⟩] =
      [⟨b "/srv", true⟩, ⟨b "/home", true⟩, ⟨b "/boot", false⟩] := by
  refine ⟨⟨by simp, by simp⟩, ?_, by unfold Once; decide +kernel, by unfold MountPoint; decide +kernel, ?_⟩
  · have h1 : trimEnd (b "/srv//") = b "/srv" := base_unique (trimEnd_base _ (by decide +kernel)).1 ⟨2, by decide +kernel, by decide +kernel, by decide +kernel⟩
    have h2 : trimEnd (b "/home") = b "/home" := base_unique (trimEnd_base _ (by decide +kernel)).1 ⟨0, by decide +kernel, by decide +kernel, by decide +kernel⟩
    have e1 : addExclude (b "/srv//") true [] = (true, [⟨b "/srv", true⟩]) := by
      unfold addExclude; rw [h1]; decide +kernel
    have e2 : addExclude (b "rel") true [⟨b "/srv", true⟩] = (false, [⟨b "/srv", true⟩]) := by decide +kernel
    have e3 : addExclude (b "/home") true [⟨b "/srv", true⟩] = (true, [⟨b "/srv", true⟩, ⟨b "/home", true⟩]) := by
      unfold addExclude; rw [h2]; decide +kernel
    simp [setExcludeList, e1, e2, e3]
  · decide +kernel

end Verif.Restore
