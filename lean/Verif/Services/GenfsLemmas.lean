import Verif.Services.ObjectsLemmas2

namespace Verif.Services
open Verif.Policy Verif.Mls

def mkEntry (e : GenEntry) : Ocon (Str × Nat) := ⟨(e.name, e.sclass), e.ctx, ⟨0, 0, 0, emptyRange⟩, 0, 0⟩

/-- Two entries that may both be present. -/
def Apart (a b : Ocon (Str × Nat)) : Prop := ¬ (a.key.1 = b.key.1 ∧ (a.key.2 = 0 ∨ b.key.2 = 0 ∨ a.key.2 = b.key.2))

theorem Apart.symm {a b : Ocon (Str × Nat)} (h : Apart a b) : Apart b a := fun ⟨h1, h2⟩ =>
  h ⟨h1.symm, by rcases h2 with h2 | h2 | h2 <;> simp [h2]⟩

def EntriesOk (l : List (Ocon (Str × Nat))) : Prop :=
  l.Pairwise (fun a b => b.key.1.length ≤ a.key.1.length) ∧ l.Pairwise Apart

theorem insertEntry_spec (e : GenEntry) : ∀ l l' : List (Ocon (Str × Nat)), EntriesOk l → insertEntry e l = some l' →
    EntriesOk l' ∧ l'.Perm (mkEntry e :: l) := by
  intro l
  induction l with
  | nil =>
    intro l' _ h
    simp only [insertEntry, Option.some.injEq] at h
    subst h
    exact ⟨⟨by simp, by simp⟩, .refl _⟩
  | cons c l ih =>
    intro l' ho h
    obtain ⟨o1, o2⟩ := ho
    rw [List.pairwise_cons] at o1 o2
    unfold insertEntry at h
    split at h
    · cases h
    · rename_i hd
      rw [strcmp_zero] at hd
      have hap : Apart (mkEntry e) c := fun ⟨a, b⟩ => hd ⟨a, by rcases b with b | b | b <;> simp_all [mkEntry]⟩
      split at h
      · rename_i hlen
        cases h
        refine ⟨⟨?_, ?_⟩, .refl _⟩
        · refine List.pairwise_cons.mpr ⟨fun x hx => ?_, List.pairwise_cons.mpr o1⟩
          show x.key.1.length ≤ e.name.length
          rcases List.mem_cons.mp hx with rfl | hx
          · omega
          · have := o1.1 x hx; omega
        · refine List.pairwise_cons.mpr ⟨fun x hx => ?_, List.pairwise_cons.mpr o2⟩
          rcases List.mem_cons.mp hx with rfl | hx
          · exact hap
          · intro ⟨a, _⟩
            have := o1.1 x hx
            have h2 : e.name.length = x.key.1.length := congrArg List.length a
            omega
      · rename_i hlen
        rw [Option.map_eq_some_iff] at h
        obtain ⟨l2, h2, rfl⟩ := h
        obtain ⟨i1, i2⟩ := ih l2 ⟨o1.2, o2.2⟩ h2
        refine ⟨⟨List.pairwise_cons.mpr ⟨fun x hx => ?_, i1.1⟩, List.pairwise_cons.mpr ⟨fun x hx => ?_, i1.2⟩⟩, ?_⟩
        · rcases List.mem_cons.mp (i2.mem_iff.mp hx) with rfl | hx
          · show e.name.length ≤ _; omega
          · exact o1.1 x hx
        · rcases List.mem_cons.mp (i2.mem_iff.mp hx) with rfl | hx
          · exact hap.symm
          · exact o2.1 x hx
        · exact (i2.cons c).trans (.swap _ _ _)

theorem readEntries_spec : ∀ (es : List GenEntry) (acc l : List (Ocon (Str × Nat))), EntriesOk acc →
    readEntries es acc = some l → EntriesOk l ∧ l.Perm (es.map mkEntry ++ acc) := by
  intro es
  induction es with
  | nil => intro acc l h hr; simp only [readEntries, Option.some.injEq] at hr; subst hr; exact ⟨h, .refl _⟩
  | cons e es ih =>
    intro acc l h hr
    unfold readEntries at hr
    rw [Option.bind_eq_some_iff] at hr
    obtain ⟨acc', h1, h2⟩ := hr
    obtain ⟨a1, a2⟩ := insertEntry_spec e acc acc' h h1
    obtain ⟨b1, b2⟩ := ih acc' l a1 h2
    refine ⟨b1, b2.trans ?_⟩
    refine (List.Perm.append_left _ a2).trans ?_
    exact List.perm_middle

def FsSorted (g : Genfs) : Prop := g.Pairwise (fun a b => strcmp a.1 b.1 < 0)

theorem insertFs_spec (x : Str × List (Ocon (Str × Nat))) : ∀ g g' : Genfs, FsSorted g → insertFs x g = some g' →
    FsSorted g' ∧ g'.Perm (x :: g) ∧ ∀ y ∈ g, y.1 ≠ x.1 := by
  intro g
  induction g with
  | nil => intro g' _ h; simp only [insertFs, Option.some.injEq] at h; subst h; exact ⟨by simp [FsSorted], .refl _, by simp⟩
  | cons c g ih =>
    intro g' ho h
    unfold FsSorted at ho
    rw [List.pairwise_cons] at ho
    unfold insertFs at h
    split at h
    · cases h
    · rename_i hne
      split at h
      · rename_i hlt
        cases h
        refine ⟨List.pairwise_cons.mpr ⟨fun y hy => ?_, List.pairwise_cons.mpr ho⟩, .refl _, fun y hy => ?_⟩
        · rcases List.mem_cons.mp hy with rfl | hy
          · exact hlt
          · exact strcmp_trans _ _ _ hlt (ho.1 y hy)
        · intro he
          rcases List.mem_cons.mp hy with rfl | hy
          · exact hne ((strcmp_zero _ _).mpr he.symm)
          · have h1 := strcmp_trans _ _ _ hlt (ho.1 y hy)
            have := (strcmp_zero x.1 y.1).mpr he.symm
            omega
      · rename_i hge
        rw [Option.map_eq_some_iff] at h
        obtain ⟨g2, h2, rfl⟩ := h
        obtain ⟨i1, i2, i3⟩ := ih g2 ho.2 h2
        have hgt : strcmp c.1 x.1 < 0 := by rw [strcmp_swap]; omega
        refine ⟨List.pairwise_cons.mpr ⟨fun y hy => ?_, i1⟩, (i2.cons c).trans (.swap _ _ _), fun y hy => ?_⟩
        · rcases List.mem_cons.mp (i2.mem_iff.mp hy) with rfl | hy
          · exact hgt
          · exact ho.1 y hy
        · rcases List.mem_cons.mp hy with rfl | hy
          · intro he; exact hne ((strcmp_zero _ _).mpr he.symm)
          · exact i3 y hy

/-- What `genfs_read` builds from the records of the file. -/
structure GenfsOk (file : List (Str × List GenEntry)) (g : Genfs) : Prop where
  sorted : FsSorted g
  entries : ∀ fs l, (fs, l) ∈ g → ∃ es, (fs, es) ∈ file ∧ EntriesOk l ∧ l.Perm (es.map mkEntry)
  all : ∀ fs es, (fs, es) ∈ file → ∃ l, (fs, l) ∈ g ∧ l.Perm (es.map mkEntry)

theorem genfsRead_gen : ∀ (file : List (Str × List GenEntry)) (done : List (Str × List GenEntry)) (acc g : Genfs),
    GenfsOk done acc → genfsRead file acc = some g → GenfsOk (done ++ file) g := by
  intro file
  induction file with
  | nil => intro done acc g h hr; simp only [genfsRead, Option.some.injEq] at hr; subst hr; simpa using h
  | cons f file ih =>
    intro done acc g h hr
    unfold genfsRead at hr
    rw [Option.bind_eq_some_iff] at hr
    obtain ⟨es, h1, hr⟩ := hr
    rw [Option.bind_eq_some_iff] at hr
    obtain ⟨acc', h2, hr⟩ := hr
    obtain ⟨e1, e2⟩ := readEntries_spec f.2 [] es ⟨.nil, .nil⟩ h1
    rw [List.append_nil] at e2
    obtain ⟨i1, i2, _⟩ := insertFs_spec (f.1, es) acc acc' h.sorted h2
    have := ih (done ++ [f]) acc' g ⟨i1, ?_, ?_⟩ hr
    · rwa [List.append_assoc] at this
    · intro fs l hm
      rcases List.mem_cons.mp (i2.mem_iff.mp hm) with he | hm
      · cases he
        exact ⟨f.2, by simp, e1, e2⟩
      · obtain ⟨es', a, b⟩ := h.entries fs l hm
        exact ⟨es', by simp [a], b⟩
    · intro fs es' hm
      rcases List.mem_append.mp hm with hm | hm
      · obtain ⟨l, a, b⟩ := h.all fs es' hm
        exact ⟨l, i2.mem_iff.mpr (by simp [a]), b⟩
      · simp only [List.mem_singleton] at hm
        subst hm
        exact ⟨es, i2.mem_iff.mpr (by simp), e2⟩

theorem genfsRead_ok {file : List (Str × List GenEntry)} {g : Genfs} (h : genfsRead file [] = some g) : GenfsOk file g := by
  have := genfsRead_gen file [] [] g ⟨by simp [FsSorted], by simp, by simp⟩ h
  simpa using this

theorem fsEntries_iff {g : Genfs} (h : FsSorted g) (fs : Str) (l : List (Ocon (Str × Nat))) :
    fsEntries g fs = some l ↔ (fs, l) ∈ g := by
  unfold fsEntries
  obtain ⟨s1, s2⟩ := splitFirst_spec (fun x : Str × List (Ocon (Str × Nat)) => decide (strcmp fs x.1 ≤ 0)) g
  cases hs : splitFirst (fun x : Str × List (Ocon (Str × Nat)) => decide (strcmp fs x.1 ≤ 0)) g with
  | none =>
    simp only [reduceCtorEq, false_iff]
    intro hm
    have := s1 hs _ hm
    simp only [decide_eq_false_iff_not] at this
    have h0 := (strcmp_zero fs fs).mpr rfl
    omega
  | some r =>
    obtain ⟨pre, x, post⟩ := r
    obtain ⟨a1, a2, a3⟩ := s2 _ _ _ hs
    simp only [decide_eq_true_eq] at a2
    dsimp only
    unfold FsSorted at h
    rw [a1, List.pairwise_append, List.pairwise_cons] at h
    constructor
    · intro he
      split at he
      · rename_i hz
        cases he
        rw [a1, (strcmp_zero _ _).mp hz]
        simp
      · cases he
    · intro hm
      rw [a1] at hm
      have h0 := (strcmp_zero fs fs).mpr rfl
      rcases List.mem_append.mp hm with hm | hm
      · have := a3 _ hm
        simp only [decide_eq_false_iff_not] at this
        omega
      · rcases List.mem_cons.mp hm with he | hm
        · rw [← he, if_pos h0]
        · have h1 := h.2.1.1 _ hm
          dsimp only at h1
          rw [strcmp_swap] at h1
          omega

theorem genMatch_iff (path : Str) (cls : Nat) (k : Str × Nat) :
    genMatch path cls k = true ↔ (k.2 = 0 ∨ k.2 = cls) ∧ k.1 <+: path := by
  unfold genMatch
  simp only [Bool.and_eq_true, Bool.or_eq_true, beq_iff_eq, strncmp_prefix]
  constructor
  · rintro ⟨h1, h2⟩; exact ⟨by rcases h1 with h | h <;> simp [h], h2⟩
  · rintro ⟨h1, h2⟩; exact ⟨by rcases h1 with h | h <;> simp [h], h2⟩

theorem best_of_first {file : List (Str × List GenEntry)} {g : Genfs} (h : GenfsOk file g) {fs path : Str} {cls : Nat}
    {l : List (Ocon (Str × Nat))} (hl : (fs, l) ∈ g) {o : Ocon (Str × Nat)}
    (hf : FirstMatch l (fun k => genMatch path cls k = true) o) :
    ∃ e, mkEntry e = o ∧ BestEntry file fs path cls e := by
  obtain ⟨es, h1, h2, h3⟩ := h.entries fs l hl
  obtain ⟨pre, post, rfl, hm, hp⟩ := hf
  have ho : o ∈ es.map mkEntry := h3.mem_iff.mp (by simp)
  obtain ⟨e, he, rfl⟩ := List.mem_map.mp ho
  rw [genMatch_iff] at hm
  refine ⟨e, rfl, ⟨es, h1, he⟩, hm.2, hm.1, ?_⟩
  intro es' e' hes' he' hpre hcls
  -- all records of this file system end up in the same list
  have huniq : ∀ l', (fs, l') ∈ g → l' = pre ++ mkEntry e :: post := by
    intro l' hl'
    have a := (fsEntries_iff h.sorted fs _).mpr hl
    have b := (fsEntries_iff h.sorted fs _).mpr hl'
    rw [a] at b; cases b; rfl
  obtain ⟨l', a, b⟩ := h.all fs es' hes'
  rw [huniq l' a] at b
  have hmem : mkEntry e' ∈ pre ++ mkEntry e :: post := b.mem_iff.mpr (List.mem_map_of_mem he')
  have hg : genMatch path cls (mkEntry e').key = true := (genMatch_iff _ _ _).mpr ⟨hcls, hpre⟩
  rcases List.mem_append.mp hmem with hmem | hmem
  · exact absurd hg (hp _ hmem)
  · have hs := h2.1
    rw [List.pairwise_append, List.pairwise_cons] at hs
    rcases List.mem_cons.mp hmem with heq | hmem
    · have : e'.name = e.name := congrArg (fun o : Ocon (Str × Nat) => o.key.1) heq
      rw [this]; exact Nat.le_refl _
    · exact hs.2.1.1 _ hmem

end Verif.Services
