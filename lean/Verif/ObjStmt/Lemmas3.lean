import Verif.ObjStmt.Lemmas2

namespace Verif.ObjStmt
open Verif.Policy Verif.Mls Verif.Services

/-! ## genfscon -/

/-- The entry of a `genfscon` for the file system. -/
def genE (cfg : Cfg) (fs : Str) : Stmt → Option GenEntry
  | .genfs f p t (some c) => if f = fs then (classValue cfg t).map (fun v => ⟨p, v, c⟩) else none
  | _ => none

theorem insertGen_eq (e : GenEntry) : ∀ l, insertGen (mkEntry e) l = insertEntry e l := by
  intro l
  induction l with
  | nil => rfl
  | cons c l ih =>
    unfold insertGen insertEntry
    rw [ih]
    have : (strcmp (mkEntry e).key.1 c.key.1 = 0 ∧ ((mkEntry e).key.2 = 0 ∨ c.key.2 = 0 ∨ (mkEntry e).key.2 = c.key.2)) ↔
        (strcmp e.name c.key.1 = 0 ∧ (c.key.2 = 0 ∨ e.sclass = 0 ∨ e.sclass = c.key.2)) := by
      show (strcmp e.name c.key.1 = 0 ∧ (e.sclass = 0 ∨ c.key.2 = 0 ∨ e.sclass = c.key.2)) ↔ _
      constructor <;> rintro ⟨h, h' | h' | h'⟩ <;> simp [h, h']
    by_cases hc : strcmp e.name c.key.1 = 0 ∧ (c.key.2 = 0 ∨ e.sclass = 0 ∨ e.sclass = c.key.2)
    · rw [if_pos hc, if_pos (this.mpr hc)]
    · rw [if_neg hc, if_neg (fun h => hc (this.mp h))]
      rfl

/-- Entries are refused only for being there already. -/
theorem insertEntry_ok (e : GenEntry) : ∀ l : List (Ocon (Str × Nat)), EntriesOk l →
    ((∃ l', insertEntry e l = some l') ↔ ∀ c ∈ l, Apart (mkEntry e) c) := by
  intro l
  induction l with
  | nil => intro _; simp [insertEntry]
  | cons c l ih =>
    intro ho
    obtain ⟨o1, o2⟩ := ho
    rw [List.pairwise_cons] at o1 o2
    unfold insertEntry
    by_cases hd : strcmp e.name c.key.1 = 0 ∧ (c.key.2 = 0 ∨ e.sclass = 0 ∨ e.sclass = c.key.2)
    · rw [if_pos hd]
      constructor
      · rintro ⟨_, h⟩; cases h
      · intro h
        exact absurd ⟨(strcmp_zero _ _).mp hd.1, by rcases hd.2 with h | h | h <;> simp [mkEntry, h]⟩ (h c (by simp))
    · rw [if_neg hd]
      rw [strcmp_zero] at hd
      have hap : Apart (mkEntry e) c := fun ⟨a, b⟩ => hd ⟨a, by rcases b with b | b | b <;> simp_all [mkEntry]⟩
      split
      · rename_i hlen
        simp only [Option.some.injEq, exists_eq', true_iff]
        intro x hx
        rcases List.mem_cons.mp hx with rfl | hx
        · exact hap
        · intro ⟨a, _⟩
          have := o1.1 x hx
          have h2 : e.name.length = x.key.1.length := congrArg List.length a
          omega
      · have := ih ⟨o1.2, o2.2⟩
        simp only [Option.map_eq_some_iff, List.mem_cons, forall_eq_or_imp, hap, true_and, ← this]
        constructor
        · rintro ⟨_, a, h, _⟩; exact ⟨a, h⟩
        · rintro ⟨a, h⟩; exact ⟨_, a, h, rfl⟩

/-- What the statements so far have made of the list of file system types. -/
structure GenB (es : Str → List GenEntry) (g : Genfs) : Prop where
  sorted : FsSorted g
  entries : ∀ fs l, (fs, l) ∈ g → EntriesOk l ∧ l.Perm ((es fs).map mkEntry)
  all : ∀ fs, es fs ≠ [] → ∃ l, (fs, l) ∈ g

theorem place_spec (fs : Str) : ∀ g : Genfs, FsSorted g →
    FsSorted (place fs g).1 ∧ (∃ l, (fs, l) ∈ (place fs g).1) ∧
    (∀ x, x ∈ (place fs g).1 → x ∈ g ∨ x = (fs, [])) ∧ (∀ x ∈ g, x ∈ (place fs g).1) ∧
    ((place fs g).2 = true ↔ ∀ x ∈ g, x.1 ≠ fs) := by
  intro g
  induction g with
  | nil => intro _; simp [place, FsSorted]
  | cons c g ih =>
    intro hs
    have hs' := hs
    unfold FsSorted at hs
    rw [List.pairwise_cons] at hs
    unfold place
    have h0 : ∀ s : Str, strcmp s s = 0 := fun s => (strcmp_zero s s).mpr rfl
    split
    · split
      · rename_i hle hne
        have hlt : strcmp fs c.1 < 0 := by omega
        refine ⟨List.pairwise_cons.mpr ⟨fun y hy => ?_, hs'⟩, ⟨[], by simp⟩, ?_, ?_, ?_⟩
        · rcases List.mem_cons.mp hy with rfl | hy
          · exact hlt
          · exact strcmp_trans _ _ _ hlt (hs.1 y hy)
        · intro x hx
          rcases List.mem_cons.mp hx with rfl | hx
          · exact .inr rfl
          · exact .inl hx
        · intro x hx; exact List.mem_cons_of_mem _ hx
        · simp only [true_iff]
          intro x hx he
          rcases List.mem_cons.mp hx with rfl | hx
          · rw [he] at hne; exact hne (h0 _)
          · have := strcmp_trans _ _ _ hlt (hs.1 x hx)
            rw [he, h0] at this; omega
      · rename_i hle hne
        have he : fs = c.1 := (strcmp_zero _ _).mp (by omega)
        refine ⟨hs', ⟨c.2, by rw [he]; simp⟩, fun x hx => .inl hx, fun x hx => hx, ?_⟩
        simp only [Bool.false_eq_true, false_iff]
        intro h
        exact h c (by simp) he.symm
    · rename_i hgt
      obtain ⟨i1, ⟨l, i2⟩, i3, i4, i5⟩ := ih hs.2
      refine ⟨List.pairwise_cons.mpr ⟨fun y hy => ?_, i1⟩, ⟨l, List.mem_cons_of_mem _ i2⟩, ?_, ?_, ?_⟩
      · rcases i3 y hy with hy | rfl
        · exact hs.1 y hy
        · show strcmp c.1 fs < 0; rw [strcmp_swap]; omega
      · intro x hx
        rcases List.mem_cons.mp hx with rfl | hx
        · exact .inl (by simp)
        · rcases i3 x hx with hx | hx
          · exact .inl (List.mem_cons_of_mem _ hx)
          · exact .inr hx
      · intro x hx
        rcases List.mem_cons.mp hx with rfl | hx
        · simp
        · exact List.mem_cons_of_mem _ (i4 x hx)
      · dsimp only
        rw [i5]
        simp only [List.mem_cons, forall_eq_or_imp]
        constructor
        · intro h
          refine ⟨fun he => ?_, h⟩
          rw [he, h0] at hgt; omega
        · exact fun h => h.2

theorem fs_uniq {g : Genfs} (h : FsSorted g) {fs : Str} {l l' : List (Ocon (Str × Nat))} (h1 : (fs, l) ∈ g)
    (h2 : (fs, l') ∈ g) : l = l' := by
  have a := (fsEntries_iff h fs l).mpr h1
  have b := (fsEntries_iff h fs l').mpr h2
  rw [a] at b; exact Option.some.inj b

theorem insertAt_spec (fs : Str) (e : GenEntry) : ∀ g : Genfs, FsSorted g → ∀ l, (fs, l) ∈ g →
    ((∃ g', insertAt fs (mkEntry e) g = some g') ↔ ∃ l', insertEntry e l = some l') ∧
    ∀ g', insertAt fs (mkEntry e) g = some g' → ∃ l', insertEntry e l = some l' ∧ g'.map Prod.fst = g.map Prod.fst ∧
      (fs, l') ∈ g' ∧ (∀ x ∈ g', x.1 ≠ fs → x ∈ g) ∧ ∀ x ∈ g, x.1 ≠ fs → x ∈ g' := by
  intro g
  induction g with
  | nil => intro _ l h; cases h
  | cons c g ih =>
    intro hs l hl
    have hs' := hs
    unfold FsSorted at hs
    rw [List.pairwise_cons] at hs
    unfold insertAt
    by_cases hc : c.1 = fs
    · rw [if_pos hc, insertGen_eq]
      have : c = (fs, l) := by
        rw [← hc] at hl ⊢
        rw [fs_uniq hs' hl (by simp : (c.1, c.2) ∈ c :: g)]
      subst this
      refine ⟨?_, ?_⟩
      · simp only [Option.map_eq_some_iff]
        constructor
        · rintro ⟨_, a, h, _⟩; exact ⟨a, h⟩
        · rintro ⟨a, h⟩; exact ⟨_, a, h, rfl⟩
      · intro g' h
        simp only [Option.map_eq_some_iff] at h
        obtain ⟨a, ha, rfl⟩ := h
        refine ⟨a, ha, by simp, by simp, ?_, ?_⟩
        · intro x hx hne
          rcases List.mem_cons.mp hx with rfl | hx
          · exact absurd rfl hne
          · exact List.mem_cons_of_mem _ hx
        · intro x hx hne
          rcases List.mem_cons.mp hx with rfl | hx
          · exact absurd rfl hne
          · exact List.mem_cons_of_mem _ hx
    · rw [if_neg hc]
      have hl' : (fs, l) ∈ g := by
        rcases List.mem_cons.mp hl with h | h
        · rw [← h] at hc; exact absurd rfl hc
        · exact h
      obtain ⟨i1, i2⟩ := ih hs.2 l hl'
      refine ⟨?_, ?_⟩
      · rw [← i1]
        simp only [Option.map_eq_some_iff]
        constructor
        · rintro ⟨_, a, h, _⟩; exact ⟨a, h⟩
        · rintro ⟨a, h⟩; exact ⟨_, a, h, rfl⟩
      · intro g' h
        simp only [Option.map_eq_some_iff] at h
        obtain ⟨a, ha, rfl⟩ := h
        obtain ⟨l', j1, j2, j3, j4, j5⟩ := i2 a ha
        refine ⟨l', j1, by simp [j2], List.mem_cons_of_mem _ j3, ?_, ?_⟩
        · intro x hx hne
          rcases List.mem_cons.mp hx with rfl | hx
          · simp
          · exact List.mem_cons_of_mem _ (j4 x hx hne)
        · intro x hx hne
          rcases List.mem_cons.mp hx with rfl | hx
          · simp
          · exact List.mem_cons_of_mem _ (j5 x hx hne)

theorem sorted_of_names {g g' : Genfs} (h : FsSorted g) (hn : g'.map Prod.fst = g.map Prod.fst) : FsSorted g' := by
  unfold FsSorted at *
  have : (g.map Prod.fst).Pairwise (fun a b => strcmp a b < 0) := List.pairwise_map.mpr h
  rw [← hn] at this
  exact List.pairwise_map.mp this

/-- One more entry. -/
def addE (es : Str → List GenEntry) (fs : Str) (e : GenEntry) : Str → List GenEntry := fun f => if f = fs then es f ++ [e] else es f

/-- What `place` and the insertion do to the list. -/
theorem gen_insert {es : Str → List GenEntry} {g : Genfs} (h : GenB es g) (fs : Str) (e : GenEntry) :
    ((∃ g', insertAt fs (mkEntry e) (place fs g).1 = some g') ↔ ∀ e' ∈ es fs, Apart (mkEntry e) (mkEntry e')) ∧
    ∀ g', insertAt fs (mkEntry e) (place fs g).1 = some g' → GenB (addE es fs e) g' := by
  obtain ⟨p1, ⟨l, p2⟩, p3, p4, _⟩ := place_spec fs g h.sorted
  -- the list of this file system
  have hl : EntriesOk l ∧ l.Perm ((es fs).map mkEntry) := by
    rcases p3 _ p2 with hm | he
    · exact h.entries fs l hm
    · have : l = [] := congrArg Prod.snd he
      subst this
      refine ⟨⟨.nil, .nil⟩, ?_⟩
      by_cases hes : es fs = []
      · simp [hes]
      · obtain ⟨l', hl'⟩ := h.all fs hes
        have := fs_uniq p1 p2 (p4 _ hl')
        subst this
        exact (h.entries fs [] hl').2
  obtain ⟨i1, i2⟩ := insertAt_spec fs e _ p1 l p2
  refine ⟨?_, ?_⟩
  · rw [i1, insertEntry_ok e l hl.1]
    constructor
    · intro hh e' he'
      exact hh _ (hl.2.mem_iff.mpr (List.mem_map_of_mem he'))
    · intro hh c hc
      obtain ⟨e', he', rfl⟩ := List.mem_map.mp (hl.2.mem_iff.mp hc)
      exact hh e' he'
  · intro g' hg'
    obtain ⟨l', j1, j2, j3, j4, j5⟩ := i2 g' hg'
    obtain ⟨k1, k2⟩ := insertEntry_spec e l l' hl.1 j1
    have hsort := sorted_of_names p1 j2
    refine ⟨hsort, ?_, ?_⟩
    · intro f m hm
      by_cases hf : f = fs
      · subst hf
        rw [fs_uniq hsort hm j3]
        refine ⟨k1, k2.trans ?_⟩
        unfold addE; rw [if_pos rfl, List.map_append]
        exact ((hl.2.cons _).trans (List.perm_append_comm (l₁ := [mkEntry e]))).trans (.refl _)
      · unfold addE; rw [if_neg hf]
        have hm' := j4 _ hm hf
        rcases p3 _ hm' with hm' | he
        · exact h.entries f m hm'
        · exact absurd (congrArg Prod.fst he) hf
    · intro f hne
      by_cases hf : f = fs
      · subst hf; exact ⟨l', j3⟩
      · unfold addE at hne; rw [if_neg hf] at hne
        obtain ⟨m, hm⟩ := h.all f hne
        exact ⟨m, j5 _ (p4 _ hm) hf⟩

theorem className_iff (t n : Str) : className t = some n ↔ TypeClass t n := by
  unfold className TypeClass str
  split <;> simp_all [eq_comm]

theorem classValue_some (cfg : Cfg) (t : Option Str) (v : Nat) : classValue cfg t = some v ↔
    (t = none ∧ v = 0) ∨ ∃ t' n, t = some t' ∧ TypeClass t' n ∧ cfg.classOf n = some v := by
  cases t with
  | none => simp [classValue, eq_comm]
  | some t' =>
    simp only [classValue, Option.bind_eq_some_iff, className_iff, reduceCtorEq, false_and, false_or, Option.some.injEq,
      exists_and_left, exists_eq_left']

theorem genfs_ok {cfg : Cfg} {db db' : Db} {f p : Str} {t : Option Str} {c0 : Option Context} :
    defineGenfs cfg f p t c0 db = .ok db' ↔
    cfg.xen = false ∧ ∃ v c g, classValue cfg t = some v ∧ c0 = some c ∧
      insertAt f (mkEntry ⟨p, v, c⟩) (place f db.ob.genfs).1 = some g ∧ db' = { db with ob := { db.ob with genfs := g } } := by
  unfold defineGenfs
  cases cfg.xen
  · simp only [Bool.false_eq_true, if_false, true_and]
    cases classValue cfg t with
    | none => simp
    | some v =>
      cases c0 with
      | none => simp
      | some c =>
        have : (entry (p, v) c : Ocon (Str × Nat)) = mkEntry ⟨p, v, c⟩ := rfl
        simp only [this, Option.some.injEq, exists_and_left, exists_eq_left']
        cases insertAt f (mkEntry ⟨p, v, c⟩) (place f db.ob.genfs).1 with
        | none => simp
        | some g => simp [eq_comm]
  · simp

end Verif.ObjStmt
