import Verif.Modules.Lemmas3

namespace Verif.Modules
open Verif
open Verif.LocalFile (isDigit digitsVal caseEq lower)

variable {t : Tree} {a : Abs} {vs : Cmp} {compile : Compiler}

/-! ## The language CIL -/

theorem lower_eq {c d : UInt8} (hd : 97 ≤ d.toNat ∧ d.toNat ≤ 122) : lower c = d ↔ c.toNat = d.toNat ∨ c.toNat + 32 = d.toNat := by
  unfold lower
  have h255 := c.toNat_lt
  split
  · rename_i h
    rw [UInt8.le_iff_toNat_le, UInt8.le_iff_toNat_le] at h
    have e1 : (65 : UInt8).toNat = 65 := rfl
    have e2 : (90 : UInt8).toNat = 90 := rfl
    rw [← UInt8.toNat_inj, UInt8.toNat_add]
    have e3 : (32 : UInt8).toNat = 32 := rfl
    omega
  · rename_i h
    rw [UInt8.le_iff_toNat_le, UInt8.le_iff_toNat_le] at h
    have e1 : (65 : UInt8).toNat = 65 := rfl
    have e2 : (90 : UInt8).toNat = 90 := rfl
    rw [← UInt8.toNat_inj]
    omega

theorem isCil_iff {ext : Bytes} : caseEq ext cilExt = true ↔ IsCil ext := by
  unfold caseEq cilExt IsCil
  rw [beq_iff_eq]
  have two : ∀ (d : UInt8) (x y : Char), 97 ≤ d.toNat ∧ d.toNat ≤ 122 → x.toNat = d.toNat → y.toNat + 32 = d.toNat →
      ∀ c : UInt8, lower c = d ↔ ∃ z : Char, (z = x ∨ z = y) ∧ c.toNat = z.toNat := fun d x y hd hx hy c => by
    rw [lower_eq hd]
    constructor
    · rintro (h | h)
      · exact ⟨x, Or.inl rfl, by omega⟩
      · exact ⟨y, Or.inr rfl, by omega⟩
    · rintro ⟨z, rfl | rfl, h⟩
      · exact Or.inl (by omega)
      · exact Or.inr (by omega)
  have h1 := two 99 'c' 'C' (by decide) rfl rfl
  have h2 := two 105 'i' 'I' (by decide) rfl rfl
  have h3 := two 108 'l' 'L' (by decide) rfl rfl
  constructor
  · intro h
    match ext, h with
    | [], h => cases h
    | [_], h => simp at h
    | [_, _], h => simp at h
    | _ :: _ :: _ :: _ :: _, h => simp at h
    | [u, v, w], h =>
      simp only [List.map_cons, List.map_nil, List.cons.injEq, and_true] at h
      obtain ⟨x, hx, ex⟩ := (h1 u).1 h.1
      obtain ⟨y, hy, ey⟩ := (h2 v).1 h.2.1
      obtain ⟨z, hz, ez⟩ := (h3 w).1 h.2.2
      exact ⟨x, y, z, hx, hy, hz, by simp [ex, ey, ez]⟩
  · rintro ⟨x, y, z, hx, hy, hz, he⟩
    match ext, he with
    | [], he => cases he
    | [_], he => simp at he
    | [_, _], he => simp at he
    | _ :: _ :: _ :: _ :: _, he => simp at he
    | [u, v, w], he =>
      simp only [List.map_cons, List.map_nil, List.cons.injEq, and_true] at he
      simp only [List.map_cons, List.map_nil, List.cons.injEq, and_true]
      exact ⟨(h1 u).2 ⟨x, hx, he.1⟩, (h2 v).2 ⟨y, hy, he.2.1⟩, (h3 w).2 ⟨z, hz, he.2.2⟩⟩

/-! ## Compiling -/

/-- There is a text in CIL. -/
def HasCil (t : Tree) (p : Nat) (n : Bytes) : Prop := ∃ d c, dirOf t p n = some d ∧ d.cil = some c

theorem compileModule_spec (h : Rep (DirOk compile) t a) {i : Info} {data : Bytes} (hm : a.mods i.priority i.name = some (i.ext, data)) :
    ((compileModule compile t i = none) ↔ ¬ IsCil i.ext ∧ compile i.ext data = none) ∧
    ∀ t', compileModule compile t i = some t' →
      Rep (DirOk compile) t' a ∧ HasCil t' i.priority i.name ∧ ∀ q m, q ≤ 999 → HasCil t q m → HasCil t' q m := by
  obtain ⟨hp, hn, he, d, hd, hl, hdc⟩ := h.present hm
  unfold compileModule
  by_cases hc : caseEq i.ext cilExt = true
  · rw [if_pos hc] at hdc ⊢
    refine ⟨⟨fun h => (by cases h), fun h => absurd (isCil_iff.1 hc) h.1⟩, fun t' ht => ?_⟩
    cases ht
    exact ⟨h, ⟨d, data, hd, hdc⟩, fun q m _ h => h⟩
  · rw [if_neg hc] at hdc ⊢
    simp only [hd, hdc.1, Option.bind_some]
    cases hcomp : compile i.ext data with
    | none => exact ⟨⟨fun _ => ⟨fun h => hc (isCil_iff.2 h), rfl⟩, fun _ => rfl⟩, fun t' ht => (by cases ht)⟩
    | some c =>
      refine ⟨⟨fun h => (by cases h), fun h => (by cases h.2)⟩, fun t' ht => ?_⟩
      simp only [Option.some.injEq] at ht
      have hdir : ∀ q m, q ≤ 999 → dirOf t' q m = if q = i.priority ∧ m = i.name then some { d with hll := some data, cil := some c } else dirOf t q m :=
        fun q m hq => by rw [← ht]; exact dirOf_putDir hp.2 hq
      refine ⟨?_, ⟨{ d with hll := some data, cil := some c }, c, by rw [hdir _ _ hp.2, if_pos ⟨rfl, rfl⟩], rfl⟩, fun q m hq h => ?_⟩
      · refine rep_write (D := DirOk compile) (ext := i.ext) (data := data) h hp hn he (d := { d with hll := some data, cil := some c }) ⟨hl, ?_⟩
          (by rw [← ht]; exact shape_putDir h.toShape hp _ _) hdir (fun q m => ?_) (fun m => ?_)
        · rw [if_neg hc]
          exact ⟨rfl, fun c' h' => by cases h'; exact hcomp⟩
        · split
          · rename_i heq
            rw [heq.1, heq.2, hm]
          · rfl
        · rw [← ht]; exact h.off
      · unfold HasCil
        rw [hdir q m hq]
        split
        · exact ⟨_, c, rfl, rfl⟩
        · exact h

theorem compileLoop_spec {ig : Bool} : ∀ {l : List Info} {t : Tree}, Rep (DirOk compile) t a →
    (∀ i ∈ l, ∃ data, a.mods i.priority i.name = some (i.ext, data)) →
    Rep (DirOk compile) (compileLoop compile ig l t).2 a ∧
    ((compileLoop compile ig l t).1 = true ↔ ∀ i ∈ l, ∀ data, a.mods i.priority i.name = some (i.ext, data) →
      IsCil i.ext ∨ compile i.ext data ≠ none) ∧
    (∀ q m, q ≤ 999 → HasCil t q m → HasCil (compileLoop compile ig l t).2 q m) ∧
    ((compileLoop compile ig l t).1 = true → ∀ i ∈ l, HasCil (compileLoop compile ig l t).2 i.priority i.name)
  | [], t, h, _ => ⟨h, by simp [compileLoop], fun _ _ _ h => h, by simp⟩
  | i :: l, t, h, hl => by
    obtain ⟨data, hm⟩ := hl i (by simp)
    have hl' := fun j hj => hl j (List.mem_cons_of_mem _ hj)
    have hi999 : i.priority ≤ 999 := (h.present hm).1.2
    unfold compileLoop
    by_cases hc : ig = false ∧ ((dirOf t i.priority i.name).bind (·.cil)).isSome = true
    · rw [if_pos hc]
      obtain ⟨g1, g2, g3, g4⟩ := compileLoop_spec (ig := ig) h hl'
      obtain ⟨hp, hn, he, d, hd, hlx, hdc⟩ := h.present hm
      have hcil : HasCil t i.priority i.name := by
        obtain ⟨c, hc'⟩ := Option.isSome_iff_exists.1 hc.2
        rw [hd, Option.bind_some] at hc'
        exact ⟨d, c, hd, hc'⟩
      refine ⟨g1, ?_, g3, fun hb j hj => ?_⟩
      · rw [g2]
        constructor
        · intro hall j hj data' hm'
          rcases List.mem_cons.1 hj with rfl | hj
          · rw [hm] at hm'
            cases hm'
            by_cases hx : caseEq j.ext cilExt = true
            · exact Or.inl (isCil_iff.1 hx)
            · rw [if_neg hx] at hdc
              obtain ⟨d', c, hd', hc'⟩ := hcil
              rw [hd] at hd'
              cases hd'
              right
              rw [hdc.2 c hc']
              simp
          · exact hall j hj data' hm'
        · exact fun hall j hj => hall j (List.mem_cons_of_mem _ hj)
      · rcases List.mem_cons.1 hj with rfl | hj
        · exact g3 _ _ hi999 hcil
        · exact g4 hb j hj
    · rw [if_neg hc]
      obtain ⟨k1, k2⟩ := compileModule_spec h hm
      cases hcm : compileModule compile t i with
      | none =>
        refine ⟨h, ⟨fun h => (by cases h), fun hall => ?_⟩, fun _ _ _ h => h, fun h => (by cases h)⟩
        obtain ⟨h1, h2⟩ := k1.1 hcm
        rcases hall i (by simp) data hm with h3 | h3
        · exact absurd h3 h1
        · exact absurd h2 h3
      | some t' =>
        obtain ⟨r1, r2, r3⟩ := k2 t' hcm
        obtain ⟨g1, g2, g3, g4⟩ := compileLoop_spec (ig := ig) r1 hl'
        refine ⟨g1, ?_, fun q m hq hh => g3 q m hq (r3 q m hq hh), fun hb j hj => ?_⟩
        · rw [g2]
          constructor
          · intro hall j hj data' hm'
            rcases List.mem_cons.1 hj with rfl | hj
            · rw [hm] at hm'
              cases hm'
              by_cases hx : IsCil j.ext
              · exact Or.inl hx
              · right
                intro hn
                rw [k1.2 ⟨hx, hn⟩] at hcm
                cases hcm
            · exact hall j hj data' hm'
          · exact fun hall j hj => hall j (List.mem_cons_of_mem _ hj)
        · rcases List.mem_cons.1 hj with rfl | hj
          · exact g3 _ _ hi999 r2
          · exact g4 hb j hj

theorem loadFiles_spec : ∀ {l : List Info}, Rep (DirOk compile) t a →
    (∀ i ∈ l, (∃ data, a.mods i.priority i.name = some (i.ext, data)) ∧ HasCil t i.priority i.name) →
    ∃ F, loadFiles t l = some F ∧ F.map (·.1) = l.map (·.name) ∧ ∀ n c, (n, c) ∈ F ↔ ∃ i ∈ l, ∃ data, i.name = n ∧
      a.mods i.priority i.name = some (i.ext, data) ∧ inCil compile IsCil i.ext data c
  | [], _, _ => ⟨[], rfl, rfl, by simp⟩
  | i :: l, h, hl => by
    obtain ⟨⟨data, hm⟩, d, c, hd, hc⟩ := hl i (by simp)
    obtain ⟨F, h1, h2, h3⟩ := loadFiles_spec h fun j hj => hl j (List.mem_cons_of_mem _ hj)
    have hin : ∀ c', inCil compile IsCil i.ext data c' ↔ c' = c := fun c' => by
      obtain ⟨-, -, -, d', hd', -, hdc⟩ := h.present hm
      rw [hd] at hd'
      cases hd'
      unfold inCil
      by_cases hx : caseEq i.ext cilExt = true
      · rw [if_pos hx, hc] at hdc
        have := isCil_iff.1 hx
        simp only [this, true_and, not_true, false_and, or_false]
        rw [Option.some.inj hdc]
      · rw [if_neg hx] at hdc
        have : ¬ IsCil i.ext := fun h => hx (isCil_iff.2 h)
        simp only [this, false_and, not_false_iff, true_and, false_or]
        rw [hdc.2 c hc]
        constructor
        · intro h; exact (Option.some.inj h).symm
        · rintro rfl; rfl
    refine ⟨(i.name, c) :: F, ?_, by simp [h2], fun n c' => ?_⟩
    · unfold loadFiles
      simp only [hd, Option.bind_some, hc, h1, Option.map_some]
    · rw [List.mem_cons, h3]
      constructor
      · rintro (h | ⟨j, hj, data', h⟩)
        · cases h
          exact ⟨i, by simp, data, rfl, hm, (hin c).2 rfl⟩
        · exact ⟨j, List.mem_cons_of_mem _ hj, data', h⟩
      · rintro ⟨j, hj, data', hn, hmj, hc'⟩
        rcases List.mem_cons.1 hj with rfl | hj
        · left
          rw [hm] at hmj
          cases hmj
          rw [(hin c').1 hc', hn]
        · exact Or.inr ⟨j, hj, data', hn, hmj, hc'⟩

/-! ## The active modules -/

theorem activeLoop_spec : ∀ {L : List Info} {seen : List Bytes},
    L.Pairwise (fun i j => j.priority < i.priority ∨ (j.priority = i.priority ∧ i.name ≠ j.name)) →
    (∀ i ∈ L, ∀ j ∈ L, i.name = j.name → i.enabled = j.enabled) →
    (∀ i, i ∈ activeLoop seen L ↔ i ∈ L ∧ i.enabled = 1 ∧ i.name ∉ seen ∧ ∀ j ∈ L, j.name = i.name → j.priority ≤ i.priority) ∧
    ((activeLoop seen L).map (·.name)).Nodup
  | [], seen, _, _ => by simp [activeLoop]
  | k :: L, seen, hp, he => by
    have hp' := List.pairwise_cons.1 hp
    have he' := fun i hi j hj => he i (List.mem_cons_of_mem _ hi) j (List.mem_cons_of_mem _ hj)
    unfold activeLoop
    by_cases h1 : k.enabled ≠ 1
    · rw [if_pos h1]
      obtain ⟨g1, g2⟩ := activeLoop_spec (seen := seen) hp'.2 he'
      refine ⟨fun i => ?_, g2⟩
      rw [g1]
      constructor
      · rintro ⟨hi, h2, h3, h4⟩
        refine ⟨List.mem_cons_of_mem _ hi, h2, h3, fun j hj hn => ?_⟩
        rcases List.mem_cons.1 hj with rfl | hj
        · exact absurd ((he j (by simp) i (List.mem_cons_of_mem _ hi) hn).trans h2) h1
        · exact h4 j hj hn
      · rintro ⟨hi, h2, h3, h4⟩
        rcases List.mem_cons.1 hi with rfl | hi
        · exact absurd h2 h1
        · exact ⟨hi, h2, h3, fun j hj => h4 j (List.mem_cons_of_mem _ hj)⟩
    · rw [if_neg h1]
      have h1' : k.enabled = 1 := by simpa using h1
      by_cases hs : seen.contains k.name = true
      · rw [if_pos hs]
        obtain ⟨g1, g2⟩ := activeLoop_spec (seen := seen) hp'.2 he'
        have hs' : k.name ∈ seen := by simpa using hs
        refine ⟨fun i => ?_, g2⟩
        rw [g1]
        constructor
        · rintro ⟨hi, h2, h3, h4⟩
          refine ⟨List.mem_cons_of_mem _ hi, h2, h3, fun j hj hn => ?_⟩
          rcases List.mem_cons.1 hj with rfl | hj
          · exact absurd (hn ▸ hs') h3
          · exact h4 j hj hn
        · rintro ⟨hi, h2, h3, h4⟩
          rcases List.mem_cons.1 hi with rfl | hi
          · exact absurd hs' h3
          · exact ⟨hi, h2, h3, fun j hj => h4 j (List.mem_cons_of_mem _ hj)⟩
      · rw [if_neg hs]
        have hs' : k.name ∉ seen := by simpa using hs
        obtain ⟨g1, g2⟩ := activeLoop_spec (seen := k.name :: seen) hp'.2 he'
        constructor
        · intro i
          rw [List.mem_cons, g1]
          constructor
          · rintro (rfl | ⟨hi, h2, h3, h4⟩)
            · refine ⟨by simp, h1', hs', fun j hj hn => ?_⟩
              rcases List.mem_cons.1 hj with rfl | hj
              · exact Nat.le_refl _
              · rcases hp'.1 j hj with h | h
                · exact Nat.le_of_lt h
                · exact Nat.le_of_eq h.1
            · rw [List.mem_cons, not_or] at h3
              refine ⟨List.mem_cons_of_mem _ hi, h2, h3.2, fun j hj hn => ?_⟩
              rcases List.mem_cons.1 hj with rfl | hj
              · exact absurd hn.symm h3.1
              · exact h4 j hj hn
          · rintro ⟨hi, h2, h3, h4⟩
            rcases List.mem_cons.1 hi with rfl | hi
            · exact Or.inl rfl
            · refine Or.inr ⟨hi, h2, ?_, fun j hj => h4 j (List.mem_cons_of_mem _ hj)⟩
              rw [List.mem_cons, not_or]
              refine ⟨fun hn => ?_, h3⟩
              have := h4 k (by simp) hn.symm
              rcases hp'.1 i hi with h | h
              · omega
              · exact h.2 hn.symm
        · rw [List.map_cons, List.nodup_cons]
          refine ⟨fun hm => ?_, g2⟩
          obtain ⟨i, hi, hn⟩ := List.mem_map.1 hm
          exact ((g1 i).1 hi).2.2.1 (by simp [hn])

theorem active_spec (hv : OrdersPriorities vs) (h : Rep LangOk t a) : ∃ l, active vs t = some l ∧
    (l.map (·.name)).Pairwise Before ∧
    ∀ i, i ∈ l ↔ a.Active i.priority i.name ∧ i.enabled = 1 ∧ ∃ data, a.mods i.priority i.name = some (i.ext, data) := by
  obtain ⟨L, h1, h2, h3⟩ := listAll_spec hv h
  obtain ⟨g1, g2⟩ := activeLoop_spec (seen := []) h3 fun i hi j hj hn => by
    obtain ⟨_, _, -, hi'⟩ := infoAt_elim h ((h2 i).1 hi)
    obtain ⟨_, _, -, hj'⟩ := infoAt_elim h ((h2 j).1 hj)
    rw [hi', hj']
    show (if t.disabled.contains i.name then (0 : Int) else 1) = (if t.disabled.contains j.name then (0 : Int) else 1)
    rw [hn]
  have hperm := isort_perm (fun i j : Info => strLe i.name j.name) (activeLoop [] L)
  refine ⟨_, by unfold active; rw [h1]; rfl, ?_, fun i => ?_⟩
  · rw [List.pairwise_map]
    have hs := isort_sorted (le := fun i j : Info => strLe i.name j.name) (S := activeLoop [] L) (fun i _ j _ => strLe_total _ _)
      (fun i _ j _ k _ => strLe_trans) (fun x hx => hx)
    have hn : (isort (fun i j : Info => strLe i.name j.name) (activeLoop [] L)).Pairwise (fun i j => i.name ≠ j.name) :=
      List.pairwise_map.1 ((hperm.map _).nodup_iff.2 g2)
    refine (hs.and hn).imp fun ⟨h4, h5⟩ => ?_
    exact (strLe_iff.1 h4).resolve_left h5
  · rw [hperm.mem_iff, g1]
    have hen : ∀ {p n ext}, i = infoFor t p n ext → (i.enabled = 1 ↔ ¬ a.off n) := by
      rintro p n ext rfl
      show (if t.disabled.contains n then (0 : Int) else 1) = 1 ↔ _
      rw [← h.off]
      by_cases hc : n ∈ t.disabled <;> simp [hc]
    constructor
    · rintro ⟨hi, he, -, hmax⟩
      obtain ⟨ext, data, hm, hie⟩ := infoAt_elim h ((h2 i).1 hi)
      have hext : i.ext = ext := by rw [hie]; rfl
      refine ⟨⟨(hen hie).1 he, by rw [hm]; simp, fun q hq => ?_⟩, he, data, by rw [hext]; exact hm⟩
      cases hmq : a.mods q i.name with
      | none => rfl
      | some x =>
        exfalso
        obtain ⟨ext', data'⟩ := x
        have := hmax (infoFor t q i.name ext') ((h2 _).2 (infoAt_some h hmq)) rfl
        simp only [infoFor] at this
        omega
    · rintro ⟨⟨hoff, -, hmax⟩, he, data, hm⟩
      have hi := infoAt_some h hm
      have hie : infoFor t i.priority i.name i.ext = i := by
        have : i.enabled = (infoFor t i.priority i.name i.ext).enabled := by
          rw [he]
          show 1 = (if t.disabled.contains i.name then (0 : Int) else 1)
          have : i.name ∉ t.disabled := fun h' => hoff (h.off.1 h')
          simp [this]
        cases i
        simp only [infoFor] at this ⊢
        rw [this]
      rw [hie] at hi
      refine ⟨(h2 i).2 hi, he, by simp, fun j hj hn => ?_⟩
      obtain ⟨_, _, hmj, -⟩ := infoAt_elim h ((h2 j).1 hj)
      rw [hn] at hmj
      by_contra hlt
      rw [hmax j.priority (by omega)] at hmj
      cases hmj

theorem build_spec (hv : OrdersPriorities vs) (h : Rep (DirOk compile) t a) (ig : Bool) :
    Rep (DirOk compile) (build vs compile ig t).2 a ∧
    (((build vs compile ig t).1 = none) ↔ ∃ p n ext data, a.Active p n ∧ a.mods p n = some (ext, data) ∧ ¬ IsCil ext ∧ compile ext data = none) ∧
    ∀ F, (build vs compile ig t).1 = some F → (F.map (·.1)).Pairwise Before ∧
      ∀ n c, (n, c) ∈ F ↔ ∃ p ext data, a.Active p n ∧ a.mods p n = some (ext, data) ∧ inCil compile IsCil ext data c := by
  obtain ⟨l, h1, h2, h3⟩ := active_spec hv h.lang
  have hl : ∀ i ∈ l, ∃ data, a.mods i.priority i.name = some (i.ext, data) := fun i hi => ((h3 i).1 hi).2.2
  obtain ⟨g1, g2, g3, g4⟩ := compileLoop_spec (ig := ig) h hl
  have hgood : (∀ i ∈ l, ∀ data, a.mods i.priority i.name = some (i.ext, data) → IsCil i.ext ∨ compile i.ext data ≠ none) ↔
      ¬ ∃ p n ext data, a.Active p n ∧ a.mods p n = some (ext, data) ∧ ¬ IsCil ext ∧ compile ext data = none := by
    constructor
    · rintro hall ⟨p, n, ext, data, ha, hm, hx, hc⟩
      rcases hall ⟨p, n, ext, 1⟩ ((h3 _).2 ⟨ha, rfl, data, hm⟩) data hm with h | h
      · exact hx h
      · exact h hc
    · intro hno i hi data hm
      by_cases hx : IsCil i.ext
      · exact Or.inl hx
      · exact Or.inr fun hc => hno ⟨_, _, _, data, ((h3 i).1 hi).1, hm, hx, hc⟩
  unfold build
  rw [h1]
  simp only
  obtain ⟨b, t', hb⟩ : ∃ b t', compileLoop compile ig l t = (b, t') := ⟨_, _, rfl⟩
  rw [hb] at g1 g2 g3 g4 ⊢
  rw [hgood] at g2
  simp only at g1 g2 g4
  cases b with
  | false =>
    refine ⟨g1, ⟨fun _ => ?_, fun _ => rfl⟩, fun F hF => (by cases hF)⟩
    by_contra hno
    have := g2.2 hno
    cases this
  | true =>
    obtain ⟨F, f1, f2, f3⟩ := loadFiles_spec g1 fun i hi => ⟨hl i hi, g4 rfl i hi⟩
    simp only [f1]
    refine ⟨g1, ⟨fun h => (by cases h), fun h => absurd h (g2.1 rfl)⟩, fun F' hF => ?_⟩
    cases hF
    refine ⟨by rw [f2]; exact h2, fun n c => ?_⟩
    rw [f3]
    constructor
    · rintro ⟨i, hi, data, rfl, hm, hc⟩
      exact ⟨_, _, data, ((h3 i).1 hi).1, hm, hc⟩
    · rintro ⟨p, ext, data, ha, hm, hc⟩
      exact ⟨⟨p, n, ext, 1⟩, (h3 _).2 ⟨ha, rfl, data, hm⟩, data, rfl, hm, hc⟩

/-! ## Extracting -/

theorem cilExt_isCil : IsCil cilExt := isCil_iff.1 rfl

theorem extract_spec (h : Rep (DirOk compile) t a) (p : Nat) (n : Bytes) (c : Bool) :
    Rep (DirOk compile) (extract vs compile t p n c).2 a ∧
    ((extract vs compile t p n c).1 = none ∨ ∃ ext data text, a.mods p n = some (ext, data) ∧
      (extract vs compile t p n c).1 = some (infoFor t p n ext, text)) ∧
    ∀ ext data, a.mods p n = some (ext, data) → (c = false → ext = cilExt ∨ ¬ IsCil ext) → ∀ i text,
      (extract vs compile t p n c).1 = some (i, text) ↔
        i = infoFor t p n ext ∧ (if c = true then inCil compile IsCil ext data text else text = data) := by
  unfold extract
  by_cases hpn : validPriority p = false ∨ validName n = false
  · rw [if_pos hpn]
    refine ⟨h, Or.inl rfl, fun ext data hm => ?_⟩
    obtain ⟨h1, h2, -⟩ := h.present hm
    rcases hpn with h' | h'
    · rw [validPriority_iff.2 h1] at h'; cases h'
    · rw [h2] at h'; cases h'
  · rw [if_neg hpn]
    rw [not_or] at hpn
    have hp : Priority p := validPriority_iff.1 (by simpa using hpn.1)
    have hp0 : p ≠ 0 := by have := hp.1; omega
    cases hm : a.mods p n with
    | none =>
      rw [h.absent hp hm]
      exact ⟨h, Or.inl rfl, fun ext data h => (by cases h)⟩
    | some x =>
      obtain ⟨ext, data⟩ := x
      obtain ⟨-, hn, he, d, hd, hl, hdc⟩ := h.present hm
      rw [hd, (getInfo_pos h.lang hp0).2 ⟨ext, data, hm, rfl⟩]
      simp only
      have hext : (infoFor t p n ext).ext = ext := rfl
      rw [hext]
      by_cases hc : c = true ∧ ext ≠ cilExt ∧ d.cil = none
      · rw [if_pos hc]
        obtain ⟨k1, k2⟩ := compileModule_spec (i := infoFor t p n ext) h hm
        rw [hext] at k1
        cases hcm : compileModule compile t (infoFor t p n ext) with
        | none =>
          refine ⟨h, Or.inl rfl, fun ext' data' hm' hx i text => ?_⟩
          cases hm'
          simp only [hc.1, if_true]
          refine ⟨fun h => (by cases h), fun hi => ?_⟩
          obtain ⟨h1, h2⟩ := k1.1 hcm
          rcases hi.2 with h3 | h3
          · exact absurd h3.1 h1
          · rw [h2] at h3; cases h3.2
        | some t' =>
          obtain ⟨r1, ⟨d', c', hd', hc'⟩, -⟩ := k2 t' hcm
          have hd2 : dirOf t' p n = some d' := hd'
          simp only [hd2, hc.1, true_or, if_true, hc', Option.map_some]
          refine ⟨r1, Or.inr ⟨ext, data, c', rfl, rfl⟩, fun ext' data' hm' hx i text => ?_⟩
          cases hm'
          obtain ⟨F, f1, f2, f3⟩ := loadFiles_spec (l := [infoFor t p n ext]) r1 (by
            intro i hi
            rw [List.mem_singleton] at hi
            subst hi
            exact ⟨⟨data, hm⟩, d', c', hd', hc'⟩)
          have hF : F = [(n, c')] := by
            unfold loadFiles at f1
            have hd'' : dirOf t' (infoFor t p n ext).priority (infoFor t p n ext).name = some d' := hd'
            simp only [hd'', Option.bind_some, hc', loadFiles, Option.map_some, Option.some.injEq] at f1
            rw [← f1]
            rfl
          rw [hF] at f3
          have hin : ∀ x, inCil compile IsCil ext data x ↔ x = c' := fun x => by
            constructor
            · intro hx
              have := (f3 n x).2 ⟨_, List.mem_singleton.2 rfl, data, rfl, hm, hx⟩
              rw [List.mem_singleton] at this
              cases this
              rfl
            · rintro rfl
              obtain ⟨i, hi, data'', -, hm'', hx⟩ := (f3 n x).1 (by simp)
              rw [List.mem_singleton] at hi
              subst hi
              have hm3 : a.mods p n = some (ext, data'') := hm''
              rw [hm] at hm3
              cases hm3
              exact hx
          rw [hin, Option.some.injEq, Prod.mk.injEq]
          exact ⟨fun h => ⟨h.1.symm, h.2.symm⟩, fun h => ⟨h.1.symm, h.2.symm⟩⟩
      · rw [if_neg hc]
        simp only [hd]
        refine ⟨h, ?_, fun ext' data' hm' hx i text => ?_⟩
        · cases hf : (if c = true ∨ ext = cilExt then d.cil else d.hll) with
          | none => exact Or.inl rfl
          | some y => exact Or.inr ⟨ext, data, y, rfl, rfl⟩
        · cases hm'
          rw [Option.map_eq_some_iff]
          have hval : (if c = true ∨ ext = cilExt then d.cil else d.hll) = some text ↔
              (if c = true then inCil compile IsCil ext data text else text = data) := by
            by_cases hcx : caseEq ext cilExt = true
            · rw [if_pos hcx] at hdc
              have hI := isCil_iff.1 hcx
              by_cases h1 : c = true
              · rw [if_pos (Or.inl h1), if_pos h1, hdc]
                unfold inCil
                simp only [hI, true_and, not_true, false_and, or_false, Option.some.injEq]
                exact eq_comm
              · have h1' : c = false := by simpa using h1
                rcases hx h1' with h2 | h2
                · rw [if_pos (Or.inr h2), if_neg h1, hdc, Option.some.injEq]
                  exact eq_comm
                · exact absurd hI h2
            · rw [if_neg hcx] at hdc
              have hI : ¬ IsCil ext := fun h => hcx (isCil_iff.2 h)
              have hne : ext ≠ cilExt := fun h => hI (h ▸ cilExt_isCil)
              by_cases h1 : c = true
              · rw [if_pos (Or.inl h1), if_pos h1]
                unfold inCil
                simp only [hI, false_and, not_false_iff, true_and, false_or]
                cases hdcil : d.cil with
                | none => exact absurd ⟨h1, hne, hdcil⟩ hc
                | some y =>
                  rw [hdc.2 y hdcil]
              · rw [if_neg (not_or.2 ⟨h1, hne⟩), if_neg h1, hdc.1, Option.some.injEq]
                exact eq_comm
          constructor
          · rintro ⟨y, hy, he⟩
            cases he
            exact ⟨rfl, hval.1 hy⟩
          · rintro ⟨rfl, hy⟩
            exact ⟨text, hval.2 hy, rfl⟩

/-! ## Histories -/

theorem history_rep (hv : OrdersPriorities vs) (cs : List Cmd) : Rep (DirOk compile) (history vs compile cs) (Abs.empty.run (opsOf cs)) := by
  suffices H : ∀ (cs : List Cmd) (t : Tree) (a : Abs), Rep (DirOk compile) t a →
      Rep (DirOk compile) (cs.foldl (step vs compile) t) (a.run (opsOf cs)) from H cs _ _ (rep_empty _)
  intro cs
  induction cs with
  | nil => exact fun t a h => h
  | cons c cs ih =>
    intro t a h
    rw [List.foldl_cons]
    cases c with
    | op o =>
      have : opsOf (.op o :: cs) = o :: opsOf cs := rfl
      rw [this]
      unfold Abs.run
      refine ih _ _ ?_
      obtain ⟨h1, h2, h3⟩ := stepOp_spec hv h o
      show Rep _ (stepOp vs t o).2 _
      split
      · rename_i hok
        exact h3 (h1.2 hok)
      · rename_i hok
        have : (stepOp vs t o).1 = false := by
          cases hb : (stepOp vs t o).1 with
          | false => rfl
          | true => exact absurd (h1.1 hb) hok
        rw [h2 this]
        exact h
    | build ig =>
      have : opsOf (.build ig :: cs) = opsOf cs := rfl
      rw [this]
      exact ih _ _ (build_spec hv h ig).1
    | extract p n c =>
      have : opsOf (.extract p n c :: cs) = opsOf cs := rfl
      rw [this]
      exact ih _ _ (extract_spec h p n c).1

end Verif.Modules
