import Verif.Modules.Lemmas

namespace Verif.Modules
open Verif
open Verif.Login (isSpace cstr)
open Verif.LocalFile (isDigit digitsVal caseEq)

/-- The directory of a module with a text in a language. -/
def DirOk (compile : Compiler) (ext data : Bytes) (d : ModDir) : Prop :=
  d.langExt = some ext ∧
    if caseEq ext cilExt then d.cil = some data else d.hll = some data ∧ ∀ c, d.cil = some c → compile ext data = some c

/-- Directories have the names that the library gives them. -/
structure Shape (t : Tree) : Prop where
  keys : (t.prios.map (·.1)).Nodup
  dirs : ∀ e ∈ t.prios, ∃ p, Priority p ∧ e.1 = fmt3 p ∧ (e.2.map (·.1)).Nodup

/-- The language of a module is what the file says. -/
def LangOk (ext _data : Bytes) (d : ModDir) : Prop := d.langExt = some ext

/-- Directories hold the modules; `D` says what is in the directory of a module. -/
structure Rep (D : Bytes → Bytes → ModDir → Prop) (t : Tree) (a : Abs) : Prop extends Shape t where
  absent : ∀ {p n}, Priority p → a.mods p n = none → dirOf t p n = none
  present : ∀ {p n ext data}, a.mods p n = some (ext, data) →
    Priority p ∧ validName n = true ∧ validExt ext = true ∧ ∃ d, dirOf t p n = some d ∧ D ext data d
  off : ∀ {n}, n ∈ t.disabled ↔ a.off n

theorem Rep.mono {D E : Bytes → Bytes → ModDir → Prop} (h : ∀ {x y d}, D x y d → E x y d) {t : Tree} {a : Abs} (hr : Rep D t a) :
    Rep E t a where
  keys := hr.keys
  dirs := hr.dirs
  absent := hr.absent
  present := fun hm => by
    obtain ⟨h1, h2, h3, d, h4, h5⟩ := hr.present hm
    exact ⟨h1, h2, h3, d, h4, h h5⟩
  off := hr.off

theorem Rep.lang {compile : Compiler} {t : Tree} {a : Abs} (h : Rep (DirOk compile) t a) : Rep LangOk t a := h.mono fun h => h.1

theorem rep_empty (D : Bytes → Bytes → ModDir → Prop) : Rep D ⟨[], []⟩ Abs.empty where
  keys := List.nodup_nil
  dirs := by simp
  absent := fun _ _ => rfl
  present := fun h => by cases h
  off := ⟨fun h => by simp at h, fun h => h.elim⟩

/-! ## Reading the directory of a module -/

theorem validChar_ne {c : UInt8} (h : validChar c = true) : c ≠ 10 ∧ c ≠ 0 ∧ c ≠ 46 := by
  refine ⟨?_, ?_, ?_⟩ <;> (rintro rfl; revert h; decide)

theorem validExt_chars {s : Bytes} (h : validExt s = true) : s ≠ [] ∧ ∀ c ∈ s, c ≠ 10 ∧ c ≠ 0 := by
  cases s with
  | nil => cases h
  | cons c cs =>
    have h' : (if isAlpha c || isDigit c then cs.all validChar else false) = true := h
    split at h'
    · rename_i hc
      refine ⟨by simp, fun d hd => ?_⟩
      rcases List.mem_cons.1 hd with rfl | hd
      · have : validChar d = true := by
          unfold validChar
          rw [hc]
          rfl
        exact ⟨(validChar_ne this).1, (validChar_ne this).2.1⟩
      · have := List.all_eq_true.1 h' d hd
        exact ⟨(validChar_ne this).1, (validChar_ne this).2.1⟩
    · cases h'

theorem takeWhile_self {p : UInt8 → Bool} : ∀ {l : Bytes}, (∀ c ∈ l, p c = true) → l.takeWhile p = l
  | [], _ => rfl
  | a :: l, h => by
    rw [List.takeWhile_cons, if_pos (h a (by simp)), takeWhile_self fun c hc => h c (by simp [hc])]

theorem readExt_ok {s : Bytes} (h : validExt s = true) : readExt (some s) = some s := by
  obtain ⟨hne, hc⟩ := validExt_chars h
  cases s with
  | nil => exact absurd rfl hne
  | cons a l =>
    have e1 : (a :: l).takeWhile (· != 10) = a :: l := takeWhile_self fun c hm => by simpa using (hc c hm).1
    have e2 : cstr (a :: l) = a :: l := takeWhile_self fun c hm => by simpa using (hc c hm).2
    show (let line := (a :: l).takeWhile (· != 10)
      let line := cstr (line ++ (if line.length < (a :: l).length then [10] else []))
      if validExt line then some line else none) = _
    simp only [e1, Nat.lt_irrefl, if_false, List.append_nil, e2, h, if_true]

theorem validName_head {n : Bytes} (h : validName n = true) : n.head? ≠ some 46 := by
  cases n with
  | nil => simp
  | cons c cs =>
    have h' : (if isAlpha c then nameLoop cs else false) = true := h
    split at h'
    · rename_i hc
      intro he
      simp only [List.head?_cons, Option.some.injEq] at he
      subst he
      revert hc
      decide
    · cases h'

variable {t : Tree} {a : Abs}

/-- What is known of a module. -/
def infoFor (t : Tree) (p : Nat) (n ext : Bytes) : Info := ⟨p, n, ext, if t.disabled.contains n then 0 else 1⟩

theorem infoAt_some (h : Rep LangOk t a) {p : Nat} {n ext data : Bytes} (hm : a.mods p n = some (ext, data)) :
    infoAt t p n = some (infoFor t p n ext) := by
  obtain ⟨h1, h2, h3, d, h4, h5⟩ := h.present hm
  unfold infoAt
  rw [if_neg (by rw [h2]; simp), if_neg (by rw [validPriority_iff.2 h1]; simp), h4, Option.bind_some, show d.langExt = _ from h5, readExt_ok h3]
  rfl

theorem infoAt_elim (h : Rep LangOk t a) {p : Nat} {n : Bytes} {i : Info} (hi : infoAt t p n = some i) :
    ∃ ext data, a.mods p n = some (ext, data) ∧ i = infoFor t p n ext := by
  cases hm : a.mods p n with
  | some x =>
    obtain ⟨ext, data⟩ := x
    rw [infoAt_some h hm] at hi
    exact ⟨ext, data, rfl, (Option.some.inj hi).symm⟩
  | none =>
    unfold infoAt at hi
    split at hi
    · cases hi
    · split at hi
      · cases hi
      · rename_i hp
        rw [h.absent (validPriority_iff.1 (by simpa using hp)) hm] at hi
        cases hi

/-! ## Listing -/

theorem infosAt_spec {p : Nat} : ∀ {ns : List Bytes}, (∀ n ∈ ns, ∃ i, infoAt t p n = some i) →
    ∃ L, infosAt t p ns = some L ∧ L.map (·.name) = ns ∧ ∀ i ∈ L, i.priority = p ∧ infoAt t p i.name = some i
  | [], _ => ⟨[], rfl, rfl, by simp⟩
  | n :: ns, h => by
    obtain ⟨i, hi⟩ := h n (by simp)
    obtain ⟨L, h1, h2, h3⟩ := infosAt_spec (ns := ns) fun m hm => h m (by simp [hm])
    have hin : i.name = n ∧ i.priority = p := by
      have hi' := hi
      unfold infoAt at hi'
      split at hi'
      · cases hi'
      · split at hi'
        · cases hi'
        · split at hi'
          · cases hi'
          · cases hi'
            exact ⟨rfl, rfl⟩
    refine ⟨i :: L, ?_, by simp [hin.1, h2], ?_⟩
    · unfold infosAt
      rw [hi, h1]
      rfl
    · intro j hj
      rcases List.mem_cons.1 hj with rfl | hj
      · exact ⟨hin.2, by rw [hin.1]; exact hi⟩
      · exact h3 j hj

theorem scan_perm {β : Type} {vs : Cmp} {ex : Option Bytes} {l : List (Bytes × β)} (h : ∀ e ∈ l, e.1.head? ≠ some 46 ∧ some e.1 ≠ ex) :
    (scan vs ex l).Perm (l.map (·.1)) := by
  unfold scan
  have : (l.map (·.1)).filter (fun n => n.head? != some 46 && some n != ex) = l.map (·.1) := by
    rw [List.filter_eq_self]
    intro n hn
    obtain ⟨e, he, rfl⟩ := List.mem_map.1 hn
    have := h e he
    simp [this.1, this.2]
  rw [this]
  exact isort_perm _ _

theorem infosOf_spec {vs : Cmp} : ∀ {ps : List Nat}, (∀ p ∈ ps, Priority p ∧ ∃ ms, get (fmt3 p) t.prios = some ms ∧
      (ms.map (·.1)).Nodup ∧ ∀ e ∈ ms, e.1.head? ≠ some 46 ∧ ∃ i, infoAt t p e.1 = some i) → ps.Pairwise (fun p q => q < p) →
    ∃ L, infosOf vs t (ps.map fmt3) = some L ∧ (∀ i, i ∈ L ↔ i.priority ∈ ps ∧ infoAt t i.priority i.name = some i) ∧
      L.Pairwise fun i j => j.priority < i.priority ∨ (j.priority = i.priority ∧ i.name ≠ j.name)
  | [], _, _ => ⟨[], rfl, by simp, List.Pairwise.nil⟩
  | p :: ps, h, hp => by
    obtain ⟨hpr, ms, hg, hn, he⟩ := h p (by simp)
    have hp' := List.pairwise_cons.1 hp
    obtain ⟨L, h1, h2, h3⟩ := infosOf_spec (vs := vs) (ps := ps) (fun q hq => h q (by simp [hq])) hp'.2
    have hperm := scan_perm (vs := vs) (ex := none) (l := ms) fun e hm => ⟨(he e hm).1, by simp⟩
    obtain ⟨M, g1, g2, g3⟩ := infosAt_spec (t := t) (p := p) (ns := scan vs none ms) fun n hm => by
      obtain ⟨e, h4, rfl⟩ := List.mem_map.1 (hperm.mem_iff.1 hm)
      exact (he e h4).2
    refine ⟨M ++ L, ?_, ?_, ?_⟩
    · rw [List.map_cons]
      unfold infosOf
      rw [stringToPriority_fmt3 hpr]
      simp only [hg, g1, h1]
      rfl
    · intro i
      rw [List.mem_append, List.mem_cons, h2]
      constructor
      · rintro (hi | hi)
        · obtain ⟨h4, h5⟩ := g3 i hi
          exact ⟨Or.inl h4, by rw [h4]; exact h5⟩
        · exact ⟨Or.inr hi.1, hi.2⟩
      · rintro ⟨rfl | h4, h5⟩
        · left
          have hmem : i.name ∈ ms.map (·.1) := by
            unfold infoAt at h5
            split at h5
            · cases h5
            · split at h5
              · cases h5
              · unfold dirOf at h5
                rw [hg, Option.bind_some] at h5
                cases h6 : get i.name ms with
                | none => rw [h6] at h5; cases h5
                | some d => exact List.mem_map_of_mem (f := (·.1)) (mem_of_get h6)
          rw [← hperm.mem_iff, ← g2] at hmem
          obtain ⟨j, hj, hjn⟩ := List.mem_map.1 hmem
          have := (g3 j hj).2
          rw [hjn, h5] at this
          cases this
          exact hj
        · exact Or.inr ⟨h4, h5⟩
    · rw [List.pairwise_append]
      refine ⟨?_, h3, fun i hi j hj => Or.inl ?_⟩
      · have hnd : (M.map (·.name)).Nodup := by rw [g2]; exact hperm.nodup_iff.2 hn
        have hnd' : M.Pairwise (fun i j => i.name ≠ j.name) := List.pairwise_map.1 hnd
        exact (List.Pairwise.and_mem.1 hnd').imp fun ⟨hi, hj, hne⟩ => Or.inr ⟨by rw [(g3 _ hi).1, (g3 _ hj).1], hne⟩
      · rw [(g3 i hi).1]
        exact hp'.1 _ ((h2 j).1 hj).1

theorem listAll_spec {vs : Cmp} (hv : OrdersPriorities vs) (h : Rep LangOk t a) :
    ∃ L, listAll vs t = some L ∧ (∀ i, i ∈ L ↔ infoAt t i.priority i.name = some i) ∧
      L.Pairwise fun i j => j.priority < i.priority ∨ (j.priority = i.priority ∧ i.name ≠ j.name) := by
  have hperm := scan_perm (vs := vs) (ex := some disabledName) (l := t.prios) fun e he => by
    obtain ⟨p, h1, h2, -⟩ := h.dirs e he
    rw [h2]
    exact ⟨fmt3_head h1, fun h => fmt3_ne_disabled p (Option.some.inj h)⟩
  have hkey : ∀ k ∈ scan vs (some disabledName) t.prios, ∃ p, Priority p ∧ k = fmt3 p := fun k hk => by
    obtain ⟨e, he, rfl⟩ := List.mem_map.1 (hperm.mem_iff.1 hk)
    obtain ⟨p, h1, h2, -⟩ := h.dirs e he
    exact ⟨p, h1, h2⟩
  obtain ⟨ps, hps⟩ : ∃ ps : List Nat, ps = (scan vs (some disabledName) t.prios).map fun k => (stringToPriority k).getD 0 := ⟨_, rfl⟩
  have hmap : ps.map fmt3 = scan vs (some disabledName) t.prios := by
    rw [hps, List.map_map]
    conv => rhs; rw [← List.map_id (scan vs (some disabledName) t.prios)]
    refine List.map_congr_left fun k hk => ?_
    obtain ⟨p, h1, rfl⟩ := hkey k hk
    simp [stringToPriority_fmt3 h1]
  have hpr : ∀ p ∈ ps, Priority p := fun p hp => by
    rw [hps] at hp
    obtain ⟨k, hk, rfl⟩ := List.mem_map.1 hp
    obtain ⟨p, h1, rfl⟩ := hkey k hk
    simpa [stringToPriority_fmt3 h1] using h1
  have hsorted : (ps.map fmt3).Pairwise (fun x y => vs x y = true) := by
    rw [hmap]
    unfold scan
    refine isort_sorted (S := (ps.map fmt3)) (fun x hx y hy => ?_) (fun x hx y hy z hz => ?_) (fun x hx => ?_)
    · obtain ⟨p, h1, rfl⟩ := List.mem_map.1 hx
      obtain ⟨q, h2, rfl⟩ := List.mem_map.1 hy
      rw [hv p q (hpr p h1).2 (hpr q h2).2, hv q p (hpr q h2).2 (hpr p h1).2, decide_eq_true_eq, decide_eq_true_eq]
      omega
    · obtain ⟨p, h1, rfl⟩ := List.mem_map.1 hx
      obtain ⟨q, h2, rfl⟩ := List.mem_map.1 hy
      obtain ⟨r, h3, rfl⟩ := List.mem_map.1 hz
      rw [hv p q (hpr p h1).2 (hpr q h2).2, hv q r (hpr q h2).2 (hpr r h3).2, hv p r (hpr p h1).2 (hpr r h3).2,
        decide_eq_true_eq, decide_eq_true_eq, decide_eq_true_eq]
      omega
    · rw [hmap]
      exact (isort_perm vs _).mem_iff.2 hx
  have hnodup : (ps.map fmt3).Nodup := by rw [hmap]; exact hperm.nodup_iff.2 h.keys
  have hstrict : ps.Pairwise (fun p q => p < q) := by
    have h1 := List.pairwise_map.1 hsorted
    have h2 : ps.Pairwise (fun p q => fmt3 p ≠ fmt3 q) := List.pairwise_map.1 hnodup
    refine (List.Pairwise.and_mem.1 (h1.and h2)).imp fun {p q} ⟨hp, hq, h3, h4⟩ => ?_
    rw [hv p q (hpr p hp).2 (hpr q hq).2, decide_eq_true_eq] at h3
    have : p ≠ q := fun he => h4 (by rw [he])
    omega
  obtain ⟨L, h1, h2, h3⟩ := infosOf_spec (t := t) (vs := vs) (ps := ps.reverse) (fun p hp => by
    rw [List.mem_reverse] at hp
    refine ⟨hpr p hp, ?_⟩
    have hm : fmt3 p ∈ t.prios.map (·.1) := by
      rw [← hperm.mem_iff, ← hmap]
      exact List.mem_map_of_mem hp
    obtain ⟨e, he, hek⟩ := List.mem_map.1 hm
    obtain ⟨q, -, hq, hn⟩ := h.dirs e he
    have hg : get (fmt3 p) t.prios = some e.2 := get_of_mem h.keys (by rw [← hek]; exact he)
    refine ⟨e.2, hg, hn, fun x hx => ?_⟩
    have hd : dirOf t p x.1 = some x.2 := by
      unfold dirOf
      rw [hg, Option.bind_some]
      exact get_of_mem hn hx
    cases hmo : a.mods p x.1 with
    | none => rw [h.absent (hpr p hp) hmo] at hd; cases hd
    | some y =>
      obtain ⟨ext, data⟩ := y
      exact ⟨validName_head (h.present hmo).2.1, _, infoAt_some h hmo⟩) (List.pairwise_reverse.2 hstrict)
  refine ⟨L, ?_, fun i => ?_, h3⟩
  · unfold listAll
    rw [← hmap, ← List.map_reverse]
    exact h1
  · rw [h2]
    refine ⟨fun hi => hi.2, fun hi => ⟨?_, hi⟩⟩
    obtain ⟨ext, data, hm, -⟩ := infoAt_elim h hi
    obtain ⟨g1, -, -, d, g2, -⟩ := h.present hm
    unfold dirOf at g2
    cases hg : get (fmt3 i.priority) t.prios with
    | none => rw [hg] at g2; cases g2
    | some ms =>
      have : fmt3 i.priority ∈ ps.map fmt3 := by
        rw [hmap, hperm.mem_iff]
        exact List.mem_map_of_mem (f := (·.1)) (mem_of_get hg)
      obtain ⟨q, hq, hqe⟩ := List.mem_map.1 this
      rw [List.mem_reverse, ← fmt3_inj (hpr q hq).2 g1.2 hqe]
      exact hq

end Verif.Modules
