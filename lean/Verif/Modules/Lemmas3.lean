import Verif.Modules.Lemmas2

namespace Verif.Modules
open Verif
open Verif.LocalFile (isDigit digitsVal caseEq lower)

variable {t : Tree} {a : Abs} {vs : Cmp} {compile : Compiler}

/-! ## What is known of a module -/

theorem getInfo_zero_some (hv : OrdersPriorities vs) (h : Rep LangOk t a) {n : Bytes} {i : Info} (hi : getInfo vs t 0 n = some i) :
    ∃ p ext data, a.mods p n = some (ext, data) ∧ (∀ q, p < q → a.mods q n = none) ∧ i = infoFor t p n ext := by
  obtain ⟨L, h1, h2, h3⟩ := listAll_spec hv h
  unfold getInfo at hi
  split at hi
  · cases hi
  · rw [if_pos rfl, h1] at hi
    simp only at hi
    have hn : i.name = n := by simpa using List.find?_some hi
    have hm := (h2 i).1 (List.mem_of_find?_eq_some hi)
    obtain ⟨ext, data, hmo, he⟩ := infoAt_elim h hm
    rw [hn] at hmo he
    refine ⟨_, ext, data, hmo, fun q hq => ?_, he⟩
    cases hmq : a.mods q n with
    | none => rfl
    | some x =>
      exfalso
      obtain ⟨ext', data'⟩ := x
      have hj : infoFor t q n ext' ∈ L := (h2 _).2 (infoAt_some h hmq)
      obtain ⟨-, as, bs, hL, hno⟩ := List.find?_eq_some_iff_append.1 hi
      rw [hL] at hj h3
      rw [List.mem_append, List.mem_cons] at hj
      rcases hj with hj | hj | hj
      · have := hno _ hj
        simp [infoFor] at this
      · rw [← hj] at hq
        exact absurd hq (Nat.lt_irrefl _)
      · have := (List.pairwise_cons.1 (List.pairwise_append.1 h3).2.1).1 _ hj
        rcases this with h' | h'
        · exact absurd h' (by simp only [infoFor]; omega)
        · exact absurd h'.1 (by simp only [infoFor]; omega)

theorem getInfo_zero_none (hv : OrdersPriorities vs) (h : Rep LangOk t a) {n : Bytes} (hi : getInfo vs t 0 n = none) (p : Nat) :
    a.mods p n = none := by
  cases hm : a.mods p n with
  | none => rfl
  | some x =>
    exfalso
    obtain ⟨ext, data⟩ := x
    obtain ⟨L, h1, h2, h3⟩ := listAll_spec hv h
    unfold getInfo at hi
    rw [if_neg (by rw [(h.present hm).2.1]; simp), if_pos rfl, h1] at hi
    simp only [List.find?_eq_none] at hi
    exact hi (infoFor t p n ext) ((h2 _).2 (infoAt_some h hm)) (by simp [infoFor])

theorem getInfo_pos (h : Rep LangOk t a) {p : Nat} (hp : p ≠ 0) {n : Bytes} {i : Info} :
    getInfo vs t p n = some i ↔ ∃ ext data, a.mods p n = some (ext, data) ∧ i = infoFor t p n ext := by
  constructor
  · intro hi
    unfold getInfo at hi
    split at hi
    · cases hi
    · exact infoAt_elim h hi
  · rintro ⟨ext, data, hm, rfl⟩
    unfold getInfo
    rw [if_neg (by rw [(h.present hm).2.1]; simp), if_neg hp]
    exact infoAt_some h hm

theorem getInfo_name (hv : OrdersPriorities vs) (h : Rep LangOk t a) {p : Nat} {n : Bytes} {i : Info} (hi : getInfo vs t p n = some i) :
    i.name = n ∧ validName n = true ∧ i.enabled = if t.disabled.contains n then 0 else 1 := by
  by_cases hp : p = 0
  · subst hp
    obtain ⟨p, ext, data, hm, -, rfl⟩ := getInfo_zero_some hv h hi
    exact ⟨rfl, (h.present hm).2.1, rfl⟩
  · obtain ⟨ext, data, hm, rfl⟩ := (getInfo_pos h hp).1 hi
    exact ⟨rfl, (h.present hm).2.1, rfl⟩

theorem getInfo_isSome (hv : OrdersPriorities vs) (h : Rep LangOk t a) {p : Nat} {n : Bytes} :
    (∃ i, getInfo vs t p n = some i) ↔ if p = 0 then ∃ q, a.mods q n ≠ none else a.mods p n ≠ none := by
  by_cases hp : p = 0
  · subst hp
    rw [if_pos rfl]
    constructor
    · rintro ⟨i, hi⟩
      obtain ⟨p, ext, data, hm, -⟩ := getInfo_zero_some hv h hi
      exact ⟨p, by rw [hm]; simp⟩
    · rintro ⟨q, hq⟩
      cases hi : getInfo vs t 0 n with
      | none => exact absurd (getInfo_zero_none hv h hi q) hq
      | some i => exact ⟨i, rfl⟩
  · rw [if_neg hp]
    constructor
    · rintro ⟨i, hi⟩
      obtain ⟨ext, data, hm, -⟩ := (getInfo_pos h hp).1 hi
      rw [hm]; simp
    · intro hm
      obtain ⟨x, hx⟩ := Option.ne_none_iff_exists'.1 hm
      exact ⟨_, (getInfo_pos h hp).2 ⟨x.1, x.2, hx, rfl⟩⟩

/-! ## Changing directories -/

theorem dirOf_putDir {p q : Nat} {n m : Bytes} {d : ModDir} (hp : p ≤ 999) (hq : q ≤ 999) :
    dirOf (putDir t p n d) q m = if q = p ∧ m = n then some d else dirOf t q m := by
  unfold dirOf putDir
  by_cases h : q = p
  · subst h
    simp only [get_put_self, Option.bind_some, true_and]
    by_cases h2 : m = n
    · subst h2
      rw [if_pos rfl, get_put_self]
    · rw [if_neg h2, get_put_ne h2]
      cases get (fmt3 q) t.prios with
      | none => rfl
      | some ms => rfl
  · rw [if_neg (fun h' => h h'.1)]
    simp only
    rw [get_put_ne (fun h' => h (fmt3_inj hq hp h'))]

theorem shape_putDir (h : Shape t) {p : Nat} (hp : Priority p) (n : Bytes) (d : ModDir) : Shape (putDir t p n d) where
  keys := nodup_put h.keys
  dirs := fun e he => by
    rcases mem_put he with rfl | he
    · refine ⟨p, hp, rfl, nodup_put ?_⟩
      cases hg : get (fmt3 p) t.prios with
      | none => exact List.nodup_nil
      | some ms =>
        obtain ⟨_, -, -, hn⟩ := h.dirs _ (mem_of_get hg)
        exact hn
    · exact h.dirs e he

/-- A module is written. -/
theorem rep_write {D : Bytes → Bytes → ModDir → Prop} {t' : Tree} {b : Abs} (h : Rep D t a) {p : Nat} {n ext data : Bytes} {d : ModDir}
    (hp : Priority p) (hn : validName n = true) (he : validExt ext = true) (hd : D ext data d) (hs : Shape t')
    (hdir : ∀ q m, q ≤ 999 → dirOf t' q m = if q = p ∧ m = n then some d else dirOf t q m)
    (hb : ∀ q m, b.mods q m = if q = p ∧ m = n then some (ext, data) else a.mods q m)
    (ho : ∀ m, m ∈ t'.disabled ↔ b.off m) : Rep D t' b where
  toShape := hs
  absent := fun {q m} hq hm => by
    rw [hb] at hm
    rw [hdir q m hq.2]
    split at hm
    · cases hm
    · rename_i hne
      rw [if_neg hne]
      exact h.absent hq hm
  present := fun {q m x y} hm => by
    rw [hb] at hm
    split at hm
    · rename_i heq
      obtain ⟨rfl, rfl⟩ := heq
      cases hm
      exact ⟨hp, hn, he, d, by rw [hdir _ _ hp.2, if_pos ⟨rfl, rfl⟩], hd⟩
    · rename_i hne
      obtain ⟨h1, h2, h3, d', h4, h5⟩ := h.present hm
      exact ⟨h1, h2, h3, d', by rw [hdir _ _ h1.2, if_neg hne]; exact h4, h5⟩
  off := fun {m} => ho m

/-- A module is removed. -/
theorem rep_erase {D : Bytes → Bytes → ModDir → Prop} {t' : Tree} {b : Abs} (h : Rep D t a) {p : Nat} {n : Bytes} (hs : Shape t')
    (hdir : ∀ q m, q ≤ 999 → dirOf t' q m = if q = p ∧ m = n then none else dirOf t q m)
    (hb : ∀ q m, b.mods q m = if q = p ∧ m = n then none else a.mods q m)
    (ho : ∀ m, m ∈ t'.disabled ↔ b.off m) : Rep D t' b where
  toShape := hs
  absent := fun {q m} hq hm => by
    rw [hb] at hm
    rw [hdir q m hq.2]
    split at hm
    · rename_i heq; rw [if_pos heq]
    · rename_i hne
      rw [if_neg hne]
      exact h.absent hq hm
  present := fun {q m x y} hm => by
    rw [hb] at hm
    split at hm
    · cases hm
    · rename_i hne
      obtain ⟨h1, h2, h3, d', h4, h5⟩ := h.present hm
      exact ⟨h1, h2, h3, d', by rw [hdir _ _ h1.2, if_neg hne]; exact h4, h5⟩
  off := fun {m} => ho m

theorem mem_filter_ne {l : List Bytes} {n m : Bytes} : m ∈ l.filter (· != n) ↔ m ∈ l ∧ m ≠ n := by simp [List.mem_filter]

/-- Switching does not change directories. -/
theorem setEnabled_prios (p : Nat) (n : Bytes) (e : Int) : (setEnabled vs t p n e).2.prios = t.prios := by
  unfold setEnabled
  split
  · rfl
  · split
    · rfl
    · split
      · rfl
      · split
        · rfl
        · split <;> rfl

theorem setEnabled_spec (hv : OrdersPriorities vs) (h : Rep LangOk t a) (p : Nat) (n : Bytes) (e : Int) :
    ((setEnabled vs t p n e).1 = true ↔ a.ok (.enable p n e)) ∧
    ((setEnabled vs t p n e).1 = false → (setEnabled vs t p n e).2 = t) ∧
    ((setEnabled vs t p n e).1 = true → ∀ m, m ∈ (setEnabled vs t p n e).2.disabled ↔ (a.next (.enable p n e)).off m) := by
  have hok : a.ok (.enable p n e) ↔ Switch e ∧ ∃ i, getInfo vs t p n = some i := by
    rw [getInfo_isSome hv h]; rfl
  rw [hok]
  unfold setEnabled
  by_cases hn : validName n = false
  · rw [if_pos hn]
    refine ⟨⟨fun h => (by cases h), ?_⟩, fun _ => rfl, fun h => (by cases h)⟩
    rintro ⟨-, i, hi⟩
    rw [(getInfo_name hv h hi).2.1] at hn
    cases hn
  · rw [if_neg hn]
    by_cases he : validEnabled e = false
    · rw [if_pos he]
      refine ⟨⟨fun h => (by cases h), ?_⟩, fun _ => rfl, fun h => (by cases h)⟩
      rintro ⟨h1, -⟩
      rw [validEnabled_iff.2 h1] at he
      cases he
    · rw [if_neg he]
      have hsw : Switch e := validEnabled_iff.1 (by simpa using he)
      cases hi : getInfo vs t p n with
      | none => exact ⟨⟨fun h => (by cases h), fun ⟨_, i, h⟩ => (by cases h)⟩, fun _ => rfl, fun h => (by cases h)⟩
      | some i =>
        have hin := (getInfo_name hv h hi).1
        simp only [hin]
        show _ ∧ _ ∧ (_ → ∀ m, _ ↔ (if m = n then e = 0 ∨ (e = -1 ∧ a.off n) else a.off m))
        rcases hsw with rfl | rfl | rfl
        · simp only [Int.reduceEq, if_false, if_true]
          refine ⟨⟨fun _ => ⟨Or.inl rfl, _, rfl⟩, fun _ => by trivial⟩, fun h => (by cases h), fun _ m => ?_⟩
          rw [mem_filter_ne, h.off]
          by_cases hm : m = n
          · simp [hm]
          · simp [hm]
        · simp only [if_true]
          refine ⟨⟨fun _ => ⟨Or.inr (Or.inl rfl), _, rfl⟩, fun _ => by trivial⟩, fun h => (by cases h), fun _ m => ?_⟩
          rw [List.mem_cons, mem_filter_ne, h.off]
          by_cases hm : m = n
          · simp [hm]
          · simp [hm]
        · simp only [Int.reduceNeg, Int.reduceEq, if_false]
          refine ⟨⟨fun _ => ⟨Or.inr (Or.inr rfl), _, rfl⟩, fun _ => by trivial⟩, fun h => (by cases h), fun _ m => ?_⟩
          rw [h.off]
          by_cases hm : m = n
          · simp [hm]
          · simp [hm]

theorem rep_enable (hv : OrdersPriorities vs) (h : Rep (DirOk compile) t a) (p : Nat) (n : Bytes) (e : Int)
    (hok : (setEnabled vs t p n e).1 = true) : Rep (DirOk compile) (setEnabled vs t p n e).2 (a.next (.enable p n e)) := by
  have hpr := setEnabled_prios (vs := vs) (t := t) p n e
  have hd : ∀ q m, dirOf (setEnabled vs t p n e).2 q m = dirOf t q m := fun q m => by unfold dirOf; rw [hpr]
  exact
    { keys := by rw [hpr]; exact h.keys
      dirs := by rw [hpr]; exact h.dirs
      absent := fun hp hm => by rw [hd]; exact h.absent hp hm
      present := fun hm => by rw [hd]; exact h.present hm
      off := fun {m} => (setEnabled_spec hv h.lang p n e).2.2 hok m }

theorem dirOf_congr {t' : Tree} (h : t'.prios = t.prios) (q : Nat) (m : Bytes) : dirOf t' q m = dirOf t q m := by unfold dirOf; rw [h]

theorem install_spec (hv : OrdersPriorities vs) (h : Rep (DirOk compile) t a) (p : Nat) (n ext : Bytes) (e : Int) (data : Bytes) :
    ((install vs t ⟨p, n, ext, e⟩ data).1 = true ↔ a.ok (.install p n ext e data)) ∧
    ((install vs t ⟨p, n, ext, e⟩ data).1 = false → (install vs t ⟨p, n, ext, e⟩ data).2 = t) ∧
    ((install vs t ⟨p, n, ext, e⟩ data).1 = true →
      Rep (DirOk compile) (install vs t ⟨p, n, ext, e⟩ data).2 (a.next (.install p n ext e data))) := by
  have hvi : validInfo ⟨p, n, ext, e⟩ = true ↔ a.ok (.install p n ext e data) := by
    unfold validInfo Abs.ok
    rw [Bool.and_eq_true, Bool.and_eq_true, Bool.and_eq_true, validPriority_iff, validName_iff, validExt_iff, validEnabled_iff]
    tauto
  rw [← hvi]
  unfold install
  by_cases hb : validInfo ⟨p, n, ext, e⟩ = false
  · rw [if_pos hb, hb]
    exact ⟨⟨fun h => (by cases h), fun h => (by cases h)⟩, fun _ => rfl, fun h => (by cases h)⟩
  · rw [if_neg hb]
    have hb' : validInfo ⟨p, n, ext, e⟩ = true := by simpa using hb
    obtain ⟨hp, hn, he, hsw⟩ := hvi.1 hb'
    have hn' := validName_iff.2 hn
    have he' := validExt_iff.2 he
    -- the language is written
    obtain ⟨d0, hd0⟩ : ∃ d0, d0 = (dirOf t p n).getD ⟨none, none, none⟩ := ⟨_, rfl⟩
    obtain ⟨t1, ht1⟩ : ∃ t1, t1 = putDir t p n { d0 with langExt := some ext } := ⟨_, rfl⟩
    obtain ⟨a1, ha1⟩ : ∃ a1 : Abs, a1 = ⟨fun q m => if q = p ∧ m = n then some (ext, data) else a.mods q m, a.off⟩ := ⟨_, rfl⟩
    have hdis : t1.disabled = t.disabled := by rw [ht1]; rfl
    have hs1 : Shape t1 := by rw [ht1]; exact shape_putDir h.toShape hp n _
    have hdir1 : ∀ q m, q ≤ 999 → dirOf t1 q m = if q = p ∧ m = n then some { d0 with langExt := some ext } else dirOf t q m :=
      fun q m hq => by rw [ht1]; exact dirOf_putDir hp.2 hq
    have hr1 : Rep LangOk t1 a1 := rep_write (d := { d0 with langExt := some ext }) h.lang hp hn' he' (by rfl) hs1 hdir1 (by rw [ha1]; exact fun _ _ => rfl) (fun m => by
      rw [hdis, ha1]; exact h.off)
    have hm1 : a1.mods p n ≠ none := by rw [ha1]; simp
    obtain ⟨j, hj⟩ := (getInfo_isSome hv hr1 (p := 0) (n := n)).2 (by rw [if_pos rfl]; exact ⟨p, hm1⟩)
    -- the switch
    obtain ⟨e', he1⟩ : ∃ e' : Int, e' = if e = -1 then (match getInfo vs t1 0 n with | some j => j.enabled | none => 1) else e := ⟨_, rfl⟩
    have hset : setInfo vs t ⟨p, n, ext, e⟩ = setEnabled vs t1 0 n e' := by rw [ht1, hd0] at he1; rw [he1, ht1, hd0]; rfl
    have hjen : j.enabled = if t.disabled.contains n then 0 else 1 := by rw [(getInfo_name hv hr1 hj).2.2, hdis]
    have hsw1 : Switch e' ∧ (e' = 0 ↔ e = 0 ∨ (e = -1 ∧ a.off n)) ∧ e' ≠ -1 := by
      rw [he1, hj]
      by_cases h1 : e = -1
      · rw [if_pos h1]
        simp only [hjen, h1]
        by_cases hc : t.disabled.contains n = true
        · rw [if_pos hc]
          have : a.off n := h.off.1 (by simpa using hc)
          exact ⟨Or.inr (Or.inl rfl), by simp [this], by simp⟩
        · rw [if_neg hc]
          have : ¬ a.off n := fun ho => hc (by simpa using h.off.2 ho)
          exact ⟨Or.inl rfl, by simp [this], by simp⟩
      · rw [if_neg h1]
        exact ⟨hsw, by simp [h1], h1⟩
    obtain ⟨g1, g2, g3⟩ := setEnabled_spec hv hr1 0 n e'
    have hok : (setEnabled vs t1 0 n e').1 = true := g1.2 ⟨hsw1.1, by rw [if_pos rfl]; exact ⟨p, hm1⟩⟩
    have hoff := g3 hok
    have hpr2 := setEnabled_prios (vs := vs) (t := t1) 0 n e'
    rw [hset]
    obtain ⟨b, t2, h2⟩ : ∃ b t2, setEnabled vs t1 0 n e' = (b, t2) := ⟨_, _, rfl⟩
    rw [h2] at hok hoff hpr2
    simp only at hok hoff hpr2
    subst hok
    rw [h2]
    simp only [hb']
    have hs2 : Shape t2 := ⟨by rw [hpr2]; exact hs1.keys, by rw [hpr2]; exact hs1.dirs⟩
    have hd2 : dirOf t2 p n = some { d0 with langExt := some ext } := by
      rw [dirOf_congr hpr2, hdir1 p n hp.2, if_pos ⟨rfl, rfl⟩]
    have hfin : ∀ d3, DirOk compile ext data d3 → Rep (DirOk compile) (putDir t2 p n d3) (a.next (.install p n ext e data)) := fun d3 hd3 => by
      refine rep_write h hp hn' he' hd3 (shape_putDir hs2 hp n d3) (fun q m hq => ?_) (fun _ _ => rfl) (fun m => ?_)
      · rw [dirOf_putDir hp.2 hq, dirOf_congr hpr2, hdir1 q m hq]
        split <;> rfl
      · have : m ∈ (putDir t2 p n d3).disabled ↔ m ∈ t2.disabled := Iff.rfl
        rw [this, hoff]
        show (if m = n then e' = 0 ∨ (e' = -1 ∧ a1.off n) else a1.off m) ↔ (if m = n then e = 0 ∨ (e = -1 ∧ a.off n) else a.off m)
        by_cases hm : m = n
        · rw [if_pos hm, if_pos hm]
          rw [← hsw1.2.1]
          simp [hsw1.2.2]
        · rw [if_neg hm, if_neg hm, ha1]
    rw [hd2]
    simp only [Option.getD_some]
    by_cases hc : caseEq ext cilExt = true
    · rw [if_pos hc]
      refine ⟨by simp, fun h => (by cases h), fun _ => hfin _ ⟨rfl, ?_⟩⟩
      rw [if_pos hc]
    · rw [if_neg hc]
      refine ⟨by simp, fun h => (by cases h), fun _ => hfin _ ⟨rfl, ?_⟩⟩
      rw [if_neg hc]
      exact ⟨rfl, fun c h => (by cases h)⟩

theorem remove_spec (hv : OrdersPriorities vs) (h : Rep (DirOk compile) t a) (p : Nat) (n : Bytes) :
    ((remove vs t p n).1 = true ↔ a.ok (.remove p n)) ∧
    ((remove vs t p n).1 = false → (remove vs t p n).2 = t) ∧
    ((remove vs t p n).1 = true → Rep (DirOk compile) (remove vs t p n).2 (a.next (.remove p n))) := by
  have hnot : ∀ {P : Prop}, (a.ok (.remove p n) → False) → ((false = true ↔ a.ok (.remove p n)) ∧ (false = false → t = t) ∧ (false = true → P)) :=
    fun h => ⟨⟨fun h => (by cases h), fun h' => (h h').elim⟩, fun _ => rfl, fun h => (by cases h)⟩
  have hkey : a.ok (.remove p n) → validPriority p = true ∧ validName n = true ∧ ∃ ms d, get (fmt3 p) t.prios = some ms ∧ get n ms = some d := by
    intro hm
    obtain ⟨⟨ext, data⟩, hx⟩ := Option.ne_none_iff_exists'.1 (hm : a.mods p n ≠ none)
    obtain ⟨h1, h2, h3, d, h4, h5⟩ := h.present hx
    unfold dirOf at h4
    cases hg : get (fmt3 p) t.prios with
    | none => rw [hg] at h4; cases h4
    | some ms => rw [hg] at h4; exact ⟨validPriority_iff.2 h1, h2, ms, d, rfl, h4⟩
  unfold remove
  by_cases hp : validPriority p = false
  · rw [if_pos hp]
    exact hnot fun h => by rw [(hkey h).1] at hp; cases hp
  · rw [if_neg hp]
    have hp' : Priority p := validPriority_iff.1 (by simpa using hp)
    by_cases hn : validName n = false
    · rw [if_pos hn]
      exact hnot fun h => by rw [(hkey h).2.1] at hn; cases hn
    · rw [if_neg hn]
      cases hg : get (fmt3 p) t.prios with
      | none => exact hnot fun h => by obtain ⟨-, -, ms, d, h1, -⟩ := hkey h; rw [hg] at h1; cases h1
      | some ms =>
        simp only
        cases hd : get n ms with
        | none => exact hnot fun h => by obtain ⟨-, -, ms', d, h1, h2⟩ := hkey h; rw [hg] at h1; cases h1; rw [hd] at h2; cases h2
        | some d =>
          simp only
          obtain ⟨t1, ht1⟩ : ∃ t1 : Tree, t1 = { t with prios := put (fmt3 p) (del n ms) t.prios } := ⟨_, rfl⟩
          rw [← ht1]
          have hok : a.ok (.remove p n) := by
            intro hm
            have := h.absent hp' hm
            unfold dirOf at this
            rw [hg, Option.bind_some, hd] at this
            cases this
          have hdis : t1.disabled = t.disabled := by rw [ht1]
          have hs1 : Shape t1 := by
            rw [ht1]
            refine ⟨nodup_put h.keys, fun e he => ?_⟩
            rcases mem_put he with rfl | he
            · obtain ⟨_, -, -, hnd⟩ := h.dirs _ (mem_of_get hg)
              exact ⟨p, hp', rfl, nodup_filter hnd⟩
            · exact h.dirs e he
          have hdir1 : ∀ q m, q ≤ 999 → dirOf t1 q m = if q = p ∧ m = n then none else dirOf t q m := fun q m hq => by
            rw [ht1]
            unfold dirOf
            by_cases hqp : q = p
            · subst hqp
              simp only [get_put_self, Option.bind_some, true_and, hg]
              by_cases hmn : m = n
              · rw [if_pos hmn, hmn, get_del_self]
              · rw [if_neg hmn, get_del_ne hmn]
            · rw [if_neg (fun h => hqp h.1)]
              simp only
              rw [get_put_ne (fun h' => hqp (fmt3_inj hq hp'.2 h'))]
          have hr1 : Rep LangOk t1 ⟨(a.next (.remove p n)).mods, a.off⟩ := rep_erase h.lang hs1 hdir1 (fun _ _ => rfl) (fun m => by
            rw [hdis]; exact h.off)
          have hoth : (∃ q, (a.next (.remove p n)).mods q n ≠ none) ↔ ∃ q, q ≠ p ∧ a.mods q n ≠ none := by
            refine exists_congr fun q => ?_
            show (if q = p ∧ n = n then none else a.mods q n) ≠ none ↔ _
            by_cases hq : q = p
            · simp [hq]
            · simp [hq]
          have hfin : ∀ t2 : Tree, t2.prios = t1.prios → (∀ m, m ∈ t2.disabled ↔ (a.next (.remove p n)).off m) →
              Rep (DirOk compile) t2 (a.next (.remove p n)) := fun t2 h2 ho =>
            rep_erase h ⟨by rw [h2]; exact hs1.keys, by rw [h2]; exact hs1.dirs⟩
              (fun q m hq => by rw [dirOf_congr h2]; exact hdir1 q m hq) (fun _ _ => rfl) ho
          cases hi : getInfo vs t1 0 n with
          | none =>
            simp only
            refine ⟨⟨fun _ => hok, fun _ => by trivial⟩, fun h => (by cases h), fun _ => hfin _ (by rw [ht1]) fun m => ?_⟩
            simp only
            rw [mem_filter_ne, h.off]
            show _ ↔ (if m = n then a.off n ∧ ∃ q, q ≠ p ∧ a.mods q n ≠ none else a.off m)
            by_cases hm : m = n
            · rw [if_pos hm, ← hoth]
              exact ⟨fun h => absurd hm h.2, fun ⟨_, q, hq⟩ => absurd (getInfo_zero_none hv hr1 hi q) hq⟩
            · rw [if_neg hm]
              exact ⟨fun h => h.1, fun h => ⟨h, hm⟩⟩
          | some i =>
            simp only
            refine ⟨⟨fun _ => hok, fun _ => by trivial⟩, fun h => (by cases h), fun _ => hfin _ rfl fun m => ?_⟩
            rw [hdis, h.off]
            show _ ↔ (if m = n then a.off n ∧ ∃ q, q ≠ p ∧ a.mods q n ≠ none else a.off m)
            by_cases hm : m = n
            · have : ∃ q, (a.next (.remove p n)).mods q n ≠ none := by
                have := (getInfo_isSome hv hr1 (p := 0) (n := n)).1 ⟨i, hi⟩
                rw [if_pos rfl] at this
                exact this
              rw [if_pos hm, ← hoth, hm]
              exact ⟨fun h => ⟨h, this⟩, fun h => h.1⟩
            · rw [if_neg hm]

theorem stepOp_spec (hv : OrdersPriorities vs) (h : Rep (DirOk compile) t a) (o : Op) :
    ((stepOp vs t o).1 = true ↔ a.ok o) ∧ ((stepOp vs t o).1 = false → (stepOp vs t o).2 = t) ∧
    ((stepOp vs t o).1 = true → Rep (DirOk compile) (stepOp vs t o).2 (a.next o)) := by
  cases o with
  | install p n ext e data => exact install_spec hv h p n ext e data
  | remove p n => exact remove_spec hv h p n
  | enable p n e =>
    obtain ⟨h1, h2, -⟩ := setEnabled_spec hv h.lang p n e
    exact ⟨h1, h2, rep_enable hv h p n e⟩

end Verif.Modules
