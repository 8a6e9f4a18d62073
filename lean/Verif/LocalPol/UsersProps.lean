import Verif.Prelude
import Verif.LocalPol.Spec

/-!
# C102: local customisations of users and booleans take effect
-/

namespace Verif.LocalPol
open Verif.Policy Verif.Mls Verif.Services

/-! ## Users -/

theorem userOf_some {p : UPolicy} (hu : UniqueUsers p) {n : Str} {d : UDatum} : userOf p.users n = some d ↔ HasUser p n d := by
  unfold userOf HasUser
  unfold UniqueUsers at hu
  generalize p.users = l at hu
  induction l with
  | nil => simp
  | cons x l ih =>
    rw [List.pairwise_cons] at hu
    by_cases hx : x.1 = n
    · subst hx
      simp only [List.find?_cons, decide_true, Option.map_some, Option.some.injEq, List.mem_cons]
      constructor
      · rintro rfl; exact .inl rfl
      · rintro (h | h)
        · rw [← h]
        · exact absurd rfl (hu.1 (x.1, d) h)
    · simp only [List.find?_cons, hx, decide_false, List.mem_cons]
      rw [ih hu.2]
      constructor
      · exact .inr
      · rintro (h | h)
        · exact absurd (by rw [← h]) hx
        · exact h

theorem userOf_none {p : UPolicy} {n : Str} : userOf p.users n = none ↔ ∀ d, ¬ HasUser p n d := by
  unfold userOf HasUser
  rw [Option.map_eq_none_iff, List.find?_eq_none]
  constructor
  · intro h d hd; exact h _ hd (by simp)
  · rintro h ⟨m, d⟩ hx hm
    have : m = n := by simpa using hm
    subst this
    exact h d hx

theorem addRoles_ok (p : UPolicy) : ∀ (rs : List Str) (acc : List Nat),
    ((addRoles p rs acc).1 = true ↔ ∀ x ∈ rs, ∃ d, p.roleTable x = some d) ∧
    ((addRoles p rs acc).1 = true → ∀ b, b ∈ (addRoles p rs acc).2 ↔ b ∈ acc ∨ ∃ x ∈ rs, ∃ dom, p.roleTable x = some dom ∧ b ∈ dom) := by
  intro rs
  induction rs with
  | nil => intro acc; simp [addRoles]
  | cons r rs ih =>
    intro acc
    rw [addRoles]
    cases h : p.roleTable r with
    | none => simp [h]
    | some d =>
      obtain ⟨h1, h2⟩ := ih (acc ++ d)
      dsimp only
      refine ⟨by rw [h1]; simp [h], fun hok b => ?_⟩
      rw [h2 hok b]
      simp [h, or_assoc]

theorem fill_ok (p : UPolicy) (r : UserRec) (v : Nat) :
    ((fillUser p r (initDatum v)).1 = true ↔ UserFits p r) ∧
    ((fillUser p r (initDatum v)).1 = true → Says p r (fillUser p r (initDatum v)).2 ∧
      (fillUser p r (initDatum v)).2.cache = []) ∧ (fillUser p r (initDatum v)).2.value = v := by
  obtain ⟨h1, h2⟩ := addRoles_ok p r.roles []
  unfold UserFits Says
  by_cases ha : (addRoles p r.roles []).1 = true
  · have h1 := h1.mp ha
    have h2 := h2 ha
    simp only [List.not_mem_nil, false_or] at h2
    cases hm : p.mls with
    | false =>
      cases hl : r.level <;> cases hg : r.range <;> simp [fillUser, initDatum, ha, hm, hl, hg, h2]
      exact h1
    | true =>
      cases hl : r.level with
      | none => simp [fillUser, initDatum, ha, hm, hl]
      | some l =>
        cases hl' : p.mlsOf l with
        | none => simp [fillUser, initDatum, ha, hm, hl, hl']
        | some lr =>
          cases hg : r.range with
          | none => simp [fillUser, initDatum, ha, hm, hl, hl', hg]
          | some g =>
            cases hg' : p.mlsOf g with
            | none => simp [fillUser, initDatum, ha, hm, hl, hl', hg, hg']
            | some gr => simp [fillUser, initDatum, ha, hm, hl, hl', hg, hg', h2]; exact h1
  · have h1' : ¬ ∀ x ∈ r.roles, ∃ d, p.roleTable x = some d := fun h => ha (h1.mpr h)
    have ha : (addRoles p r.roles []).1 = false := by simpa using ha
    have e : fillUser p r (initDatum v) = (false, { initDatum v with roles := (addRoles p r.roles []).2 }) := by
      simp [fillUser, initDatum, ha]
    rw [e]
    exact ⟨⟨fun h => by simp at h, fun h => absurd h.1 h1'⟩, fun h => by simp at h, rfl⟩

theorem write_has {p : UPolicy} {n : Str} {d : UDatum} {m : Str} {e : UDatum} :
    (m, e) ∈ writeUser p.users n d ↔ (m ≠ n ∧ HasUser p m e) ∨ (m = n ∧ e = d ∧ ∃ o, HasUser p n o) := by
  unfold writeUser HasUser
  rw [List.mem_map]
  constructor
  · rintro ⟨⟨a, o⟩, hx, h⟩
    dsimp only at h
    split at h
    · rename_i ha
      cases h
      exact .inr ⟨ha, rfl, o, by rw [← ha]; exact hx⟩
    · rename_i ha
      cases h
      exact .inl ⟨ha, hx⟩
  · rintro (⟨h, hx⟩ | ⟨rfl, rfl, o, hx⟩)
    · exact ⟨_, hx, by simp [h]⟩
    · exact ⟨_, hx, by simp⟩

theorem write_names (l : List (Str × UDatum)) (n : Str) (d : UDatum) : (writeUser l n d).map Prod.fst = l.map Prod.fst := by
  unfold writeUser
  rw [List.map_map]
  apply List.map_congr_left
  intro x _
  simp only [Function.comp]
  split <;> rfl

theorem unique_names (p : UPolicy) : UniqueUsers p ↔ (p.users.map Prod.fst).Pairwise (· ≠ ·) := by
  unfold UniqueUsers
  rw [List.pairwise_map]

/-- C102: a user record is accepted exactly if its roles exist in the policy, and it has a valid default level and range in an MLS policy and
none of them otherwise. -/
theorem C102_accept_iff (p : UPolicy) (r : UserRec) : (userModify p r).1 = true ↔ UserFits p r := by
  unfold userModify
  cases h : userOf p.users r.name with
  | some old => exact (fill_ok p r old.value).1
  | none =>
    dsimp only
    rw [← (fill_ok p r 0).1]
    cases (fillUser p r (initDatum 0)).1 <;> simp

/-- C102: a user whose record is accepted has exactly the roles that those of the record dominate, and the level and range of the record; its
number stays, or is the next one if the user is new; nothing else changes. -/
theorem C102_user {p p' : UPolicy} (hu : UniqueUsers p) {r : UserRec} (h : userModify p r = (true, p')) :
    (∃ d, HasUser p' r.name d ∧ Says p r d ∧
      ((∃ old, HasUser p r.name old ∧ d.value = old.value ∧ p'.nprim = p.nprim) ∨
        ((∀ old, ¬ HasUser p r.name old) ∧ d.value = p.nprim + 1 ∧ p'.nprim = p.nprim + 1))) ∧
    (∀ n d, n ≠ r.name → (HasUser p' n d ↔ HasUser p n d)) ∧ UniqueUsers p' ∧
    p'.roleTable = p.roleTable ∧ p'.mls = p.mls ∧ p'.mlsOf = p.mlsOf := by
  unfold userModify at h
  cases ho : userOf p.users r.name with
  | some old =>
    rw [ho] at h
    have e := Prod.mk.inj h
    obtain ⟨_, f2, f3⟩ := fill_ok p r old.value
    obtain ⟨f2, _⟩ := f2 e.1
    rw [← e.2]
    have hold := (userOf_some hu).mp ho
    refine ⟨⟨_, write_has.mpr (.inr ⟨rfl, rfl, old, hold⟩), f2, .inl ⟨old, hold, f3, rfl⟩⟩, fun n d hn => ?_, ?_, rfl, rfl, rfl⟩
    · exact write_has.trans ⟨fun h => h.elim (·.2) (fun h => absurd h.1 hn), fun h => .inl ⟨hn, h⟩⟩
    · rw [unique_names] at hu ⊢
      dsimp only
      rw [write_names]
      exact hu
  | none =>
    rw [ho] at h
    dsimp only at h
    obtain ⟨_, f2, f3⟩ := fill_ok p r 0
    split at h
    · cases (Prod.mk.inj h).1
    · rename_i hok
      have e := Prod.mk.inj h
      obtain ⟨f2, _⟩ := f2 (by simpa using hok)
      rw [← e.2]
      rw [userOf_none] at ho
      refine ⟨⟨_, List.mem_append.mpr (.inr (List.mem_singleton.mpr rfl)), f2, .inr ⟨ho, rfl, rfl⟩⟩, fun n d hn => ?_, ?_, rfl, rfl, rfl⟩
      · unfold HasUser
        simp [hn]
      · unfold UniqueUsers at hu ⊢
        dsimp only
        rw [List.pairwise_append]
        refine ⟨hu, by simp, fun a ha b hb => ?_⟩
        rw [List.mem_singleton] at hb
        subst hb
        intro e
        have : a = (r.name, a.2) := Prod.ext e rfl
        rw [this] at ha
        exact ho a.2 ha

/-- C102: after all local records have been merged every user with a record is as its record says, and every other user as before. -/
theorem C102_users : ∀ {rs : List UserRec} {p p' : UPolicy}, UniqueUsers p → rs.Pairwise (fun a b => a.name ≠ b.name) →
    loadUsers rs p = (true, p') →
    (∀ r ∈ rs, UserFits p r ∧ ∃ d, HasUser p' r.name d ∧ Says p r d) ∧
    (∀ n d, (∀ r ∈ rs, r.name ≠ n) → (HasUser p' n d ↔ HasUser p n d)) := by
  intro rs
  induction rs with
  | nil => intro p p' _ _ h; cases h; simp
  | cons r rs ih =>
    intro p p' hu hn h
    rw [loadUsers] at h
    split at h
    · cases (Prod.mk.inj h).1
    · rename_i hok
      have hok : (userModify p r).1 = true := by simpa using hok
      obtain ⟨⟨d, d1, d2, _⟩, d3, d4, d5, d6, d7⟩ := C102_user hu (r := r) (p' := (userModify p r).2) (by rw [← hok])
      rw [List.pairwise_cons] at hn
      obtain ⟨i1, i2⟩ := ih d4 hn.2 h
      have hsays : ∀ t e, Says (userModify p r).2 t e ↔ Says p t e := by intro t e; unfold Says; rw [d5, d6, d7]
      have hfits : ∀ t, UserFits (userModify p r).2 t ↔ UserFits p t := by intro t; unfold UserFits; rw [d5, d6, d7]
      refine ⟨fun t ht => ?_, fun n e hne => ?_⟩
      · rcases List.mem_cons.mp ht with rfl | ht
        · exact ⟨(C102_accept_iff p t).mp hok, d, (i2 t.name d fun x hx => (hn.1 x hx).symm).mpr d1, d2⟩
        · obtain ⟨a, e, b, c⟩ := i1 t ht
          exact ⟨(hfits t).mp a, e, b, (hsays t e).mp c⟩
      · rw [i2 n e fun x hx => hne x (by simp [hx])]
        exact d3 n e (fun h => hne r (by simp) h.symm)

/-- C102: a new user may take exactly the roles of its record in a context.  What is missing: users that were in the policy before
(`C102_roles_refuted`). -/
theorem C102_roles_partial {p p' : UPolicy} (hu : UniqueUsers p) {r : UserRec} (hnew : ∀ d, ¬ HasUser p r.name d)
    (h : userModify p r = (true, p')) (b : Nat) :
    userHasRole p' r.name b = true ↔ ∃ x ∈ r.roles, ∃ dom, p.roleTable x = some dom ∧ b ∈ dom := by
  obtain ⟨_, _, hu', _⟩ := C102_user hu h
  unfold userModify at h
  rw [userOf_none.mpr hnew] at h
  dsimp only at h
  obtain ⟨_, f2, f3⟩ := fill_ok p r 0
  split at h
  · cases (Prod.mk.inj h).1
  · rename_i hok
    have e := Prod.mk.inj h
    obtain ⟨f2, _⟩ := f2 (by simpa using hok)
    have hd : HasUser p' r.name { (fillUser p r (initDatum 0)).2 with value := p.nprim + 1, cache := (fillUser p r (initDatum 0)).2.roles } := by
      rw [← e.2]; exact List.mem_append.mpr (.inr (List.mem_singleton.mpr rfl))
    unfold userHasRole
    rw [(userOf_some hu').mpr hd]
    dsimp only
    rw [List.contains_iff_mem, f2.1]

/-- C102: a record that is refused leaves the policy as it was if the user is new.  What is missing: users that are in the policy
(`C102_refused_refuted`). -/
theorem C102_refused_partial {p p' : UPolicy} {r : UserRec} (hnew : ∀ d, ¬ HasUser p r.name d) (h : userModify p r = (false, p')) : p' = p := by
  unfold userModify at h
  rw [userOf_none.mpr hnew] at h
  dsimp only at h
  split at h
  · exact (Prod.mk.inj h).2.symm
  · cases (Prod.mk.inj h).1

/-- A policy with one user that has role 3. -/
def exPolicy : UPolicy where
  roleTable := fun s => if s = "staff_r".toList then some [2] else if s = "sysadm_r".toList then some [2, 3] else none
  users := [("joe".toList, ⟨1, [2], [2], ⟨0, Ebitmap.init⟩, emptyRange⟩)]
  nprim := 1
  mls := false
  mlsOf := fun _ => none

/-- C102: a user that was in the policy has, after an accepted modification, none of its roles as far as the validity of contexts goes, until
the policy is written and read again. -/
theorem C102_roles_refuted : ∃ (p p' : UPolicy) (r : UserRec), UniqueUsers p ∧ userModify p r = (true, p') ∧ r.roles = ["staff_r".toList] ∧
    p.roleTable "staff_r".toList = some [2] ∧ userHasRole p r.name 2 = true ∧ userHasRole p' r.name 2 = false :=
  ⟨exPolicy, (userModify exPolicy ⟨"joe".toList, ["staff_r".toList], none, none⟩).2, ⟨"joe".toList, ["staff_r".toList], none, none⟩,
    List.pairwise_singleton _ _, Prod.ext (by decide) rfl, rfl, by decide, by decide, by decide⟩

/-- C102: a modification that is refused because of an unknown role takes all roles away from the user. -/
theorem C102_refused_refuted : ∃ (p p' : UPolicy) (r : UserRec), UniqueUsers p ∧ userModify p r = (false, p') ∧
    (∃ d, HasUser p r.name d ∧ d.roles = [2]) ∧ ∃ d, HasUser p' r.name d ∧ d.roles = [] := by
  refine ⟨exPolicy, (userModify exPolicy ⟨"joe".toList, ["nobody_r".toList], none, none⟩).2, ⟨"joe".toList, ["nobody_r".toList], none, none⟩,
    List.pairwise_singleton _ _, Prod.ext (by decide) rfl, ⟨⟨1, [2], [2], ⟨0, Ebitmap.init⟩, emptyRange⟩, List.mem_singleton.mpr rfl, rfl⟩,
    ⟨initDatum 1, ?_, rfl⟩⟩
  have : (userModify exPolicy ⟨"joe".toList, ["nobody_r".toList], none, none⟩).2.users = [("joe".toList, initDatum 1)] := by decide
  unfold HasUser
  rw [this]
  simp

example : (userModify exPolicy ⟨"ann".toList, ["sysadm_r".toList], none, none⟩).1 = true ∧
    userHasRole (userModify exPolicy ⟨"ann".toList, ["sysadm_r".toList], none, none⟩).2 "ann".toList 3 = true ∧
    (userModify exPolicy ⟨"ann".toList, ["no_r".toList], none, none⟩).1 = false := by decide

/-! ## Booleans -/

/-- The boolean `n` has the value `v`. -/
def BPolicy.Is (p : BPolicy) (n : Str) (v : Bool) : Prop := (n, v) ∈ p.bools

/-- Names are unique. -/
def BPolicy.Unique (p : BPolicy) : Prop := p.bools.Pairwise (fun a b => a.1 ≠ b.1)

def BPolicy.Has (p : BPolicy) (n : Str) : Prop := ∃ v, p.Is n v

theorem has_any {p : BPolicy} {n : Str} : p.bools.any (fun b => b.1 = n) = true ↔ p.Has n := by
  rw [List.any_eq_true]
  constructor
  · rintro ⟨⟨m, v⟩, h, e⟩
    have : m = n := by simpa using e
    subst this
    exact ⟨v, h⟩
  · rintro ⟨v, h⟩; exact ⟨_, h, by simp⟩

theorem boolSet_some {p p' : BPolicy} {r : Str × Int} : boolSet p r = some p' ↔ p.Has r.1 ∧ (r.2 = 0 ∨ r.2 = 1) ∧
    p' = ⟨p.bools.map (fun b => if b.1 = r.1 then (b.1, decide (r.2 = 1)) else b),
      p.bools.map (fun b => if b.1 = r.1 then (b.1, decide (r.2 = 1)) else b)⟩ := by
  unfold boolSet
  rw [← has_any]
  cases h : p.bools.any (fun b => b.1 = r.1) with
  | false => simp
  | true =>
    simp only [Bool.true_eq_false, if_false, true_and]
    split
    · simp; omega
    · simp only [Option.some.injEq]
      exact ⟨fun h => ⟨by omega, h.symm⟩, fun h => h.2.symm⟩

theorem set_is {bs : List (Str × Bool)} {r : Str × Int} {n : Str} {v : Bool} :
    (n, v) ∈ bs.map (fun b => if b.1 = r.1 then (b.1, decide (r.2 = 1)) else b) ↔
      (n ≠ r.1 ∧ (n, v) ∈ bs) ∨ (n = r.1 ∧ v = decide (r.2 = 1) ∧ ∃ w, (n, w) ∈ bs) := by
  rw [List.mem_map]
  constructor
  · rintro ⟨⟨a, o⟩, hx, h⟩
    dsimp only at h
    split at h
    · rename_i ha
      cases h
      exact .inr ⟨ha, rfl, o, hx⟩
    · rename_i ha
      cases h
      exact .inl ⟨ha, hx⟩
  · rintro (⟨h, hx⟩ | ⟨rfl, rfl, o, hx⟩)
    · exact ⟨_, hx, by simp [h]⟩
    · exact ⟨_, hx, by simp⟩

theorem load_bools : ∀ {rs : List (Str × Int)} {p p' : BPolicy}, rs.Pairwise (fun a b => a.1 ≠ b.1) → loadRecords boolSet rs p = some p' →
    (∀ n, p'.Has n ↔ p.Has n) ∧
    (∀ r ∈ rs, (r.2 = 0 ∨ r.2 = 1) ∧ p.Has r.1 ∧ ∀ v, p'.Is r.1 v → v = decide (r.2 = 1)) ∧
    (∀ n v, (∀ r ∈ rs, r.1 ≠ n) → (p'.Is n v ↔ p.Is n v)) ∧
    (rs ≠ [] ∨ p.evaluated = p.bools → p'.evaluated = p'.bools) := by
  intro rs
  induction rs with
  | nil => intro p p' _ h; cases h; simp
  | cons r rs ih =>
    intro p p' hn h
    rw [List.pairwise_cons] at hn
    rw [loadRecords] at h
    cases hb : boolSet p r with
    | none => rw [hb] at h; cases h
    | some q =>
      rw [hb] at h
      dsimp only at h
      rw [boolSet_some] at hb
      obtain ⟨b1, b2, rfl⟩ := hb
      obtain ⟨i1, i2, i3, i4⟩ := ih hn.2 h
      have hhas : ∀ n, BPolicy.Has ⟨p.bools.map (fun b => if b.1 = r.1 then (b.1, decide (r.2 = 1)) else b),
          p.bools.map (fun b => if b.1 = r.1 then (b.1, decide (r.2 = 1)) else b)⟩ n ↔ p.Has n := by
        intro n
        constructor
        · rintro ⟨v, hv⟩
          rcases set_is.mp hv with ⟨_, h⟩ | ⟨_, _, w, h⟩
          · exact ⟨v, h⟩
          · exact ⟨w, h⟩
        · rintro ⟨v, hv⟩
          by_cases e : n = r.1
          · exact ⟨_, set_is.mpr (.inr ⟨e, rfl, v, hv⟩)⟩
          · exact ⟨v, set_is.mpr (.inl ⟨e, hv⟩)⟩
      refine ⟨fun n => (i1 n).trans (hhas n), fun t ht => ?_, fun n v hne => ?_, fun _ => i4 (.inr rfl)⟩
      · rcases List.mem_cons.mp ht with rfl | ht
        · refine ⟨b2, b1, fun v hv => ?_⟩
          rw [i3 t.1 v fun x hx => (hn.1 x hx).symm] at hv
          rcases set_is.mp hv with ⟨h, _⟩ | ⟨_, h, _⟩
          · exact absurd rfl h
          · exact h
        · obtain ⟨a, b, c⟩ := i2 t ht
          exact ⟨a, (hhas _).mp b, c⟩
      · rw [i3 n v fun x hx => hne x (by simp [hx])]
        have hr : n ≠ r.1 := fun e => hne r (by simp) e.symm
        exact set_is.trans ⟨fun h => h.elim (·.2) (fun h => absurd h.1 hr), fun h => .inl ⟨hr, h⟩⟩

theorem clear_db (p : BPolicy) (x : Str × Int) : ∀ (rs db : List (Str × Int)),
    x ∈ rs.foldl (fun db r => if p.bools.any (fun b => b.1 = r.1) then db else db.filter (fun x => x.1 ≠ r.1)) db ↔
      x ∈ db ∧ ∀ r ∈ rs, r.1 = x.1 → p.Has r.1 := by
  intro rs
  induction rs with
  | nil => intro db; simp
  | cons r rs ih =>
    intro db
    rw [List.foldl_cons, ih]
    by_cases h : p.bools.any (fun b => b.1 = r.1) = true
    · rw [if_pos h]
      rw [has_any] at h
      simp [h]
    · rw [if_neg h]
      rw [has_any] at h
      simp only [List.mem_filter, ne_eq, decide_not, Bool.not_eq_eq_eq_not, Bool.not_true, decide_eq_false_iff_not, List.mem_cons, forall_eq_or_imp]
      constructor
      · rintro ⟨⟨h1, h2⟩, h3⟩; exact ⟨h1, fun e => absurd e.symm h2, h3⟩
      · rintro ⟨h1, h2, h3⟩; exact ⟨⟨h1, fun e => h (h2 e.symm)⟩, h3⟩

/-- C102: after the merge every boolean of the policy has the value of its local record, or its own one if there is none; there are the same
booleans; the conditionals have been evaluated for these values; exactly the records of booleans that are not in the policy are gone from the
local database. -/
theorem C102_bools {p p' : BPolicy} {rs rs' : List (Str × Int)} (hn : rs.Pairwise (fun a b => a.1 ≠ b.1)) (he : p.evaluated = p.bools)
    (h : mergeBools rs p = some (p', rs')) :
    (∀ n v, p'.Is n v ↔ p.Has n ∧ (((n, 1) ∈ rs ∧ v = true) ∨ ((n, 0) ∈ rs ∧ v = false) ∨ ((∀ i, (n, i) ∉ rs) ∧ p.Is n v))) ∧
    p'.evaluated = p'.bools ∧ (∀ r, r ∈ rs' ↔ r ∈ rs ∧ p.Has r.1) := by
  unfold mergeBools at h
  dsimp only [clearObsolete] at h
  cases hl : loadRecords boolSet (rs.filter fun r => p.bools.any fun b => b.1 = r.1) p with
  | none => rw [hl] at h; cases h
  | some q =>
    rw [hl] at h
    simp only [Option.some.injEq, Prod.mk.injEq] at h
    obtain ⟨rfl, rfl⟩ := h
    obtain ⟨i1, i2, i3, i4⟩ := load_bools (hn.filter _) hl
    have hmem : ∀ r, r ∈ rs.filter (fun r => p.bools.any fun b => b.1 = r.1) ↔ r ∈ rs ∧ p.Has r.1 := by
      intro r; rw [List.mem_filter, has_any]
    have huniq : ∀ n i j, (n, i) ∈ rs → (n, j) ∈ rs → i = j := by
      intro n i j hi hj
      clear hl i1 i2 i3 i4 hmem
      induction rs with
      | nil => cases hi
      | cons r rs ih =>
        rw [List.pairwise_cons] at hn
        rcases List.mem_cons.mp hi with hi' | hi' <;> rcases List.mem_cons.mp hj with hj' | hj'
        · rw [← hj'] at hi'; exact (Prod.mk.inj hi').2
        · exact absurd (by rw [← hi']) (hn.1 _ hj')
        · exact absurd (by rw [← hj']) (hn.1 _ hi')
        · exact ih hn.2 hi' hj'
    refine ⟨fun n v => ?_, i4 (.inr he), fun r => ?_⟩
    · by_cases hex : ∃ i, (n, i) ∈ rs
      · obtain ⟨i, hi⟩ := hex
        constructor
        · intro hv
          have hh : p.Has n := (i1 n).mp ⟨v, hv⟩
          obtain ⟨a, b, c⟩ := i2 (n, i) ((hmem _).mpr ⟨hi, hh⟩)
          have hv' := c v hv
          rcases a with a | a <;> dsimp only at a <;> subst a
          · exact ⟨hh, .inr (.inl ⟨hi, by simpa using hv'⟩)⟩
          · exact ⟨hh, .inl ⟨hi, by simpa using hv'⟩⟩
        · rintro ⟨hh, hc⟩
          obtain ⟨a, b, c⟩ := i2 (n, i) ((hmem _).mpr ⟨hi, hh⟩)
          obtain ⟨w, hw⟩ := (i1 n).mpr hh
          have hw' := c w hw
          dsimp only at hw'
          rcases hc with ⟨h1, rfl⟩ | ⟨h1, rfl⟩ | ⟨h1, _⟩
          · obtain rfl := huniq n i 1 hi h1
            have : w = true := by simpa using hw'
            exact this ▸ hw
          · obtain rfl := huniq n i 0 hi h1
            have : w = false := by simpa using hw'
            exact this ▸ hw
          · exact absurd hi (h1 i)
      · have hno : ∀ i, (n, i) ∉ rs := fun i hi => hex ⟨i, hi⟩
        rw [i3 n v (fun r hr e => hno r.2 (by rw [← e]; exact ((hmem r).mp hr).1))]
        constructor
        · exact fun h => ⟨⟨v, h⟩, .inr (.inr ⟨hno, h⟩)⟩
        · rintro ⟨_, ⟨h, _⟩ | ⟨h, _⟩ | ⟨_, h⟩⟩
          · exact absurd h (hno _)
          · exact absurd h (hno _)
          · exact h
    · rw [clear_db]
      constructor
      · rintro ⟨h1, h2⟩; exact ⟨h1, h2 r h1 rfl⟩
      · rintro ⟨h1, h2⟩; exact ⟨h1, fun t _ e => e ▸ h2⟩

/-- C102: the merge of booleans fails exactly if the local record of a boolean of the policy has a value other than 0 and 1. -/
theorem C102_bools_fail {p : BPolicy} {rs : List (Str × Int)} :
    mergeBools rs p = none ↔ ∃ r ∈ rs, p.Has r.1 ∧ r.2 ≠ 0 ∧ r.2 ≠ 1 := by
  have key : ∀ (l : List (Str × Int)) (q : BPolicy), (∀ n, q.Has n ↔ p.Has n) → (∀ r ∈ l, p.Has r.1) →
      (loadRecords boolSet l q = none ↔ ∃ r ∈ l, r.2 ≠ 0 ∧ r.2 ≠ 1) := by
    intro l
    induction l with
    | nil => intro q _ _; simp [loadRecords]
    | cons r l ih =>
      intro q hq hl
      rw [loadRecords]
      cases hb : boolSet q r with
      | none =>
        simp only [List.mem_cons, exists_eq_or_imp, true_iff]
        left
        by_contra hcon
        have : boolSet q r = some _ := boolSet_some.mpr ⟨(hq _).mpr (hl r (by simp)), by omega, rfl⟩
        rw [hb] at this; cases this
      | some q' =>
        obtain ⟨b1, b2, rfl⟩ := boolSet_some.mp hb
        dsimp only
        rw [ih _ ?_ (fun t ht => hl t (by simp [ht]))]
        · simp only [List.mem_cons, exists_eq_or_imp]
          exact ⟨.inr, fun h => h.elim (fun h => b2.elim (fun b => absurd b h.1) (fun b => absurd b h.2)) id⟩
        · intro n
          rw [← hq n]
          constructor
          · rintro ⟨v, hv⟩
            rcases set_is.mp hv with ⟨_, h⟩ | ⟨_, _, w, h⟩
            · exact ⟨v, h⟩
            · exact ⟨w, h⟩
          · rintro ⟨v, hv⟩
            by_cases e : n = r.1
            · exact ⟨_, set_is.mpr (.inr ⟨e, rfl, v, hv⟩)⟩
            · exact ⟨v, set_is.mpr (.inl ⟨e, hv⟩)⟩
  have h1 := key (rs.filter fun r => p.bools.any fun b => b.1 = r.1) p (fun _ => Iff.rfl)
    (fun r hr => has_any.mp (List.mem_filter.mp hr).2)
  have h2 : mergeBools rs p = none ↔ loadRecords boolSet (rs.filter fun r => p.bools.any fun b => b.1 = r.1) p = none := by
    unfold mergeBools
    dsimp only [clearObsolete]
    cases loadRecords boolSet (rs.filter fun r => p.bools.any fun b => b.1 = r.1) p <;> simp
  rw [h2, h1]
  constructor
  · rintro ⟨r, hr, h⟩
    rw [List.mem_filter, has_any] at hr
    exact ⟨r, hr.1, hr.2, h⟩
  · rintro ⟨r, hr, hh, h⟩
    exact ⟨r, by rw [List.mem_filter, has_any]; exact ⟨hr, hh⟩, h⟩

example : mergeBools [("b".toList, 1), ("gone".toList, 1)] ⟨[("a".toList, true), ("b".toList, false)], [("a".toList, true), ("b".toList, false)]⟩ =
    some (⟨[("a".toList, true), ("b".toList, true)], [("a".toList, true), ("b".toList, true)]⟩, [("b".toList, 1)]) := by decide

end Verif.LocalPol
