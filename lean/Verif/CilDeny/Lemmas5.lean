import Verif.CilDeny.Lemmas4

/-!
# Lemmas on the processing of deny rules
-/

namespace Verif.CilDeny
open Ebitmap (Ebitmap)

theorem perms_and (l1 l2 : List CP) (c p : Nat) : Perms (listAnd l1 l2) c p ↔ Perms l1 c p ∧ Perms l2 c p := by
  simp only [perms_iff, listAnd_iff]

theorem perms_andnot (l1 l2 : List CP) (c p : Nat) :
    Perms (listAndnot l1 l2) c p ↔ Perms l1 c p ∧ ¬ Perms l2 c p := by
  simp only [perms_iff, listAndnot_iff]

theorem perms_nil (c p : Nat) : ¬ Perms [] c p := fun ⟨_, h, _⟩ => by cases h

theorem removeFrom_ok {db : Db} (ok : DbOk db) {r : Rule} {d : Deny} (o1 : r.src.Ok db.numTypes)
    (o2 : r.tgt.Ok db.numTypes) (o3 : d.src.Ok db.numTypes) (o4 : d.tgt.Ok db.numTypes)
    (hm : targetsMatch r.src r.tgt d.src d.tgt = .ok true) (hp : ∃ a, a ∈ flat r.perms ∧ a ∈ flat d.perms) :
    Replaces db r.cond (fun s t c p => Covers db.numTypes r.src r.tgt s t ∧ Perms r.perms c p ∧
      ¬ (Covers db.numTypes d.src d.tgt s t ∧ Perms d.perms c p)) (removeFrom db r d) := by
  obtain ⟨cond, kind, s1, t1, p1⟩ := r
  obtain ⟨s2, t2, p2⟩ := d
  simp only at o1 o2 o3 o4 hm hp ⊢
  have hp4 : (listAnd p1 p2).isEmpty = false := by
    obtain ⟨a, ha⟩ := hp
    have := (listAnd_iff p1 p2 a).2 ha
    cases hl : listAnd p1 p2 with
    | nil => rw [hl] at this; simp [flat] at this
    | cons => rfl
  -- what is left of the permissions that are not denied
  have g1 : Grants db.numTypes cond (fun s t c p => Covers db.numTypes s1 t1 s t ∧ Perms p1 c p ∧ ¬ Perms p2 c p)
      (if (listAndnot p1 p2).isEmpty then [] else addRule cond (some s1) (some t1) (listAndnot p1 p2)) := by
    split
    · rename_i he
      rw [List.isEmpty_iff] at he
      refine (grants_nil _ _).congr fun s t c p => ?_
      rw [← perms_andnot, he]
      simp [perms_nil]
    · refine (grants_add (Datum.Ok.opt o1) (fun t h => by cases h; exact o2)).congr fun s t c p => ?_
      rw [ocov_some, perms_andnot]
  obtain ⟨db1, s3, e3, k3, n3, a3, b3⟩ := andNot_ok ok (Datum.Ok.opt o1) (Datum.Ok.opt o3)
  -- the sources that are not denied
  have g2 : Grants db.numTypes cond (fun s t c p => (OMem s3 s ∧ (t1 = .other → OMem s3 t) ∧
      Covers db.numTypes s1 t1 s t) ∧ Perms (listAnd p1 p2) c p) (addRule cond s3 (some t1) (listAnd p1 p2)) := by
    by_cases ht : t1 = .other
    · subst ht
      refine (grants_otherTgt a3).congr fun s t c p => ?_
      simp only [b3, omem_some, Covers]
      by_cases hc : Perms (listAnd p1 p2) c p <;> simp only [hc, and_true, and_false]
      clear * -; tauto
    · refine (grants_tgt (src := s1) a3 o2 (fun s hs => ((b3 s).1 hs).1) ht).congr fun s t c p => ?_
      simp only [ht, false_imp_iff, true_and]
  have e1 : db1.numTypes = db.numTypes := n3
  by_cases hss : (t1 = .self ∧ t2 = .self) ∨ (t1 = .notself ∧ t2 = .notself)
  · refine ⟨db1, _, by simp [removeFrom, hp4, e3, hss, bind, Except.bind, pure, Except.pure], k3, n3,
      (g1.append g2).congr fun s t c p => ?_⟩
    simp only [b3, omem_some, perms_and]
    rcases hss with ⟨rfl, rfl⟩ | ⟨rfl, rfl⟩ <;> simp only [Covers, reduceCtorEq, false_imp_iff, true_and]
    · clear * -; tauto
    · clear * -; tauto
  · obtain ⟨db2, s4, e4, k4, n4, a4, b4⟩ := both_ok k3 (o1 := some s1) (o2 := some s2)
      (by rw [e1]; exact Datum.Ok.opt o1) (by rw [e1]; exact Datum.Ok.opt o3)
    rw [e1] at n4 a4
    -- the rest, in terms of what the cases do
    have key : ∀ (res : Except Stop (Db × List Rule)) (Q : Nat → Nat → Prop),
        Replaces db2 cond (fun s t c p => Q s t ∧ Perms (listAnd p1 p2) c p) res →
        (∀ s t, Covers db.numTypes s1 t1 s t → ((OMem s3 s ∧ (t1 = .other → OMem s3 t)) ∨ Q s t ↔
          ¬ Covers db.numTypes s2 t2 s t)) →
        (∀ s t, Q s t → Covers db.numTypes s1 t1 s t) →
        (removeFrom db ⟨cond, kind, s1, t1, p1⟩ ⟨s2, t2, p2⟩ =
          match res with
          | .error e => .error e
          | .ok (db3, new3) => .ok (db3,
              (if (listAndnot p1 p2).isEmpty then [] else addRule cond (some s1) (some t1) (listAndnot p1 p2)) ++
              addRule cond s3 (some t1) (listAnd p1 p2) ++ new3)) →
        Replaces db cond (fun s t c p => Covers db.numTypes s1 t1 s t ∧ Perms p1 c p ∧
          ¬ (Covers db.numTypes s2 t2 s t ∧ Perms p2 c p)) (removeFrom db ⟨cond, kind, s1, t1, p1⟩ ⟨s2, t2, p2⟩) := by
      rintro res Q ⟨db3, l, rfl, k5, n5, g5⟩ hQ hQ2 heq
      rw [heq]
      rw [n4] at n5 g5
      refine ⟨db3, _, rfl, k5, n5, ((g1.append g2).append g5).congr fun s t c p => ?_⟩
      have q1 := hQ s t
      have q2 := hQ2 s t
      rw [perms_and]
      by_cases hc : Covers db.numTypes s1 t1 s t
      · have q1 := q1 hc
        simp only [hc, true_and, and_true]
        clear * - q1
        tauto
      · have q2 : ¬ Q s t := fun h => hc (q2 h)
        simp only [hc, q2, false_and, and_false, or_false]
    have hsub : ∀ s t, Covers db.numTypes s1 t1 s t → s1.Mem s := fun s t h => covers_src h
    by_cases hsp : t1 = .notself ∨ t1 = .other ∨ t2 = .notself ∨ t2 = .other
    · have hR := removeSpecial_ok k4 cond (s1 := s1) (s2 := s2) (t1 := t1) (t2 := t2) (p4 := listAnd p1 p2)
        (s3 := s3) (s4 := s4) (by rw [n4]; exact o1) (by rw [n4]; exact o2) (by rw [n4]; exact o3)
        (by rw [n4]; exact o4) (by rw [n4]; exact a3) (by rw [n4]; exact a4)
        (fun s => b3 s) (fun s => b4 s) hm hsp (fun h => hss (.inr h))
      rw [n4] at hR
      refine key _ _ hR ?_ (fun s t h => h.2.1) ?_
      · intro s t hc
        simp only [b3, b4, omem_some]
        have h1 := covers_src hc
        have h2 : Covers db.numTypes s2 t2 s t → s2.Mem s := fun h => covers_src h
        by_cases ht : t1 = .other
        · subst ht
          have h3 := hc.2.1
          simp only [hc, h1, h3, true_and, true_imp_iff]
          clear * - h2
          tauto
        · simp only [hc, h1, ht, true_and, false_and, false_imp_iff, false_or, and_true]
          clear * - h2
          tauto
      · have hne : ¬ ((t1 = .self ∧ ∃ x, t2 = .datum x) ∨ (∃ x, t1 = .datum x ∧ t2 = .self) ∨
            (∃ x y, t1 = .datum x ∧ t2 = .datum y)) := by
          rcases hsp with rfl | rfl | rfl | rfl <;> simp
        rcases hres : removeSpecial db2 cond s1 t1 s2 t2 (listAnd p1 p2) s3 s4 with e | ⟨db3, l⟩ <;>
        rcases t1 with _ | _ | _ | t1 <;> rcases t2 with _ | _ | _ | t2 <;>
        first
          | (exfalso; simp at hne; done)
          | (exfalso; simp at hss; done)
          | simp [removeFrom, hp4, e3, e4, hres, bind, Except.bind, pure, Except.pure]
    · rcases t1 with _ | _ | _ | t1
      · rcases t2 with _ | _ | _ | t2
        · simp at hss
        · simp at hsp
        · simp at hsp
        · obtain ⟨db3, s5, e5, k5, n5, a5, b5⟩ := andNot_ok k4 (o1 := s4) (o2 := some t2)
            (by rw [n4]; exact a4) (by rw [n4]; exact Datum.Ok.opt o4)
          refine key (.ok (db3, addRule cond s5 (some .self) (listAnd p1 p2))) _
            ⟨db3, _, rfl, k5, n5, grants_self a5⟩ ?_ ?_ ?_
          · rintro s t ⟨h1, rfl⟩
            simp only [b3, b4, b5, omem_some, Covers, h1, reduceCtorEq, false_imp_iff, true_and, and_true]
            clear * -; tauto
          · rintro s t ⟨h1, rfl⟩
            exact ⟨((b4 _).1 ((b5 _).1 h1).1).1, rfl⟩
          · simp [removeFrom, hp4, e3, e4, e5, bind, Except.bind, pure, Except.pure]
      · simp at hsp
      · simp at hsp
      · rcases t2 with _ | _ | _ | t2
        · obtain ⟨db3, s7, e7, k7, n7, a7, b7⟩ := andNot_ok k4 (o1 := s4) (o2 := some t1)
            (by rw [n4]; exact a4) (by rw [n4]; exact Datum.Ok.opt o2)
          rw [n4] at n7
          obtain ⟨db4, s8, e8, k8, n8, a8, b8⟩ := both_ok k7 (o1 := s4) (o2 := some t1)
            (by rw [n7]; exact a4) (by rw [n7]; exact Datum.Ok.opt o2)
          rw [n7] at n8 a8
          obtain ⟨db5, t8, e9, k9, n9, a9, b9⟩ := andNot_ok k8 (o1 := some t1) (o2 := s4)
            (by rw [n8]; exact Datum.Ok.opt o2) (by rw [n8]; exact a4)
          rw [n8] at n9 a9
          refine key (.ok (db5, _))
            (fun s t => (OMem s7 s ∧ t1.Mem t) ∨ (OMem s8 s ∧ OMem t8 t) ∨ (OMem s8 s ∧ OMem s8 t ∧ t ≠ s))
            ⟨db5, _, rfl, k9, by rw [n9, n4], ((grants_datum (o2 := some t1) (perms := listAnd p1 p2) a7 (by rw [n4]; exact Datum.Ok.opt o2)).append
              ((grants_datum (perms := listAnd p1 p2) (by rw [n4]; exact a8) (by rw [n4]; exact a9)).append
              (grants_other (perms := listAnd p1 p2) (by rw [n4]; exact a8)))).congr fun s t c p => ?_⟩ ?_ ?_ ?_
          · simp only [omem_some]
            clear * -; tauto
          · rintro s t ⟨h1, h2⟩
            simp only [b3, b4, b7, b8, b9, omem_some, Covers, h1, h2, reduceCtorEq, false_imp_iff, true_and, and_true]
            by_cases he : t = s
            · subst he; clear * - h1 h2; simp only [ne_eq, not_true, and_false, and_true, or_false]; tauto
            · clear * - he
              tauto
          · rintro s t h
            simp only [b4, b7, b8, b9, omem_some, Covers] at h ⊢
            clear * - h
            tauto
          · simp [removeFrom, hp4, e3, e4, e7, e8, e9, bind, Except.bind, pure, Except.pure]
        · simp at hsp
        · simp at hsp
        · obtain ⟨db3, t3, e5, k5, n5, a5, b5⟩ := andNot_ok k4 (o1 := some t1) (o2 := some t2)
            (by rw [n4]; exact Datum.Ok.opt o2) (by rw [n4]; exact Datum.Ok.opt o4)
          refine key (.ok (db3, addRule cond s4 (t3.map .datum) (listAnd p1 p2))) _
            ⟨db3, _, rfl, k5, n5, grants_datum (by rw [n4]; exact a4) a5⟩ ?_ ?_ ?_
          · rintro s t ⟨h1, h2⟩
            simp only [b3, b4, b5, omem_some, Covers, h1, h2, reduceCtorEq, false_imp_iff, true_and, and_true]
            clear * -; tauto
          · rintro s t ⟨h1, h2⟩
            exact ⟨((b4 _).1 h1).1, ((b5 _).1 h2).1⟩
          · simp [removeFrom, hp4, e3, e4, e5, bind, Except.bind, pure, Except.pure]

theorem granted_cons {n : Nat} {r : Rule} {l : List Rule} {k cond s t c p} :
    Granted n (r :: l) k cond s t c p ↔
      (r.kind = k ∧ r.cond = cond ∧ Covers n r.src r.tgt s t ∧ Perms r.perms c p) ∨ Granted n l k cond s t c p := by
  simp only [Granted, List.mem_cons, or_and_right, exists_or, exists_eq_left]

theorem granted_append {n : Nat} {l l' : List Rule} {k cond s t c p} :
    Granted n (l ++ l') k cond s t c p ↔ Granted n l k cond s t c p ∨ Granted n l' k cond s t c p := by
  simp only [Granted, List.mem_append, or_and_right, exists_or]

/-- One deny rule. -/
theorem processDeny_ok {n : Nat} (hn : n < 2 ^ 31) {d : Deny} (h3 : d.src.Ok n) (h4 : d.tgt.Ok n) (rules : List Rule) :
    ∀ db, DbOk db → db.numTypes = n → RulesOk n rules →
    ∃ l db' rules', findMatching d rules = .ok l ∧ replaceAll d db l = .ok (db', rules') ∧ DbOk db' ∧
      db'.numTypes = n ∧ RulesOk n rules' ∧
      ∀ k cond s t c p, Granted n rules' k cond s t c p ↔
        Granted n rules k cond s t c p ∧
          ¬ (k = .allowed ∧ Covers n d.src d.tgt s t ∧ Perms d.perms c p) := by
  induction rules with
  | nil =>
    intro db ok e _
    exact ⟨[], db, [], rfl, rfl, ok, e, fun _ h => (by cases h), fun k cond s t c p => by simp [Granted]⟩
  | cons r rs ih =>
    intro db ok e hr
    obtain ⟨o1, o2⟩ := hr r List.mem_cons_self
    have hr' : RulesOk n rs := fun x hx => hr x (List.mem_cons_of_mem _ hx)
    rcases matchingRule_ok hn o1 o2 h3 h4 with ⟨m1, m2⟩ | ⟨m1, m2, m3, m4⟩
    · obtain ⟨l, db', rules', q1, q2, q3, q4, q5, q6⟩ := ih db ok e hr'
      refine ⟨(r, false) :: l, db', r :: rules', by simp [findMatching, m1, q1], by simp [replaceAll, q2], q3, q4,
        fun x hx => ?_, fun k cond s t c p => ?_⟩
      · rcases List.mem_cons.1 hx with rfl | hx
        · exact ⟨o1, o2⟩
        · exact q5 x hx
      · rw [granted_cons, granted_cons, q6]
        have := m2 s t c p
        constructor
        · rintro (⟨rfl, rfl, w1, w2⟩ | h)
          · exact ⟨.inl ⟨rfl, rfl, w1, w2⟩, fun hc => this hc.1 w1 w2 hc.2⟩
          · exact ⟨.inr h.1, h.2⟩
        · rintro ⟨h | h, h'⟩
          · exact .inl h
          · exact .inr ⟨h, h'⟩
    · have hR := removeFrom_ok (db := db) ok (r := r) (d := d) (by rw [e]; exact o1) (by rw [e]; exact o2)
        (by rw [e]; exact h3) (by rw [e]; exact h4) m3 m4
      obtain ⟨db1, new, w1, w2, w3, w4, w5⟩ := hR
      rw [e] at w3 w4
      simp only [e] at w5
      obtain ⟨l, db', rules', q1, q2, q3, q4, q5, q6⟩ := ih db1 w2 w3 hr'
      refine ⟨(r, true) :: l, db', new ++ rules', by simp [findMatching, m1, q1], by simp [replaceAll, w1, q2], q3, q4,
        fun x hx => ?_, fun k cond s t c p => ?_⟩
      · rcases List.mem_append.1 hx with hx | hx
        · exact w4 x hx
        · exact q5 x hx
      · rw [granted_append, granted_cons, q6, w5, m2]
        constructor
        · rintro (⟨rfl, rfl, z1, z2, z3⟩ | h)
          · exact ⟨.inl ⟨rfl, rfl, z1, z2⟩, fun hc => z3 hc.2⟩
          · exact ⟨.inr h.1, h.2⟩
        · rintro ⟨⟨rfl, rfl, z1, z2⟩ | h, h'⟩
          · exact .inl ⟨rfl, rfl, z1, z2, fun hc => h' ⟨rfl, hc⟩⟩
          · exact .inr ⟨h, h'⟩

end Verif.CilDeny
