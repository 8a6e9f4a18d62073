import Verif.CilDeny.Lemmas3
import Mathlib.Tactic.ClearExcept

/-!
# Lemmas on the replacement of rules
-/

namespace Verif.CilDeny
open Ebitmap (Ebitmap)

theorem grants_otherTgt {n : Nat} {cond} {o : Option Datum} {perms : List CP} (h1 : OOk n o) :
    Grants n cond (fun s t c p => (OMem o s ∧ OMem o t ∧ t ≠ s) ∧ Perms perms c p)
      (addRule cond o (some .other) perms) := by
  refine (grants_add h1 (fun t h => by cases h; trivial)).congr fun s t c p => ?_
  cases o with
  | none => simp [OCov, OMem]
  | some d => simp only [ocov_some, Covers, OMem]

/-- A function that replaces rules does what `P` says. -/
def Replaces (db : Db) (cond : Option (Nat × Bool)) (P : Nat → Nat → Nat → Nat → Prop)
    (r : Except Stop (Db × List Rule)) : Prop :=
  ∃ db' l, r = .ok (db', l) ∧ DbOk db' ∧ db'.numTypes = db.numTypes ∧ Grants db.numTypes cond P l

theorem Replaces.congr {db cond P Q r} (h : Replaces db cond P r) (hq : ∀ s t c p, P s t c p ↔ Q s t c p) :
    Replaces db cond Q r := by
  obtain ⟨db', l, h1, h2, h3, h4⟩ := h
  exact ⟨db', l, h1, h2, h3, h4.congr hq⟩

theorem Datum.Ok.opt {n : Nat} {d : Datum} (h : d.Ok n) : OOk n (some d) := fun _ e => by cases e; exact h

theorem omem_some (d : Datum) (t : Nat) : OMem (some d) t ↔ d.Mem t := Iff.rfl

/-- The special rules: what is left of the common sources. -/
theorem removeSpecial_ok {db : Db} (ok : DbOk db) (cond) {s1 s2 : Datum} {t1 t2 : Target} {p4 : List CP}
    {s3 s4 : Option Datum} (o1 : s1.Ok db.numTypes) (o2 : t1.Ok db.numTypes) (o3 : s2.Ok db.numTypes)
    (o4 : t2.Ok db.numTypes) (o5 : OOk db.numTypes s3) (o6 : OOk db.numTypes s4)
    (m3 : ∀ s, OMem s3 s ↔ s1.Mem s ∧ ¬ s2.Mem s) (m4 : ∀ s, OMem s4 s ↔ s1.Mem s ∧ s2.Mem s)
    (hm : targetsMatch s1 t1 s2 t2 = .ok true)
    (hsp : t1 = .notself ∨ t1 = .other ∨ t2 = .notself ∨ t2 = .other)
    (hnn : ¬ (t1 = .notself ∧ t2 = .notself)) :
    Replaces db cond (fun s t c p => (((t1 = .other ∧ OMem s3 s ∧ OMem s4 t) ∨ OMem s4 s) ∧
      Covers db.numTypes s1 t1 s t ∧ ¬ Covers db.numTypes s2 t2 s t) ∧ Perms p4 c p)
      (removeSpecial db cond s1 t1 s2 t2 p4 s3 s4) := by
  cases t1 with
  | self =>
    rcases t2 with _ | _ | _ | t2
    · simp at hsp
    · exact Bool.noConfusion (Except.ok.inj hm)
    · exact Bool.noConfusion (Except.ok.inj hm)
    · simp at hsp
  | notself =>
    rcases t2 with _ | _ | _ | t2
    · exact Bool.noConfusion (Except.ok.inj hm)
    · simp at hnn
    · obtain ⟨db1, ta, e1, k1, n1, a1, b1⟩ := allAndNot_ok ok o3
      refine ⟨db1, _, by simp [removeSpecial, e1, bind, Except.bind, pure, Except.pure]; rfl, k1, n1,
        (grants_datum o6 a1).congr fun s t c p => ?_⟩
      simp only [b1, m3, m4, Covers, reduceCtorEq, false_and, false_or, omem_some]
      by_cases hp : Perms p4 c p <;> simp only [hp, and_true, and_false, or_false]
      by_cases he : t = s
      · subst he; clear * -; simp only [ne_eq, not_true, and_false, and_true, false_and]; tauto
      · simp only [ne_eq, he, not_false_iff, and_true, and_false]; clear * -; tauto
    · obtain ⟨db1, s5, e1, k1, n1, a1, b1⟩ := andNot_ok ok o6 (Datum.Ok.opt o4)
      rw [← n1] at o6
      obtain ⟨db2, s6, e2, k2, n2, a2, b2⟩ := both_ok k1 o6 (Datum.Ok.opt (n1 ▸ o4))
      rw [n1] at n2
      obtain ⟨db3, ta, e3, k3, n3, a3, b3⟩ := allAndNot_ok k2 (d := t2) (n2 ▸ o4)
      rw [n2] at n3
      obtain ⟨db4, tb, e4, k4, n4, a4, b4⟩ := andNot_ok k3 (o1 := ta) (o2 := s4) (by rw [n3, ← n2]; exact a3)
        (by rw [n3, ← n1]; exact o6)
      rw [n3] at n4
      rw [n1] at o6 a2
      rw [n2] at a3 b3
      rw [n3] at a4
      refine ⟨db4, _, by simp [removeSpecial, e1, e2, e3, e4, bind, Except.bind, pure, Except.pure]; rfl, k4, n4,
        ((grants_datum a2 a3).append ((grants_datum a1 a4).append (grants_other a1))).congr fun s t c p => ?_⟩
      have l4 := fun h => o1.lt (t := t) h
      have l5 := fun h => Datum.Ok.lt (d := t2) o4 (t := t) h
      simp only [b1, b2, b4, b3, m3, m4, Covers, reduceCtorEq, false_and, false_or, omem_some]
      by_cases hp : Perms p4 c p <;> simp only [hp, and_true, and_false, or_false]
      by_cases he : t = s
      · subst he; clear * - l4 l5; simp only [ne_eq, not_true, and_false, and_true, false_and, true_and, not_false_iff]; tauto
      · simp only [ne_eq, he, not_false_iff, and_true, and_false]; clear * - l4 l5; tauto
  | other =>
    rcases t2 with _ | _ | _ | t2
    · exact Bool.noConfusion (Except.ok.inj hm)
    · refine ⟨db, _, by simp [removeSpecial, pure, Except.pure]; rfl, ok, rfl,
        (grants_datum o5 o6).congr fun s t c p => ?_⟩
      have l4 := fun h => o1.lt (t := t) h
      simp only [m3, m4, Covers, true_and, omem_some]
      by_cases hp : Perms p4 c p <;> simp only [hp, and_true, and_false, or_false]
      by_cases he : t = s
      · subst he; clear * - l4; simp only [ne_eq, not_true, and_false, and_true, false_and, true_and, not_false_iff]; tauto
      · simp only [ne_eq, he, not_false_iff, and_true, and_false]; clear * - l4; tauto
    · refine ⟨db, _, by simp [removeSpecial, pure, Except.pure]; rfl, ok, rfl,
        ((grants_datum o5 o6).append (grants_datum o6 o5)).congr fun s t c p => ?_⟩
      simp only [m3, m4, Covers, true_and, omem_some]
      by_cases hp : Perms p4 c p <;> simp only [hp, and_true, and_false, or_false]
      by_cases he : t = s
      · subst he; clear * -; simp only [ne_eq, not_true, and_false, and_true, false_and]; tauto
      · simp only [ne_eq, he, not_false_iff, and_true, and_false]; clear * -; tauto
    · obtain ⟨db1, s5, e1, k1, n1, a1, b1⟩ := andNot_ok ok o6 (Datum.Ok.opt o4)
      obtain ⟨db2, s6, e2, k2, n2, a2, b2⟩ := both_ok k1 (o1 := s4) (o2 := some t2) (by rw [n1]; exact o6)
        (by rw [n1]; exact Datum.Ok.opt o4)
      rw [n1] at n2 a2
      obtain ⟨db3, tc, e3, k3, n3, a3, b3⟩ := andNot_ok k2 (o1 := some s1) (o2 := some t2)
        (by rw [n2]; exact Datum.Ok.opt o1) (by rw [n2]; exact Datum.Ok.opt o4)
      rw [n2] at n3 a3
      obtain ⟨db4, td, e4, k4, n4, a4, b4⟩ := andNot_ok k3 (o1 := s3) (o2 := some t2)
        (by rw [n3]; exact o5) (by rw [n3]; exact Datum.Ok.opt o4)
      rw [n3] at n4 a4
      refine ⟨db4, _, by simp [removeSpecial, e1, e2, e3, e4, bind, Except.bind, pure, Except.pure]; rfl, k4, n4,
        ((grants_datum o5 o6).append ((grants_datum a2 a3).append ((grants_datum a1 a4).append
          (grants_other a1)))).congr fun s t c p => ?_⟩
      simp only [b1, b2, b3, b4, m3, m4, Covers, true_and, omem_some]
      by_cases hp : Perms p4 c p <;> simp only [hp, and_true, and_false, or_false]
      by_cases he : t = s
      · subst he; clear * -; simp only [ne_eq, not_true, and_false, and_true, false_and]; tauto
      · simp only [ne_eq, he, not_false_iff, and_true, and_false]; clear * -; tauto
  | datum t1 =>
    obtain ⟨db1, s8, e1, k1, n1, a1, b1⟩ := both_ok ok o6 (Datum.Ok.opt o2)
    rcases t2 with _ | _ | _ | t2
    · simp at hsp
    · refine ⟨db1, _, by simp [removeSpecial, e1, bind, Except.bind, pure, Except.pure]; rfl, k1, n1,
        (grants_self a1).congr fun s t c p => ?_⟩
      have l4 := fun h => Datum.Ok.lt (d := t1) o2 (t := t) h
      simp only [b1, m3, m4, Covers, reduceCtorEq, false_and, false_or, omem_some]
      by_cases hp : Perms p4 c p <;> simp only [hp, and_true, and_false, or_false]
      by_cases he : t = s
      · subst he; clear * - l4; simp only [ne_eq, not_true, and_false, and_true, false_and, true_and, not_false_iff]; tauto
      · simp only [ne_eq, he, not_false_iff, and_true, and_false]; clear * - l4; tauto
    · obtain ⟨db2, t', e2, k2, n2, a2, b2⟩ := andNot_ok k1 (o1 := some t1) (o2 := some s2)
        (by rw [n1]; exact Datum.Ok.opt o2) (by rw [n1]; exact Datum.Ok.opt o3)
      rw [n1] at n2 a2
      refine ⟨db2, _, by simp [removeSpecial, e1, e2, bind, Except.bind, pure, Except.pure]; rfl, k2, n2,
        ((grants_self a1).append (grants_datum o6 a2)).congr fun s t c p => ?_⟩
      simp only [b1, b2, m3, m4, Covers, reduceCtorEq, false_and, false_or, omem_some]
      by_cases hp : Perms p4 c p <;> simp only [hp, and_true, and_false, or_false]
      by_cases he : t = s
      · subst he; clear * -; simp only [ne_eq, not_true, and_false, and_true, false_and]; tauto
      · simp only [ne_eq, he, not_false_iff, and_true, and_false]; clear * -; tauto
    · simp at hsp

end Verif.CilDeny
