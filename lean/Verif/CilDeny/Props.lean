import Verif.CilDeny.Lemmas5

/-!
# C74: deny rules

After the deny rules have been processed, the rules of a policy grant just what they granted before
without what the deny rules deny.
-/

namespace Verif.CilDeny
open Ebitmap (Ebitmap)

/-- C74: whatever the rules and the deny rules of a policy, with types and attributes, `self`,
`notself` and `other`, classes, class maps and sets: the deny rules are processed without error, and
afterwards a permission is allowed (in each branch of each `booleanif`, and outside of them) just if
it was allowed before and no deny rule denies it; the rules of other kinds grant what they did.

`_partial`: the names of new attributes are assumed not to be in use, see `C74_name_refuted`. -/
theorem C74_deny_partial {db : Db} {rules : List Rule} {denies : List Deny} (ok : DbOk db)
    (hr : RulesOk db.numTypes rules) (hd : DeniesOk db.numTypes denies) :
    ∃ db' rules', processDenies db rules denies = .ok (db', rules') ∧
      RulesOk db.numTypes rules' ∧
      (∀ cond s t c p, Granted db.numTypes rules' .allowed cond s t c p ↔
        Granted db.numTypes rules .allowed cond s t c p ∧ ¬ Denied db.numTypes denies s t c p) ∧
      ∀ k cond s t c p, k ≠ .allowed →
        (Granted db.numTypes rules' k cond s t c p ↔ Granted db.numTypes rules k cond s t c p) := by
  generalize hn : db.numTypes = n at *
  induction denies generalizing db rules with
  | nil =>
    refine ⟨db, rules, rfl, hr, fun cond s t c p => ?_, fun k cond s t c p _ => Iff.rfl⟩
    simp [Denied]
  | cons d ds ih =>
    obtain ⟨h3, h4⟩ := hd d List.mem_cons_self
    obtain ⟨l, db1, rules1, q1, q2, q3, q4, q5, q6⟩ :=
      processDeny_ok (hn ▸ ok.small) h3 h4 rules db ok hn hr
    obtain ⟨db2, rules2, w1, w2, w3, w4⟩ := ih q3 q4 q5 (fun x hx => hd x (List.mem_cons_of_mem _ hx))
    refine ⟨db2, rules2, by simp [processDenies, processDeny, q1, q2, w1], w2, fun cond s t c p => ?_,
      fun k cond s t c p hk => ?_⟩
    · rw [w3, q6]
      simp only [Denied, List.mem_cons, or_and_right, exists_or, exists_eq_left, true_and, not_or]
      tauto
    · rw [w4 k cond s t c p hk, q6]
      tauto

/-! ### A policy -/

/-- Types 0, 1, 2 and 3; attribute 10 has 0, 1 and 2, attribute 11 has 1 and 2. -/
def exDb : Db where
  numTypes := 4
  num := 6
  typeTable := fun _ => 0
  attrs := [.attr 0 10 ((Ebitmap.initRange 0 2).getD Ebitmap.init), .attr 0 11 ((Ebitmap.initRange 1 2).getD Ebitmap.init)]
  taken := []
  nextId := 12

def exA : Datum := .attr 0 10 ((Ebitmap.initRange 0 2).getD Ebitmap.init)
def exB : Datum := .attr 0 11 ((Ebitmap.initRange 1 2).getD Ebitmap.init)

/-- Attribute 10 may read and write any type of attribute 10 (classes 0, permissions 0 and 1, the
second by way of a class map). -/
def exRules : List Rule :=
  [⟨none, .allowed, exA, .datum exA, [.cls 0 [0], .map 9 [.mk 0 [.cls 0 [1]]]]⟩,
   ⟨some (3, true), .allowed, exA, .other, [.cls 0 [0]]⟩,
   ⟨none, .dontaudit, exA, .datum exA, [.cls 0 [0]]⟩]

/-- But types of attribute 11 may not write each other. -/
def exDenies : List Deny := [⟨exB, .other, [.set 7 [.cls 0 [1]]]⟩, ⟨exB, .notself, [.cls 0 [0]]⟩]

theorem range_ok {lo hi n : Nat} (h1 : lo ≤ hi) (h2 : hi < n) (hn : n < 2 ^ 31) (t i : Nat) :
    (Datum.attr t i ((Ebitmap.initRange lo hi).getD Ebitmap.init)).Ok n := by
  obtain ⟨h3, h4⟩ := Ebitmap.C01_init_range lo hi (by omega) (by omega)
  have h5 := h3.2 ⟨h1, by omega⟩
  rcases h6 : Ebitmap.initRange lo hi with _ | e
  · rw [h6] at h5; cases h5
  · exact ⟨(h4 e h6).1, fun t ht => by have := (((h4 e h6).2 t).1 ht).2; omega⟩

/-- Non-vacuity of `C74_deny_partial`. -/
theorem exOk : DbOk exDb ∧ RulesOk 4 exRules ∧ DeniesOk 4 exDenies := by
  have a : exA.Ok 4 := range_ok (by decide) (by decide) (by decide) _ _
  have b : exB.Ok 4 := range_ok (by decide) (by decide) (by decide) _ _
  refine ⟨⟨by decide, fun d hd => ?_, fun t k _ h => (by cases h)⟩, fun r hr => ?_, fun d hd => ?_⟩
  · simp only [exDb, List.mem_cons, List.not_mem_nil, or_false] at hd
    rcases hd with rfl | rfl
    · exact a
    · exact b
  · simp only [exRules, List.mem_cons, List.not_mem_nil, or_false] at hr
    rcases hr with rfl | rfl | rfl
    · exact ⟨a, a⟩
    · exact ⟨a, trivial⟩
    · exact ⟨a, a⟩
  · simp only [exDenies, List.mem_cons, List.not_mem_nil, or_false] at hd
    rcases hd with rfl | rfl
    · exact ⟨b, trivial⟩
    · exact ⟨b, trivial⟩

/-- What a rule grants, evaluated. -/
def coversB (n : Nat) (src : Datum) (tgt : Target) (s t : Nat) : Bool :=
  let m : Datum → Nat → Bool := fun d t => match d with | .type v => t == v | .attr _ _ a => Ebitmap.getBit a t
  match tgt with
  | .self => m src s && t == s
  | .notself => m src s && decide (t < n) && t != s
  | .other => m src s && m src t && t != s
  | .datum d => m src s && m d t

/-- The policy after the deny rules: how many rules there are, and who may write whom. -/
example : (match processDenies exDb exRules exDenies with
    | .ok (_, l) => some (l.length,
        ((List.range 4).flatMap fun s => (List.range 4).map fun t => (s, t)).filter fun x =>
          l.any fun r => decide (r.kind = .allowed) && decide (r.cond = none) && coversB 4 r.src r.tgt x.1 x.2 &&
            classPermMatch 0 1 r.perms)
    | .error _ => none) =
    some (8, [(0, 0), (0, 1), (0, 2), (1, 0), (1, 1), (2, 0), (2, 2)]) := by decide +kernel

/-- C74, refuted in general (finding F70): if the policy itself has an attribute with the name that
is chosen for a new one, the bitmap of the new attribute is freed twice. -/
theorem C74_name_refuted :
    ∃ (db : Db) (rules : List Rule) (denies : List Deny), db.numTypes < 2 ^ 31 ∧
      (∀ d ∈ db.attrs, d.Ok db.numTypes) ∧ RulesOk db.numTypes rules ∧ DeniesOk db.numTypes denies ∧
      processDenies db rules denies = .error .doubleFree := by
  have a : exA.Ok 4 := range_ok (by decide) (by decide) (by decide) _ _
  refine ⟨{ exDb with taken := [(0, 6)], attrs := [exA] }, [⟨none, .allowed, exA, .datum exA, [.cls 0 [0]]⟩],
    [⟨.type 0, .datum exA, [.cls 0 [0]]⟩], by decide, fun d hd => ?_, fun r hr => ?_, fun d hd => ?_, ?_⟩
  · rw [List.mem_singleton] at hd; subst hd; exact a
  · rw [List.mem_singleton] at hr; subst hr; exact ⟨a, a⟩
  · rw [List.mem_singleton] at hd; subst hd; exact ⟨by show 0 < 4; decide, a⟩
  · have : (match processDenies { exDb with taken := [(0, 6)], attrs := [exA] }
        [⟨none, .allowed, exA, .datum exA, [.cls 0 [0]]⟩] [⟨.type 0, .datum exA, [.cls 0 [0]]⟩] with
        | .error e => some e | .ok _ => none) = some .doubleFree := by decide +kernel
    revert this
    generalize processDenies _ _ _ = x
    intro h
    rcases x with e | y
    · simp only [Option.some.injEq] at h; rw [h]
    · cases h

end Verif.CilDeny
