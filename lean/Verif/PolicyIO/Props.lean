import Verif.PolicyIO.Sound4

/-!
# C88, C89, C90: kernel policies in files

C88: what is written is read back.  C89: what can be relied on of a policy that has been read, whatever was in the file.
C90: a policy is not accepted if bytes are missing, and what follows it has no influence.
-/

namespace Verif.PolicyIO
open Verif.Policy Verif.Services Verif.Validate

/-! ## A policy -/

def exNoTypes : TypeSet := ⟨Ebitmap.init, Ebitmap.init, 0⟩

/-- The set of the numbers below 64 whose bits are set. -/
def exSet (m : BitVec 64) : Ebitmap.Ebitmap := ⟨[⟨0, m⟩], 64⟩

def exLow : Level := ⟨1, Ebitmap.init⟩
def exHigh : Level := ⟨1, exSet 3#64⟩
def exCtx : Context := ⟨1, 1, 1, ⟨exLow, exHigh⟩⟩

def exRules : List (Avtab.Key × Avtab.Datum) :=
  [(⟨1, 2, 1, 1#16⟩, ⟨6#32, none⟩), (⟨3, 2, 2, 1#16⟩, ⟨1#32, none⟩), (⟨1, 2, 1, 0x10#16⟩, ⟨2#32, none⟩),
    (⟨1, 2, 1, 0x100#16⟩, ⟨0#32, some ⟨1#8, 3#8, [1#32, 0, 0, 0, 0, 0, 0, 0]⟩⟩)]

/-- A common and two classes, one of which inherits it and is constrained; two types, one of which bounds the other, an attribute
and an alias; a boolean with a conditional that has type rules for the same in both branches; one sensitivity and two categories,
with aliases; contexts, paths, transitions. -/
def exPolicy : PolicyDb :=
  { version := 33, target := 0, mls := 1, handleUnknown := 2, policycaps := exSet 3#64, permissive := exSet 4#64
    commons := ⟨[(['a'], ⟨1, ⟨[(['a'], 1), (['b'], 2)], 2⟩⟩)], 1⟩
    classes := ⟨[(['a'], ⟨some ['a'], ⟨1, some ⟨1, ⟨[(['a'], 1), (['b'], 2)], 2⟩⟩, ⟨[(['c'], 3)], 3⟩,
        [⟨5#32, [⟨5, 4, 1, exSet 3#64, exNoTypes⟩, ⟨4, 1, 1, Ebitmap.init, exNoTypes⟩, ⟨3, 0, 0, Ebitmap.init, exNoTypes⟩]⟩], [], 0, 1, 2, 7⟩⟩),
      (['b'], ⟨none, ⟨2, none, ⟨[(['i'], 1)], 1⟩, [], [], 0, 0, 0, 0⟩⟩)], 2⟩
    roles := ⟨[("object_r".toList, ⟨1, Ebitmap.init, exNoTypes, 0, Ebitmap.init, 0⟩),
      (['r'], ⟨2, exSet 2#64, ⟨exSet 7#64, Ebitmap.init, 0⟩, 0, Ebitmap.init, 0⟩)], 2⟩
    types := ⟨[(['a'], ⟨1, 1, 0, Ebitmap.init, 0, 0⟩), (['b'], ⟨2, 1, 0, Ebitmap.init, 1, 1⟩), (['c'], ⟨3, 1, 1, exSet 3#64, 0, 0⟩),
      (['d'], ⟨1, 0, 0, Ebitmap.init, 0, 0⟩)], 3⟩
    users := ⟨[(['a'], ⟨1, ⟨exSet 2#64, 0⟩, ⟨1, []⟩, ⟨1, [(1, 2)]⟩, ⟨1, []⟩, ⟨exLow, exHigh⟩, exLow, 0⟩)], 1⟩
    bools := ⟨[(['a'], ⟨1, 1, 0⟩)], 1⟩
    levels := ⟨[(['a'], ⟨exHigh, false, 0⟩), (['b'], ⟨exHigh, true, 0⟩)], 1⟩
    cats := ⟨[(['a'], ⟨1, false⟩), (['b'], ⟨2, false⟩), (['c'], ⟨2, true⟩)], 2⟩
    avtab := Avtab.run 4 (exRules.map fun r => .insert r.1 r.2)
    conds := [⟨1, [⟨1, 1⟩, ⟨2, 0⟩], [⟨⟨2, 2, 1, 0x8001#16⟩, ⟨1#32, none⟩⟩, ⟨⟨2, 2, 1, 0x8010#16⟩, ⟨1#32, none⟩⟩],
      [⟨⟨2, 2, 1, 0x10#16⟩, ⟨2#32, none⟩⟩], 0⟩]
    roleTrans := [⟨2, 2, 1, 2⟩], roleAllow := [(2, 2)]
    filenameTrans := [⟨['n'], 2, 1, [(exSet 3#64, 2), (exSet 4#64, 1)]⟩], filenameTransCount := 3
    ocontexts := fun i => if i = 0 then [{ noOcon with context0 := exCtx, sid := 1 }]
      else if i = 3 then [{ noOcon with context0 := exCtx, context1 := exCtx, name := some ['l', 'o'] }] else []
    genfs := [⟨['p'], [⟨['/'], 0, exCtx⟩, ⟨['/', 'x'], 1, exCtx⟩]⟩], rangeTrans := [⟨1, 2, 1, ⟨exLow, exHigh⟩⟩]
    typeAttr := fun i => if i = 2 then exSet 4#64 else exSet (4#64 ||| 1#64 <<< i), attrType := fun i => if i = 2 then exSet 3#64 else exSet (1#64 <<< i) }

/-- Contexts of users of the policy. -/
def exValid (p : PolicyDb) (c : Context) : Bool := c.user != 0 && decide (c.user ≤ p.users.nprim)

theorem ex_ofNames : OfNames exValid := by
  intro p q _ hu _ _ _ _
  funext c
  unfold exValid
  rw [hu]

theorem ex_wf (m : BitVec 64) (h : m ≠ 0#64) : Ebitmap.WF (exSet m) := by
  refine ⟨?_, ?_, ?_, ?_, ?_⟩ <;> simp [exSet, h]

theorem ex_range : RangeWf ⟨exLow, exHigh⟩ := ⟨wf_init, ex_wf _ (by decide)⟩

theorem ex_read : Read (held exPolicy).toV where
  sizes := by decide
  names := by decide
  policycaps := ex_wf _ (by decide)
  permissive := ex_wf _ (by decide)
  classes := by
    intro e he
    simp only [exPolicy, held, PolicyDb.toV, List.map_cons, List.map_nil, List.mem_cons, List.not_mem_nil, or_false] at he
    rcases he with rfl | rfl
    · refine ⟨by decide, ?_, by simp [heldClass]⟩
      intro c hc x hx
      simp only [heldClass, List.map_cons, List.map_nil, List.mem_singleton] at hc
      subst hc
      simp only [heldConstraint, heldExpr, List.map_cons, List.map_nil, List.mem_cons, List.not_mem_nil, or_false] at hx
      rcases hx with rfl | rfl | rfl
      · exact ⟨ex_wf _ (by decide), wf_init, wf_init⟩
      · exact ⟨wf_init, wf_init, wf_init⟩
      · exact ⟨wf_init, wf_init, wf_init⟩
    · exact ⟨by decide, by simp [heldClass], by simp [heldClass]⟩
  roles := by
    intro e he
    have : (held exPolicy).toV.roles.entries = [("object_r".toList, ⟨1, Ebitmap.init, exNoTypes, 0, Ebitmap.init, 0⟩),
      (['r'], ⟨2, exSet 2#64, ⟨exSet 7#64, Ebitmap.init, 0⟩, 0, Ebitmap.init, 0⟩)] := rfl
    rw [this] at he
    simp only [List.mem_cons, List.not_mem_nil, or_false] at he
    rcases he with rfl | rfl
    · exact ⟨wf_init, wf_init, wf_init, wf_init⟩
    · exact ⟨ex_wf _ (by decide), wf_init, ex_wf _ (by decide), wf_init⟩
  types := by
    intro e he
    obtain ⟨d, -, rfl⟩ := List.mem_map.1 he
    exact wf_init
  users := by
    intro e he
    obtain ⟨d, hd, rfl⟩ := List.mem_map.1 he
    simp only [exPolicy, List.mem_singleton] at hd
    subst hd
    exact ⟨ex_wf _ (by decide), ex_range, wf_init⟩
  levels := by
    intro e he
    obtain ⟨d, hd, rfl⟩ := List.mem_map.1 he
    simp only [exPolicy, List.mem_cons, List.not_mem_nil, or_false] at hd
    rcases hd with rfl | rfl <;> exact ex_wf _ (by decide)
  rules := by decide +kernel
  filenameTrans := by
    intro t ht d hd
    obtain ⟨f, hf, rfl⟩ := List.mem_map.1 ht
    simp only [held, exPolicy, List.mem_singleton] at hf
    subst hf
    simp only [List.mem_cons, List.not_mem_nil, or_false] at hd
    rcases hd with rfl | rfl <;> exact ex_wf _ (by decide)
  ocontexts := by
    intro i hi o ho
    have : i = 0 ∨ i = 1 ∨ i = 2 ∨ i = 3 ∨ i = 4 ∨ i = 5 ∨ i = 6 ∨ i = 7 ∨ i = 8 := by omega
    have e0 : (held exPolicy).toV.ocontexts 0 = [OconP.toV { noOcon with context0 := exCtx, sid := 1 }] := rfl
    have e3 : (held exPolicy).toV.ocontexts 3 = [OconP.toV { noOcon with context0 := exCtx, context1 := exCtx, name := some ['l', 'o'] }] := rfl
    rcases this with rfl | rfl | rfl | rfl | rfl | rfl | rfl | rfl | rfl
    · rw [e0, List.mem_singleton] at ho; subst ho; exact ⟨ex_range, wf_init, wf_init⟩
    · cases ho
    · cases ho
    · rw [e3, List.mem_singleton] at ho; subst ho; exact ⟨ex_range, ex_range⟩
    all_goals cases ho
  genfs := by
    intro g hg o ho
    obtain ⟨x, hx, rfl⟩ := List.mem_map.1 hg
    simp only [held, exPolicy, List.mem_singleton] at hx
    subst hx
    simp only [List.map_cons, List.map_nil, List.mem_cons, List.not_mem_nil, or_false] at ho
    rcases ho with rfl | rfl <;> exact ex_range
  rangeTrans := by
    intro t ht
    simp only [held, exPolicy, PolicyDb.toV, List.mem_singleton] at ht
    subst ht
    exact ex_range
  maps := by
    intro i hi
    have hi : i < 3 := hi
    have : i = 0 ∨ i = 1 ∨ i = 2 := by omega
    rcases this with rfl | rfl | rfl <;> exact ⟨ex_wf _ (by decide), ex_wf _ (by decide)⟩

theorem ex_valid : Valid (held exPolicy).toV := (accept_iff ex_read).2.1 (by decide +kernel)

theorem ex_bit {m : BitVec 64} {j : Nat} (h : 64 ≤ j) : Ebitmap.getBit (exSet m) j = false := by
  unfold Ebitmap.getBit exSet
  split
  · rfl
  · simp only [Ebitmap.getBitNodes]
    rw [if_pos (Nat.zero_le _), if_neg (by omega)]

theorem ex_context : ContextFits exCtx := ⟨by unfold Word; decide, by unfold Word; decide, by unfold Word; decide,
  ⟨by unfold Word; decide, wf_init⟩, ⟨by unfold Word; decide, ex_wf _ (by decide)⟩⟩

instance (k : Avtab.Key) (r : Avtab.Node) : Decidable (Avtab.Answers k r) := by unfold Avtab.Answers; infer_instance
instance (n : Avtab.Node) : Decidable (IsTypeRule n) := by unfold IsTypeRule; infer_instance
instance (n : Nat) : Decidable (Word n) := by unfold Word; infer_instance
instance (s : Str) : Decidable (GoodName s) := by unfold GoodName; infer_instance
instance {δ : Type} (l : List (Str × δ)) : Decidable (NamesFit l) := by unfold NamesFit; infer_instance
instance {δ : Type} (t : Symtab δ) (n : Nat) : Decidable (TableFits t n) := by unfold TableFits; infer_instance
instance (t : Symtab Nat) : Decidable (PermsFit t) := by unfold PermsFit; infer_instance

theorem ex_fits : Fits exPolicy where
  version := by decide
  target := by decide
  policycaps := ex_wf _ (by decide)
  permissive := ex_wf _ (by decide)
  commonTable := by decide
  classTable := by decide
  roleTable := by decide
  typeTable := by decide
  userTable := by decide
  boolTable := by decide
  levelTable := by decide
  catTable := by decide
  commons := by decide
  classes := by
    intro e he
    simp only [exPolicy, List.mem_cons, List.not_mem_nil, or_false] at he
    rcases he with rfl | rfl
    · refine ⟨by decide, by decide, nofun, ?_, ⟨by decide, ?_⟩, ⟨by decide, by simp⟩, by decide⟩
      · intro k hk
        simp only [Option.some.injEq] at hk
        subst hk
        exact ⟨by decide, ⟨1, ⟨[(['a'], 1), (['b'], 2)], 2⟩⟩, by simp [exPolicy], rfl⟩
      · intro c hc
        simp only [List.mem_singleton] at hc
        subst hc
        refine ⟨by decide, fun x hx => ?_⟩
        simp only [List.mem_cons, List.not_mem_nil, or_false] at hx
        rcases hx with rfl | rfl | rfl
        · exact ⟨by decide, by decide, ex_wf _ (by decide), wf_init, wf_init, by decide⟩
        · exact ⟨by decide, by decide, wf_init, wf_init, wf_init, by decide⟩
        · exact ⟨by decide, by decide, wf_init, wf_init, wf_init, by decide⟩
    · exact ⟨by decide, by decide, fun _ => rfl, nofun, ⟨by decide, by simp⟩, ⟨by decide, by simp⟩, by decide⟩
  roles := by
    intro e he
    simp only [exPolicy, List.mem_cons, List.not_mem_nil, or_false] at he
    rcases he with rfl | rfl
    · exact ⟨by decide, by decide, wf_init, wf_init, fun _ _ => rfl⟩
    · exact ⟨by decide, by decide, ex_wf _ (by decide), ex_wf _ (by decide), fun h => by revert h; decide⟩
  types := by decide
  users := by
    intro e he
    simp only [exPolicy, List.mem_singleton] at he
    subst he
    exact ⟨by decide, by decide, ex_wf _ (by decide), ex_context.2.2.2, ⟨by decide, wf_init⟩⟩
  bools := by decide
  levels := by
    intro e he
    simp only [exPolicy, List.mem_cons, List.not_mem_nil, or_false] at he
    rcases he with rfl | rfl <;> exact ⟨by decide, ex_wf _ (by decide)⟩
  cats := by decide
  rules := by
    refine ⟨4, exRules, by decide, by decide, by decide, ?_, rfl⟩
    intro r hr
    simp only [exRules, List.mem_cons, List.not_mem_nil, or_false] at hr
    rcases hr with rfl | rfl | rfl | rfl
    · exact ⟨⟨by decide, by decide, by decide, by decide, by decide, nofun, fun _ => rfl⟩, by decide⟩
    · exact ⟨⟨by decide, by decide, by decide, by decide, by decide, nofun, fun _ => rfl⟩, by decide⟩
    · exact ⟨⟨by decide, by decide, by decide, by decide, by decide, nofun, fun _ => rfl⟩, by decide⟩
    · exact ⟨⟨by decide, by decide, by decide, by decide, by decide, fun _ => ⟨_, rfl, rfl⟩, nofun⟩, by decide⟩
  condCount := by decide
  conds := by
    intro c hc
    simp only [exPolicy, List.mem_singleton] at hc
    subst hc
    refine ⟨by decide, by decide, by decide, fun n hn => ?_⟩
    simp only [List.cons_append, List.nil_append, List.mem_cons, List.not_mem_nil, or_false] at hn
    rcases hn with rfl | rfl | rfl
    all_goals exact ⟨by decide, by decide, by decide, by decide, by decide, nofun, fun _ => rfl⟩
  conflict := by
    refine ⟨by decide +kernel, ?_, by simp [exPolicy]⟩
    intro c hc
    simp only [exPolicy, List.mem_singleton] at hc
    subst hc
    simp only [List.pairwise_cons, List.mem_singleton, List.not_mem_nil, List.Pairwise.nil]
    refine ⟨⟨?_, by simp⟩, by simp⟩
    rintro b rfl
    decide
  roleTransCount := by decide
  roleTrans := by decide
  roleAllowCount := by decide
  roleAllow := by decide
  filenameTransCount := by decide
  filenameTransSum := by decide +kernel
  filenameTrans := by
    intro f hf
    simp only [exPolicy, List.mem_singleton] at hf
    subst hf
    refine ⟨by decide, by decide, by simp, by decide, ?_, by decide, ?_⟩
    · intro d hd
      simp only [List.mem_cons, List.not_mem_nil, or_false] at hd
      rcases hd with rfl | rfl
      · exact ⟨ex_wf _ (by decide), 0, by decide +kernel⟩
      · exact ⟨ex_wf _ (by decide), 2, by decide +kernel⟩
    · simp only [List.pairwise_cons, List.mem_singleton, List.not_mem_nil, List.Pairwise.nil]
      refine ⟨?_, by simp⟩
      rintro e rfl b
      by_cases hb : 64 ≤ b
      · rw [ex_bit hb]; simp
      · have : ∀ b < 64, ¬ (Ebitmap.getBit (exSet 3#64) b = true ∧ Ebitmap.getBit (exSet 4#64) b = true) := by decide +kernel
        exact this b (by omega)
  filenameTransKeys := by simp [exPolicy]
  oconCount := by
    intro i _
    simp only [exPolicy]
    split
    · decide
    · split <;> decide
  ocontexts := by
    intro i _ o ho
    simp only [exPolicy] at ho
    split at ho
    · rename_i hi
      subst hi
      rw [List.mem_singleton] at ho
      subst ho
      exact ⟨ex_context, fun _ => ⟨by decide, nofun, nofun, nofun, nofun, nofun, nofun, nofun⟩, nofun⟩
    · split at ho
      · rename_i hi
        subst hi
        rw [List.mem_singleton] at ho
        subst ho
        exact ⟨ex_context, fun _ => ⟨nofun, fun _ => ⟨ex_context, _, rfl, by decide, by decide⟩, nofun, nofun, nofun, nofun, nofun, nofun⟩, nofun⟩
      · cases ho
  genfsCount := by decide
  genfs := by
    intro g hg
    simp only [exPolicy, List.mem_singleton] at hg
    subst hg
    refine ⟨by decide, by decide, ?_, by decide⟩
    intro e he
    simp only [List.mem_cons, List.not_mem_nil, or_false] at he
    rcases he with rfl | rfl <;> exact ⟨by decide, by decide, ex_context⟩
  genfsNames := by decide
  rangeTransCount := by decide
  rangeTrans := by
    intro t ht
    simp only [exPolicy, List.mem_singleton] at ht
    subst ht
    exact ex_context.2.2.2
  rangeTransKeys := by simp [exPolicy]
  maps := by
    have h3 : ∀ i, i < exPolicy.types.nprim → i = 0 ∨ i = 1 ∨ i = 2 := by
      intro i hi
      have hi : i < 3 := hi
      omega
    refine ⟨?_, ?_, ?_, ?_⟩
    · intro i hi
      rcases h3 i hi with rfl | rfl | rfl <;> exact ⟨ex_wf _ (by decide), ex_wf _ (by decide)⟩
    · intro i hi _
      rcases h3 i hi with rfl | rfl | rfl <;> decide +kernel
    · intro i hi j hj
      by_cases hj' : 64 ≤ j
      · exfalso
        rcases h3 i hi with rfl | rfl | rfl
        · have := ex_bit (m := 5#64) hj'; exact absurd (hj.symm.trans this) (by decide)
        · have := ex_bit (m := 6#64) hj'; exact absurd (hj.symm.trans this) (by decide)
        · have := ex_bit (m := 4#64) hj'; exact absurd (hj.symm.trans this) (by decide)
      · have : ∀ i < 3, ∀ j < 64, Ebitmap.getBit (exPolicy.typeAttr i) j = true → j < exPolicy.types.nprim := by decide +kernel
        exact this i hi j (by omega) hj
    · intro i hi j
      by_cases hj' : 64 ≤ j
      · constructor
        · intro hj
          exfalso
          rcases h3 i hi with rfl | rfl | rfl
          · have := ex_bit (m := 1#64) hj'; exact absurd (hj.symm.trans this) (by decide)
          · have := ex_bit (m := 2#64) hj'; exact absurd (hj.symm.trans this) (by decide)
          · have := ex_bit (m := 3#64) hj'; exact absurd (hj.symm.trans this) (by decide)
        · rintro ⟨hj, -⟩
          have hj : j < 3 := hj
          omega
      · have hx : (∃ e ∈ exPolicy.types.entries, e.2.primary ≠ 0 ∧ e.2.value = i + 1 ∧ e.2.flavor ≠ 1) ↔ i < 2 := by
          rcases h3 i hi with rfl | rfl | rfl <;> simp [exPolicy]
        have : ∀ i < 3, ∀ j < 64, (Ebitmap.getBit (exPolicy.attrType i) j = true ↔
            j < 3 ∧ (i ≠ j ∧ Ebitmap.getBit (exPolicy.typeAttr j) i = true ∨ i = j ∧ i < 2)) := by decide +kernel
        rw [hx]
        exact this i hi j (by omega)

theorem ex_contexts : ContextsValid exValid (held exPolicy) := by
  constructor
  · intro i hi
    have hi : i < 9 := hi
    revert i
    decide +kernel
  · decide +kernel

/-! ## C88: what is written is read back -/

/-- C88: a policy of which all parts have the sizes that the format has room for, in which everything refers to things that it
declares and whose contexts are valid is written, and reading the bytes, whatever follows them, gives the same policy, but for what the
format of its version does not hold (`held`) and the order of rules and paths. -/
theorem C88_written_is_read {p : PolicyDb} (hf : Fits p) (hv : Valid (held p).toV) {valid : PolicyDb → Context → Bool} (ho : OfNames valid)
    (hc : ContextsValid valid (held p)) :
    ∃ b q, write p = some b ∧ (∀ rest, read valid (b ++ rest) = some (q, rest)) ∧ Same (held p) q := by
  obtain ⟨b, q, h1, h2, h3, -, -⟩ := write_read hf hv ho hc
  exact ⟨b, q, h1, h2, h3⟩

example : Fits exPolicy ∧ Valid (held exPolicy).toV ∧ OfNames exValid ∧ ContextsValid exValid (held exPolicy) :=
  ⟨ex_fits, ex_valid, ex_ofNames, ex_contexts⟩

example : ((write exPolicy).bind fun b => (read exValid b).map fun r => (r.1.types.nprim, (Avtab.nodes r.1.avtab).length, r.2.length)) =
    some (3, 4, 0) := by decide +kernel

/-- C88 does not hold of policies without rules outside of conditionals: such a policy is valid and is written, but it cannot be
read (avtab.c:603 refuses an empty table). -/
theorem C88_no_rules_refuted : ∃ p b, Valid (held p).toV ∧ ContextsValid exValid (held p) ∧ write p = some b ∧ read exValid b = none := by
  refine ⟨{ exPolicy with avtab := Avtab.alloc Avtab.init 1 }, (write { exPolicy with avtab := Avtab.alloc Avtab.init 1 }).getD [], ?_, ?_, by decide +kernel, by decide +kernel⟩
  · refine (accept_iff ?_).2.1 (by decide +kernel)
    exact { ex_read with rules := by decide +kernel }
  · exact ex_contexts

/-- An interface with a name of 64 characters. -/
def exLong : PolicyDb := { exPolicy with ocontexts := fun i =>
  if i = 3 then [{ noOcon with context0 := exCtx, context1 := exCtx, name := some (List.replicate 64 'x') }] else [] }

/-- C88 does not hold if the name of a network interface has more than 63 characters: it is written but cannot be read
(policydb.c:3000). -/
theorem C88_long_name_refuted : ∃ p b, Valid (held p).toV ∧ ContextsValid exValid (held p) ∧ write p = some b ∧ read exValid b = none := by
  refine ⟨exLong, (write exLong).getD [], ?_, ?_, by decide +kernel, by decide +kernel⟩
  · refine (accept_iff ?_).2.1 (by decide +kernel)
    refine { ex_read with ocontexts := ?_ }
    intro i hi o ho
    have : i = 0 ∨ i = 1 ∨ i = 2 ∨ i = 3 ∨ i = 4 ∨ i = 5 ∨ i = 6 ∨ i = 7 ∨ i = 8 := by omega
    have e3 : (held exLong).toV.ocontexts 3 = [OconP.toV { noOcon with context0 := exCtx, context1 := exCtx, name := some (List.replicate 64 'x') }] := rfl
    rcases this with rfl | rfl | rfl | rfl | rfl | rfl | rfl | rfl | rfl
    · cases ho
    · cases ho
    · cases ho
    · rw [e3, List.mem_singleton] at ho; subst ho; exact ⟨ex_range, ex_range⟩
    all_goals cases ho
  · constructor
    · intro i hi
      have hi : i < 9 := hi
      revert i
      decide +kernel
    · decide +kernel

/-! ## C89: what is read can be relied on -/

/-- C89: whatever the bytes, as long as there are fewer than 51 GB of them, a policy that is read is as `Accepted` says: everything refers
to things that are declared, names and rules differ, type rules do not contradict each other, contexts are valid, the entry with the
longest path is found first, and the maps between types and attributes agree. -/
theorem C89_read_accepted {valid : PolicyDb → Context → Bool} (ho : OfNames valid) {bs rest : Bytes} {q : PolicyDb}
    (hl : bs.length ≤ 12 * (2 ^ 32 - 64)) (hr : read valid bs = some (q, rest)) : Accepted valid q :=
  (sound_read ho bs q rest hr).1 hl

example : ∃ b, b.length ≤ 12 * (2 ^ 32 - 64) ∧ (read exValid b).isSome = true :=
  ⟨(write exPolicy).getD [], by decide +kernel, by decide +kernel⟩

/-! ## C90: nothing may be missing -/

/-- C90: a policy is read from the front of the bytes, and what is added after it has no influence. -/
theorem C90_rest {valid : PolicyDb → Context → Bool} (ho : OfNames valid) {bs rest : Bytes} {q : PolicyDb} (hr : read valid bs = some (q, rest)) :
    (∃ b, bs = b ++ rest) ∧ ∀ x, read valid (bs ++ x) = some (q, rest ++ x) :=
  (sound_read ho bs q rest hr).2

/-- C90: a file that ends early is not accepted. -/
theorem C90_truncated {valid : PolicyDb → Context → Bool} (ho : OfNames valid) {b c : Bytes} {q : PolicyDb} (hr : read valid (b ++ c) = some (q, []))
    (hc : c ≠ []) : read valid b = none := by
  cases h : read valid b with
  | none => rfl
  | some r =>
    obtain ⟨q', rest⟩ := r
    have := (sound_read ho b q' rest h).2.2 c
    rw [hr, Option.some.injEq, Prod.mk.injEq] at this
    exact absurd (List.append_eq_nil_iff.1 this.2.symm).2 hc

example : ∃ b q, read exValid b = some (q, []) ∧ b ≠ [] := by
  obtain ⟨b, q, h1, h2, -⟩ := C88_written_is_read ex_fits ex_valid ex_ofNames ex_contexts
  refine ⟨b, q, by simpa using h2 [], ?_⟩
  rintro rfl
  revert h1
  decide +kernel

end Verif.PolicyIO
