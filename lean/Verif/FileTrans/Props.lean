import Verif.FileTrans.Lemmas
import Verif.Prelude

/-!
# C91: name-based type transitions

A rule says which type an object with a given name gets.  The compilers promise that two rules that contradict each other are an
error.
-/

namespace Verif.FileTrans
open Verif.PolicyIO Verif.Policy Verif.Services

/-! ## Proofs -/

theorem add_spec {r : Rule} (hr : Fits r) {t : List FileTransP} (ht : TableOk t) :
    (∃ p, p ≠ r.new ∧ add r t = none ∧ Says t { r with new := p }) ∨
    (∃ t', add r t = some t' ∧ TableOk t' ∧ ∀ x : Rule, Fits x → (Says t' x ↔ Says t x ∨ x = r)) := by
  unfold add
  rcases insert_spec hr ht with ⟨p, i1, i2⟩ | ⟨t', i1, i2, -, i4⟩
  · rw [i1]
    by_cases hp : p = r.new
    · right
      refine ⟨t, by simp [hp], ht, fun x _ => ⟨Or.inl, ?_⟩⟩
      rintro (h | rfl)
      · exact h
      · rw [hp] at i2; exact i2
    · left
      exact ⟨p, hp, by simp [hp], i2⟩
  · right
    rw [i1]
    exact ⟨t', rfl, i2, i4⟩

theorem compile_spec : ∀ {rs : List Rule} {t t' : List FileTransP}, (∀ r ∈ rs, Fits r) → TableOk t → compile rs t = some t' →
    TableOk t' ∧ ∀ x : Rule, Fits x → (Says t' x ↔ Says t x ∨ x ∈ rs)
  | [], t, t', _, ht, h => by
    simp only [compile, Option.some.injEq] at h
    subst h
    exact ⟨ht, by simp⟩
  | r :: rs, t, t', hf, ht, h => by
    unfold compile at h
    rcases add_spec (hf r (by simp)) ht with ⟨p, -, h1, -⟩ | ⟨t1, h1, h2, h3⟩
    · rw [h1] at h; cases h
    · rw [h1, Option.bind_some] at h
      obtain ⟨i1, i2⟩ := compile_spec (fun x hx => hf x (List.mem_cons_of_mem _ hx)) h2 h
      refine ⟨i1, fun x hx => ?_⟩
      rw [i2 x hx, h3 x hx, List.mem_cons, or_assoc]

theorem compile_none : ∀ {rs : List Rule} {t : List FileTransP}, (∀ r ∈ rs, Fits r) → TableOk t → compile rs t = none →
    ∃ r ∈ rs, ∃ p, p ≠ r.new ∧ (Says t { r with new := p } ∨ { r with new := p } ∈ rs)
  | [], t, _, _, h => by cases h
  | r :: rs, t, hf, ht, h => by
    unfold compile at h
    rcases add_spec (hf r (by simp)) ht with ⟨p, hp, -, h2⟩ | ⟨t1, h1, h2, h3⟩
    · exact ⟨r, by simp, p, hp, Or.inl h2⟩
    · rw [h1, Option.bind_some] at h
      obtain ⟨x, hx, p, hp, hs⟩ := compile_none (fun x hx => hf x (List.mem_cons_of_mem _ hx)) h2 h
      refine ⟨x, List.mem_cons_of_mem _ hx, p, hp, ?_⟩
      rcases hs with hs | hs
      · rcases (h3 _ (show Fits { x with new := p } from hf x (List.mem_cons_of_mem _ hx))).1 hs with h | h
        · exact Or.inl h
        · exact Or.inr (by rw [h]; simp)
      · exact Or.inr (List.mem_cons_of_mem _ hs)

theorem compile_append : ∀ (a b : List Rule) (t : List FileTransP), compile (a ++ b) t = (compile a t).bind (compile b)
  | [], _, _ => rfl
  | r :: a, b, t => by
    show (add r t).bind (compile (a ++ b)) = ((add r t).bind (compile a)).bind (compile b)
    cases add r t with
    | none => rfl
    | some t' => exact compile_append a b t'

theorem tableOk_nil : TableOk [] := ⟨by simp, List.Pairwise.nil⟩

/-- A datum has a source that is a type. -/
def Used (t : List FileTransP) : Prop := ∀ f ∈ t, ∀ d ∈ f.data, ∃ s, 1 ≤ s ∧ s ≤ 2 ^ 32 - 64 ∧ Ebitmap.getBit d.1 (s - 1) = true

theorem used_data {s o : Nat} (h1 : 1 ≤ s) (h2 : s ≤ 2 ^ 32 - 64) : ∀ {l : Data}, Ok l →
    (∀ d ∈ l, ∃ s, 1 ≤ s ∧ s ≤ 2 ^ 32 - 64 ∧ Ebitmap.getBit d.1 (s - 1) = true) →
    ∀ d ∈ (insertData s o l).2, ∃ s, 1 ≤ s ∧ s ≤ 2 ^ 32 - 64 ∧ Ebitmap.getBit d.1 (s - 1) = true
  | [], _, _ => by
    obtain ⟨e, e1, e2, e3⟩ := setBit_spec wf_init (b := s - 1) (by omega)
    unfold insertData
    rw [e1]
    intro d hd
    rw [List.mem_singleton] at hd
    subst hd
    exact ⟨s, h1, h2, (e3 _).2 (Or.inl rfl)⟩
  | d :: l, hl, hu => by
    unfold insertData
    split
    · exact hu
    · split
      · obtain ⟨e, e1, e2, e3⟩ := setBit_spec (hl.wf d (by simp)) (b := s - 1) (by omega)
        rw [e1]
        intro x hx
        rcases List.mem_cons.1 hx with rfl | hx
        · exact ⟨s, h1, h2, (e3 _).2 (Or.inl rfl)⟩
        · exact hu x (List.mem_cons_of_mem _ hx)
      · intro x hx
        rcases List.mem_cons.1 hx with rfl | hx
        · exact hu x (by simp)
        · exact used_data h1 h2 ⟨fun y hy => hl.wf y (List.mem_cons_of_mem _ hy), (List.pairwise_cons.1 hl.types).2⟩
            (fun y hy => hu y (List.mem_cons_of_mem _ hy)) x hx

theorem used_insert {r : Rule} (hr : Fits r) : ∀ {t : List FileTransP}, TableOk t → Used t → Used (insert r t).2
  | [], _, _ => by
    unfold insert
    intro f hf
    rw [List.mem_singleton] at hf
    subst hf
    exact used_data hr.1 hr.2 ⟨by simp, List.Pairwise.nil⟩ (by simp)
  | f :: l, ht, hu => by
    unfold insert
    split
    · intro g hg
      rcases List.mem_cons.1 hg with rfl | hg
      · exact used_data hr.1 hr.2 (ht.data f (by simp)) (hu f (by simp))
      · exact hu g (List.mem_cons_of_mem _ hg)
    · intro g hg
      rcases List.mem_cons.1 hg with rfl | hg
      · exact hu g (by simp)
      · exact used_insert hr ⟨fun y hy => ht.data y (List.mem_cons_of_mem _ hy), (List.pairwise_cons.1 ht.keys).2⟩
          (fun y hy => hu y (List.mem_cons_of_mem _ hy)) g hg

theorem used_compile : ∀ {rs : List Rule} {t t' : List FileTransP}, (∀ r ∈ rs, Fits r) → TableOk t → Used t → compile rs t = some t' → Used t'
  | [], t, t', _, _, hu, h => by
    simp only [compile, Option.some.injEq] at h
    subst h
    exact hu
  | r :: rs, t, t', hf, ht, hu, h => by
    unfold compile at h
    have hui := used_insert (hf r (by simp)) ht hu
    rcases add_spec (hf r (by simp)) ht with ⟨p, -, h1, -⟩ | ⟨t1, h1, h2, -⟩
    · rw [h1] at h; cases h
    · rw [h1, Option.bind_some] at h
      refine used_compile (fun x hx => hf x (List.mem_cons_of_mem _ hx)) h2 ?_ h
      unfold add at h1
      split at h1
      · rename_i t2 hi
        rw [hi] at hui
        rw [Option.some.injEq] at h1
        subst h1
        exact hui
      · rename_i p t2 hi
        rw [hi] at hui
        split at h1
        · rw [Option.some.injEq] at h1
          subst h1
          exact hui
        · cases h1
      · cases h1

/-! ## C91 -/

/-- Rules of a policy: what a process of type 1 and one of type 2 make with the name "a", and others. -/
def exRules : List Rule := [⟨1, 5, 1, ['a'], 3⟩, ⟨2, 5, 1, ['a'], 4⟩, ⟨1, 5, 1, ['b'], 4⟩, ⟨1, 5, 2, ['a'], 4⟩, ⟨2, 5, 1, ['a'], 4⟩]

/-- C91: the table that a compiler makes says exactly what the rules say, whatever their order and however often one is there. -/
theorem C91_table_says {rs : List Rule} (hf : ∀ r ∈ rs, Fits r) {t : List FileTransP} (h : compile rs [] = some t) {x : Rule} (hx : Fits x) :
    Says t x ↔ x ∈ rs := by
  rw [(compile_spec hf tableOk_nil h).2 x hx]
  simp [says_nil]

instance (r : Rule) : Decidable (Fits r) := by unfold Fits; infer_instance
instance (r s : Rule) : Decidable (Contradict r s) := by unfold Contradict SameKey; infer_instance

example : (∀ r ∈ exRules, Fits r) ∧ (compile exRules []).isSome = true := by decide +kernel

/-- C91: the compiler refuses rules only if two of them do contradict each other. -/
theorem C91_refused {rs : List Rule} (hf : ∀ r ∈ rs, Fits r) (h : compile rs [] = none) : ∃ r ∈ rs, ∃ s ∈ rs, Contradict r s := by
  obtain ⟨r, hr, p, hp, hs | hs⟩ := compile_none hf tableOk_nil h
  · exact absurd hs (says_nil _)
  · exact ⟨r, hr, _, hs, ⟨rfl, rfl, rfl⟩, rfl, fun h => hp h.symm⟩

example : (∀ r ∈ exRules ++ [⟨1, 5, 1, ['b'], 3⟩], Fits r) ∧ compile (exRules ++ [⟨1, 5, 1, ['b'], 3⟩]) [] = none := by decide +kernel

/-- C91, in part: a rule that contradicts one before it is refused, if no rule before it is about the same directories, class and name
with the same new type for another source.  Missing: the other rules (see `C91_contradiction_refuted`). -/
theorem C91_contradiction_partial {pre post : List Rule} {r s : Rule} (hf : ∀ x ∈ pre ++ r :: post, Fits x) (hs : s ∈ pre)
    (hc : Contradict s r) (hn : ∀ x ∈ pre, SameKey x r → x.new ≠ r.new) : compile (pre ++ r :: post) [] = none := by
  rw [compile_append]
  cases hp : compile pre [] with
  | none => rfl
  | some t =>
    rw [Option.bind_some]
    have hfp : ∀ x ∈ pre, Fits x := fun x hx => hf x (List.mem_append_left _ hx)
    obtain ⟨h1, h2⟩ := compile_spec hfp tableOk_nil hp
    have hu := used_compile hfp tableOk_nil (by intro f hf; cases hf) hp
    obtain ⟨q, i1, i2⟩ := insert_new (r := r) h1 (by
      intro f hft hk d hd he
      obtain ⟨u, u1, u2, u3⟩ := hu f hft d hd
      have hx : Fits ⟨u, r.target, r.cls, r.name, r.new⟩ := ⟨u1, u2⟩
      have : Says t ⟨u, r.target, r.cls, r.name, r.new⟩ := ⟨f, hft, hk.1, hk.2.1, hk.2.2, d, hd, he, u3⟩
      rcases (h2 _ hx).1 this with h | h
      · exact says_nil _ h
      · exact hn _ h ⟨rfl, rfl, rfl⟩ rfl) ⟨s.new, by
        have : { r with new := s.new } = s := by
          obtain ⟨⟨c1, c2, c3⟩, c4, -⟩ := hc
          cases r; cases s; simp_all
        rw [this]
        exact (h2 s (hfp s hs)).2 (Or.inr hs)⟩
    have hq : q ≠ r.new := by
      rintro rfl
      rcases (h2 r (hf r (by simp))).1 i2 with h | h
      · exact says_nil _ h
      · exact hn r h ⟨rfl, rfl, rfl⟩ rfl
    have : add r t = none := by
      unfold add
      rw [i1]
      simp [hq]
    show (add r t).bind _ = none
    rw [this]
    rfl

example : (∀ x ∈ exRules ++ ⟨1, 5, 1, ['a'], 6⟩ :: [], Fits x) ∧ Contradict ⟨1, 5, 1, ['a'], 3⟩ ⟨1, 5, 1, ['a'], 6⟩ ∧
    ∀ x ∈ exRules, x.name = ['a'] ∧ x.target = 5 ∧ x.cls = 1 → x.new ≠ 6 := by decide +kernel

/-- Two sources with different new types; then the second is to get the new type of the first as well. -/
def exBad : List Rule := [⟨1, 5, 1, ['a'], 3⟩, ⟨2, 5, 1, ['a'], 4⟩, ⟨2, 5, 1, ['a'], 3⟩]

/-- C91 does not hold as it should: the search for the source stops at the entry for the new type (policydb.c:2611), so rules that
contradict each other are accepted; whether they are depends on the order of the rules. -/
theorem C91_contradiction_refuted : ∃ rs t r s, (∀ x ∈ rs, Fits x) ∧ compile rs [] = some t ∧ Contradict r s ∧ Says t r ∧ Says t s ∧
    ∃ rs', rs'.Perm rs ∧ compile rs' [] = none := by
  have hf : ∀ x ∈ exBad, Fits x := by decide
  cases h : compile exBad [] with
  | none => exact absurd h (by decide +kernel)
  | some t =>
    refine ⟨exBad, t, ⟨2, 5, 1, ['a'], 4⟩, ⟨2, 5, 1, ['a'], 3⟩, hf, h, by decide, ?_, ?_, ?_⟩
    · exact (C91_table_says hf h (by decide)).2 (by decide)
    · exact (C91_table_says hf h (by decide)).2 (by decide)
    · exact ⟨[⟨2, 5, 1, ['a'], 4⟩, ⟨2, 5, 1, ['a'], 3⟩, ⟨1, 5, 1, ['a'], 3⟩], by decide, by decide +kernel⟩

/-- C91: what becomes of such a table.  As part of a policy of version 33 it is written and then refused when it is read, since the
reader does check for this; as part of one of version 32 it is read back without the second of the rules. -/
theorem C91_written {p : PolicyDb} (hp : compile exBad [] = some p.filenameTrans) (hc : p.filenameTransCount = 3) :
    p.filenameTrans.map (fun f => f.data.map (·.2)) = [[3, 4]] ∧
    (p.version = 33 → readFilenameTrans 33 (writeFilenameTrans p) = none) ∧
    (p.version = 32 → (readFilenameTrans 32 (writeFilenameTrans p)).map (fun r => r.1.1.map fun f => f.data.map (·.2)) = some [[3]]) := by
  have ht : p.filenameTrans = (compile exBad []).getD [] := by rw [hp]; rfl
  refine ⟨by rw [ht]; decide +kernel, fun h => ?_, fun h => ?_⟩
  · unfold writeFilenameTrans
    rw [h, ht, hc]
    decide +kernel
  · unfold writeFilenameTrans
    rw [h, ht, hc]
    decide +kernel

end Verif.FileTrans
