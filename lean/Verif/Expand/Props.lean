import Verif.Expand.Lemmas8
import Verif.Ebitmap.Props

/-!
# The expansion of rules (C85, C86, C87)
-/

namespace Verif.Expand
open Avtab (Key XPerms Datum hits)
open Services (TypeSet)
open Ebitmap (Ebitmap getBit setBit WF init)

/-! ## A policy for the examples -/

/-- A bitmap with these bits. -/
def bm (l : List Nat) : Ebitmap := l.foldl (fun e i => (setBit e i true).getD e) init

theorem bm_ok : ∀ (l : List Nat), (∀ i ∈ l, i < 2 ^ 16) → WF (bm l) ∧ ∀ b, getBit (bm l) b = true ↔ b ∈ l := by
  suffices h : ∀ (l : List Nat) (e : Ebitmap) (S : List Nat), (∀ i ∈ l, i < 2 ^ 16) → WF e → (∀ b, getBit e b = true ↔ b ∈ S) →
      WF (l.foldl (fun e i => (setBit e i true).getD e) e) ∧
      ∀ b, getBit (l.foldl (fun e i => (setBit e i true).getD e) e) b = true ↔ b ∈ S ∨ b ∈ l by
    intro l hl
    have := h l init [] hl wf_init (by simp [getBit_init])
    simpa [bm] using this
  intro l
  induction l with
  | nil => intro e S _ he hS; exact ⟨he, by simpa using hS⟩
  | cons i l ih =>
    intro e S hl he hS
    obtain ⟨e', h1, h2, h3⟩ := set1_ok he (hl i (by simp)) true
    have hs : setBit e i true = some e' := by
      simp only [set1] at h1
      cases h : setBit e i true with
      | none => rw [h] at h1; cases h1
      | some e'' => rw [h] at h1; simpa using h1
    simp only [List.foldl_cons, hs, Option.getD_some]
    obtain ⟨g1, g2⟩ := ih e' (i :: S) (fun j hj => hl j (by simp [hj])) h2 (by
      intro b
      rw [h3 b]
      by_cases hb : b = i
      · simp [hb]
      · simp [hb, hS])
    refine ⟨g1, fun b => ?_⟩
    rw [g2 b]
    simp only [List.mem_cons]
    tauto

/-- Types 0, 1, 2 and the attribute 3 with types 0 and 1. -/
def exTypes : Types :=
  ⟨4, fun i => if i < 3 then some ⟨false, init, false⟩ else if i = 3 then some ⟨true, bm [0, 1], false⟩ else none⟩

def exMap : List Nat := [1, 2, 3, 4]

def exSet (pos neg : List Nat) (flags : Nat) : TypeSet := ⟨bm pos, bm neg, flags⟩

def exRule (s : BitVec 32) (self : Bool) (a b : TypeSet) (perms : List ClassPerm) (x : Option XPerms) : Rule :=
  ⟨s, if self then 1#32 else 0#32, a, b, perms, x⟩

theorem exTypes_ok : TypesOk exTypes := by
  refine ⟨by decide, ?_, ?_⟩
  · intro i
    unfold exTypes
    simp only
    by_cases h : i < 3
    · simp [h]; omega
    · by_cases h' : i = 3
      · simp [h']
      · simp [h, h']; omega
  · intro i t ht ha
    unfold exTypes at ht
    simp only at ht
    split at ht
    · simp only [Option.some.injEq] at ht
      subst ht
      cases ha
    · split at ht
      · simp only [Option.some.injEq] at ht
        subst ht
        obtain ⟨h1, h2⟩ := bm_ok [0, 1] (by decide)
        refine ⟨h1, fun x hx => ?_⟩
        have := (h2 x).1 hx
        refine ⟨⟨false, init, false⟩, ?_, rfl⟩
        have hx3 : x < 3 := by
          simp at this
          omega
        simp [exTypes, hx3]
      · cases ht

theorem exMap_ok : MapOk exTypes exMap := by unfold MapOk; decide

theorem exType (x : Nat) (h : x < 3) : IsType exTypes x := ⟨⟨false, init, false⟩, by simp [exTypes, h], rfl⟩

theorem exSet_ok {pos neg : List Nat} (flags : Nat) (h : ∀ i ∈ pos ++ neg, i < 4) : SetOk exMap (exSet pos neg flags) := by
  obtain ⟨h1, h2⟩ := bm_ok pos (fun i hi => Nat.lt_trans (h i (by simp [hi])) (by decide))
  obtain ⟨h3, h4⟩ := bm_ok neg (fun i hi => Nat.lt_trans (h i (by simp [hi])) (by decide))
  exact ⟨⟨h1, fun i hi => h i (by simp [(h2 i).1 hi])⟩, h3, fun i hi => h i (by simp [(h4 i).1 hi])⟩

/-- Extended permissions 0x1 and 0x21 of a driver. -/
def exX (driver : BitVec 8) (w : BitVec 32) : XPerms := ⟨1#8, driver, [w, 0#32, 0#32, 0#32, 0#32, 0#32, 0#32, 0#32]⟩

theorem exRule_ok {s : BitVec 32} (self : Bool) {a b c d : List Nat} (f g : Nat) {perms : List ClassPerm} {driver : BitVec 8} {w : BitVec 32}
    (hs : s ∈ avKinds ++ xKinds ++ typeKinds ++ neverKinds) (h1 : ∀ i ∈ a ++ b, i < 4) (h2 : ∀ i ∈ c ++ d, i < 4)
    (h3 : ∀ cp ∈ perms, 0 < cp.tclass ∧ cp.tclass < 2 ^ 16 ∧ 0 < cp.data.toNat ∧ cp.data.toNat ≤ 4) :
    RuleOk exMap (exRule s self (exSet a b f) (exSet c d g) perms (some (exX driver w))) :=
  ⟨hs, exSet_ok f h1, exSet_ok g h2, fun cp h => ⟨(h3 cp h).1, (h3 cp h).2.1⟩, fun _ => ⟨_, rfl, by simp [exX], rfl⟩,
    fun _ cp h => (h3 cp h).2.2⟩

/-- A list of steps from rules of this form. -/
def exStepsOk (steps : List Step) : Prop :=
  ∀ s ∈ steps, match s with
    | .rule r => RuleOk exMap r
    | .cond _ _ t f => (∀ r ∈ t, RuleOk exMap r) ∧ ∀ r ∈ f, RuleOk exMap r

theorem exInput {steps : List Step} (h : exStepsOk steps) : Input exTypes exMap steps := by
  refine ⟨exTypes_ok, exMap_ok, fun place r hr => ?_⟩
  cases place with
  | none => exact h _ hr
  | some c =>
    obtain ⟨k, cur, t, f, h1, h2⟩ := hr
    have := h _ h1
    rcases h2 with ⟨_, h2⟩ | ⟨_, h2⟩
    · exact this.1 r h2
    · exact this.2 r h2

/-- The nodes of a place with kind and permissions or type, for the examples. -/
def show' (r : Res State) (place : Option Nat) : List (Nat × Nat × Nat × Nat × Nat) :=
  match r with
  | .ok st => (nodesAt st place).map fun n => (n.key.source, n.key.target, n.key.cls, n.key.specified.toNat, n.datum.data.toNat)
  | _ => []

/-! ## C85: sets of types -/

/-- **C85.** The expansion of a set of types succeeds and its result stands for exactly the types of the
set: those that are named (by themselves or by an attribute) and not excluded, all that are not excluded for
`*`, and all others for `~`. -/
theorem C85_type_set {p : Types} (hp : TypesOk p) {map : List Nat} (hm : MapOk p map) {s : TypeSet} (hs : SetOk map s) (always : Bool) :
    ∃ e, convertTypeSet p map s always = .ok e ∧ WF e ∧ (∀ v, getBit e v = true → v < p.nprim) ∧
      ∀ x, IsType p x → ((∃ v, getBit e v = true ∧ Stands p v x) ↔ InSet p map s x) := by
  obtain ⟨e, h1, h2, h3, _, h5⟩ := convertTypeSet_ok hp hm hs always
  exact ⟨e, h1, h2, h3, h5⟩

/-- **C85.** When all attributes are expanded, the result has exactly the types of the set and no attribute. -/
theorem C85_expanded {p : Types} (hp : TypesOk p) {map : List Nat} (hm : MapOk p map) {s : TypeSet} (hs : SetOk map s) :
    ∃ e, convertTypeSet p map s true = .ok e ∧ WF e ∧ ∀ x, getBit e x = true ↔ IsType p x ∧ InSet p map s x := by
  obtain ⟨e, h1, h2, h3, h4, h5⟩ := convertTypeSet_ok hp hm hs true
  refine ⟨e, h1, h2, fun x => ⟨fun hx => ?_, fun ⟨hx, hi⟩ => ?_⟩⟩
  · have ht := h4 rfl x hx
    exact ⟨ht, (h5 x ht).1 ⟨x, hx, .inl rfl⟩⟩
  · obtain ⟨v, hv, hs⟩ := (h5 x hx).2 hi
    rwa [(stands_type (h4 rfl v hv)).1 hs] at hv

/-- `{ attribute -type1 }` is type 0. -/
example : SetOk exMap (exSet [3] [1] 0) ∧
    (match convertTypeSet exTypes exMap (exSet [3] [1] 0) false with
     | .ok e => decide (bits e = [0])
     | _ => false) = true := ⟨exSet_ok 0 (by decide), by decide +kernel⟩

/-- `~{ attribute -type1 }` is types 1 and 2; `* -type1` is types 0 and 2. -/
example : (match convertTypeSet exTypes exMap (exSet [3] [1] 2) false, convertTypeSet exTypes exMap (exSet [] [1] 1) false with
     | .ok e, .ok f => decide (bits e = [1, 2]) && decide (bits f = [0, 2])
     | _, _ => false) = true := by decide +kernel

/-- The bound of the numbers of a set is needed: `type_set_expand` compares the included types with the number
of types, but not the excluded ones; an excluded type out of range is read outside of the array. -/
theorem C85_excluded_unchecked :
    typeSetExpand exTypes ⟨bm [4], init, 0⟩ true = .err ∧ typeSetExpand exTypes ⟨init, bm [4], 0⟩ true = .ub := by
  decide +kernel

/-! ## C86: access vectors -/

theorem once_nodup : ∀ {steps : List Step}, Once steps → (condsOf steps).Nodup
  | [], _ => by simp [condsOf]
  | .rule r :: l, h => by
    simp only [condsOf]
    exact once_nodup (List.Pairwise.of_cons h)
  | .cond k cur t f :: l, h => by
    simp only [condsOf, List.nodup_cons]
    refine ⟨fun hk => ?_, once_nodup (List.Pairwise.of_cons h)⟩
    have hm : ∀ l : List Step, k ∈ condsOf l → ∃ cur t f, Step.cond k cur t f ∈ l := by
      intro l
      induction l with
      | nil => simp [condsOf]
      | cons a l ih =>
        cases a with
        | rule r =>
          simp only [condsOf]
          intro h
          obtain ⟨c, t, f, h⟩ := ih h
          exact ⟨c, t, f, List.mem_cons_of_mem _ h⟩
        | cond k' c t f =>
          simp only [condsOf, List.mem_cons]
          rintro (rfl | h)
          · exact ⟨c, t, f, by simp⟩
          · obtain ⟨c, t, f, h⟩ := ih h
            exact ⟨c, t, f, .inr h⟩
    obtain ⟨c', t', f', hm⟩ := hm l hk
    exact (List.pairwise_cons.1 h).1 _ hm k k cur c' t t' f f' rfl rfl rfl

/-- **C86.** The expansion of rules without type rules succeeds. -/
theorem C86_succeeds {p : Types} {map : List Nat} {steps : List Step} (hin : Input p map steps) (nd : Bool)
    (hav : ∀ place r, RuleAt steps place r → r.specified ∉ typeKinds) : ∃ st, expandAll p nd map steps = .ok st := by
  rcases all_good hin nd (E := False) (val := fun _ => true) (fun h => h.elim) with ⟨st, h, _⟩ | ⟨_, place, r, h1, h2⟩
  · exact ⟨st, h⟩
  · exact absurd h2 (hav place r h1)

/-- **C86.** With type rules, the only failure is a conflict. -/
theorem C86_only_conflicts {p : Types} {map : List Nat} {steps : List Step} (hin : Input p map steps) (nd : Bool) :
    (∃ st, expandAll p nd map steps = .ok st) ∨ expandAll p nd map steps = .conflict := by
  rcases all_good hin nd (E := False) (val := fun _ => true) (fun h => h.elim) with ⟨st, h, _⟩ | ⟨h, _⟩
  · exact .inl ⟨st, h⟩
  · exact .inr h

/-- **C86.** In the table of rules without a condition, and in each branch of each conditional, a source and a
target have a permission of a class exactly if an `allow` rule of that place is about them and gives it. -/
theorem C86_allow {p : Types} {map : List Nat} {steps : List Step} (hin : Input p map steps) {nd : Bool} {st : State}
    (h : expandAll p nd map steps = .ok st) (place : Option Nat) {x y : Nat} (hx : IsType p x) (hy : IsType p y) (c b : Nat) :
    Grants p (nodesAt st place) 0x1#16 x y c b ↔
      ∃ r, RuleAt steps place r ∧ r.specified = 0x1#32 ∧ About p map r x y ∧ ∃ cp ∈ r.perms, cp.tclass = c ∧ cp.data.getLsbD b = true := by
  unfold Grants
  rw [all_av hin h (P := fun d => d.data.getLsbD b = true) (by decide) (compat_grant (.inl rfl) b) (fun h => absurd h (by decide)) hx hy]
  constructor
  · rintro ⟨r, h1, h2, h3, h4, h5⟩
    exact ⟨r, h1, (spec_inv h2).1.1 h4, h5⟩
  · rintro ⟨r, h1, h2, h5⟩
    exact ⟨r, h1, by rw [h2]; decide, by rw [h2]; cases nd <;> decide, by rw [h2]; decide, h5⟩

/-- **C86.** The same for `auditallow` rules. -/
theorem C86_auditallow {p : Types} {map : List Nat} {steps : List Step} (hin : Input p map steps) {nd : Bool} {st : State}
    (h : expandAll p nd map steps = .ok st) (place : Option Nat) {x y : Nat} (hx : IsType p x) (hy : IsType p y) (c b : Nat) :
    Grants p (nodesAt st place) 0x2#16 x y c b ↔
      ∃ r, RuleAt steps place r ∧ r.specified = 0x2#32 ∧ About p map r x y ∧ ∃ cp ∈ r.perms, cp.tclass = c ∧ cp.data.getLsbD b = true := by
  unfold Grants
  rw [all_av hin h (P := fun d => d.data.getLsbD b = true) (by decide) (compat_grant (.inr rfl) b) (fun h => absurd h (by decide)) hx hy]
  constructor
  · rintro ⟨r, h1, h2, h3, h4, h5⟩
    exact ⟨r, h1, (spec_inv h2).2.1.1 h4, h5⟩
  · rintro ⟨r, h1, h2, h5⟩
    exact ⟨r, h1, by rw [h2]; decide, by rw [h2]; cases nd <;> decide, by rw [h2]; decide, h5⟩

/-- **C86.** A denial is not audited for a permission exactly if a `dontaudit` rule of the place names it (and
those rules are not disabled) or an `auditdeny` rule of the place leaves it out. -/
theorem C86_dontaudit {p : Types} {map : List Nat} {steps : List Step} (hin : Input p map steps) {nd : Bool} {st : State}
    (h : expandAll p nd map steps = .ok st) (place : Option Nat) {x y : Nat} (hx : IsType p x) (hy : IsType p y) (c : Nat) {b : Nat} (hb : b < 32) :
    Removes p (nodesAt st place) 0x4#16 x y c b ↔
      ∃ r, RuleAt steps place r ∧ About p map r x y ∧ ∃ cp ∈ r.perms, cp.tclass = c ∧
        (nd = false ∧ r.specified = 0x8#32 ∧ cp.data.getLsbD b = true ∨ r.specified = 0x4#32 ∧ cp.data.getLsbD b = false) := by
  unfold Removes
  rw [all_av hin h (P := fun d => d.data.getLsbD b = false) (by decide) (compat_deny hb) (fun h => absurd h (by decide)) hx hy]
  constructor
  · rintro ⟨r, h1, h2, h3, h4, h5, cp, h6, h7, h8⟩
    refine ⟨r, h1, h5, cp, h6, h7, ?_⟩
    rcases h8 with ⟨h8, h9⟩ | h8
    · refine .inl ⟨?_, h8, h9⟩
      rw [h8] at h3
      revert h3
      cases nd <;> decide
    · exact .inr h8
  · rintro ⟨r, h1, h5, cp, h6, h7, ⟨rfl, h8, h9⟩ | ⟨h8, h9⟩⟩
    · exact ⟨r, h1, by rw [h8]; decide, by rw [h8]; decide, by rw [h8]; decide, h5, cp, h6, h7, .inl ⟨h8, h9⟩⟩
    · exact ⟨r, h1, by rw [h8]; decide, by rw [h8]; cases nd <;> decide, by rw [h8]; decide, h5, cp, h6, h7, .inr ⟨h8, h9⟩⟩

/-- **C86.** Extended permissions of rules without a condition: a source and a target have an extended permission
of a kind and driver exactly if a rule gives it (`dontauditxperm` rules can be disabled). -/
theorem C86_xperms {p : Types} {map : List Nat} {steps : List Step} (hin : Input p map steps) {nd : Bool} {st : State}
    (h : expandAll p nd map steps = .ok st) {s : BitVec 32} (hs : s = 0x100#32 ∨ s = 0x200#32 ∨ s = 0x400#32)
    {x y : Nat} (hx : IsType p x) (hy : IsType p y) (c : Nat) (xkind driver : BitVec 8) (b : Nat) :
    XGrants p (nodesAt st none) (s.truncate 16) x y c xkind driver b ↔
      ∃ r, RuleAt steps none r ∧ r.specified = s ∧ (nd = true → s ≠ 0x400#32) ∧ About p map r x y ∧ (∃ cp ∈ r.perms, cp.tclass = c) ∧
        ∃ w, r.xperms = some ⟨xkind, driver, w⟩ ∧ XBit w b :=
  all_x hin h (.inr rfl) (by simpa [xKinds] using hs) hx hy c xkind driver b

/-- **C86.** Extended permissions in a branch of a conditional, when no two conditionals of the modules are
equal. -/
theorem C86_xperms_branch_partial {p : Types} {map : List Nat} {steps : List Step} (hin : Input p map steps) (ho : Once steps)
    {nd : Bool} {st : State} (h : expandAll p nd map steps = .ok st) (c' : Nat) {s : BitVec 32} (hs : s = 0x100#32 ∨ s = 0x200#32 ∨ s = 0x400#32)
    {x y : Nat} (hx : IsType p x) (hy : IsType p y) (c : Nat) (xkind driver : BitVec 8) (b : Nat) :
    XGrants p (nodesAt st (some c')) (s.truncate 16) x y c xkind driver b ↔
      ∃ r, RuleAt steps (some c') r ∧ r.specified = s ∧ (nd = true → s ≠ 0x400#32) ∧ About p map r x y ∧ (∃ cp ∈ r.perms, cp.tclass = c) ∧
        ∃ w, r.xperms = some ⟨xkind, driver, w⟩ ∧ XBit w b :=
  all_x hin h (.inl (once_nodup ho)) (by simpa [xKinds] using hs) hx hy c xkind driver b

/-- **C86.** The flag that a rule is enabled is the present value of its branch; a rule without a condition does
not have it. -/
theorem C86_enabled {p : Types} {map : List Nat} {steps : List Step} (hin : Input p map steps) {nd : Bool} {st : State}
    (h : expandAll p nd map steps = .ok st) {val : Nat → Bool} (hval : ∀ k cur rt rf, Step.cond k cur rt rf ∈ steps → cur = val k) :
    (∀ n ∈ nodesAt st none, n.key.specified.getLsbD 15 = false) ∧
    ∀ k, (∀ n ∈ nodesAt st (some (2 * k)), n.key.specified.getLsbD 15 = val k) ∧
      ∀ n ∈ nodesAt st (some (2 * k + 1)), n.key.specified.getLsbD 15 = !val k := by
  have := all_good hin nd (E := True) (val := fun c => if c % 2 = 0 then val (c / 2) else !val (c / 2)) (by
    intro _ k cur rt rf hs
    rw [hval k cur rt rf hs]
    refine ⟨?_, ?_⟩
    · simp
    · have h1 : (2 * k + 1) % 2 = 1 := by omega
      have h2 : (2 * k + 1) / 2 = k := by omega
      simp [h1, h2])
  rcases this with ⟨st', h1, hi, he⟩ | ⟨h1, _⟩
  · rw [h] at h1
    simp only [Res.ok.injEq] at h1
    subst h1
    replace he := he trivial
    refine ⟨fun n hn => he.1 n hn, fun k => ⟨fun n hn => ?_, fun n hn => ?_⟩⟩
    · obtain ⟨h1, h2⟩ := (mem_nodesAt hi _ n).1 hn
      have := he.2 n h1 _ h2
      simpa using this
    · obtain ⟨h1, h2⟩ := (mem_nodesAt hi _ n).1 hn
      have := he.2 n h1 _ h2
      have h3 : (2 * k + 1) % 2 = 1 := by omega
      have h4 : (2 * k + 1) / 2 = k := by omega
      simpa [h3, h4] using this
  · rw [h] at h1; cases h1

/-! ## C87: type rules -/

/-- **C87.** Whatever the values of the conditionals are, at most one type rule of a kind applies to a source, a
target and a class. -/
theorem C87_deterministic {p : Types} {map : List Nat} {steps : List Step} (hin : Input p map steps) {nd : Bool} {st : State}
    (h : expandAll p nd map steps = .ok st) (val : Nat → Bool) {pa pb : Option Nat} (ha : Active val pa) (hb : Active val pb)
    {kind : BitVec 16} (hk : kind = 0x10#16 ∨ kind = 0x20#16 ∨ kind = 0x40#16) {x y c v w : Nat}
    (h1 : Gives p (nodesAt st pa) kind x y c v) (h2 : Gives p (nodesAt st pb) kind x y c w) : pa = pb ∧ v = w := by
  obtain ⟨n, n1, n2, n3⟩ := h1
  obtain ⟨m, m1, m2, m3⟩ := h2
  obtain ⟨e1, e2⟩ := type_unique hin h (pa := pa) (pb := pb) (by
    rintro a b rfl rfl hab
    simp only [Active] at ha hb
    rw [hab] at ha
    rcases ha with ⟨a1, a2⟩ | ⟨a1, a2⟩ <;> rcases hb with ⟨b1, b2⟩ | ⟨b1, b2⟩
    · omega
    · rw [a2] at b2; cases b2
    · rw [a2] at b2; cases b2
    · omega) n1 m1 (by simpa [tKinds] using hk) n2 m2
  subst e2
  exact ⟨e1, by rw [← n3, m3]⟩

theorem typeOf_iff {p : Types} {map : List Nat} (hp : TypesOk p) (hm : MapOk p map) {cp : ClassPerm} (hc : 0 < cp.data.toNat) (u : BitVec 32) :
    (∃ v, map[(cp.data - 1#32).toNat]? = some v ∧ u = BitVec.ofNat 32 v) ↔ TypeOf map cp u.toNat := by
  have hn : (cp.data - 1#32).toNat = cp.data.toNat - 1 := by
    have : (1#32) ≤ cp.data := by
      rw [BitVec.le_def]; simp; omega
    rw [BitVec.toNat_sub_of_le this]; rfl
  have hlt : ∀ v, v ∈ map → v < 2 ^ 32 := fun v hv => by
    have := hm v hv
    have := hp.few
    omega
  rw [hn]
  constructor
  · rintro ⟨v, h1, rfl⟩
    refine ⟨cp.data.toNat - 1, by omega, ?_⟩
    rw [BitVec.toNat_ofNat, Nat.mod_eq_of_lt (hlt v (List.mem_of_getElem? h1))]
    exact h1
  · rintro ⟨i, h1, h2⟩
    refine ⟨u.toNat, ?_, by simp⟩
    rw [h1]
    exact h2

theorem kind_trunc {s : BitVec 32} (hs : s = 0x10#32 ∨ s = 0x20#32 ∨ s = 0x40#32) :
    s ∈ typeKinds ∧ (s.truncate 16 : BitVec 16) ∈ tKinds ∧ avtabSpec s = s.truncate 16 ∧
      ∀ s' ∈ typeKinds, avtabSpec s' = s.truncate 16 → s' = s := by
  have hinv := @spec_inv_type
  rcases hs with rfl | rfl | rfl
  · exact ⟨by decide, by decide, by decide, fun s' h h' => (hinv h).1.1 h'⟩
  · exact ⟨by decide, by decide, by decide, fun s' h h' => (hinv h).2.1.1 h'⟩
  · exact ⟨by decide, by decide, by decide, fun s' h h' => (hinv h).2.2.1 h'⟩

/-- **C87.** The type that the table gives is the type of a rule of that place. -/
theorem C87_from_rules {p : Types} {map : List Nat} {steps : List Step} (hin : Input p map steps) {nd : Bool} {st : State}
    (h : expandAll p nd map steps = .ok st) (place : Option Nat) {s : BitVec 32} (hs : s = 0x10#32 ∨ s = 0x20#32 ∨ s = 0x40#32)
    {x y : Nat} (hx : IsType p x) (hy : IsType p y) {c v : Nat} (hg : Gives p (nodesAt st place) (s.truncate 16) x y c v) :
    ∃ r, RuleAt steps place r ∧ r.specified = s ∧ About p map r x y ∧ ∃ cp ∈ r.perms, cp.tclass = c ∧ TypeOf map cp v := by
  obtain ⟨k1, k2, k3, k4⟩ := kind_trunc hs
  obtain ⟨n, n1, n2, rfl⟩ := hg
  obtain ⟨r, h1, h2, h3, h4, cp, h5, h6, h7⟩ := (all_type hin h place k2 n.datum.data hx hy c).1 ⟨n, n1, n2, rfl⟩
  exact ⟨r, h1, k4 _ h2 h3, h4, cp, h5, h6, (typeOf_iff hin.types hin.copies ((hin.rules _ r h1).types h2 cp h5).1 _).1 h7⟩

/-- **C87.** Type rules with one class each, when no two conditionals of the modules are equal (which is not needed
for rules without a condition): if the expansion succeeds, the table gives exactly the types of the rules. -/
theorem C87_complete_partial {p : Types} {map : List Nat} {steps : List Step} (hin : Input p map steps) {nd : Bool} {st : State}
    (h : expandAll p nd map steps = .ok st) (place : Option Nat) (ho : place = none ∨ Once steps)
    (h1 : ∀ place r, RuleAt steps place r → r.specified ∈ typeKinds → r.perms.length ≤ 1)
    {s : BitVec 32} (hs : s = 0x10#32 ∨ s = 0x20#32 ∨ s = 0x40#32) {x y : Nat} (hx : IsType p x) (hy : IsType p y) (c v : Nat) :
    Gives p (nodesAt st place) (s.truncate 16) x y c v ↔
    ∃ r, RuleAt steps place r ∧ r.specified = s ∧ About p map r x y ∧ ∃ cp ∈ r.perms, cp.tclass = c ∧ TypeOf map cp v := by
  refine ⟨C87_from_rules hin h place hs hx hy, ?_⟩
  rintro ⟨r, r1, rfl, r3, cp, r4, r5, r6⟩
  obtain ⟨k1, k2, k3, k4⟩ := kind_trunc hs
  have hv : v < 2 ^ 32 := by
    obtain ⟨i, _, hi⟩ := r6
    have := hin.copies v (List.mem_of_getElem? hi)
    have := hin.types.few
    omega
  have hvv : (BitVec.ofNat 32 v).toNat = v := by rw [BitVec.toNat_ofNat, Nat.mod_eq_of_lt hv]
  have := (all_type hin h place k2 (BitVec.ofNat 32 v) hx hy c).2 (ho.symm.imp_left once_nodup) h1
    ⟨r, r1, k1, k3, r3, cp, r4, r5, (typeOf_iff hin.types hin.copies ((hin.rules _ r r1).types k1 cp r4).1 _).2 (by rw [hvv]; exact r6)⟩
  obtain ⟨n, n1, n2, n3⟩ := this
  exact ⟨n, n1, n2, by rw [n3, hvv]⟩

/-- **C87.** Two type rules without a condition, of one class each, that give different types for the same source,
target and class are reported as a conflict. -/
theorem C87_conflict_partial {p : Types} {map : List Nat} {steps : List Step} (hin : Input p map steps) (nd : Bool)
    (h1 : ∀ place r, RuleAt steps place r → r.specified ∈ typeKinds → r.perms.length ≤ 1)
    {s : BitVec 32} (hs : s = 0x10#32 ∨ s = 0x20#32 ∨ s = 0x40#32) {x y : Nat} (hx : IsType p x) (hy : IsType p y) {c v w : Nat} (hvw : v ≠ w)
    (hr : ∃ r, RuleAt steps none r ∧ r.specified = s ∧ About p map r x y ∧ ∃ cp ∈ r.perms, cp.tclass = c ∧ TypeOf map cp v)
    (hr' : ∃ r, RuleAt steps none r ∧ r.specified = s ∧ About p map r x y ∧ ∃ cp ∈ r.perms, cp.tclass = c ∧ TypeOf map cp w) :
    expandAll p nd map steps = .conflict := by
  rcases C86_only_conflicts hin nd with ⟨st, h⟩ | h
  · exfalso
    have g1 := (C87_complete_partial hin h none (.inl rfl) h1 hs hx hy c v).2 hr
    have g2 := (C87_complete_partial hin h none (.inl rfl) h1 hs hx hy c w).2 hr'
    exact hvw (C87_deterministic hin h (fun _ => true) (pa := none) (pb := none) trivial trivial
      (by rcases hs with rfl | rfl | rfl <;> decide) g1 g2).2
  · exact h

/-! ## Examples -/

/-- `allow attribute self:1 { bit 0 }`, `allow type2 { attribute -type1 }:1 { bit 1 }`, a conditional with `allow` and
`dontaudit`, extended permissions and a type transition. -/
def exSteps : List Step :=
  [.rule (exRule 0x1#32 true (exSet [3] [] 0) (exSet [] [] 0) [⟨1, 1#32⟩] (some (exX 0#8 0#32))),
   .rule (exRule 0x1#32 false (exSet [2] [] 0) (exSet [3] [1] 0) [⟨1, 2#32⟩] (some (exX 0#8 0#32))),
   .cond 0 true [exRule 0x1#32 false (exSet [3] [] 0) (exSet [2] [] 0) [⟨2, 1#32⟩] (some (exX 0#8 0#32))]
     [exRule 0x8#32 false (exSet [3] [] 0) (exSet [2] [] 0) [⟨2, 4#32⟩] (some (exX 0#8 0#32))],
   .rule (exRule 0x100#32 false (exSet [0] [] 0) (exSet [1] [] 0) [⟨1, 1#32⟩] (some (exX 7#8 2#32))),
   .rule (exRule 0x10#32 false (exSet [3] [] 0) (exSet [2] [] 0) [⟨1, 3#32⟩] (some (exX 0#8 0#32)))]

theorem exSteps_input : Input exTypes exMap exSteps := by
  refine exInput fun s hs => ?_
  simp only [exSteps, List.mem_cons, List.not_mem_nil, or_false] at hs
  rcases hs with rfl | rfl | rfl | rfl | rfl
  · exact exRule_ok _ _ _ (by decide) (by decide) (by decide) (by decide)
  · exact exRule_ok _ _ _ (by decide) (by decide) (by decide) (by decide)
  · refine ⟨fun r hr => ?_, fun r hr => ?_⟩ <;> simp only [List.mem_cons, List.not_mem_nil, or_false] at hr <;> subst hr
    · exact exRule_ok _ _ _ (by decide) (by decide) (by decide) (by decide)
    · exact exRule_ok _ _ _ (by decide) (by decide) (by decide) (by decide)
  · exact exRule_ok _ _ _ (by decide) (by decide) (by decide) (by decide)
  · exact exRule_ok _ _ _ (by decide) (by decide) (by decide) (by decide)

/-- The hypotheses of C86 and C87 hold for these steps; the tables have the expected entries. -/
example : Input exTypes exMap exSteps ∧ Once exSteps ∧
    show' (expandAll exTypes false exMap exSteps) none =
      [(2, 3, 1, 0x10, 3), (1, 3, 1, 0x10, 3), (1, 2, 1, 0x100, 0), (3, 1, 1, 1, 2), (2, 2, 1, 1, 1), (1, 1, 1, 1, 1)] ∧
    show' (expandAll exTypes false exMap exSteps) (some 0) = [(4, 3, 2, 0x8001, 1)] ∧
    show' (expandAll exTypes false exMap exSteps) (some 1) = [(4, 3, 2, 4, 0xFFFFFFFB)] ∧
    show' (expandAll exTypes true exMap exSteps) (some 1) = [] := by
  refine ⟨exSteps_input, ?_, by decide +kernel, by decide +kernel, by decide +kernel, by decide +kernel⟩
  simp [Once, exSteps]

/-- Two transitions to different types. -/
example : expandAll exTypes false exMap
    [.rule (exRule 0x10#32 false (exSet [3] [] 0) (exSet [2] [] 0) [⟨1, 3#32⟩] none),
     .rule (exRule 0x10#32 false (exSet [1] [] 0) (exSet [2] [] 0) [⟨1, 1#32⟩] none)] matches .conflict := by
  have : (match expandAll exTypes false exMap
    [.rule (exRule 0x10#32 false (exSet [3] [] 0) (exSet [2] [] 0) [⟨1, 3#32⟩] none),
     .rule (exRule 0x10#32 false (exSet [1] [] 0) (exSet [2] [] 0) [⟨1, 1#32⟩] none)] with | .conflict => true | _ => false) = true := by
    decide +kernel
  exact this

/-! ## What the code does otherwise -/

/-- Extended permissions of kind 1 of a place, for the refutation. -/
def showX (r : Res State) (place : Option Nat) : List (Nat × Nat × Nat) :=
  match r with
  | .ok st => (nodesAt st place).map fun n =>
      match n.datum.xperms with
      | some x => (x.specified.toNat, x.driver.toNat, (x.perms.headD 0#32).toNat)
      | none => (0, 0, 0)
  | _ => []

/-- `if a { allowxperm type0 type1:1 ioctl 0x1001 }`, `if b { allowxperm type0 type1:1 ioctl 0x2002 }` and again
`if a { allowxperm type0 type1:1 ioctl 0x2000 }`. -/
def exTwice : List Step :=
  [.cond 0 true [exRule 0x100#32 false (exSet [0] [] 0) (exSet [1] [] 0) [⟨1, 1#32⟩] (some (exX 0x10#8 2#32))] [],
   .cond 1 true [exRule 0x100#32 false (exSet [0] [] 0) (exSet [1] [] 0) [⟨1, 1#32⟩] (some (exX 0x20#8 4#32))] [],
   .cond 0 true [exRule 0x100#32 false (exSet [0] [] 0) (exSet [1] [] 0) [⟨1, 1#32⟩] (some (exX 0x20#8 1#32))] []]

/-- **C86** does not hold for extended permissions in conditionals that come twice: the search stops at the entry of
the other conditional, goes on to the next entry of the first one without comparing its driver, and the driver of
that entry is overwritten.  The permission 0x1001 is lost and 0x2001, which no rule gives, is granted. -/
theorem C86_xperms_twice_refuted :
    Input exTypes exMap exTwice ∧
    showX (expandAll exTypes false exMap exTwice) (some 0) = [(1, 0x20, 3)] ∧
    ∃ st, expandAll exTypes false exMap exTwice = .ok st ∧
      XGrants exTypes (nodesAt st (some 0)) 0x100#16 0 1 1 1#8 0x20#8 1 ∧
      ¬ ∃ r, RuleAt exTwice (some 0) r ∧ ∃ w, r.xperms = some ⟨1#8, 0x20#8, w⟩ ∧ XBit w 1 := by
  have hin : Input exTypes exMap exTwice := by
    refine exInput fun s hs => ?_
    simp only [exTwice, List.mem_cons, List.not_mem_nil, or_false] at hs
    rcases hs with rfl | rfl | rfl <;> refine ⟨fun r hr => ?_, by simp⟩ <;>
      simp only [List.mem_cons, List.not_mem_nil, or_false] at hr <;> subst hr <;>
      exact exRule_ok _ _ _ (by decide) (by decide) (by decide) (by decide)
  refine ⟨hin, by decide +kernel, ?_⟩
  have hav : ∀ place r, RuleAt exTwice place r → r.specified ∉ typeKinds ∧
      (place = some 0 → ¬ ∃ w, r.xperms = some ⟨1#8, 0x20#8, w⟩ ∧ XBit w 1) := by
    intro place r hr
    cases place with
    | none => simp [RuleAt, exTwice] at hr
    | some c =>
      obtain ⟨k, cur, t, f, h1, h2⟩ := hr
      simp only [exTwice, List.mem_cons, Step.cond.injEq, List.not_mem_nil, or_false] at h1
      rcases h1 with ⟨rfl, rfl, rfl, rfl⟩ | ⟨rfl, rfl, rfl, rfl⟩ | ⟨rfl, rfl, rfl, rfl⟩ <;> simp only [List.mem_cons, List.not_mem_nil, or_false, and_false] at h2 <;>
        obtain ⟨hc, rfl⟩ := h2 <;> refine ⟨by decide, ?_⟩
      · rintro _ ⟨w, h, _⟩
        simp [exRule, exX] at h
      · intro h
        simp at h
        omega
      · rintro _ ⟨w, h, v, h3, h4⟩
        simp only [exRule, exX, Option.some.injEq, XPerms.mk.injEq, true_and] at h
        subst h
        simp at h3
        subst h3
        exact absurd h4 (by decide)
  obtain ⟨st, hst⟩ := C86_succeeds hin false (fun place r hr => (hav place r hr).1)
  refine ⟨st, hst, ?_, ?_⟩
  · have hd : (match expandAll exTypes false exMap exTwice with
        | .ok st => (nodesAt st (some 0)).any fun n => decide (n.key.specified &&& 0x7FFF#16 = 0x100#16 ∧ n.key.cls = 1 ∧ n.key.source = 0 + 1 ∧ n.key.target = 1 + 1 ∧
            n.datum.xperms = some ⟨1#8, 0x20#8, [3#32, 0#32, 0#32, 0#32, 0#32, 0#32, 0#32, 0#32]⟩)
        | _ => false) = true := by decide +kernel
    rw [hst] at hd
    simp only [List.any_eq_true, decide_eq_true_eq] at hd
    obtain ⟨n, hn, h1, h2, h3, h4, h5⟩ := hd
    exact ⟨n, hn, ⟨h1, h2, ⟨0, h3, .inl rfl⟩, 1, h4, .inl rfl⟩, _, h5, 3#32, rfl, by decide⟩
  · rintro ⟨r, hr, h⟩
    exact (hav _ r hr).2 rfl h

/-- `type_transition type0 type1:1 type2` and `type_transition type0 type1:{ 1 2 } type2`. -/
def exDup : List Step :=
  [.rule (exRule 0x10#32 false (exSet [0] [] 0) (exSet [1] [] 0) [⟨1, 3#32⟩] (some (exX 0#8 0#32))),
   .rule (exRule 0x10#32 false (exSet [0] [] 0) (exSet [1] [] 0) [⟨1, 3#32⟩, ⟨2, 3#32⟩] (some (exX 0#8 0#32)))]

theorem exDup_input : Input exTypes exMap exDup := by
  refine exInput fun s hs => ?_
  simp only [exDup, List.mem_cons, List.not_mem_nil, or_false] at hs
  rcases hs with rfl | rfl <;> exact exRule_ok _ _ _ (by decide) (by decide) (by decide) (by decide)

/-- **C87** does not hold for a rule with several classes: at the first class that already has this rule the remaining
classes are left out, and the expansion still succeeds.  The second rule has no effect for class 2. -/
theorem C87_duplicate_refuted :
    Input exTypes exMap exDup ∧
    (∃ r, RuleAt exDup none r ∧ r.specified = 0x10#32 ∧ About exTypes exMap r 0 1 ∧ ∃ cp ∈ r.perms, cp.tclass = 2 ∧ TypeOf exMap cp 3) ∧
    ∃ st, expandAll exTypes false exMap exDup = .ok st ∧ ¬ Gives exTypes (nodesAt st none) 0x10#16 0 1 2 3 := by
  refine ⟨exDup_input, ⟨_, List.mem_cons_of_mem _ (List.mem_singleton.2 rfl), rfl, ?_, ⟨2, 3#32⟩, by simp [exRule], rfl, 2, rfl, rfl⟩, ?_⟩
  · obtain ⟨_, h0⟩ := bm_ok [0] (by decide)
    obtain ⟨_, h1⟩ := bm_ok [1] (by decide)
    obtain ⟨_, h2⟩ := bm_ok [] (by decide)
    refine ⟨?_, .inl ?_⟩
    · simp only [InSet, exRule, exSet, Nat.zero_testBit, Bool.false_eq_true, if_false]
      exact ⟨⟨0, ⟨0, (h0 0).2 (by simp), rfl⟩, .inl rfl⟩, fun ⟨v, ⟨i, hi, _⟩, _⟩ => by simp [h2 i] at hi⟩
    · simp only [InSet, exRule, exSet, Nat.zero_testBit, Bool.false_eq_true, if_false]
      exact ⟨⟨1, ⟨1, (h1 1).2 (by simp), rfl⟩, .inl rfl⟩, fun ⟨v, ⟨i, hi, _⟩, _⟩ => by simp [h2 i] at hi⟩
  · have hd : (match expandAll exTypes false exMap exDup with
        | .ok st => (nodesAt st none).all fun n => decide (n.key.cls ≠ 2)
        | _ => false) = true := by decide +kernel
    rcases C86_only_conflicts exDup_input false with ⟨st, h⟩ | h
    · refine ⟨st, h, ?_⟩
      rw [h] at hd
      simp only [List.all_eq_true, decide_eq_true_eq] at hd
      rintro ⟨n, hn, ⟨_, h2, _⟩, _⟩
      exact hd n hn h2
    · rw [h] at hd; cases hd

/-- `if a { type_transition type0 type1:1 type0 } else { type_transition type0 type1:1 type1 }` and again
`if a { type_transition type0 type1:1 type2 }`. -/
def exOver : List Step :=
  [.cond 0 true [exRule 0x10#32 false (exSet [0] [] 0) (exSet [1] [] 0) [⟨1, 1#32⟩] (some (exX 0#8 0#32))]
     [exRule 0x10#32 false (exSet [0] [] 0) (exSet [1] [] 0) [⟨1, 2#32⟩] (some (exX 0#8 0#32))],
   .cond 0 true [exRule 0x10#32 false (exSet [0] [] 0) (exSet [1] [] 0) [⟨1, 3#32⟩] (some (exX 0#8 0#32))] []]

/-- **C87** does not hold for conditionals that come twice: the search for an earlier rule looks at one entry of the
table, here that of the other branch, and the earlier rule of the same branch is overwritten without a conflict. -/
theorem C87_overwritten_refuted :
    Input exTypes exMap exOver ∧
    show' (expandAll exTypes false exMap exOver) (some 0) = [(1, 2, 1, 0x8010, 3)] ∧
    show' (expandAll exTypes false exMap (exOver.take 1)) (some 0) = [(1, 2, 1, 0x8010, 1)] := by
  refine ⟨exInput fun s hs => ?_, by decide +kernel, by decide +kernel⟩
  simp only [exOver, List.mem_cons, List.not_mem_nil, or_false] at hs
  rcases hs with rfl | rfl
  · refine ⟨fun r hr => ?_, fun r hr => ?_⟩ <;> simp only [List.mem_cons, List.not_mem_nil, or_false] at hr <;> subst hr <;>
      exact exRule_ok _ _ _ (by decide) (by decide) (by decide) (by decide)
  · refine ⟨fun r hr => ?_, by simp⟩
    simp only [List.mem_cons, List.not_mem_nil, or_false] at hr
    subst hr
    exact exRule_ok _ _ _ (by decide) (by decide) (by decide) (by decide)

end Verif.Expand
