import Verif.Expand.Lemmas
import Verif.Prelude

/-!
# Changes of the tables
-/

namespace Verif.Expand
open Avtab (Key XPerms Datum hits)

/-- The kinds of the table. -/
def tabKinds : List (BitVec 16) :=
  [0x1#16, 0x2#16, 0x4#16, 0x10#16, 0x20#16, 0x40#16, 0x100#16, 0x200#16, 0x400#16]

/-- A key without the flag for enabled rules. -/
def core (k : Key) : Nat × Nat × Nat × BitVec 16 := (k.source, k.target, k.cls, k.specified &&& 0x7FFF#16)

structure TabInv (t : Tab) (te : Bool) : Prop where
  lt : ∀ n ∈ t.nodes, n.id < t.nodes.length
  nodup : t.nodes.Pairwise fun a b => a.id ≠ b.id
  lists : ∀ c id, id ∈ t.lists c ↔ ∃ n ∈ t.nodes, n.id = id ∧ n.ctx = some c
  kinds : ∀ n ∈ t.nodes, (core n.key).2.2.2 ∈ tabKinds
  xs : ∀ n ∈ t.nodes, Avtab.isXperm n.key = true → ∃ x, n.datum.xperms = some x ∧ x.perms.length = 8
  place : ∀ n ∈ t.nodes, te = true ↔ n.ctx = none

theorem tabInv_empty (te : Bool) : TabInv emptyTab te :=
  ⟨by simp [emptyTab], by simp [emptyTab], by simp [emptyTab], by simp [emptyTab], by simp [emptyTab], by simp [emptyTab]⟩

theorem tabKinds_and {a b : BitVec 16} (ha : a ∈ tabKinds) (hb : b ∈ tabKinds) : (a &&& b != 0#16) = true ↔ b = a := by
  simp only [tabKinds, List.mem_cons, List.not_mem_nil, or_false] at ha hb
  rcases ha with rfl | rfl | rfl | rfl | rfl | rfl | rfl | rfl | rfl <;>
    rcases hb with rfl | rfl | rfl | rfl | rfl | rfl | rfl | rfl | rfl <;> decide

theorem tabKinds_mask {a : BitVec 16} (ha : a ∈ tabKinds) : a &&& 0x7FFF#16 = a := by
  simp only [tabKinds, List.mem_cons, List.not_mem_nil, or_false] at ha
  rcases ha with rfl | rfl | rfl | rfl | rfl | rfl | rfl | rfl | rfl <;> decide

theorem not_enabled : ~~~ Avtab.ENABLED = 0x7FFF#16 := by decide

theorem hits_core {k c : Key} (hk : k.specified ∈ tabKinds) (hc : (core c).2.2.2 ∈ tabKinds) :
    hits k c = true ↔ core c = core k := by
  have h1 : Avtab.kindMask k.specified &&& c.specified = k.specified &&& (c.specified &&& 0x7FFF#16) := by
    rw [Avtab.kindMask, not_enabled, tabKinds_mask hk, BitVec.and_comm c.specified, ← BitVec.and_assoc, tabKinds_mask hk]
  have h2 := tabKinds_and hk hc
  unfold hits
  rw [h1]
  simp only [core] at h2 ⊢
  simp only [Bool.and_eq_true, beq_iff_eq, h2, Prod.mk.injEq, tabKinds_mask hk]
  constructor
  · rintro ⟨⟨⟨h1, h2⟩, h3⟩, h4⟩; exact ⟨h1.symm, h2.symm, h3.symm, h4⟩
  · rintro ⟨h1, h2, h3, h4⟩; exact ⟨⟨⟨h1.symm, h2.symm⟩, h3.symm⟩, h4⟩

theorem isXperm_core (k : Key) : Avtab.isXperm k = ((core k).2.2.2 &&& 0x700#16 != 0#16) := by
  unfold Avtab.isXperm core
  simp only
  rw [BitVec.and_assoc]
  rfl

/-- The datum of a new node. -/
def freshDatum (k : Key) : Datum :=
  ⟨if k.specified == Avtab.AUDITDENY then ~~~0#32 else 0#32, if Avtab.isXperm k then some XPerms.zero else none⟩

/-- The node that is found or made. -/
def TheNode (t : Tab) (k : Key) (c : Option Nat) (x : Option XPerms) (n : ENode) : Prop :=
  findNode t k c x = some n ∨ findNode t k c x = none ∧ n = ⟨t.nodes.length, k, freshDatum k, c⟩

/-- Nodes of a branch come before all others. -/
def Front (t : Tab) (c : Nat) : Prop :=
  ∃ a b, t.nodes = a ++ b ∧ (∀ n ∈ a, n.ctx = some c) ∧ ∀ n ∈ b, n.ctx ≠ some c

/-- There is a node of a place with a key and a property. -/
def Ex (t : Tab) (c : Option Nat) (q : Nat × Nat × Nat × BitVec 16) (P : Datum → Prop) : Prop :=
  ∃ n ∈ t.nodes, n.ctx = c ∧ core n.key = q ∧ P n.datum

theorem findNode_some {t : Tab} {te : Bool} (hi : TabInv t te) {k : Key} (hk : k.specified ∈ tabKinds) {c : Option Nat}
    (hc : te = true ↔ c = none) {x : Option XPerms} {n : ENode} (h : findNode t k c x = some n) :
    n ∈ t.nodes ∧ core n.key = core k ∧ n.ctx = c := by
  have hsub : ∀ m, m ∈ candidates t k x → m ∈ answers t k := by
    intro m hm
    unfold candidates at hm
    split at hm
    · cases x with
      | none => simp at hm
      | some x => exact (List.dropWhile_sublist _).subset hm
    · exact hm
  have hm : n ∈ answers t k ∧ n.ctx = c := by
    cases c with
    | none =>
      have hn := hsub n (List.mem_of_mem_head? h)
      exact ⟨hn, (hi.place n (List.mem_filter.1 hn).1).1 (hc.2 rfl)⟩
    | some c => exact ⟨hsub n (List.mem_of_find?_eq_some h), by simpa using List.find?_some h⟩
  obtain ⟨h1, h2⟩ := List.mem_filter.1 hm.1
  exact ⟨h1, (hits_core hk (hi.kinds n h1)).1 h2, hm.2⟩

theorem dropWhile_head {α : Type} {p : α → Bool} : ∀ {l : List α} {a : α}, (l.dropWhile p).head? = some a → p a = false
  | [], a, h => by simp at h
  | b :: l, a, h => by
    rw [List.dropWhile_cons] at h
    split at h
    · exact dropWhile_head h
    · rename_i hb
      simp only [List.head?_cons, Option.some.injEq] at h
      subst h
      simpa using hb

/-- Without a condition, the node that is found has the same kind and driver. -/
theorem findNode_x_te {t : Tab} {k : Key} (hx : Avtab.isXperm k = true) {x : XPerms} {n : ENode}
    (h : findNode t k none (some x) = some n) : sameX x n = true := by
  simp only [findNode, candidates, hx, if_true] at h
  simpa using dropWhile_head h

/-- In a branch too, when the nodes of the branch come first. -/
theorem findNode_x_cond {t : Tab} {k : Key} (hx : Avtab.isXperm k = true) {x : XPerms} {n : ENode} {c : Nat} (hf : Front t c)
    (h : findNode t k (some c) (some x) = some n) : sameX x n = true := by
  simp only [findNode, candidates, hx, if_true, answers] at h
  obtain ⟨a, b, hab, ha, hb⟩ := hf
  rw [hab, List.filter_append] at h
  generalize ha' : a.filter (fun n => hits k n.key) = a' at h
  generalize hb' : b.filter (fun n => hits k n.key) = b' at h
  have ha2 : ∀ n ∈ a', n.ctx = some c := fun n hn => ha n (by rw [← ha'] at hn; exact (List.mem_filter.1 hn).1)
  have hb2 : ∀ n ∈ b', n.ctx ≠ some c := fun n hn => hb n (by rw [← hb'] at hn; exact (List.mem_filter.1 hn).1)
  clear ha' hb' hab
  induction a' with
  | nil =>
    rw [List.nil_append] at h
    have h1 := List.mem_of_find?_eq_some h
    have h2 := List.find?_some h
    exact absurd (by simpa using h2) (hb2 n ((List.dropWhile_sublist _).subset h1))
  | cons m a' ih =>
    rw [List.cons_append, List.dropWhile_cons] at h
    split at h
    · exact ih h fun n hn => ha2 n (by simp [hn])
    · rename_i hm
      have hmc := ha2 m (by simp)
      simp only [List.find?_cons, hmc, beq_self_eq_true, Option.some.injEq] at h
      subst h
      simpa using hm

theorem eq_of_id {t : Tab} {te : Bool} (hi : TabInv t te) {a b : ENode} (ha : a ∈ t.nodes) (hb : b ∈ t.nodes) (h : a.id = b.id) : a = b := by
  have := hi.nodup
  by_contra hne
  rcases List.pairwise_iff_getElem.1 this with hp
  obtain ⟨i, hil, rfl⟩ := List.getElem_of_mem ha
  obtain ⟨j, hjl, rfl⟩ := List.getElem_of_mem hb
  rcases Nat.lt_trichotomy i j with hij | hij | hij
  · exact hp i j hil hjl hij h
  · subst hij; exact hne rfl
  · exact hp j i hjl hil hij h.symm

/-- The table and the node after `find_avtab_node`. -/
theorem findAvtabNode_spec {t : Tab} {te : Bool} (hi : TabInv t te) {k : Key} (hk : k.specified ∈ tabKinds) {c : Option Nat}
    (hc : te = true ↔ c = none) (x : Option XPerms) :
    ∃ n, TheNode t k c x n ∧ (findAvtabNode t k c x).2 = n.id ∧ n ∈ (findAvtabNode t k c x).1.nodes ∧
      core n.key = core k ∧ n.ctx = c ∧ TabInv (findAvtabNode t k c x).1 te ∧
      (∀ m, m ∈ (findAvtabNode t k c x).1.nodes ↔ m ∈ t.nodes ∨ m = n) ∧
      (n ∉ t.nodes → n.datum = freshDatum k) ∧
      (∀ c', c = some c' → Front t c' → Front (findAvtabNode t k c x).1 c') := by
  unfold findAvtabNode
  cases h : findNode t k c x with
  | some n =>
    obtain ⟨h1, h2, h3⟩ := findNode_some hi hk hc h
    refine ⟨n, .inl h, rfl, h1, h2, h3, hi, fun m => ⟨.inl, ?_⟩, fun hn => absurd h1 hn, fun _ _ h => h⟩
    rintro (hm | rfl)
    · exact hm
    · exact h1
  | none =>
    refine ⟨⟨t.nodes.length, k, freshDatum k, c⟩, .inr ⟨h, rfl⟩, rfl, ?_, rfl, rfl, ?_, ?_, fun _ => rfl, ?_⟩
    · exact List.mem_cons_self
    · refine ⟨?_, ?_, ?_, ?_, ?_, ?_⟩
      · intro m hm
        simp only [List.mem_cons, List.length_cons] at hm ⊢
        rcases hm with rfl | hm
        · simp
        · have := hi.lt m hm; omega
      · simp only [List.pairwise_cons]
        refine ⟨fun m hm => ?_, hi.nodup⟩
        have := hi.lt m hm
        show t.nodes.length ≠ m.id
        omega
      · intro c' id
        simp only [List.mem_cons, exists_eq_or_imp]
        cases c with
        | none => rw [hi.lists]; simp
        | some c =>
          by_cases hcc : c' = c
          · subst hcc
            simp only [if_true, List.mem_cons, and_true, hi.lists]
            exact or_congr_left eq_comm
          · have : c ≠ c' := Ne.symm hcc
            simp only [hcc, if_false, hi.lists, Option.some.injEq, this, and_false, false_or]
      · intro m hm
        simp only [List.mem_cons] at hm
        rcases hm with rfl | hm
        · simp only [core, tabKinds_mask hk]; exact hk
        · exact hi.kinds m hm
      · intro m hm hx
        simp only [List.mem_cons] at hm
        rcases hm with rfl | hm
        · exact ⟨XPerms.zero, by simp only at hx; simp [hx], rfl⟩
        · exact hi.xs m hm hx
      · intro m hm
        simp only [List.mem_cons] at hm
        rcases hm with rfl | hm
        · exact hc
        · exact hi.place m hm
    · intro m
      simp only [List.mem_cons, or_comm]
      rfl
    · rintro c' rfl ⟨a, b, hab, ha, hb⟩
      refine ⟨_ :: a, b, by simp only [List.cons_append, ← hab]; rfl, ?_, hb⟩
      intro m hm
      simp only [List.mem_cons] at hm
      rcases hm with rfl | hm
      · rfl
      · exact ha m hm

/-- A change of a node that keeps its place. -/
structure Keeps (n n' : ENode) : Prop where
  id : n'.id = n.id
  ctx : n'.ctx = n.ctx
  core : core n'.key = core n.key
  xs : Avtab.isXperm n.key = true → ∃ x, n'.datum.xperms = some x ∧ x.perms.length = 8

theorem modify_spec {t : Tab} {te : Bool} (hi : TabInv t te) {n : ENode} (hn : n ∈ t.nodes) {f : ENode → ENode} (hf : Keeps n (f n)) :
    TabInv (modify t n.id f) te ∧ (∀ m, m ∈ (modify t n.id f).nodes ↔ (m ∈ t.nodes ∧ m ≠ n) ∨ m = f n) ∧
      ∀ c, Front t c → Front (modify t n.id f) c := by
  have hmap : ∀ m ∈ t.nodes, (if m.id = n.id then f m else m) = if m = n then f n else m := by
    intro m hm
    by_cases h : m.id = n.id
    · have := eq_of_id hi hm hn h; subst this; simp
    · have : m ≠ n := fun he => h (by rw [he])
      simp [h, this]
  have hmem : ∀ m, m ∈ (modify t n.id f).nodes ↔ (m ∈ t.nodes ∧ m ≠ n) ∨ m = f n := by
    intro m
    simp only [modify, List.mem_map]
    constructor
    · rintro ⟨a, ha, rfl⟩
      rw [hmap a ha]
      by_cases h : a = n
      · simp [h]
      · simp [h, ha]
    · rintro (⟨h1, h2⟩ | rfl)
      · exact ⟨m, h1, by rw [hmap m h1]; simp [h2]⟩
      · exact ⟨n, hn, by rw [hmap n hn]; simp⟩
  have hkeep : ∀ m ∈ t.nodes, (if m = n then f n else m).id = m.id ∧ (if m = n then f n else m).ctx = m.ctx := by
    intro m _
    by_cases h : m = n
    · subst h; simp [hf.id, hf.ctx]
    · simp [h]
  refine ⟨⟨?_, ?_, ?_, ?_, ?_, ?_⟩, hmem, ?_⟩
  · intro m hm
    have hl : (modify t n.id f).nodes.length = t.nodes.length := by simp [modify]
    rw [hl]
    rcases (hmem m).1 hm with h | rfl
    · exact hi.lt m h.1
    · rw [hf.id]; exact hi.lt n hn
  · simp only [modify, List.pairwise_map]
    refine hi.nodup.imp_of_mem fun {a b} ha hb hab => ?_
    rw [hmap a ha, hmap b hb, (hkeep a ha).1, (hkeep b hb).1]
    exact hab
  · intro c id
    show id ∈ t.lists c ↔ _
    rw [hi.lists]
    constructor
    · rintro ⟨m, h1, h2, h3⟩
      refine ⟨if m = n then f n else m, ?_, by rw [(hkeep m h1).1, h2], by rw [(hkeep m h1).2, h3]⟩
      rw [hmem]
      by_cases h : m = n
      · simp [h]
      · simp [h, h1]
    · rintro ⟨m, h1, h2, h3⟩
      rcases (hmem m).1 h1 with h | rfl
      · exact ⟨m, h.1, h2, h3⟩
      · exact ⟨n, hn, by rw [← hf.id, h2], by rw [← hf.ctx, h3]⟩
  · intro m hm
    rcases (hmem m).1 hm with h | rfl
    · exact hi.kinds m h.1
    · rw [hf.core]; exact hi.kinds n hn
  · intro m hm hx
    rcases (hmem m).1 hm with h | rfl
    · exact hi.xs m h.1 hx
    · rw [isXperm_core, hf.core, ← isXperm_core] at hx; exact hf.xs hx
  · intro m hm
    rcases (hmem m).1 hm with h | rfl
    · exact hi.place m h.1
    · rw [hf.ctx]; exact hi.place n hn
  · rintro c ⟨a, b, hab, ha, hb⟩
    refine ⟨a.map fun n' => if n'.id = n.id then f n' else n', b.map fun n' => if n'.id = n.id then f n' else n', ?_, ?_, ?_⟩
    · simp only [modify, hab, List.map_append]
    · intro m hm
      obtain ⟨m', h1, rfl⟩ := List.mem_map.1 hm
      have hm' : m' ∈ t.nodes := by rw [hab]; exact List.mem_append_left _ h1
      rw [hmap m' hm', (hkeep m' hm').2]
      exact ha m' h1
    · intro m hm
      obtain ⟨m', h1, rfl⟩ := List.mem_map.1 hm
      have hm' : m' ∈ t.nodes := by rw [hab]; exact List.mem_append_right _ h1
      rw [hmap m' hm', (hkeep m' hm').2]
      exact hb m' h1

/-- A node is found or made and then changed. -/
theorem upd_spec {t : Tab} {te : Bool} (hi : TabInv t te) {k : Key} (hk : k.specified ∈ tabKinds) {c : Option Nat}
    (hc : te = true ↔ c = none) (x : Option XPerms) {f : ENode → ENode} (hf : ∀ n, TheNode t k c x n → Keeps n (f n)) :
    TabInv (modify (findAvtabNode t k c x).1 (findAvtabNode t k c x).2 f) te ∧
    (∀ c', c = some c' → Front t c' → Front (modify (findAvtabNode t k c x).1 (findAvtabNode t k c x).2 f) c') ∧
    (∀ m ∈ (modify (findAvtabNode t k c x).1 (findAvtabNode t k c x).2 f).nodes, m.ctx = c ∨ ∃ m' ∈ t.nodes, m'.ctx = m.ctx) ∧
    (∃ n, TheNode t k c x n ∧ core n.key = core k ∧ n.ctx = c ∧
      ∀ m, m ∈ (modify (findAvtabNode t k c x).1 (findAvtabNode t k c x).2 f).nodes ↔ (m ∈ t.nodes ∧ m ≠ n) ∨ m = f n) ∧
    ∀ c' q P New, (c' = c → q = core k → (P (freshDatum k) → New) ∧
        ∀ n, TheNode t k c x n → (P (f n).datum ↔ P n.datum ∨ New)) →
      (Ex (modify (findAvtabNode t k c x).1 (findAvtabNode t k c x).2 f) c' q P ↔
        Ex t c' q P ∨ (c' = c ∧ q = core k ∧ New)) := by
  obtain ⟨n, h1, h2, h3, h4, h5, h6, h7, h8, h9⟩ := findAvtabNode_spec hi hk hc x
  have hk' := hf n h1
  rw [h2]
  obtain ⟨m1, m2, m3⟩ := modify_spec h6 h3 hk'
  refine ⟨m1, fun c' hc' hfr => m3 c' (h9 c' hc' hfr), ?_, ⟨n, h1, h4, h5, fun m => ?_⟩, ?_⟩
  · intro m hm
    rcases (m2 m).1 hm with ⟨hm', hne⟩ | rfl
    · rcases (h7 m).1 hm' with h | h
      · exact .inr ⟨m, h, rfl⟩
      · exact absurd h hne
    · exact .inl (by rw [hk'.ctx, h5])
  · rw [m2, h7]
    constructor
    · rintro (⟨h | h, hne⟩ | h)
      · exact .inl ⟨h, hne⟩
      · exact absurd h hne
      · exact .inr h
    · rintro (⟨h, hne⟩ | h)
      · exact .inl ⟨.inl h, hne⟩
      · exact .inr h
  · intro c' q P New hP
    constructor
    · rintro ⟨m, hm, e1, e2, e3⟩
      rcases (m2 m).1 hm with ⟨hm', hne⟩ | rfl
      · rcases (h7 m).1 hm' with h | h
        · exact .inl ⟨m, h, e1, e2, e3⟩
        · exact absurd h hne
      · rw [hk'.ctx, h5] at e1
        rw [hk'.core, h4] at e2
        obtain ⟨p1, p2⟩ := hP e1.symm e2.symm
        rcases (p2 n h1).1 e3 with hp | hp
        · by_cases hn : n ∈ t.nodes
          · exact .inl ⟨n, hn, by rw [h5, e1], by rw [h4, e2], hp⟩
          · rw [h8 hn] at hp
            exact .inr ⟨e1.symm, e2.symm, p1 hp⟩
        · exact .inr ⟨e1.symm, e2.symm, hp⟩
    · rintro (⟨m, hm, e1, e2, e3⟩ | ⟨e1, e2, e3⟩)
      · by_cases hmn : m = n
        · subst hmn
          obtain ⟨p1, p2⟩ := hP (by rw [← e1, h5]) (by rw [← e2, h4])
          exact ⟨f m, (m2 _).2 (.inr rfl), by rw [hk'.ctx, e1], by rw [hk'.core, e2], (p2 m h1).2 (.inl e3)⟩
        · exact ⟨m, (m2 m).2 (.inl ⟨(h7 m).2 (.inl hm), hmn⟩), e1, e2, e3⟩
      · obtain ⟨p1, p2⟩ := hP e1 e2
        exact ⟨f n, (m2 _).2 (.inr rfl), by rw [hk'.ctx, h5, e1], by rw [hk'.core, h4, e2], (p2 n h1).2 (.inr e3)⟩

theorem find_id {t : Tab} {te : Bool} (hi : TabInv t te) {n : ENode} (hn : n ∈ t.nodes) :
    (t.nodes.find? fun m => m.id == n.id) = some n := by
  cases h : t.nodes.find? fun m => m.id == n.id with
  | none =>
    have := List.find?_eq_none.1 h n hn
    simp at this
  | some m =>
    have h1 := List.mem_of_find?_eq_some h
    have h2 := List.find?_some h
    rw [eq_of_id hi h1 hn (by simpa using h2)]

theorem enabled_bits : ∀ i : Fin 16, (Avtab.ENABLED[i] && (0x7FFF#16)[i]) = false := by decide

theorem core_setEnabled (e : Bool) (n : ENode) : core (setEnabled e n).key = core n.key := by
  unfold setEnabled core
  cases e
  · simp only [Bool.false_eq_true, if_false, not_enabled]
    rw [BitVec.and_assoc]
    rfl
  · simp only [if_true, Prod.mk.injEq, true_and]
    ext i hi
    simp only [BitVec.getElem_and, BitVec.getElem_or]
    have : (Avtab.ENABLED[i] && (0x7FFF#16)[i]) = false := enabled_bits ⟨i, hi⟩
    cases h1 : (0x7FFF#16)[i] with
    | false => simp
    | true => rw [h1] at this; simp only [Bool.and_true] at this; simp [this]

end Verif.Expand
