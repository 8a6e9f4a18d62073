import Verif.CilBin.Lemmas
import Verif.Avtab.Lemmas2
import Verif.CilDeny.Lemmas

/-!
# Lemmas on the tables of rules
-/

namespace Verif.CilBin
open Ebitmap (Ebitmap)
open CilDeny (CP MP)
open Avtab (Avtab Key Datum Node Rel Answers)

/-! ### Kinds of rules -/

/-- Kinds of access vector rules. -/
def AvK (s : BitVec 16) : Prop := s = Avtab.ALLOWED ∨ s = Avtab.AUDITALLOW ∨ s = Avtab.AUDITDENY

/-- Kinds of type rules. -/
def TyK (s : BitVec 16) : Prop := s = Avtab.TRANSITION ∨ s = Avtab.CHANGE ∨ s = Avtab.MEMBER

theorem six_common {a b : BitVec 16} (ha : AvK a ∨ TyK a) (hb : AvK b ∨ TyK b) :
    (∃ i < 15, a.getLsbD i = true ∧ b.getLsbD i = true) ↔ a = b := by
  rcases ha with (rfl | rfl | rfl) | (rfl | rfl | rfl) <;> rcases hb with (rfl | rfl | rfl) | (rfl | rfl | rfl) <;> decide

theorem answers_six {k : Key} {n : Node} (hk : AvK k.specified ∨ TyK k.specified) (hn : AvK n.key.specified ∨ TyK n.key.specified) :
    Answers k n ↔ n.key = k := by
  unfold Answers
  rw [six_common hk hn]
  constructor
  · rintro ⟨a, b, c, d⟩
    obtain ⟨⟨s, t, c', sp⟩, dd⟩ := n
    obtain ⟨s', t', c'', sp'⟩ := k
    simp_all
  · rintro rfl; exact ⟨rfl, rfl, rfl, rfl⟩

theorem avK_not_tyK {s : BitVec 16} (h : AvK s) : ¬ TyK s := by
  rintro (rfl | rfl | rfl) <;> revert h <;> unfold AvK <;> decide

theorem six_not_xperm {k : Key} (h : AvK k.specified ∨ TyK k.specified) : Avtab.isXperm k = false := by
  obtain ⟨s, t, c, sp⟩ := k
  simp only at h
  unfold Avtab.isXperm
  simp only
  rcases h with (rfl | rfl | rfl) | (rfl | rfl | rfl) <;> decide

/-! ### Tables -/

theorem search_none {h : Avtab} {log : List Node} (hr : Rel h log) (k : Key) :
    Avtab.search h k = none ↔ ∀ r ∈ log, ¬ Answers k r := by
  obtain ⟨tb, htb, hs, hp⟩ := hr.tb
  have hsf : Avtab.search h k = ((tb (Avtab.hash k h.mask)).find? (fun n => Avtab.hits k n.key)).map Node.datum := by
    unfold Avtab.search; simp only [htb]; exact Avtab.search_find k _ (hs _)
  have hmem := fun P hP => Avtab.mem_bucket (log := log) (h := h) k hp P hP
  rw [hsf, Option.map_eq_none_iff, List.find?_eq_none]
  have := hmem (fun c => Avtab.hits k c.key = true) (fun _ h => h)
  simp only [Avtab.hits_iff] at this
  constructor
  · intro h r hr ha
    obtain ⟨n, hn, ha'⟩ := this.2 ⟨r, hr, ha⟩
    exact h n hn ((Avtab.hits_iff k n).2 ha')
  · intro h n hn ha
    obtain ⟨r, hr, ha'⟩ := this.1 ⟨n, hn, (Avtab.hits_iff k n).1 ha⟩
    exact h r hr ha'

theorem search_some {h : Avtab} {log : List Node} (hr : Rel h log) {k : Key} {d : Datum} (hd : Avtab.search h k = some d) :
    ∃ r ∈ log, Answers k r ∧ r.datum = d := by
  obtain ⟨tb, htb, hs, hp⟩ := hr.tb
  have hsf : Avtab.search h k = ((tb (Avtab.hash k h.mask)).find? (fun n => Avtab.hits k n.key)).map Node.datum := by
    unfold Avtab.search; simp only [htb]; exact Avtab.search_find k _ (hs _)
  have hmem := fun P hP => Avtab.mem_bucket (log := log) (h := h) k hp P hP
  rw [hsf, Option.map_eq_some_iff] at hd
  obtain ⟨n, hf, rfl⟩ := hd
  have h1 := List.find?_some hf
  have h2 := List.mem_of_find?_eq_some hf
  have := (hmem (fun c => c = n) (by rintro _ rfl; exact h1)).1 ⟨n, h2, rfl⟩
  obtain ⟨r, hr, rfl⟩ := this
  exact ⟨r, hr, (Avtab.hits_iff k r).1 h1, rfl⟩

/-- The rule with its datum changed. -/
def upd (f : BitVec 32 → BitVec 32) (n : Node) : Node := ⟨n.key, { n.datum with data := f n.datum.data }⟩

/-- It is changed if it answers the key. -/
def updIf (k : Key) (f : BitVec 32 → BitVec 32) (n : Node) : Node := if Avtab.hits k n.key then upd f n else n

theorem updIf_key (k : Key) (f : BitVec 32 → BitVec 32) (n : Node) : (updIf k f n).key = n.key := by
  unfold updIf upd; split <;> rfl

theorem updateChain_eq (k : Key) (f : BitVec 32 → BitVec 32) (l : List Node) (hs : Avtab.Sorted l)
    (hu : l.Pairwise fun a b => Avtab.hits k a.key = true → Avtab.hits k b.key = true → False) :
    updateChain k f l = l.map (updIf k f) := by
  induction l with
  | nil => rfl
  | cons c cs ih =>
    rw [List.pairwise_cons] at hu
    unfold updateChain
    have hcg : ∀ (l : List Node), (∀ n ∈ l, Avtab.hits k n.key = false) → l.map (updIf k f) = l := by
      intro l hl
      conv => rhs; rw [← List.map_id l]
      apply List.map_congr_left
      intro n hn
      simp [updIf, hl n hn]
    by_cases hh : Avtab.hits k c.key = true
    · rw [if_pos hh, List.map_cons, hcg cs]
      · simp [updIf, hh, upd]
      · intro n hn
        cases h : Avtab.hits k n.key with
        | false => rfl
        | true => exact (hu.1 n hn hh h).elim
    · rw [if_neg hh]
      by_cases hb : Avtab.before k c.key = true
      · rw [if_pos hb, hcg _ (Avtab.no_hit_after hs hb)]
      · rw [if_neg hb, List.map_cons, ih (List.pairwise_cons.1 hs).2 hu.2]
        simp [updIf, hh]

theorem map_updIf_of_none (k : Key) (f : BitVec 32 → BitVec 32) (l : List Node) (h : ∀ n ∈ l, Avtab.hits k n.key = false) :
    l.map (updIf k f) = l := by
  conv => rhs; rw [← List.map_id l]
  apply List.map_congr_left
  intro n hn
  simp [updIf, h n hn]

theorem bucket_update {m : Nat} {tb : Nat → List Node} {log : List Node} (hs : ∀ i, Avtab.Sorted (tb i))
    (hp : ∀ i, (tb i).Perm (log.filter (fun n => Avtab.hash n.key m == i))) (k : Key) (f : BitVec 32 → BitVec 32)
    (hu : log.Pairwise fun a b => Avtab.hits k a.key = true → Avtab.hits k b.key = true → False) (i : Nat) :
    Avtab.setBucket tb (Avtab.hash k m) (updateChain k f (tb (Avtab.hash k m))) i = (tb i).map (updIf k f) := by
  have hup : ∀ i, (tb i).Pairwise fun a b => Avtab.hits k a.key = true → Avtab.hits k b.key = true → False := by
    intro i
    refine (hp i).symm.pairwise (hu.sublist List.filter_sublist) ?_
    intro a b hab h1 h2
    exact hab h2 h1
  unfold Avtab.setBucket
  split
  · rename_i hi; subst hi; exact updateChain_eq k f _ (hs _) (hup _)
  · rename_i hi
    rw [map_updIf_of_none]
    intro n hn'
    have := (hp i).mem_iff.1 hn'
    simp only [List.mem_filter, beq_iff_eq] at this
    cases hh : Avtab.hits k n.key with
    | false => rfl
    | true =>
      rw [Avtab.hash_triple (Avtab.hits_triple hh) m] at hi
      exact absurd this.2.symm hi

theorem perm_update_aux (H : Key → Nat) {l log : List Node} {i : Nat} (hp : l.Perm (log.filter (fun n => H n.key == i))) (k : Key)
    (f : BitVec 32 → BitVec 32) : (l.map (updIf k f)).Perm ((log.map (updIf k f)).filter (fun n => H n.key == i)) := by
  rw [List.filter_map]
  have : ((fun n : Node => H n.key == i) ∘ updIf k f) = fun n => H n.key == i := by
    funext n
    simp [updIf_key]
  rw [this]
  exact hp.map _

theorem perm_update {m : Nat} {l log : List Node} {i : Nat} (hp : l.Perm (log.filter (fun n => Avtab.hash n.key m == i))) (k : Key)
    (f : BitVec 32 → BitVec 32) : (l.map (updIf k f)).Perm ((log.map (updIf k f)).filter (fun n => Avtab.hash n.key m == i)) :=
  perm_update_aux (fun k => Avtab.hash k m) hp k f

theorem sorted_update {l : List Node} (hs : Avtab.Sorted l) (k : Key) (f : BitVec 32 → BitVec 32) : Avtab.Sorted (l.map (updIf k f)) := by
  unfold Avtab.Sorted at *
  rw [List.pairwise_map]
  simp only [updIf_key]
  exact hs

theorem update_eq {h : Avtab} {tb : Nat → List Node} (htb : h.htable = some tb) (k : Key) (f : BitVec 32 → BitVec 32) :
    update h k f =
      { h with htable := some (Avtab.setBucket tb (Avtab.hash k h.mask) (updateChain k f (tb (Avtab.hash k h.mask)))) } := by
  unfold update; rw [htb]

theorem rel_update {h : Avtab} {log : List Node} (hr : Rel h log) (k : Key) (f : BitVec 32 → BitVec 32)
    (hu : log.Pairwise fun a b => Avtab.hits k a.key = true → Avtab.hits k b.key = true → False) :
    Rel (update h k f) (log.map (updIf k f)) := by
  obtain ⟨tb, htb, hs, hp⟩ := hr.tb
  rw [update_eq htb]
  refine ⟨⟨_, rfl, ?_, ?_⟩, hr.mask, hr.small, ?_⟩
  · intro i
    rw [bucket_update hs hp k f hu]
    exact sorted_update (hs i) k f
  · intro i
    rw [bucket_update hs hp k f hu]
    exact perm_update (hp i) k f
  · rw [List.length_map]; exact hr.nel

/-! ### The state -/

/-- The tables and lists hold rules of the six kinds, at most one of a key in the unconditional table, and the
conditional table those of the lists. -/
structure Shape (st : State) (log clog : List Node) : Prop where
  te : Rel st.te log
  cond : Rel st.cond clog
  six : ∀ n, n ∈ log ∨ n ∈ clog → (AvK n.key.specified ∨ TyK n.key.specified) ∧ n.datum.xperms = none
  uniq : (log.map Node.key).Nodup
  lists : ∀ n, n ∈ clog ↔ ∃ b, n ∈ st.lists b

/-- The rule is outside of conditionals, or in the branch. -/
def Entry (log : List Node) (lists : Branch → List Node) : Option Branch → Node → Prop
  | none, n => n ∈ log
  | some b, n => n ∈ lists b

/-- The bits that matter in a datum. -/
def pol (s : BitVec 16) : Bool := decide (s ≠ Avtab.AUDITDENY)

/-- What the rules say: bits of access vector rules and results of type rules. -/
def Inv (st : State) (G : Option Branch → Key → Nat → Prop) (T : Option Branch → Key → BitVec 32 → Prop) : Prop :=
  ∃ log clog, Shape st log clog ∧
    (∀ c k b, AvK k.specified → b < 32 →
      ((∃ n, Entry log st.lists c n ∧ n.key = k ∧ n.datum.data.getLsbD b = pol k.specified) ↔ G c k b)) ∧
    (∀ c k d, TyK k.specified → (Entry log st.lists c ⟨k, ⟨d, none⟩⟩ ↔ T c k d))

theorem Inv.congr {st : State} {G G' : Option Branch → Key → Nat → Prop} {T T' : Option Branch → Key → BitVec 32 → Prop}
    (h : Inv st G T) (hg : ∀ c k b, AvK k.specified → b < 32 → (G c k b ↔ G' c k b))
    (ht : ∀ c k d, TyK k.specified → (T c k d ↔ T' c k d)) : Inv st G' T' := by
  obtain ⟨log, clog, h1, h2, h3⟩ := h
  exact ⟨log, clog, h1, fun c k b hk hb => (h2 c k b hk hb).trans (hg c k b hk hb), fun c k d hk => (h3 c k d hk).trans (ht c k d hk)⟩

theorem nodup_unique {l : List Node} (h : (l.map Node.key).Nodup) {a b : Node} (ha : a ∈ l) (hb : b ∈ l) (he : a.key = b.key) : a = b := by
  induction l with
  | nil => simp at ha
  | cons x l ih =>
    rw [List.map_cons, List.nodup_cons] at h
    rcases List.mem_cons.1 ha with rfl | ha <;> rcases List.mem_cons.1 hb with rfl | hb
    · rfl
    · exact absurd (List.mem_map.2 ⟨b, hb, he.symm⟩) h.1
    · exact absurd (List.mem_map.2 ⟨a, by assumption, he⟩) h.1
    · exact ih h.2 ha hb

theorem Shape.unique {st : State} {log clog : List Node} (h : Shape st log clog) {a b : Node} (ha : a ∈ log) (hb : b ∈ log)
    (he : a.key = b.key) : a = b := nodup_unique h.uniq ha hb he

theorem start_inv : Inv start (fun _ _ _ => False) (fun _ _ _ => False) := by
  have hr : Rel (Avtab.alloc Avtab.init maxAvtabSize) [] := Avtab.rel_alloc _ (by decide)
  refine ⟨[], [], ⟨hr, hr, by simp, by simp, by simp [start]⟩, ?_, ?_⟩
  · intro c k b _ _
    cases c <;> simp [Entry, start]
  · intro c k d _
    cases c <;> simp [Entry, start]

theorem search_te {st : State} {log clog : List Node} (h : Shape st log clog) {k : Key} (hk : AvK k.specified ∨ TyK k.specified) :
    (Avtab.search st.te k = none ∧ ∀ n ∈ log, n.key ≠ k) ∨
    (∃ d, Avtab.search st.te k = some ⟨d, none⟩ ∧ ⟨k, ⟨d, none⟩⟩ ∈ log) := by
  cases hs : Avtab.search st.te k with
  | none =>
    refine Or.inl ⟨rfl, fun n hn he => ?_⟩
    exact (search_none h.te k).1 hs n hn ((answers_six hk (h.six n (Or.inl hn)).1).2 he)
  | some d =>
    obtain ⟨r, hr, ha, rfl⟩ := search_some h.te hs
    have he := (answers_six hk (h.six r (Or.inl hr)).1).1 ha
    have hx := (h.six r (Or.inl hr)).2
    refine Or.inr ⟨r.datum.data, ?_, ?_⟩
    · rw [← hx]
    · rw [← he, ← hx]; exact hr

/-- Adding a rule outside of conditionals. -/
theorem insert_shape {st : State} {log clog : List Node} (h : Shape st log clog) {k : Key} {d : BitVec 32}
    (hk : AvK k.specified ∨ TyK k.specified) (hn : ∀ n ∈ log, n.key ≠ k) :
    ∃ te, Avtab.insert st.te k ⟨d, none⟩ = (te, .ok) ∧ Shape { st with te := te } (⟨k, ⟨d, none⟩⟩ :: log) clog := by
  have hx := six_not_xperm hk
  have hc := Avtab.insert_cases h.te k ⟨d, none⟩
  have hno : ¬ (Avtab.isXperm k = false ∧ ∃ r ∈ log, Answers k r) := by
    rintro ⟨-, r, hr, ha⟩
    exact hn r hr ((answers_six hk (h.six r (Or.inl hr)).1).1 ha)
  rw [if_neg hno] at hc
  simp only [Avtab.logStep, if_neg hno] at hc
  have hst : Avtab.stored k ⟨d, none⟩ = ⟨k, ⟨d, none⟩⟩ := by simp [Avtab.stored, hx]
  rw [hst] at hc
  refine ⟨(Avtab.insert st.te k ⟨d, none⟩).1, ?_, hc.2, h.cond, ?_, ?_, h.lists⟩
  · rw [← hc.1]
  · rintro n (hm | hm)
    · rcases List.mem_cons.1 hm with rfl | hm
      · exact ⟨hk, rfl⟩
      · exact h.six n (Or.inl hm)
    · exact h.six n (Or.inr hm)
  · rw [List.map_cons, List.nodup_cons]
    refine ⟨?_, h.uniq⟩
    intro hm
    obtain ⟨n, h1, h2⟩ := List.mem_map.1 hm
    exact hn n h1 h2

/-- Adding a rule to a branch. -/
theorem condInsert_shape {st : State} {log clog : List Node} (h : Shape st log clog) {k : Key} {d : BitVec 32} (b : Branch)
    (hk : AvK k.specified ∨ TyK k.specified) :
    ∃ st', condInsertRule st k ⟨d, none⟩ b = some st' ∧ Shape st' log (⟨k, ⟨d, none⟩⟩ :: clog) ∧
      ∀ c n, Entry log st'.lists c n ↔ Entry log st.lists c n ∨ (c = some b ∧ n = ⟨k, ⟨d, none⟩⟩) := by
  have hx := six_not_xperm hk
  obtain ⟨tb, htb, -⟩ := h.cond.tb
  have hp := Avtab.rel_push h.cond tb htb k ⟨d, none⟩
  have hst : Avtab.stored k ⟨d, none⟩ = ⟨k, ⟨d, none⟩⟩ := by simp [Avtab.stored, hx]
  rw [hst] at hp
  have hmk : Avtab.mkNode k ⟨d, none⟩ = ⟨k, ⟨d, none⟩⟩ := by rw [Avtab.mkNode_eq, hst]
  unfold condInsertRule Avtab.insertNonunique
  simp only [htb]
  have hl : ∀ b' n, (n ∈ if b' = b then Avtab.mkNode k ⟨d, none⟩ :: st.lists b else st.lists b') ↔
      n ∈ st.lists b' ∨ (b' = b ∧ n = ⟨k, ⟨d, none⟩⟩) := by
    intro b' n
    by_cases hb : b' = b
    · subst hb
      rw [if_pos rfl, hmk, List.mem_cons]
      simp only [true_and]
      exact or_comm
    · rw [if_neg hb]; simp [hb]
  refine ⟨_, rfl, ⟨h.te, hp, ?_, h.uniq, ?_⟩, ?_⟩
  · rintro n (hm | hm)
    · exact h.six n (Or.inl hm)
    · rcases List.mem_cons.1 hm with rfl | hm
      · exact ⟨hk, rfl⟩
      · exact h.six n (Or.inr hm)
  · intro n
    simp only [hl, List.mem_cons, h.lists]
    constructor
    · rintro (rfl | ⟨b', hb'⟩)
      · exact ⟨b, Or.inr ⟨rfl, rfl⟩⟩
      · exact ⟨b', Or.inl hb'⟩
    · rintro ⟨b', h1 | ⟨-, rfl⟩⟩
      · exact Or.inr ⟨b', h1⟩
      · exact Or.inl rfl
  · intro c n
    cases c with
    | none => simp [Entry]
    | some b' => simp only [Entry, hl, Option.some.injEq]

/-- Changing the datum of a rule. -/
theorem update_shape {st : State} {log clog : List Node} (h : Shape st log clog) {k : Key} (f : BitVec 32 → BitVec 32)
    (hk : AvK k.specified ∨ TyK k.specified) :
    ∃ log', Shape { st with te := update st.te k f } log' clog ∧
      ∀ n, n ∈ log' ↔ (n ∈ log ∧ n.key ≠ k) ∨ ∃ m ∈ log, m.key = k ∧ n = upd f m := by
  have hh : ∀ n ∈ log, Avtab.hits k n.key = true ↔ n.key = k := by
    intro n hn
    rw [Avtab.hits_iff, answers_six hk (h.six n (Or.inl hn)).1]
  have hpw : log.Pairwise fun a b => Avtab.hits k a.key = true → Avtab.hits k b.key = true → False := by
    have := h.uniq
    unfold List.Nodup at this
    rw [List.pairwise_map] at this
    refine List.Pairwise.imp_of_mem ?_ this
    intro a b ha hb hne h1 h2
    exact hne (((hh a ha).1 h1).trans ((hh b hb).1 h2).symm)
  have hm : ∀ n, n ∈ log.map (updIf k f) ↔ (n ∈ log ∧ n.key ≠ k) ∨ ∃ m ∈ log, m.key = k ∧ n = upd f m := by
    intro n
    rw [List.mem_map]
    constructor
    · rintro ⟨m, hm, rfl⟩
      unfold updIf
      by_cases hk' : m.key = k
      · rw [if_pos ((hh m hm).2 hk')]
        exact Or.inr ⟨m, hm, hk', rfl⟩
      · rw [if_neg (fun hc => hk' ((hh m hm).1 hc))]
        exact Or.inl ⟨hm, hk'⟩
    · rintro (⟨h1, h2⟩ | ⟨m, h1, h2, rfl⟩)
      · exact ⟨n, h1, by unfold updIf; rw [if_neg (fun hc => h2 ((hh n h1).1 hc))]⟩
      · exact ⟨m, h1, by unfold updIf; rw [if_pos ((hh m h1).2 h2)]⟩
  refine ⟨log.map (updIf k f), ⟨rel_update h.te k f hpw, h.cond, ?_, ?_, h.lists⟩, hm⟩
  · rintro n (hn | hn)
    · rcases (hm n).1 hn with ⟨h1, -⟩ | ⟨m, h1, -, rfl⟩
      · exact h.six n (Or.inl h1)
      · exact h.six m (Or.inl h1)
    · exact h.six n (Or.inr hn)
  · rw [List.map_map]
    have : (Node.key ∘ updIf k f) = Node.key := by funext n; exact updIf_key k f n
    rw [this]
    exact h.uniq

/-- An access vector rule for a key is inserted: its bits come to those that are there. -/
theorem insertAvrule_ok {st : State} {G : Option Branch → Key → Nat → Prop} {T : Option Branch → Key → BitVec 32 → Prop} (h : Inv st G T)
    {kind : Kind} {sp : BitVec 16} (hs : kind.spec = some sp) (src tgt obj : Nat) (data : BitVec 32) (cond : Option Branch) :
    ∃ st', insertAvrule st kind src tgt obj data cond = some st' ∧
      Inv st' (fun c k b => G c k b ∨ (c = cond ∧ k = key src tgt obj sp ∧ data.getLsbD b = pol sp)) T := by
  obtain ⟨log, clog, hsh, hav, hty⟩ := h
  have hsp : AvK sp ∧ (kind = .dontaudit ↔ sp = Avtab.AUDITDENY) := by
    cases kind <;> simp only [Kind.spec, Option.some.injEq] at hs
    · subst hs; exact ⟨Or.inl rfl, by decide⟩
    · subst hs; exact ⟨Or.inr (Or.inl rfl), by decide⟩
    · subst hs; exact ⟨Or.inr (Or.inr rfl), by decide⟩
    · cases hs
  have hk : AvK (key src tgt obj sp).specified ∨ TyK (key src tgt obj sp).specified := Or.inl hsp.1
  have hnt : ∀ k, TyK k.specified → k ≠ key src tgt obj sp := by
    rintro k ht rfl
    exact avK_not_tyK hsp.1 ht
  unfold insertAvrule
  simp only [hs]
  cases cond with
  | none =>
    simp only
    rcases search_te hsh hk with ⟨h1, h2⟩ | ⟨d, h1, h2⟩
    · obtain ⟨te, h3, h4⟩ := insert_shape hsh (d := data) hk h2
      simp only [h1, h3]
      refine ⟨_, rfl, _, _, h4, ?_, ?_⟩
      · intro c k b hk hb
        simp only [← hav c k b hk hb]
        cases c with
        | none =>
          simp only [Entry, List.mem_cons]
          constructor
          · rintro ⟨n, rfl | h5, rfl, h6⟩
            · exact Or.inr ⟨trivial, rfl, h6⟩
            · exact Or.inl ⟨n, h5, rfl, h6⟩
          · rintro (⟨n, h5, h6⟩ | ⟨-, rfl, h6⟩)
            · exact ⟨n, Or.inr h5, h6⟩
            · exact ⟨_, Or.inl rfl, rfl, h6⟩
        | some b' => simp [Entry]
      · intro c k d hk
        rw [← hty c k d hk]
        cases c with
        | none =>
          simp only [Entry, List.mem_cons, Node.mk.injEq]
          constructor
          · rintro (⟨h5, -⟩ | h5)
            · exact absurd h5 (hnt k hk)
            · exact h5
          · exact Or.inr
        | some b' => simp [Entry]
    · generalize hf : (if kind = .dontaudit then fun d => d &&& data else fun d => d ||| data : BitVec 32 → BitVec 32) = f
      obtain ⟨log', h3, h4⟩ := update_shape hsh f hk
      simp only [h1]
      refine ⟨_, rfl, log', clog, h3, ?_, ?_⟩
      · intro c k b hk hb
        simp only [← hav c k b hk hb]
        cases c with
        | none =>
          simp only [Entry, h4]
          by_cases hkk : k = key src tgt obj sp
          · subst hkk
            have hbit : ∀ m : BitVec 32, (f m).getLsbD b = pol sp ↔ m.getLsbD b = pol sp ∨ data.getLsbD b = pol sp := by
              intro m
              rw [← hf]
              by_cases hd : kind = .dontaudit
              · have := hsp.2.1 hd
                subst this
                simp only [if_pos hd, pol, BitVec.getLsbD_and]
                cases m.getLsbD b <;> cases data.getLsbD b <;> decide
              · have : pol sp = true := by
                  unfold pol; exact decide_eq_true fun hc => hd (hsp.2.2 hc)
                simp only [if_neg hd, this, BitVec.getLsbD_or]
                cases m.getLsbD b <;> cases data.getLsbD b <;> decide
            constructor
            · rintro ⟨n, ⟨-, h5⟩ | ⟨m, h5, h6, rfl⟩, h7, h8⟩
              · exact absurd h7 h5
              · rcases (hbit _).1 h8 with h9 | h9
                · exact Or.inl ⟨m, h5, h6, h9⟩
                · exact Or.inr ⟨trivial, rfl, h9⟩
            · rintro (⟨n, h5, h6, h7⟩ | ⟨-, -, h7⟩)
              · exact ⟨upd f n, Or.inr ⟨n, h5, h6, rfl⟩, h6, (hbit _).2 (Or.inl h7)⟩
              · exact ⟨upd f _, Or.inr ⟨_, h2, rfl, rfl⟩, rfl, (hbit _).2 (Or.inr h7)⟩
          · constructor
            · rintro ⟨n, ⟨h5, -⟩ | ⟨m, h5, h6, rfl⟩, h7, h8⟩
              · exact Or.inl ⟨n, h5, h7, h8⟩
              · exact absurd (h7.symm.trans h6) hkk
            · rintro (⟨n, h5, h6, h7⟩ | ⟨-, h6, -⟩)
              · exact ⟨n, Or.inl ⟨h5, h6 ▸ hkk⟩, h6, h7⟩
              · exact absurd h6 hkk
        | some b' => simp [Entry]
      · intro c k d' hk
        rw [← hty c k d' hk]
        cases c with
        | none =>
          simp only [Entry, h4]
          constructor
          · rintro (⟨h5, -⟩ | ⟨m, h5, h6, h7⟩)
            · exact h5
            · have : k = m.key := congrArg Node.key h7
              exact absurd (this.trans h6) (hnt k hk)
          · exact fun h5 => Or.inl ⟨h5, hnt k hk⟩
        | some b' => simp [Entry]
  | some br =>
    obtain ⟨st', h1, h2, h3⟩ := condInsert_shape hsh (d := data) br hk
    refine ⟨st', h1, log, _, h2, ?_, ?_⟩
    · intro c k b hk hb
      simp only [← hav c k b hk hb]
      simp only [h3]
      constructor
      · rintro ⟨n, h4 | ⟨h4, rfl⟩, rfl, h6⟩
        · exact Or.inl ⟨n, h4, rfl, h6⟩
        · exact Or.inr ⟨h4, rfl, h6⟩
      · rintro (⟨n, h4, h5⟩ | ⟨h4, rfl, h6⟩)
        · exact ⟨n, Or.inl h4, h5⟩
        · exact ⟨_, Or.inr ⟨h4, rfl⟩, rfl, h6⟩
    · intro c k d hk
      rw [← hty c k d hk, h3]
      constructor
      · rintro (h4 | ⟨-, h5⟩)
        · exact h4
        · exact absurd (congrArg Node.key h5) (hnt k hk)
      · exact Or.inl

end Verif.CilBin
