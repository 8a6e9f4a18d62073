import Verif.Expand.Lemmas3

/-!
# The expansion of a type rule
-/

namespace Verif.Expand
open Avtab (Key XPerms Datum hits)
open Ebitmap (Ebitmap getBit WF)

/-- The two branches of a conditional. -/
def DestOk : Dest → Prop
  | .te => True
  | .cond c o _ => c / 2 = o / 2 ∧ c ≠ o

/-- The type of a type rule. -/
def tf (enabled : Bool) (v : Nat) (n : ENode) : ENode :=
  setEnabled enabled { n with datum := { n.datum with data := BitVec.ofNat 32 v } }

/-- The tables after one class. -/
def tePut (s : BitVec 32) (d : Dest) (i j : Nat) (st : State) (cls v : Nat) : State :=
  d.put st (modify (findAvtabNode (d.tab st) (mkKey s i j cls) d.ctx none).1
    (findAvtabNode (d.tab st) (mkKey s i j cls) d.ctx none).2 (tf d.enabled v))

theorem teClasses_cons {map : List Nat} {s : BitVec 32} {d : Dest} {i j : Nat} {st st' : State} {cp : ClassPerm} {l : List ClassPerm}
    (h : teClasses map s d i j st (cp :: l) = .ok st') :
    ∃ v, map[(cp.data - 1#32).toNat]? = some v ∧
      ((∃ n b, earlier st (mkKey s i j cp.tclass) d.other = some (n, b) ∧ n.datum.data = BitVec.ofNat 32 v ∧
          ((b && d.ctx == none) || n.ctx == d.ctx) = true ∧ st' = st) ∨
       (earlier st (mkKey s i j cp.tclass) d.other = none ∧
          teClasses map s d i j (tePut s d i j st cp.tclass v) l = .ok st')) := by
  simp only [teClasses] at h
  cases hv : map[(cp.data - 1#32).toNat]? with
  | none => rw [hv] at h; cases h
  | some v =>
    rw [hv] at h
    refine ⟨v, rfl, ?_⟩
    simp only at h
    cases he : earlier st (mkKey s i j cp.tclass) d.other with
    | some nb =>
      obtain ⟨n, b⟩ := nb
      rw [he] at h
      simp only at h
      split at h
      · rename_i hd
        split at h
        · rename_i hc
          exact .inl ⟨n, b, rfl, hd, hc, by simpa using h.symm⟩
        · cases h
      · cases h
    | none =>
      rw [he] at h
      exact .inr ⟨rfl, h⟩

theorem type_spec {s : BitVec 32} (hs : s ∈ typeKinds) : avtabSpec s ∈ tKinds ∧ avtabSpec s ∈ tabKinds := by
  simp only [typeKinds, List.mem_cons, List.not_mem_nil, or_false] at hs
  rcases hs with rfl | rfl | rfl <;> decide

theorem type_core {s : BitVec 32} (hs : s ∈ typeKinds) (i j c : Nat) : (core (mkKey s i j c)).2.2.2 = avtabSpec s :=
  tabKinds_mask (type_spec hs).2

theorem mem_answers {t : Tab} {te : Bool} (hi : TabInv t te) {k : Key} (hk : k.specified ∈ tabKinds) (n : ENode) :
    n ∈ answers t k ↔ n ∈ t.nodes ∧ core n.key = core k := by
  unfold answers
  rw [List.mem_filter]
  exact and_congr_right fun h => hits_core hk (hi.kinds n h)

theorem candidates_type {t : Tab} {s : BitVec 32} (hs : s ∈ typeKinds) (i j c : Nat) (x : Option XPerms) :
    candidates t (mkKey s i j c) x = answers t (mkKey s i j c) := by
  have : Avtab.isXperm (mkKey s i j c) = false := by
    simp only [typeKinds, List.mem_cons, List.not_mem_nil, or_false] at hs
    have h : (avtabSpec s &&& Avtab.XPERMS != 0#16) = false := by rcases hs with rfl | rfl | rfl <;> decide
    exact h
  simp [candidates, this]

/-- No earlier rule: nothing without a condition, and in conditionals nothing or the other branch first. -/
theorem earlier_none {X : Prop} {Z : Nat → Prop} {d : Dest} {st : State} (hi : Inv X Z d st) {k : Key} (hk : k.specified ∈ tabKinds)
    (h : earlier st k d.other = none) :
    (∀ n ∈ st.te.nodes, core n.key ≠ core k) ∧
    ((∀ n ∈ st.cond.nodes, core n.key ≠ core k) ∨
      ∃ n l o, answers st.cond k = n :: l ∧ n ∈ st.cond.nodes ∧ core n.key = core k ∧ d.other = some o ∧ n.ctx = some o) := by
  unfold earlier at h
  cases h1 : (answers st.te k).head? with
  | some n => rw [h1] at h; cases h
  | none =>
    rw [h1] at h
    rw [List.head?_eq_none_iff] at h1
    refine ⟨fun n hn he => ?_, ?_⟩
    · have := (mem_answers hi.te hk n).2 ⟨hn, he⟩
      rw [h1] at this; cases this
    · simp only at h
      cases h2 : answers st.cond k with
      | nil =>
        left
        intro n hn he
        have := (mem_answers hi.cond hk n).2 ⟨hn, he⟩
        rw [h2] at this; cases this
      | cons n l =>
        right
        rw [h2] at h
        simp only [List.head?_cons] at h
        split at h
        · rename_i hc
          obtain ⟨m1, m2⟩ := (mem_answers hi.cond hk n).1 (by rw [h2]; simp)
          have hc' : n.ctx = d.other := by simpa using hc
          have hne : n.ctx ≠ Option.none := fun h0 => by have := (hi.cond.place n m1).2 h0; cases this
          obtain ⟨o, ho⟩ : ∃ o, n.ctx = some o := by
            cases hx : n.ctx with
            | none => exact absurd hx hne
            | some o => exact ⟨o, rfl⟩
          exact ⟨n, l, o, rfl, m1, m2, by rw [← hc', ho], ho⟩
        · cases h

/-- The table for a place has no node with a key when no node answers. -/
theorem findNode_none {t : Tab} {te : Bool} (hi : TabInv t te) {s : BitVec 32} (hs : s ∈ typeKinds) {i j c : Nat} {o : Option Nat} {x : Option XPerms}
    (hc : te = true ↔ o = none) :
    findNode t (mkKey s i j c) o x = none ↔ ∀ n ∈ t.nodes, core n.key = core (mkKey s i j c) → n.ctx ≠ o := by
  have hk : (mkKey s i j c).specified ∈ tabKinds := (type_spec hs).2
  cases o with
  | none =>
    simp only [findNode, candidates_type hs, List.head?_eq_none_iff]
    constructor
    · intro h n hn he
      have := (mem_answers hi hk n).2 ⟨hn, he⟩
      rw [h] at this; cases this
    · intro h
      rw [List.eq_nil_iff_forall_not_mem]
      intro n hn
      obtain ⟨h1, h2⟩ := (mem_answers hi hk n).1 hn
      exact h n h1 h2 ((hi.place n h1).1 (hc.2 rfl))
  | some o =>
    simp only [findNode, candidates_type hs, List.find?_eq_none, beq_iff_eq]
    constructor
    · intro h n hn he
      exact h n ((mem_answers hi hk n).2 ⟨hn, he⟩)
    · intro h n hn
      obtain ⟨h1, h2⟩ := (mem_answers hi hk n).1 hn
      exact h n h1 h2

theorem tf_keeps (e : Bool) (v : Nat) {t : Tab} {te : Bool} (hi : TabInv t te) {k : Key} (hk : k.specified ∈ tabKinds) {c : Option Nat}
    (hc : te = true ↔ c = none) {x : Option XPerms} (n : ENode) (h : TheNode t k c x n) : Keeps n (tf e v n) := by
  refine ⟨rfl, rfl, core_setEnabled e _, fun hx => ?_⟩
  have : Avtab.isXperm k = true := by
    rcases h with h | ⟨_, rfl⟩
    · rw [isXperm_core, (findNode_some hi hk hc h).2.1, ← isXperm_core] at hx; exact hx
    · exact hx
  obtain ⟨y, h1, h2⟩ := theNode_xs hi hk hc h this
  exact ⟨y, h1, h2⟩

/-- One class of a type rule when there is no earlier rule. -/
theorem tePut_spec {X : Prop} {Z : Nat → Prop} {d : Dest} (hd : DestOk d) {st : State} (hi : Inv X Z d st) (hz : ∀ c, d.ctx = some c → ¬ Z c)
    {s : BitVec 32} (hs : s ∈ typeKinds) {i j cls v : Nat} (he : earlier st (mkKey s i j cls) d.other = none) :
    Inv X Z d (tePut s d i j st cls v) ∧
    (∀ c q P, q ≠ core (mkKey s i j cls) ∨ c ≠ d.ctx → (Asks (tePut s d i j st cls v) c q P ↔ Asks st c q P)) ∧
    (∀ c q w, Asks (tePut s d i j st cls v) c q (fun x => x.data = w) →
      Asks st c q (fun x => x.data = w) ∨ (c = d.ctx ∧ q = core (mkKey s i j cls) ∧ w = BitVec.ofNat 32 v)) ∧
    (X ∨ d.ctx = none → ∀ c q w, Asks (tePut s d i j st cls v) c q (fun x => x.data = w) ↔
      Asks st c q (fun x => x.data = w) ∨ (c = d.ctx ∧ q = core (mkKey s i j cls) ∧ w = BitVec.ofNat 32 v)) := by
  have hk : (mkKey s i j cls).specified ∈ tabKinds := (type_spec hs).2
  have hti := tab_inv hi
  obtain ⟨n1, n2⟩ := earlier_none hi hk he
  have hcc : decide (d.ctx = none) = true ↔ d.ctx = none := by simp
  obtain ⟨u1, u2, u3, ⟨n, v1, v2, v3, v4⟩, u4⟩ := upd_spec hti hk hcc none (tf_keeps d.enabled v hti hk hcc)
  have hkeep := tf_keeps d.enabled v hti hk hcc n v1
  -- nodes with the key are in the branches of this conditional
  have hnear : ∀ m ∈ st.cond.nodes, core m.key = core (mkKey s i j cls) → ∀ a, m.ctx = some a → ∀ b, d.ctx = some b → a / 2 = b / 2 := by
    intro m hm hme a ha b hb
    rcases n2 with n2 | ⟨m', l, o, _, h2, h3, h4, h5⟩
    · exact absurd hme (n2 m hm)
    · have hkind : IsTypeKind m := by
        unfold IsTypeKind; rw [hme, type_core hs]; exact (type_spec hs).1
      have := hi.types.sib m hm m' h2 hkind (by rw [hme, h3]) a o ha h5
      cases d with
      | te => cases hb
      | cond c o' e =>
        simp only [Dest.ctx, Option.some.injEq] at hb
        simp only [Dest.other, Option.some.injEq] at h4
        subst hb; subst h4
        rw [this]; exact hd.1.symm
  have htenone : d.ctx = none → ∀ m ∈ st.cond.nodes, core m.key ≠ core (mkKey s i j cls) := by
    intro hd0
    rcases n2 with n2 | ⟨m', l, o, _, _, _, h4, _⟩
    · exact n2
    · cases d with
      | te => cases h4
      | cond _ _ _ => cases hd0
  -- the node found or made is the only one of its place
  have honly : ∀ m ∈ (d.tab st).nodes, core m.key = core (mkKey s i j cls) → m.ctx = d.ctx → m = n := by
    intro m hm hme hmc
    have hkind : IsTypeKind m := by
      unfold IsTypeKind; rw [hme, type_core hs]; exact (type_spec hs).1
    rcases v1 with v1 | ⟨v1, rfl⟩
    · obtain ⟨w1, w2, w3⟩ := findNode_some hti hk hcc v1
      cases d with
      | te => exact absurd hme (n1 m hm)
      | cond _ _ _ => exact hi.types.cond m hm n w1 hkind (by rw [hme, w2]) (by rw [hmc, w3])
    · exact absurd hmc ((findNode_none hti hs hcc).1 v1 m hm hme)
  have hT : TypeInv (tePut s d i j st cls v) := by
    have hn' : core (tf d.enabled v n).key = core (mkKey s i j cls) := by rw [hkeep.core, v2]
    have hc' : (tf d.enabled v n).ctx = d.ctx := by rw [hkeep.ctx, v3]
    cases d with
    | te =>
      have hm4 : ∀ m, m ∈ (tePut s .te i j st cls v).te.nodes → m ∈ st.te.nodes ∨ m = tf false v n := by
        intro m hm
        rcases (v4 m).1 hm with h | h
        · exact .inl h.1
        · exact .inr h
      refine ⟨?_, hi.types.cond, ?_, hi.types.sib⟩
      · intro a ha b hb hka hab
        rcases hm4 a ha with ha | rfl <;> rcases hm4 b hb with hb | rfl
        · exact hi.types.te a ha b hb hka hab
        · exact absurd (hab.trans hn') (n1 a ha)
        · exact absurd (hab.symm.trans hn') (n1 b hb)
        · rfl
      · intro a ha b hb hka hab
        rcases hm4 a ha with ha | rfl
        · exact hi.types.apart a ha b hb hka hab
        · exact htenone rfl b hb (hab.symm.trans hn')
    | cond c o e =>
      have hm4 : ∀ m, m ∈ (tePut s (.cond c o e) i j st cls v).cond.nodes → (m ∈ st.cond.nodes ∧ m ≠ n) ∨ m = tf e v n :=
        fun m hm => (v4 m).1 hm
      refine ⟨hi.types.te, ?_, ?_, ?_⟩
      · intro a ha b hb hka hab hctx
        rcases hm4 a ha with ha | rfl <;> rcases hm4 b hb with hb | rfl
        · exact hi.types.cond a ha.1 b hb.1 hka hab hctx
        · exact absurd (honly a ha.1 (hab.trans hn') (hctx.trans hc')) ha.2
        · exact absurd (honly b hb.1 (hab.symm.trans hn') (hctx.symm.trans hc')) hb.2
        · rfl
      · intro a ha b hb hka hab
        rcases hm4 b hb with hb | rfl
        · exact hi.types.apart a ha b hb.1 hka hab
        · exact n1 a ha (hab.trans hn')
      · intro a ha b hb hka hab x y hx hy
        rcases hm4 a ha with ha | rfl <;> rcases hm4 b hb with hb | rfl
        · exact hi.types.sib a ha.1 b hb.1 hka hab x y hx hy
        · have : c = y := by have := hc'.symm.trans hy; simpa [Dest.ctx] using this
          subst this
          exact hnear a ha.1 (hab.trans hn') x hx c rfl
        · have : c = x := by have := hc'.symm.trans hx; simpa [Dest.ctx] using this
          subst this
          exact (hnear b hb.1 (hab.symm.trans hn') y hy c rfl).symm
        · rw [hx] at hy; cases hy; rfl
  have hfresh : X ∨ d.ctx = none → findNode (d.tab st) (mkKey s i j cls) d.ctx none = none := by
    intro hX
    rw [findNode_none hti hs hcc]
    intro m hm hme hmc
    cases d with
    | te => exact n1 m hm hme
    | cond c o e =>
      rcases hX with hX | hX
      · rcases n2 with n2 | ⟨m', l, o', h1, h2, h3, h4, h5⟩
        · exact n2 m hm hme
        · simp only [Dest.other, Option.some.injEq] at h4
          subst h4
          obtain ⟨a, b, hab, ha, hb⟩ := hi.front hX c rfl
          -- the first answer is of the other branch, so no answer is in the front part
          have hma : m ∈ a := by
            have : m ∈ a ++ b := by rw [← hab]; exact hm
            rcases List.mem_append.1 this with h | h
            · exact h
            · exact absurd hmc (hb m h)
          have hmf : m ∈ a.filter fun n => hits (mkKey s i j cls) n.key :=
            List.mem_filter.2 ⟨hma, (hits_core hk (hi.cond.kinds m hm)).2 hme⟩
          have hans : answers st.cond (mkKey s i j cls) = a.filter (fun n => hits (mkKey s i j cls) n.key) ++
              b.filter (fun n => hits (mkKey s i j cls) n.key) := by
            unfold answers; rw [hab, List.filter_append]
          rw [hans] at h1
          cases hf : a.filter (fun n => hits (mkKey s i j cls) n.key) with
          | nil => rw [hf] at hmf; cases hmf
          | cons z zs =>
            rw [hf] at h1
            simp only [List.cons_append, List.cons.injEq] at h1
            have hz1 : z ∈ a := (List.mem_filter.1 (by rw [hf]; exact List.mem_cons_self)).1
            have hz2 := ha z hz1
            rw [h1.1, h5] at hz2
            exact hd.2 (by simpa using hz2.symm)
      · cases hX
  have hdata : ∀ w (New : Prop), (w = BitVec.ofNat 32 v ↔ New) → ((tf d.enabled v n).datum.data = w ↔ New) := by
    intro w New h
    rw [← h]; exact eq_comm
  refine ⟨inv_put hi hz u1 u2 u3 hT, ?_, ?_, ?_⟩
  · intro c q P hq
    have := ctx_ne hi _ (c := c) (q := q) (P := P) (New := False)
      (by rw [u4 c q P False (fun h1 h2 => absurd hq (by rintro (h | h); exacts [h h2, h h1]))]; simp : _)
    simp only [and_false, or_false] at this
    exact this
  · rintro c q w ⟨m, h1, h2, h3, h4⟩
    have : ∀ m', m' ∈ (tabAt (tePut s d i j st cls v) c).nodes → m' ∈ (tabAt st c).nodes ∨ (m' = tf d.enabled v n) := by
      intro m' hm'
      cases d <;> cases c
      · rcases (v4 m').1 hm' with h | h
        · exact .inl h.1
        · exact .inr h
      · exact .inl hm'
      · exact .inl hm'
      · rcases (v4 m').1 hm' with h | h
        · exact .inl h.1
        · exact .inr h
    rcases this m h1 with h | rfl
    · exact .inl ⟨m, h, h2, h3, h4⟩
    · exact .inr ⟨by rw [← h2, hkeep.ctx, v3], by rw [← h3, hkeep.core, v2], (hdata w _ Iff.rfl).1 h4⟩
  · intro hX c q w
    have hf := hfresh hX
    have hn : n = ⟨(d.tab st).nodes.length, mkKey s i j cls, freshDatum (mkKey s i j cls), d.ctx⟩ := by
      rcases v1 with v1 | v1
      · rw [hf] at v1; cases v1
      · exact v1.2
    have hnot : n ∉ (d.tab st).nodes := by
      intro hm
      have := hti.lt n hm
      rw [hn] at this
      simp at this
    refine ctx_ne hi _ (New := q = core (mkKey s i j cls) ∧ w = BitVec.ofNat 32 v) ?_
    constructor
    · rintro ⟨m, h1, h2, h3, h4⟩
      rcases (v4 m).1 h1 with h | rfl
      · exact .inl ⟨m, h.1, h2, h3, h4⟩
      · exact .inr ⟨by rw [← h2, hkeep.ctx, v3], by rw [← h3, hkeep.core, v2], (hdata w _ Iff.rfl).1 h4⟩
    · rintro (⟨m, h1, h2, h3, h4⟩ | ⟨e1, e2, e3⟩)
      · exact ⟨m, (v4 m).2 (.inl ⟨h1, fun he => hnot (he ▸ h1)⟩), h2, h3, h4⟩
      · exact ⟨_, (v4 _).2 (.inr rfl), by rw [hkeep.ctx, v3, e1], by rw [hkeep.core, v2, e2], (hdata w _ Iff.rfl).2 e3⟩

/-- An earlier rule in the same place. -/
theorem earlier_some {X : Prop} {Z : Nat → Prop} {d : Dest} {st : State} (hi : Inv X Z d st) {k : Key} (hk : k.specified ∈ tabKinds)
    {n : ENode} {b : Bool} (h : earlier st k d.other = some (n, b)) (hb : ((b && d.ctx == none) || n.ctx == d.ctx) = true) :
    n ∈ (tabAt st d.ctx).nodes ∧ core n.key = core k ∧ n.ctx = d.ctx := by
  unfold earlier at h
  have key : (b = true ∧ n ∈ st.te.nodes ∧ core n.key = core k ∧ n.ctx = none) ∨
      (b = false ∧ n ∈ st.cond.nodes ∧ core n.key = core k ∧ n.ctx ≠ none) := by
    cases h1 : (answers st.te k).head? with
    | some m =>
      rw [h1] at h
      simp only [Option.some.injEq, Prod.mk.injEq] at h
      obtain ⟨rfl, rfl⟩ := h
      obtain ⟨m1, m2⟩ := (mem_answers hi.te hk m).1 (List.mem_of_mem_head? h1)
      exact .inl ⟨rfl, m1, m2, (hi.te.place m m1).1 rfl⟩
    | none =>
      rw [h1] at h
      simp only at h
      cases h2 : (answers st.cond k).head? with
      | none => rw [h2] at h; cases h
      | some m =>
        rw [h2] at h
        simp only at h
        split at h
        · cases h
        · simp only [Option.some.injEq, Prod.mk.injEq] at h
          obtain ⟨rfl, rfl⟩ := h
          obtain ⟨m1, m2⟩ := (mem_answers hi.cond hk m).1 (List.mem_of_mem_head? h2)
          refine .inr ⟨rfl, m1, m2, fun h0 => ?_⟩
          have := (hi.cond.place m m1).2 h0
          cases this
  rcases key with ⟨rfl, m1, m2, m3⟩ | ⟨rfl, m1, m2, m3⟩
  · have : d.ctx = none := by
      simp only [Bool.true_and, Bool.or_eq_true, beq_iff_eq] at hb
      rcases hb with h | h
      · exact h
      · rw [← h]; exact m3
    rw [this]
    exact ⟨m1, m2, m3⟩
  · simp only [Bool.false_and, Bool.false_or, beq_iff_eq] at hb
    refine ⟨?_, m2, hb⟩
    rw [← hb]
    cases hx : n.ctx with
    | none => exact absurd hx m3
    | some a => exact m1

/-- The classes of a type rule. -/
theorem teClasses_spec {X : Prop} {Z : Nat → Prop} {d : Dest} (hd : DestOk d) (hz : ∀ c, d.ctx = some c → ¬ Z c) {map : List Nat}
    {s : BitVec 32} (hs : s ∈ typeKinds) {i j : Nat} : ∀ {l : List ClassPerm} {st st' : State}, Inv X Z d st →
      teClasses map s d i j st l = .ok st' →
      Inv X Z d st' ∧
      (∀ c q P, q.2.2.2 ∉ tKinds ∨ c ≠ d.ctx → (Asks st' c q P ↔ Asks st c q P)) ∧
      (∀ c q w, Asks st' c q (fun x => x.data = w) → Asks st c q (fun x => x.data = w) ∨
        (c = d.ctx ∧ ∃ cp ∈ l, q = core (mkKey s i j cp.tclass) ∧ ∃ v, map[(cp.data - 1#32).toNat]? = some v ∧ w = BitVec.ofNat 32 v)) ∧
      (X ∨ d.ctx = none → l.length ≤ 1 → ∀ c q w, Asks st' c q (fun x => x.data = w) ↔ Asks st c q (fun x => x.data = w) ∨
        (c = d.ctx ∧ ∃ cp ∈ l, q = core (mkKey s i j cp.tclass) ∧ ∃ v, map[(cp.data - 1#32).toNat]? = some v ∧ w = BitVec.ofNat 32 v))
  | [], st, st', hi, h => by
    simp only [teClasses, Res.ok.injEq] at h
    subst h
    exact ⟨hi, fun _ _ _ _ => Iff.rfl, fun _ _ _ h => .inl h, fun _ _ _ _ _ => by simp⟩
  | cp :: l, st, st', hi, h => by
    have hk : (mkKey s i j cp.tclass).specified ∈ tabKinds := (type_spec hs).2
    obtain ⟨v, hv, h⟩ := teClasses_cons h
    rcases h with ⟨n, b, h1, h2, h3, rfl⟩ | ⟨he, h⟩
    · obtain ⟨m1, m2, m3⟩ := earlier_some hi hk h1 h3
      refine ⟨hi, fun _ _ _ _ => Iff.rfl, fun _ _ _ h => .inl h, fun _ hl c q w => ⟨.inl, ?_⟩⟩
      rintro (h | ⟨rfl, cp', hcp, rfl, v', hv', rfl⟩)
      · exact h
      · have hl0 : l = [] := by
          cases l with
          | nil => rfl
          | cons _ _ => simp at hl
        subst hl0
        simp only [List.mem_cons, List.not_mem_nil, or_false] at hcp
        subst hcp
        rw [hv] at hv'
        cases hv'
        exact ⟨n, m1, m3, m2, h2⟩
    · obtain ⟨p1, p2, p3, p4⟩ := tePut_spec hd hi hz hs (v := v) he
      obtain ⟨r1, r2, r3, r4⟩ := teClasses_spec hd hz hs p1 h
      refine ⟨r1, ?_, ?_, ?_⟩
      · intro c q P hq
        rw [r2 c q P hq, p2 c q P (hq.imp_left fun hq hqe => hq (by rw [hqe, type_core hs]; exact (type_spec hs).1))]
      · intro c q w hw
        rcases r3 c q w hw with hw | ⟨e1, cp', e2, e3⟩
        · rcases p3 c q w hw with hw | ⟨e1, e2, e3⟩
          · exact .inl hw
          · exact .inr ⟨e1, cp, by simp, e2, v, hv, e3⟩
        · exact .inr ⟨e1, cp', by simp [e2], e3⟩
      · intro hX hl c q w
        have hl0 : l = [] := by
          cases l with
          | nil => rfl
          | cons _ _ => simp at hl
        subst hl0
        simp only [teClasses, Res.ok.injEq] at h
        subst h
        rw [p4 hX c q w]
        simp only [List.mem_cons, List.not_mem_nil, or_false, exists_eq_left]
        refine or_congr_right (and_congr_right fun _ => and_congr_right fun _ => ?_)
        rw [hv]
        simp

/-- A type rule does not fail. -/
theorem teClasses_safe {map : List Nat} {s : BitVec 32} {d : Dest} {i j : Nat} : ∀ {l : List ClassPerm} {st : State},
      (∀ cp ∈ l, 0 < cp.data.toNat ∧ cp.data.toNat ≤ map.length) →
      teClasses map s d i j st l ≠ .err ∧ teClasses map s d i j st l ≠ .ub
  | [], st, _ => by simp [teClasses]
  | cp :: l, st, h => by
    obtain ⟨h1, h2⟩ := h cp (by simp)
    have hn : (cp.data - 1#32).toNat = cp.data.toNat - 1 := by
      have : (1#32) ≤ cp.data := by
        rw [BitVec.le_def]; simp; omega
      rw [BitVec.toNat_sub_of_le this]; rfl
    have hv : map[(cp.data - 1#32).toNat]? = some (map[cp.data.toNat - 1]'(by omega)) := by
      rw [hn]; exact List.getElem?_eq_getElem (by omega)
    simp only [teClasses, hv]
    split
    · split
      · split <;> simp
      · simp
    · exact teClasses_safe (fun cp hcp => h cp (by simp [hcp]))

end Verif.Expand
