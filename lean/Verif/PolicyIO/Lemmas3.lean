import Verif.PolicyIO.Lemmas2
import Verif.Avtab.Props

/-! # Rules and conditionals -/

namespace Verif.PolicyIO
open Verif.Policy Verif.Services Verif.Validate

theorem heldNode_eq (n : Avtab.Node) : heldNode n = Avtab.onDisk n := by
  unfold heldNode Avtab.onDisk; split <;> rfl

theorem heldNode_key (n : Avtab.Node) : (heldNode n).key = n.key := by unfold heldNode; split <;> rfl

theorem answers_held (k : Avtab.Key) (n : Avtab.Node) : Avtab.Answers k (heldNode n) ↔ Avtab.Answers k n := by
  unfold Avtab.Answers; rw [heldNode_key]

/-- A rule that is accepted can be written. -/
theorem writeItem_eq {p : PolicyDb} {q : VPolicy} (hv : q.version = p.version) (ht : q.target = p.target) {c : Bool} {n : Avtab.Node}
    (h : NodeOk q c n) : writeItem p c n = Avtab.writeItem p.version n ∧ (c = true → Avtab.isXperm n.key = true → 30 ≤ p.version) := by
  unfold writeItem
  by_cases hx : Avtab.isXperm n.key = true
  · have hx' : (n.key.specified &&& Avtab.XPERMS != 0) = true := hx
    obtain ⟨_, h | h | h⟩ := h
    · have := (kind_av h.1).2.2; rw [this] at hx'; cases hx'
    · have := (kind_type h.1).2.2; rw [this] at hx'; cases hx'
    · obtain ⟨_, _, _, h1, h2, _⟩ := h
      rw [ht] at h1
      rw [hv] at h2
      refine ⟨?_, fun hc _ => by have := h2 hc; omega⟩
      rw [if_neg, if_neg]
      · rw [h1]; simp
      · intro hc
        simp only [Bool.and_eq_true, decide_eq_true_eq] at hc
        have := h2 hc.2
        omega
  · rw [if_neg (by simp [hx]), if_neg (by simp [hx])]
    exact ⟨rfl, fun _ h => absurd h hx⟩

theorem wAll_congr {α : Type} {f g : α → Option Bytes} : ∀ {l : List α}, (∀ a ∈ l, f a = g a) → wAll f l = wAll g l
  | [], _ => rfl
  | a :: l, h => by
    show (do let b ← f a; let bs ← wAll f l; some (b ++ bs)) = (do let b ← g a; let bs ← wAll g l; some (b ++ bs))
    rw [h a (by simp), wAll_congr (l := l) fun x hx => h x (List.mem_cons_of_mem _ hx)]

theorem writeItems_eq (v : Nat) : ∀ l, wAll (Avtab.writeItem v) l = Avtab.writeItems v l
  | [] => rfl
  | n :: l => by
    show (do let b ← _; let bs ← wAll _ l; some (b ++ bs)) = _
    rw [writeItems_eq v l]; rfl

/-! ## The rules outside of conditionals -/

theorem inv_avtab {p : PolicyDb} {q : VPolicy} (hv : q.version = p.version) (ht : q.target = p.target) (hf : RulesFit p)
    (hok : ∀ n ∈ Avtab.nodes p.avtab, NodeOk q false n) :
    ∃ b t, writeAvtab p = some b ∧ Inv (Avtab.read p.version : Rd Avtab.Avtab) b t ∧
      (Avtab.nodes t).Perm ((Avtab.nodes p.avtab).map heldNode) ∧ (∃ log, Avtab.Rel t log) ∧ t.nel ≠ 0 := by
  obtain ⟨n, rules, hn, hne, hlen, hst, he⟩ := hf
  have hs := fun r hr => (hst r hr).1
  have hx := fun r hr => (hst r hr).2
  have hr := Avtab.rel_run n hn (rules.map (fun q => Avtab.Op.insert q.1 q.2))
  rw [← he] at hr
  have hu := Avtab.C06_unique rules (fun q hq => Avtab.singleKind_of_popcount (hs q hq).single)
  obtain ⟨h1, h2, h3⟩ := Avtab.log_storable p.version rules hs hx [] (by simp)
  have h4 := h3 (Or.inr hne)
  have h5 : (Avtab.logOf (rules.map (fun q => Avtab.Op.insert q.1 q.2))).length ≤ 0 + rules.length := h2
  obtain ⟨b, h', hb, hrd, log', hp', hr'⟩ := Avtab.write_read p.version _ _ hr h1 hu h4 (by omega)
  refine ⟨b, h', ?_, hrd, ?_, ⟨log', hr'⟩, ?_⟩
  · unfold writeAvtab
    rw [wAll_congr fun n hn => (writeItem_eq hv ht (hok n hn)).1, writeItems_eq]
    exact hb
  · have hm : (Avtab.nodes p.avtab).map heldNode = (Avtab.nodes p.avtab).map Avtab.onDisk := by
      congr 1
    rw [hm]
    exact (Avtab.nodes_perm hr').trans (hp'.trans ((Avtab.nodes_perm hr).symm.map Avtab.onDisk))
  · rw [hr'.nel, hp'.length_eq, List.length_map]
    intro h0
    exact h4 (List.length_eq_zero_iff.1 h0)

/-! ## The rules of conditionals -/

theorem le_one {α : Type} {R : α → α → Prop} {l : List α} (h : l.Pairwise R) (hn : ∀ a ∈ l, ∀ b ∈ l, ¬ R a b) : l.length ≤ 1 := by
  match l, h, hn with
  | [], _, _ => simp
  | [_], _, _ => simp
  | a :: b :: l, h, hn => exact absurd ((List.pairwise_cons.1 h).1 b (by simp)) (hn a (by simp) b (by simp))

theorem search_none {t : Avtab.Avtab} {log : List Avtab.Node} (hr : Avtab.Rel t log) {k : Avtab.Key} (h : ∀ r ∈ log, ¬ Avtab.Answers k r) :
    Avtab.search t k = none := by
  obtain ⟨tb, htb, hs, hp⟩ := hr.tb
  have : Avtab.search t k = ((tb (Avtab.hash k t.mask)).find? (fun n => Avtab.hits k n.key)).map Avtab.Node.datum := by
    unfold Avtab.search
    simp only [htb]
    exact Avtab.search_find k _ (hs _)
  rw [this, List.find?_eq_none.2]
  · rfl
  · intro n hn hh
    exact h n (List.mem_filter.1 ((hp _).mem_iff.1 hn)).1 ((Avtab.hits_iff k n).1 hh)

theorem enumFrom_ne {l : List Avtab.Node} (h : l ≠ []) (s : BitVec 16) : Avtab.enumFrom l s ≠ [] := by
  cases l with
  | nil => exact absurd rfl h
  | cons n l =>
    unfold Avtab.enumFrom
    split <;> simp

theorem searchNode_one {t : Avtab.Avtab} {log : List Avtab.Node} (hr : Avtab.Rel t log) {k : Avtab.Key} {l : List Avtab.Node}
    (h1 : (log.filter fun n => Avtab.hits k n.key).length ≤ 1) (hl : Avtab.searchNode t k = some l) :
    Avtab.searchNodeNext l k.specified = none ∧ ∃ n l', l = n :: l' ∧ n ∈ log ∧ Avtab.Answers k n := by
  classical
  have he := Avtab.enumerate_of_rel hr k
  have hd : log.filter (fun r => decide (Avtab.Answers k r)) = log.filter fun n => Avtab.hits k n.key := by
    apply List.filter_congr
    intro n _
    by_cases h : Avtab.hits k n.key = true
    · rw [h]; exact decide_eq_true ((Avtab.hits_iff k n).1 h)
    · rw [Bool.not_eq_true] at h
      rw [h]
      exact decide_eq_false fun hc => by rw [(Avtab.hits_iff k n).2 hc] at h; cases h
  rw [hd] at he
  have hE : Avtab.enumerate t k = Avtab.enumFrom l k.specified := by unfold Avtab.enumerate; rw [hl]
  rw [hE] at he
  have hne : l ≠ [] := by
    obtain ⟨tb, htb, _, _⟩ := hr.tb
    unfold Avtab.searchNode at hl
    simp only [htb] at hl
    exact (Avtab.searchChain_length _ _ _ hl).2
  cases l with
  | nil => exact absurd rfl hne
  | cons n l' =>
    have hlen := he.length_eq
    cases hs : Avtab.searchNodeNext (n :: l') k.specified with
    | none =>
      refine ⟨rfl, n, l', rfl, ?_⟩
      have hmem : n ∈ Avtab.enumFrom (n :: l') k.specified := by
        unfold Avtab.enumFrom
        split <;> simp
      have := List.mem_filter.1 (he.mem_iff.1 hmem)
      exact ⟨this.1, (Avtab.hits_iff k n).1 this.2⟩
    | some s =>
      exfalso
      have hsne : s ≠ [] := by
        unfold Avtab.searchNodeNext at hs
        exact (Avtab.searchChain_length _ _ _ hs).2
      have hE2 : Avtab.enumFrom (n :: l') k.specified = n :: Avtab.enumFrom s k.specified := by
        rw [Avtab.enumFrom]
        split
        · rename_i h; rw [hs] at h; cases h
        · rename_i s' h; rw [hs] at h; cases h; rfl
      rw [hE2, List.length_cons] at hlen
      have := List.length_pos_iff.2 (enumFrom_ne hsne k.specified)
      omega

theorem condInsert_ok {te tc : Avtab.Avtab} {lt log other : List Avtab.Node} (ht : Avtab.Rel te lt) (hc : Avtab.Rel tc log) {k : Avtab.Key}
    {d : Avtab.Datum} (h : k.specified &&& Avtab.TYPE ≠ 0#16 → (∀ r ∈ lt, ¬ Avtab.Answers k r) ∧ (∀ r ∈ log, Avtab.Answers k r → r ∈ other) ∧
      (log.filter fun n => Avtab.hits k n.key).length ≤ 1) :
    ∃ tc', condInsert te tc other k d = some (tc', Avtab.stored k d) ∧ Avtab.Rel tc' (Avtab.stored k d :: log) := by
  obtain ⟨tb, htb, _, _⟩ := hc.tb
  have hpush := Avtab.rel_push hc tb htb k d
  refine ⟨_, ?_, hpush⟩
  have hins : (Avtab.insertNonunique tc k d).map (fun tc => (tc, Avtab.mkNode k d)) = some ({ tc with
      htable := some (Avtab.setBucket tb (Avtab.hash k tc.mask)
        (Avtab.insertNonuniqueChain k (Avtab.mkNode k d) (tb (Avtab.hash k tc.mask))))
      nel := tc.nel + 1 }, Avtab.stored k d) := by
    unfold Avtab.insertNonunique
    simp only [htb, Option.map_some, Avtab.mkNode_eq]
  unfold condInsert
  by_cases hk : k.specified &&& Avtab.TYPE = 0#16
  · rw [if_neg (by simp [hk]), if_neg (by simp [hk])]
    exact hins
  · obtain ⟨h1, h2, h3⟩ := h hk
    have hkb : (k.specified &&& Avtab.TYPE != 0) = true := by rw [bne_iff_ne]; exact hk
    rw [hkb, Bool.true_and, Bool.true_and]
    rw [if_neg (by rw [search_none ht h1]; simp), if_neg]
    · exact hins
    · rw [Bool.not_eq_true, Bool.not_eq_false']
      by_cases ho : other = []
      · subst ho
        rw [if_pos (by rfl), search_none hc fun r hr ha => by cases h2 r hr ha]
        rfl
      · rw [if_neg (by rw [List.isEmpty_iff]; exact ho)]
        cases hs : Avtab.searchNode tc k with
        | none => rfl
        | some l =>
          obtain ⟨h4, n, l', rfl, h5, h6⟩ := searchNode_one hc h3 hs
          simp only [h4, Option.isNone_none, Bool.true_and]
          rw [List.contains_eq_mem, decide_eq_true_iff]
          exact h2 n h5 h6

/-- What is known of the rules of a branch when they are read. -/
def BranchOk (lt log other : List Avtab.Node) (l : List Avtab.Node) : Prop :=
  ∀ pre n post, l = pre ++ n :: post → IsTypeRule n → (∀ r ∈ lt, ¬ Avtab.Answers n.key r) ∧
    (∀ r ∈ (pre.map heldNode).reverse ++ log, Avtab.Answers n.key r → r ∈ other) ∧
    (((pre.map heldNode).reverse ++ log).filter fun r => Avtab.hits n.key r.key).length ≤ 1

theorem inv_avLoop {p : PolicyDb} {q : VPolicy} (hv : q.version = p.version) (ht : q.target = p.target) {te : Avtab.Avtab}
    {lt other : List Avtab.Node} (hte : Avtab.Rel te lt) : ∀ (l : List Avtab.Node) (tc : Avtab.Avtab) (log : List Avtab.Node), Avtab.Rel tc log →
    (∀ n ∈ l, Avtab.Storable n ∧ NodeOk q true (heldNode n)) → BranchOk lt log other l →
    ∃ b tc', wAll (writeItem p true) l = some b ∧ Avtab.Rel tc' ((l.map heldNode).reverse ++ log) ∧
      Inv (readAvLoop p.version te other l.length tc) b (tc', l.map heldNode)
  | [], tc, log, hr, _, _ => ⟨[], tc, rfl, hr, inv_pure _⟩
  | n :: l, tc, log, hr, hl, hb => by
    obtain ⟨hst, hok⟩ := hl n (by simp)
    obtain ⟨hw, hx⟩ := writeItem_eq hv ht hok
    have hw' : writeItem p true n = Avtab.writeItem p.version n := by
      have h1 : writeItem p true (heldNode n) = Avtab.writeItem p.version (heldNode n) := hw
      unfold writeItem at h1 ⊢
      rw [heldNode_key] at h1
      split at h1
      · rename_i hc
        rw [Bool.and_eq_true, Bool.and_eq_true, decide_eq_true_iff] at hc
        obtain ⟨_, h | h | h⟩ := hok
        · rw [heldNode_key] at h
          have := (kind_av h.1).2.2
          have hx : (n.key.specified &&& Avtab.XPERMS != 0) = true := hc.1.2
          rw [this] at hx; cases hx
        · rw [heldNode_key] at h
          have := (kind_type h.1).2.2
          have hx : (n.key.specified &&& Avtab.XPERMS != 0) = true := hc.1.2
          rw [this] at hx; cases hx
        · have := h.2.2.2.2.1 rfl
          rw [hv] at this
          have := hc.1.1
          omega
      · rename_i hc
        rw [if_neg hc]
        split at h1
        · rename_i hc
          rw [Bool.and_eq_true, bne_iff_ne] at hc
          obtain ⟨_, h | h | h⟩ := hok
          · rw [heldNode_key] at h
            have := (kind_av h.1).2.2
            have hx : (n.key.specified &&& Avtab.XPERMS != 0) = true := hc.2
            rw [this] at hx; cases hx
          · rw [heldNode_key] at h
            have := (kind_type h.1).2.2
            have hx : (n.key.specified &&& Avtab.XPERMS != 0) = true := hc.2
            rw [this] at hx; cases hx
          · have := h.2.2.2.1
            rw [ht] at this
            exact absurd this hc.1
        · rename_i hc
          rw [if_neg hc]
    have hx' : Avtab.isXperm n.key = true → 30 ≤ p.version := by
      have := hx rfl
      rwa [heldNode_key] at this
    obtain ⟨c, hc1, _, _⟩ := Avtab.readItem_writeItem p.version n hst hx' []
    have hread : Inv (Avtab.readItem p.version : Rd (Avtab.Key × Avtab.Datum)) c ((heldNode n).key, (heldNode n).datum) := by
      intro rest
      obtain ⟨c', hc', _, h⟩ := Avtab.readItem_writeItem p.version n hst hx' rest
      rw [hc1] at hc'
      cases hc'
      rw [heldNode_eq]
      exact h
    have hstored : Avtab.stored (heldNode n).key (heldNode n).datum = heldNode n := by rw [heldNode_eq]; exact Avtab.storable_stored hst
    obtain ⟨tc1, hi, hr1⟩ := condInsert_ok (d := (heldNode n).datum) (other := other) (k := (heldNode n).key) hte hr (by
      intro hk
      rw [heldNode_key] at hk ⊢
      have := hb [] n l rfl hk
      simpa using this)
    rw [hstored] at hi hr1
    obtain ⟨bs, tc2, hb1, hr2, hb2⟩ := inv_avLoop hv ht (other := other) hte l tc1 (heldNode n :: log) hr1
      (fun m hm => hl m (List.mem_cons_of_mem _ hm)) (by
        intro pre m post he hm
        have := hb (n :: pre) m post (by rw [he]; rfl) hm
        simpa using this)
    refine ⟨c ++ bs, tc2, by simp [wAll, hw', hc1, hb1], by simpa using hr2, ?_⟩
    show Inv (readAvLoop p.version te other (l.length + 1) tc) _ _
    unfold readAvLoop
    refine inv_bind hread ?_
    rw [hi]
    exact inv_last (g := fun s : Avtab.Avtab × List Avtab.Node => (s.1, heldNode n :: s.2)) hb2

theorem inv_avList {p : PolicyDb} {q : VPolicy} (hv : q.version = p.version) (ht : q.target = p.target) {te : Avtab.Avtab}
    {lt other : List Avtab.Node} (hte : Avtab.Rel te lt) {l : List Avtab.Node} {tc : Avtab.Avtab} {log : List Avtab.Node} (hr : Avtab.Rel tc log)
    (hl : ∀ n ∈ l, Avtab.Storable n ∧ NodeOk q true (heldNode n)) (hb : BranchOk lt log other l) (hw : Word l.length) :
    ∃ b tc', writeAvList p l = some b ∧ Avtab.Rel tc' ((l.map heldNode).reverse ++ log) ∧
      Inv (readAvList p.version te other tc) b (tc', l.map heldNode) := by
  obtain ⟨b, tc', h1, h2, h3⟩ := inv_avLoop hv ht hte l tc log hr hl hb
  exact ⟨_, tc', by simp [writeAvList, h1], h2, inv_bind (inv_u32 hw) h3⟩

theorem inv_condTok {nbools : Nat} {e : CondTok} (h1 : 1 ≤ e.exprType ∧ e.exprType ≤ 7) (h2 : e.boolean ≤ nbools) (hn : nbools ≤ 2 ^ 32 - 64) :
    Inv (readCondTok nbools) (w32 e.exprType ++ w32 e.boolean) e := by
  unfold readCondTok
  refine inv_bind (inv_u32 (by unfold Word; omega)) ?_
  have := inv_bind (f := fun boolean => (do
    Rd.reject (e.exprType == 0 || decide (e.exprType > 7))
    Rd.reject (decide (boolean > nbools))
    Rd.pure ⟨e.exprType, boolean⟩ : Rd CondTok)) (b' := []) (inv_u32 (n := e.boolean) (by unfold Word; omega)) (c := e)
    (inv_reject (by simp; omega) (inv_reject (by simp; omega) (inv_pure e)))
  rwa [List.append_nil] at this

/-- The expression of an accepted conditional can be read. -/
theorem condTok_ok {q : VPolicy} {l : List CondTok} (h : CondExprOk q l) : ∀ e ∈ l, (1 ≤ e.exprType ∧ e.exprType ≤ 7) ∧ e.boolean ≤ q.bools.nprim := by
  obtain ⟨n, _, h⟩ := h
  intro e he
  rcases post_mem h e he with h | h | h
  · exact ⟨by omega, h.2.2.1⟩
  · exact ⟨by omega, by omega⟩
  · exact ⟨by omega, by omega⟩

theorem int32_bit {n : Int} (h : n = 0 ∨ n = 1) : Word (int32 n) ∧ toInt32 (int32 n) = n := by
  unfold Word
  rcases h with h | h <;> subst h <;> decide

theorem answers_of_kind {k : Avtab.Key} {a b : Avtab.Node} (hk : Avtab.SingleKind k.specified) (ha : Avtab.Answers k a) (hb : Avtab.Answers k b) :
    Avtab.Answers b.key a := by
  obtain ⟨i0, hi0, hs⟩ := hk
  obtain ⟨a1, a2, a3, i, hi, ai, ai'⟩ := ha
  obtain ⟨b1, b2, b3, j, hj, bj, bj'⟩ := hb
  have e1 := (hs i hi).1 ai
  have e2 := (hs j hj).1 bj
  exact ⟨by omega, by omega, by omega, i, hi, by rw [e1, ← e2]; exact bj', ai'⟩

theorem typeRule_of_kind {k : Avtab.Key} {b : Avtab.Node} (hk : Avtab.SingleKind k.specified) (ht : k.specified &&& Avtab.TYPE ≠ 0#16)
    (hb : Avtab.Answers k b) : IsTypeRule b := by
  unfold IsTypeRule
  obtain ⟨i0, hi0, hs⟩ := hk
  obtain ⟨b1, b2, b3, j, hj, bj, bj'⟩ := hb
  have hex : ∃ m < 16, (k.specified &&& Avtab.TYPE).getLsbD m = true := by
    by_contra hc
    refine ht (BitVec.eq_of_getLsbD_eq fun m hm => ?_)
    rw [BitVec.getLsbD_zero]
    cases hx : (k.specified &&& Avtab.TYPE).getLsbD m
    · rfl
    · exact absurd ⟨m, hm, hx⟩ hc
  obtain ⟨m, hm, hx⟩ := hex
  rw [BitVec.getLsbD_and, Bool.and_eq_true] at hx
  have hm15 : m < 15 := by
    by_contra hc
    have : m = 15 := by omega
    subst this
    exact absurd hx.2 (by decide)
  have e1 := (hs m hm15).1 hx.1
  have e2 := (hs j hj).1 bj
  intro h0
  have h1 : (b.key.specified &&& Avtab.TYPE).getLsbD j = true := by
    rw [BitVec.getLsbD_and, bj', Bool.true_and, e2, ← e1]; exact hx.2
  rw [h0, BitVec.getLsbD_zero] at h1
  cases h1

/-- The rules of the conditionals before. -/
def earlierRules (l : List CondD) : List Avtab.Node := l.flatMap fun c => c.trueList ++ c.falseList

theorem filter_nil {log : List Avtab.Node} {k : Avtab.Key} (h : ∀ r ∈ log, ¬ Avtab.Answers k r) : log.filter (fun r => Avtab.hits k r.key) = [] := by
  rw [List.filter_eq_nil_iff]
  intro r hr hh
  exact h r hr ((Avtab.hits_iff k r).1 hh)

theorem filter_held (l : List Avtab.Node) (k : Avtab.Key) : ((l.map heldNode).filter fun r => Avtab.hits k r.key).length =
    (l.filter fun r => Avtab.hits k r.key).length := by
  rw [List.filter_map, List.length_map]
  congr 2
  funext r
  rw [Function.comp, heldNode_key]

/-- Rules in one branch that answer a type rule. -/
theorem branch_one {l : List Avtab.Node} (h : l.Pairwise fun a b => IsTypeRule b → ¬ Avtab.Answers b.key a) {k : Avtab.Key}
    (hk : Avtab.SingleKind k.specified) (ht : k.specified &&& Avtab.TYPE ≠ 0#16) : (l.filter fun r => Avtab.hits k r.key).length ≤ 1 := by
  refine le_one (h.sublist List.filter_sublist) ?_
  intro a ha b hb hc
  have ha' := (Avtab.hits_iff k a).1 (List.mem_filter.1 ha).2
  have hb' := (Avtab.hits_iff k b).1 (List.mem_filter.1 hb).2
  exact hc (typeRule_of_kind hk ht hb') (answers_of_kind hk ha' hb')

theorem inv_cond {p : PolicyDb} {q : VPolicy} (hv : q.version = p.version) (ht : q.target = p.target) {te : Avtab.Avtab} {lt : List Avtab.Node}
    (hte : Avtab.Rel te lt) {tc : Avtab.Avtab} {log : List Avtab.Node} (hr : Avtab.Rel tc log) {c : CondD} (hf : CondFits c)
    (hok : CondOk q (heldCond c)) (hb : q.bools.nprim ≤ 2 ^ 32 - 64)
    (hout : ∀ n ∈ c.trueList ++ c.falseList, IsTypeRule n → ∀ r ∈ lt ++ log, ¬ Avtab.Answers n.key r)
    (htrue : c.trueList.Pairwise fun a b => IsTypeRule b → ¬ Avtab.Answers b.key a)
    (hfalse : c.falseList.Pairwise fun a b => IsTypeRule b → ¬ Avtab.Answers b.key a) :
    ∃ b tc', writeCond p c = some b ∧
      Avtab.Rel tc' ((c.falseList.map heldNode).reverse ++ ((c.trueList.map heldNode).reverse ++ log)) ∧
      Inv (readCond p.version q.bools.nprim te tc) b (tc', heldCond c) := by
  obtain ⟨f1, f2, f3, f4⟩ := hf
  obtain ⟨k1, k2, k3, k4, _⟩ := hok
  have hpair : ∀ {l : List Avtab.Node} {pre post : List Avtab.Node} {n : Avtab.Node},
      (l.Pairwise fun a b => IsTypeRule b → ¬ Avtab.Answers b.key a) → l = pre ++ n :: post → IsTypeRule n →
      ∀ r ∈ (pre.map heldNode).reverse, ¬ Avtab.Answers n.key r := by
    intro l pre post n hp he hn r hr'
    rw [List.mem_reverse, List.mem_map] at hr'
    obtain ⟨m, hm, rfl⟩ := hr'
    rw [answers_held]
    rw [he, List.pairwise_append] at hp
    exact hp.2.2 m hm n (by simp) hn
  obtain ⟨bt, tc1, t1, t2, t3⟩ := inv_avList hv ht hte (other := []) (l := c.trueList) hr
    (fun n hn => ⟨f4 n (List.mem_append_left _ hn), k2 (heldNode n) (List.mem_map_of_mem hn)⟩) (by
      intro pre n post he hn
      have hmem : n ∈ c.trueList ++ c.falseList := by rw [he]; simp
      have h1 : ∀ r ∈ (pre.map heldNode).reverse ++ log, ¬ Avtab.Answers n.key r := by
        intro r hr'
        rcases List.mem_append.1 hr' with h | h
        · exact hpair htrue he hn r h
        · exact hout n hmem hn r (List.mem_append_right _ h)
      refine ⟨fun r h => hout n hmem hn r (List.mem_append_left _ h), fun r h ha => absurd ha (h1 r h), ?_⟩
      rw [filter_nil h1]; simp) f2
  obtain ⟨bf, tc2, g1, g2, g3⟩ := inv_avList hv ht hte (other := c.trueList.map heldNode) (l := c.falseList) t2
    (fun n hn => ⟨f4 n (List.mem_append_right _ hn), k3 (heldNode n) (List.mem_map_of_mem hn)⟩) (by
      intro pre n post he hn
      have hmem : n ∈ c.trueList ++ c.falseList := by rw [he]; simp
      have hsingle := Avtab.singleKind_of_popcount (f4 n hmem).single
      refine ⟨fun r h => hout n hmem hn r (List.mem_append_left _ h), ?_, ?_⟩
      · intro r h ha
        rcases List.mem_append.1 h with h | h
        · exact absurd ha (hpair hfalse he hn r h)
        · rcases List.mem_append.1 h with h | h
          · exact List.mem_reverse.1 h
          · exact absurd ha (hout n hmem hn r (List.mem_append_right _ h))
      · rw [List.filter_append, List.filter_append, filter_nil (hpair hfalse he hn),
          filter_nil fun r h => hout n hmem hn r (List.mem_append_right _ h), List.nil_append, List.append_nil, List.filter_reverse,
          List.length_reverse, filter_held]
        exact branch_one htrue hsingle hn) f3
  refine ⟨_, tc2, by simp only [writeCond, t1, g1, Option.bind_eq_bind, Option.bind_some]; rfl, g2, ?_⟩
  unfold readCond
  obtain ⟨w1, w2⟩ := int32_bit k4
  refine inv_bind (inv_u32 w1) ?_
  refine inv_bind (inv_u32 f1) ?_
  refine inv_bind (inv_timesId fun e he => inv_condTok (condTok_ok k1 e he).1 (condTok_ok k1 e he).2 hb) ?_
  refine inv_bind t3 ?_
  refine inv_congr (inv_last (g := fun f : Avtab.Avtab × List Avtab.Node =>
    (f.1, (⟨toInt32 (int32 c.curState), c.expr, c.trueList.map heldNode, f.2, 0⟩ : CondD))) g3) rfl ?_
  have w2' : toInt32 (int32 c.curState) = c.curState := w2
  rw [w2']; rfl

theorem inv_condLoop {p : PolicyDb} {q : VPolicy} (hv : q.version = p.version) (ht : q.target = p.target) {te : Avtab.Avtab} {lt : List Avtab.Node}
    (hte : Avtab.Rel te lt) (hb : q.bools.nprim ≤ 2 ^ 32 - 64) : ∀ (l : List CondD) (tc : Avtab.Avtab) (log : List Avtab.Node), Avtab.Rel tc log →
    (∀ c ∈ l, CondFits c ∧ CondOk q (heldCond c)) →
    (∀ c ∈ l, ∀ n ∈ c.trueList ++ c.falseList, IsTypeRule n → ∀ r ∈ lt ++ log, ¬ Avtab.Answers n.key r) →
    (∀ c ∈ l, (c.trueList.Pairwise fun a b => IsTypeRule b → ¬ Avtab.Answers b.key a) ∧
      (c.falseList.Pairwise fun a b => IsTypeRule b → ¬ Avtab.Answers b.key a)) →
    (l.Pairwise fun c d => ∀ a ∈ c.trueList ++ c.falseList, ∀ b ∈ d.trueList ++ d.falseList, IsTypeRule b → ¬ Avtab.Answers b.key a) →
    ∃ b, wAll (writeCond p) l = some b ∧ Inv (readCondLoop p.version q.bools.nprim te l.length tc) b (l.map heldCond)
  | [], tc, log, hr, _, _, _, _ => ⟨[], rfl, inv_pure _⟩
  | c :: l, tc, log, hr, hl, hout, hbr, hac => by
    obtain ⟨b1, tc1, h1, h2, h3⟩ := inv_cond hv ht hte hr (hl c (by simp)).1 (hl c (by simp)).2 hb (hout c (by simp)) (hbr c (by simp)).1
      (hbr c (by simp)).2
    rw [List.pairwise_cons] at hac
    obtain ⟨b2, h4, h5⟩ := inv_condLoop hv ht hte hb l tc1 _ h2 (fun d hd => hl d (List.mem_cons_of_mem _ hd)) (by
      intro d hd n hn hty r hr'
      rcases List.mem_append.1 hr' with h | h
      · exact hout d (List.mem_cons_of_mem _ hd) n hn hty r (List.mem_append_left _ h)
      · rcases List.mem_append.1 h with h | h
        · rw [List.mem_reverse, List.mem_map] at h
          obtain ⟨m, hm, rfl⟩ := h
          rw [answers_held]
          exact hac.1 d hd m (List.mem_append_right _ hm) n hn hty
        · rcases List.mem_append.1 h with h | h
          · rw [List.mem_reverse, List.mem_map] at h
            obtain ⟨m, hm, rfl⟩ := h
            rw [answers_held]
            exact hac.1 d hd m (List.mem_append_left _ hm) n hn hty
          · exact hout d (List.mem_cons_of_mem _ hd) n hn hty r (List.mem_append_right _ h))
      (fun d hd => hbr d (List.mem_cons_of_mem _ hd)) hac.2
    refine ⟨b1 ++ b2, by simp [wAll, h1, h4], ?_⟩
    show Inv (readCondLoop p.version q.bools.nprim te (l.length + 1) tc) _ _
    unfold readCondLoop
    exact inv_bind h3 (inv_last (g := fun l => heldCond c :: l) h5)

theorem inv_conds {p : PolicyDb} {q : VPolicy} (hv : q.version = p.version) (ht : q.target = p.target) {te : Avtab.Avtab}
    (hte : ∃ log, Avtab.Rel te log) (hnel : te.nel ≠ 0) (hperm : (Avtab.nodes te).Perm ((Avtab.nodes p.avtab).map heldNode))
    (hb : q.bools.nprim ≤ 2 ^ 32 - 64) (hw : Word p.conds.length) (hf : ∀ c ∈ p.conds, CondFits c) (hok : ∀ c ∈ p.conds, CondOk q (heldCond c))
    (hn : NoConflict p) :
    ∃ b, writeConds p = some b ∧ Inv (readConds p.version q.bools.nprim te) b (p.conds.map heldCond) := by
  obtain ⟨lt, hte⟩ := hte
  obtain ⟨b, h1, h2⟩ := inv_condLoop hv ht hte hb p.conds (Avtab.alloc Avtab.init te.nel) [] (Avtab.rel_alloc _ hnel)
    (fun c hc => ⟨hf c hc, hok c hc⟩) (by
      intro c hc n hn' hty r hr'
      rw [List.append_nil] at hr'
      have := hperm.mem_iff.1 ((Avtab.nodes_perm hte).mem_iff.2 hr')
      obtain ⟨m, hm, rfl⟩ := List.mem_map.1 this
      rw [answers_held]
      exact hn.outside c hc n hn' hty m hm) hn.branch hn.across
  exact ⟨_, by simp [writeConds, h1], inv_bind (inv_u32 hw) h2⟩

end Verif.PolicyIO
