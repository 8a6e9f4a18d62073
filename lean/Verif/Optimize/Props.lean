import Verif.Optimize.Lemmas5
import Verif.Services.AvProps

/-!
# C22: optimising a policy changes no decision
-/

namespace Verif.Optimize
open Verif.Avtab Verif.Policy

/-! ## Data for the examples -/

open Verif.Services (word word_wf word_lt)

theorem word_bit (m : BitVec 64) (b : Nat) : Ebitmap.getBit (word m) b = true ↔ b < 64 ∧ m.getLsbD b = true := by
  constructor
  · intro h
    have hb := word_lt h
    refine ⟨hb, ?_⟩
    have hm : m ≠ 0#64 := by
      rintro rfl
      unfold Ebitmap.getBit at h
      split at h
      · cases h
      · simp [word, Ebitmap.getBitNodes] at h
    have := Ebitmap.getBit_eq ((Ebitmap.wf_iff_inv _).1 (word_wf hm)) b
    rw [this] at h
    simpa [word, Ebitmap.bits, Ebitmap.inNode, hb] using h
  · rintro ⟨hb, h⟩
    have hm : m ≠ 0#64 := by rintro rfl; simp at h
    rw [Ebitmap.getBit_eq ((Ebitmap.wf_iff_inv _).1 (word_wf hm))]
    simpa [word, Ebitmap.bits, Ebitmap.inNode, hb] using h

/-- Types `a` (1), `b` (2) and attribute `at` (3) = {a}; attribute 4 = {a, b} lists every type. -/
def exSp (te : Avtab.Avtab) : Services.SPolicy :=
  { Services.exPolicy with
    pol := { Services.exPolicy.pol with nTypes := 4 }
    classes := fun i => if i = 0 then some ⟨[], []⟩ else none
    typeAttr := fun i => if i = 0 then some (word 13#64) else if i = 1 then some (word 10#64) else if i = 2 then some (word 4#64) else
      if i = 3 then some (word 8#64) else none
    typeStruct := fun i => if i = 0 then some ⟨1, 0, 0⟩ else if i = 1 then some ⟨2, 0, 0⟩ else if i = 2 then some ⟨3, 1, 0⟩ else
      if i = 3 then some ⟨4, 1, 0⟩ else none
    te := te }

/-- `allow a b {0 1}`, `allow 4 4 {0}`, `allowxperm a b` of ioctls 0x1205, 0x1206, `allowxperm 4 b` of driver 0x12,
`type_transition a b : 2`. -/
def exTe : Avtab.Avtab :=
  ⟨some (fun i => if i = 0 then
    [⟨⟨1, 2, 1, ALLOWED⟩, ⟨3#32, none⟩⟩, ⟨⟨1, 2, 1, XPERMS_ALLOWED⟩, ⟨0#32, some ⟨FUNCTION, 0x12#8, [0x60#32, 0, 0, 0, 0, 0, 0, 0]⟩⟩⟩,
     ⟨⟨1, 2, 1, TRANSITION⟩, ⟨2#32, none⟩⟩,
     ⟨⟨4, 2, 1, XPERMS_ALLOWED⟩, ⟨0#32, some ⟨DRIVER, 0#8, [0x40000#32, 0, 0, 0, 0, 0, 0, 0]⟩⟩⟩,
     ⟨⟨4, 4, 1, ALLOWED⟩, ⟨1#32, none⟩⟩] else []), 5, 1, 0⟩

/-- If boolean 1: `allow a b {1 2 3}`, `allow at 4 {2}`, else `auditallow a b {0}`; if boolean 2: `allow b b {0}`. -/
def exP : OPolicy :=
  { sp := exSp exTe
    attrType := fun i => if i = 2 then word 1#64 else if i = 3 then word 3#64 else Ebitmap.init
    tab := ⟨fun i => if i = 0 then [0, 3, 2, 1] else [], 4, 1, 0,
      fun id => if id = 0 then ⟨⟨1, 2, 1, ALLOWED⟩, ⟨14#32, none⟩⟩ else if id = 1 then ⟨⟨3, 4, 1, ALLOWED⟩, ⟨4#32, none⟩⟩
        else if id = 2 then ⟨⟨2, 2, 1, ALLOWED⟩, ⟨1#32, none⟩⟩ else ⟨⟨1, 2, 1, AUDITALLOW⟩, ⟨1#32, none⟩⟩⟩
    conds := [⟨0, [.bool 1], [0, 1], [3], [], [], 0, [], 0, 0⟩, ⟨0, [.bool 2], [2], [], [], [], 0, [], 0, 0⟩]
    enabled := fun i => decide (i = 3) }

theorem exP_attr (te : Avtab.Avtab) (i : Nat) : isAttr (exSp te) i = true ↔ i = 2 ∨ i = 3 := by
  unfold isAttr exSp
  dsimp only
  by_cases h0 : i = 0
  · subst h0; decide
  by_cases h1 : i = 1
  · subst h1; decide
  by_cases h2 : i = 2
  · subst h2; decide
  by_cases h3 : i = 3
  · subst h3; decide
  simp [h0, h1, h2, h3]

theorem exP_ok : OptOk exP (fun _ => false) := by
  have hat : ∀ i m, exP.sp.typeAttr i = some m →
      (i = 0 ∧ m = word 13#64) ∨ (i = 1 ∧ m = word 10#64) ∨ (i = 2 ∧ m = word 4#64) ∨ (i = 3 ∧ m = word 8#64) := by
    intro i m h
    unfold exP exSp at h
    dsimp only at h
    split at h
    · cases h; exact .inl ⟨by assumption, rfl⟩
    · split at h
      · cases h; exact .inr (.inl ⟨by assumption, rfl⟩)
      · split at h
        · cases h; exact .inr (.inr (.inl ⟨by assumption, rfl⟩))
        · split at h
          · cases h; exact .inr (.inr (.inr ⟨by assumption, rfl⟩))
          · cases h
  have bits : ∀ m : BitVec 64, m.toNat < 16 → ∀ b, Ebitmap.getBit (word m) b = true → b < 4 := by
    intro m hm b hb
    have h := ((word_bit m b).mp hb).2
    by_contra hc
    have : m.toNat < 2 ^ b := Nat.lt_of_lt_of_le hm (Nat.pow_le_pow_right (n := 2) (i := 4) (by decide) (show 4 ≤ b by omega))
    rw [BitVec.getLsbD, Nat.testBit_lt_two_pow this] at h
    cases h
  refine ⟨⟨?_, ?_, ?_, ?_⟩, ?_, ⟨?_, ?_, ?_, ?_⟩, by decide, ?_, ?_, ?_, ?_, by decide, ?_, ?_, ?_, ?_, ?_⟩
  · rintro tb ⟨⟩ i
    by_cases h : i = 0
    · subst h; decide
    · simp [h]
  · rintro tb ⟨⟩ i n hn
    by_cases h : i = 0
    · subst h
      revert n
      decide +kernel
    · simp [h] at hn
  · intro h; cases h
  · decide
  · intro n hn
    have : n ∈ (exTe.htable.getD (fun _ => [])) 0 := by
      simpa [exP, exSp, exTe, Avtab.nodes] using hn
    simp only [exTe, Option.getD_some, if_true, List.mem_cons, List.not_mem_nil, or_false] at this
    rcases this with rfl | rfl | rfl | rfl | rfl
    all_goals
      refine ⟨by decide, ⟨by decide, by decide, by simp [exP, exSp]⟩, ⟨by decide, by decide, by simp [exP, exSp]⟩, ?_⟩
      first
        | (intro h; exact absurd h (by decide))
        | (intro _; exact ⟨_, rfl, rfl⟩)
  · rintro tb ⟨⟩ i
    by_cases h : i = 0
    · subst h; decide
    · simp [exP, h]
  · rintro tb ⟨⟩ i n hn
    by_cases h : i = 0
    · subst h
      revert n
      decide +kernel
    · simp [exP, h] at hn
  · intro h; cases h
  · decide
  · intro id hid
    have : id = 0 ∨ id = 3 ∨ id = 2 ∨ id = 1 := by simpa [exP, CondTab.ids] using hid
    rcases this with rfl | rfl | rfl | rfl
    all_goals
      refine ⟨by decide, ⟨by decide, by decide, by simp [exP, exSp]⟩, ⟨by decide, by decide, by simp [exP, exSp]⟩, ?_⟩
      intro h; exact absurd h (by decide)
  · show (listed exP.conds).Nodup
    decide
  · intro id
    simp only [exP, listed, CondTab.ids]
    simp
    omega
  · intro c hc
    simp only [exP, List.mem_cons, List.not_mem_nil, or_false] at hc
    rcases hc with rfl | rfl <;> decide
  · intro i hi
    have : i = 0 ∨ i = 1 ∨ i = 2 ∨ i = 3 := by
      have : i < 4 := hi
      omega
    rcases this with rfl | rfl | rfl | rfl <;> exact ⟨_, rfl⟩
  · intro i m h
    rcases hat i m h with ⟨-, rfl⟩ | ⟨-, rfl⟩ | ⟨-, rfl⟩ | ⟨-, rfl⟩
    all_goals exact ⟨word_wf (by decide), bits _ (by decide)⟩
  · intro i
    show Ebitmap.WF (if i = 2 then word 1#64 else if i = 3 then word 3#64 else Ebitmap.init)
    split
    · exact word_wf (by decide)
    · split
      · exact word_wf (by decide)
      · exact (Ebitmap.wf_iff_inv _).2 ⟨trivial, rfl, by decide⟩
  · intro i m b hi hm hb
    have hlt : b < 4 := by
      rcases hat i m hm with ⟨-, rfl⟩ | ⟨-, rfl⟩ | ⟨-, rfl⟩ | ⟨-, rfl⟩ <;> exact bits _ (by decide) b hb
    show b = i ∨ isAttr (exSp exTe) b = true
    rw [exP_attr]
    have hi' : ¬ (i = 2 ∨ i = 3) := fun h => by
      have := (exP_attr exTe i).mpr h
      change isAttr (exSp exTe) i = false at hi
      rw [hi] at this; cases this
    rcases hat i m hm with ⟨rfl, rfl⟩ | ⟨rfl, rfl⟩ | ⟨rfl, -⟩ | ⟨rfl, -⟩
    · have : b ≠ 1 := by rintro rfl; exact absurd hb (by decide +kernel)
      omega
    · have : b ≠ 0 := by rintro rfl; exact absurd hb (by decide +kernel)
      omega
    · exact absurd (.inl rfl) hi'
    · exact absurd (.inr rfl) hi'
  · intro i m a hi ha hm
    have hi' : ¬ (i = 2 ∨ i = 3) := fun h => by
      have := (exP_attr exTe i).mpr h
      change isAttr (exSp exTe) i = false at hi
      rw [hi] at this; cases this
    have ha' := (exP_attr exTe a).mp ha
    rcases hat i m hm with ⟨rfl, rfl⟩ | ⟨rfl, rfl⟩ | ⟨rfl, -⟩ | ⟨rfl, -⟩
    · rcases ha' with rfl | rfl <;> decide +kernel
    · rcases ha' with rfl | rfl <;> decide +kernel
    · exact absurd (.inl rfl) hi'
    · exact absurd (.inr rfl) hi'

/-! ## Theorems -/

/-- C22: optimisation of a well-formed policy terminates without error and leaves a well-formed policy, of which only the rules are
changed: every chain of the unconditional table and of the conditional table keeps the keys of some of its rules, in order. -/
theorem C22_total {p : OPolicy} {σ0 : Cond.State} (ok : OptOk p σ0) :
    ∃ p', optimize p = some p' ∧ OptOk p' σ0 ∧ (∃ te, p'.sp = { p.sp with te := te }) ∧ p'.attrType = p.attrType ∧ p'.enabled = p.enabled ∧
      (∀ tb tb', p.sp.te.htable = some tb → p'.sp.te.htable = some tb' → ∀ i, ((tb' i).map Node.key).Sublist ((tb i).map Node.key)) ∧
      (∀ i, (p'.tab.htable i).Sublist (p.tab.htable i)) ∧ (∀ id, (p'.tab.node id).key = (p.tab.node id).key) := by
  obtain ⟨p', h1, h2, h3⟩ := optimize_spec ok
  refine ⟨p', h1, h2, h3.sp, h3.attrType, h3.enabled, fun tb tb' a b i => (h3.teChain tb tb' a b i).1, fun i => ?_, h3.keys⟩
  obtain ⟨q, hq, -⟩ := h3.chain i
  rw [hq]; exact List.filter_sublist

/-- C22: for every assignment of the booleans, every pair of types, every class and everything a rule can say — a permission allowed,
audited or not audited, an ioctl command or netlink message in one of the extended permission sets, or filtering as such — the
optimised policy decides what the policy decided. -/
theorem C22_decisions {p p' : OPolicy} {σ0 : Cond.State} (ok : OptOk p σ0) (h : optimize p = some p') (σ : Cond.State) {s t : Nat}
    (hs : IsType p.sp s) (ht : IsType p.sp t) (cls : Nat) (f : Fact) : Decides p' σ s t cls f ↔ Decides p σ s t cls f := by
  obtain ⟨p'', h1, -, h3⟩ := optimize_spec ok
  rw [h] at h1
  cases h1
  have := h3.same σ s t cls f hs ht
  obtain ⟨te, hte⟩ := h3.sp
  have hsays : ∀ n, Says p'.sp s t cls f n ↔ Says p.sp s t cls f n := by
    intro n
    unfold Says Services.Covers
    rw [hte]
  unfold Decides
  simp only [hsays]
  unfold Active at this
  constructor
  · intro hd
    have h2 : ∃ n, (n ∈ Avtab.nodes p'.sp.te ∨ ∃ id, Cond.SelectedBy σ p'.conds id ∧ n = p'.tab.node id) ∧ Says p.sp s t cls f n := by
      rcases hd with ⟨n, a, b⟩ | ⟨id, a, b⟩
      · exact ⟨n, .inl a, b⟩
      · exact ⟨_, .inr ⟨id, a, rfl⟩, b⟩
    obtain ⟨n, a | ⟨id, a, rfl⟩, b⟩ := this.mp h2
    · exact .inl ⟨n, a, b⟩
    · exact .inr ⟨id, a, b⟩
  · intro hd
    have h2 : ∃ n, (n ∈ Avtab.nodes p.sp.te ∨ ∃ id, Cond.SelectedBy σ p.conds id ∧ n = p.tab.node id) ∧ Says p.sp s t cls f n := by
      rcases hd with ⟨n, a, b⟩ | ⟨id, a, b⟩
      · exact ⟨n, .inl a, b⟩
      · exact ⟨_, .inr ⟨id, a, rfl⟩, b⟩
    obtain ⟨n, a | ⟨id, a, rfl⟩, b⟩ := this.mpr h2
    · exact .inl ⟨n, a, b⟩
    · exact .inr ⟨id, a, b⟩

/-- Type bounds name types. -/
def BoundsAreTypes (p : Services.SPolicy) : Prop :=
  ∀ i d, p.typeStruct i = some d → d.bounds ≠ 0 → d.bounds < 2 ^ 32 ∧ IsType p d.bounds

/-- C22: the access vectors computed by the security server are the same, including constraints, role rules and type bounds. -/
theorem C22_access_vectors {p p' : OPolicy} {σ0 : Cond.State} (ok : OptOk p σ0) (hb : BoundsAreTypes p.sp) (h : optimize p = some p')
    (σ : Cond.State) (cls : Nat) (fuel : Nat) : ∀ (s t : Context) (requested : BitVec 32), IsType p.sp s.type → IsType p.sp t.type →
    1 ≤ s.type → s.type < 2 ^ 32 → 1 ≤ t.type → t.type < 2 ^ 32 →
    Services.computeAv fuel (withBools p' σ) s t cls requested = Services.computeAv fuel (withBools p σ) s t cls requested := by
  obtain ⟨p'', h1, ok', h3⟩ := optimize_spec ok
  rw [h] at h1
  cases h1
  have hpass := fun {s t : Context} => tePass_same ok ok' h3 σ (s := s) (t := t)
  obtain ⟨te, hte⟩ := h3.sp
  have hw : withBools p' σ = { withBools p σ with te := te, cond := (withBools p' σ).cond } := by
    unfold withBools; rw [hte]
  have hcons : ∀ s t l a, Services.consPass (withBools p' σ) s t l a = Services.consPass (withBools p σ) s t l a := by
    intro s t l
    induction l with
    | nil => intro a; rfl
    | cons c l ih =>
      intro a
      unfold Services.consPass
      have : (withBools p' σ).pol = (withBools p σ).pol := by rw [hw]
      rw [this]
      simp only [ih]
  have e1 : (withBools p' σ).nClasses = (withBools p σ).nClasses := by rw [hw]
  have e2 : (withBools p' σ).typeAttr = (withBools p σ).typeAttr := by rw [hw]
  have e3 : (withBools p' σ).classes = (withBools p σ).classes := by rw [hw]
  have e4 : (withBools p' σ).typeStruct = (withBools p σ).typeStruct := by rw [hw]
  have e5 : ∀ s t a, Services.roleAllowPass (withBools p' σ) s t cls a = Services.roleAllowPass (withBools p σ) s t cls a := by
    intro s t a
    unfold Services.roleAllowPass
    rw [hw]
  induction fuel with
  | zero => intros; rfl
  | succ fuel ih =>
    intro s t requested hs ht s1 s2 t1 t2
    unfold Services.computeAv
    rw [e1, e2, e3, e4]
    split
    · rfl
    · have ps : Services.pred32 s.type = s.type - 1 := pred32_eq s1 s2
      have pt : Services.pred32 t.type = t.type - 1 := pred32_eq t1 t2
      rw [ps, pt]
      cases hsa : (withBools p σ).typeAttr (s.type - 1) with
      | none => rfl
      | some sattr =>
      cases hta : (withBools p σ).typeAttr (t.type - 1) with
      | none => rfl
      | some tattr =>
      rw [Option.bind_some, Option.bind_some, Option.bind_some, Option.bind_some]
      cases hsb : Ebitmap.forEachPositiveBit (sattr.highbit + 1) sattr with
      | none => rfl
      | some sbits =>
      cases htb : Ebitmap.forEachPositiveBit (tattr.highbit + 1) tattr with
      | none => rfl
      | some tbits =>
      rw [Option.bind_some, Option.bind_some, Option.bind_some, Option.bind_some]
      have hp := hpass hs ht hsa hta hsb htb cls
      dsimp only
      rw [hp]
      cases (withBools p σ).classes (cls - 1) with
      | none => rfl
      | some ci =>
      rw [Option.bind_some, Option.bind_some, hcons]
      cases Services.consPass (withBools p σ) s t ci.constraints (Services.tePass (withBools p σ) cls sbits tbits).allowed with
      | none => rfl
      | some allowed =>
      rw [Option.bind_some, Option.bind_some, e5]
      cases hsd : (withBools p σ).typeStruct (s.type - 1) with
      | none => rfl
      | some sd =>
      rw [Option.bind_some, Option.bind_some]
      split
      · rfl
      · rename_i hb0
        cases htd : (withBools p σ).typeStruct (t.type - 1) with
        | none => rfl
        | some td =>
        rw [Option.bind_some, Option.bind_some]
        obtain ⟨b1, b2⟩ := hb _ sd hsd hb0
        by_cases htb0 : td.bounds ≠ 0
        · rw [if_pos htb0]
          obtain ⟨b3, b4⟩ := hb _ td htd htb0
          rw [ih _ _ _ b2 b4 (Nat.pos_of_ne_zero hb0) b1 (Nat.pos_of_ne_zero htb0) b3]
        · rw [if_neg htb0]
          rw [ih _ _ _ b2 ht (Nat.pos_of_ne_zero hb0) b1 t1 t2]

theorem hits_type {k : Key} {kind : BitVec 16} (hk : k.specified ∈ typeKinds) (hkind : kind ∈ avKinds ++ xKinds ++ typeKinds) {c : Key}
    (hs : Stamp kind c.specified) (h : hits k c = true) : kind ∈ typeKinds := by
  unfold hits at h
  rw [Bool.and_eq_true] at h
  have h2 := h.2
  clear h
  simp only [avKinds, xKinds, typeKinds, List.cons_append, List.nil_append, List.mem_cons, List.not_mem_nil, or_false] at hk hkind
  rcases hk with hk | hk | hk <;> rw [hk] at h2 <;>
    rcases hkind with rfl | rfl | rfl | rfl | rfl | rfl | rfl | rfl | rfl <;> rcases hs with hs | hs <;> rw [hs] at h2 <;>
    first | decide | (revert h2; decide)

/-- C22: type transition, type change and type member rules are untouched: every search for one gives the same answer, in the
unconditional table, and in the conditional table under every assignment of the booleans. -/
theorem C22_type_rules {p p' : OPolicy} {σ0 : Cond.State} (ok : OptOk p σ0) (h : optimize p = some p') (σ : Cond.State) (k : Key)
    (hk : k.specified ∈ typeKinds) :
    enumerate p'.sp.te k = enumerate p.sp.te k ∧ enumerate (withBools p' σ).cond k = enumerate (withBools p σ).cond k := by
  obtain ⟨p'', h1, ok', h3⟩ := optimize_spec ok
  rw [h] at h1
  cases h1
  constructor
  · cases htb : p.sp.te.htable with
    | none =>
      have := h3.teNull.mpr htb
      unfold enumerate searchNode
      rw [htb, this]
    | some tb =>
      cases htb' : p'.sp.te.htable with
      | none => rw [h3.teNull.mp htb'] at htb; cases htb
      | some tb' =>
        rw [enumerate_eq ok.te htb, enumerate_eq ok'.te htb', h3.teMask]
        have hty := (h3.teChain tb tb' htb htb' (Avtab.hash k p.sp.te.mask)).2
        have key : ∀ l : List Avtab.Node, (∀ n ∈ l, n.key.specified ∈ avKinds ++ xKinds ++ typeKinds) →
            l.filter (fun n => hits k n.key) = (l.filter isTypeRule).filter (fun n => hits k n.key) := by
          intro l hl
          rw [List.filter_filter]
          apply List.filter_congr
          intro n hn
          cases hh : hits k n.key with
          | false => rfl
          | true =>
            have := hits_type hk (hl n hn) (.inl rfl) hh
            simp [isTypeRule, this]
        rw [key _ (fun n hn => (ok.teRules n ((mem_nodes ok.te htb n).mpr ⟨_, hn⟩)).kind),
          key _ (fun n hn => (ok'.teRules n ((mem_nodes ok'.te htb' n).mpr ⟨_, hn⟩)).kind), hty]
  · have cnt : ∀ {q : OPolicy}, OptOk q σ0 → TableOk ((withBools q σ).cond) := by
      intro q okq
      have hc : q.tab.nel = q.tab.ids.length := by
        have := okq.cond.count
        rw [tab_nodes, List.length_map] at this
        exact this
      exact tableOk_sub okq.cond rfl rfl (fun _ => rfl) (fun _ => List.Sublist.refl _) hc
    rw [enumerate_eq (cnt ok) rfl, enumerate_eq (cnt ok') rfl]
    show ((p'.tab.htable (Avtab.hash k p'.tab.mask)).map _).filter _ = ((p.tab.htable (Avtab.hash k p.tab.mask)).map _).filter _
    rw [h3.mask]
    obtain ⟨q, hq, hqt⟩ := h3.chain (Avtab.hash k p.tab.mask)
    rw [hq, List.filter_map, List.filter_map, List.filter_filter]
    have hin : ∀ x ∈ p.tab.htable (Avtab.hash k p.tab.mask), x ∈ p.tab.ids := by
      intro x hx
      exact List.mem_flatMap.mpr ⟨_, List.mem_range.mpr (ok.cond.slot _ rfl _ _ (List.mem_map_of_mem hx)).2, hx⟩
    have hty : ∀ x ∈ p.tab.htable (Avtab.hash k p.tab.mask),
        hits k (stamped (Cond.evaluateConds σ p.conds p.enabled).2 p.tab.node x).key = true → isTypeRule (p.tab.node x) = true := by
      intro x hx hh
      have := hits_type hk (ok.condRules x (hin x hx)).kind (specOf_stamp _ p.tab.node x) hh
      simpa [isTypeRule] using this
    have hsame : ∀ x ∈ p.tab.htable (Avtab.hash k p.tab.mask), isTypeRule (p.tab.node x) = true →
        stamped (Cond.evaluateConds σ p'.conds p'.enabled).2 p'.tab.node x = stamped (Cond.evaluateConds σ p.conds p.enabled).2 p.tab.node x := by
      intro x hx ht
      have hl := (ok.all x).mpr (hin x hx)
      have hl' := h3.tyList x hl ht
      have e1 := enabled_iff ok.own ok.consistent σ hl
      have e2 := enabled_iff ok'.own ok'.consistent σ hl'
      have he : (Cond.evaluateConds σ p'.conds p'.enabled).2 x = (Cond.evaluateConds σ p.conds p.enabled).2 x := by
        rw [Bool.eq_iff_iff, e1, e2]
        exact h3.tySel σ x ht
      unfold stamped specOf
      rw [h3.types x ht, he]
    have hhit : ∀ x, hits k (stamped (Cond.evaluateConds σ p'.conds p'.enabled).2 p'.tab.node x).key =
        hits k (stamped (Cond.evaluateConds σ p.conds p.enabled).2 p.tab.node x).key := by
      intro x
      have aux : ∀ (a b : BitVec 16) (en en' : Bool), (kindMask a &&& (if en then b ||| ENABLED else b)) = kindMask a &&& (if en' then b ||| ENABLED else b) := by
        intro a b en en'
        have : kindMask a &&& (b ||| ENABLED) = kindMask a &&& b := by
          unfold kindMask
          apply BitVec.eq_of_getLsbD_eq
          intro i hi
          simp only [BitVec.getLsbD_and, BitVec.getLsbD_or, BitVec.getLsbD_not, hi, decide_true, Bool.true_and]
          cases a.getLsbD i <;> cases b.getLsbD i <;> cases ENABLED.getLsbD i <;> rfl
        cases en <;> cases en' <;> simp [this]
      unfold hits stamped specOf
      dsimp only
      rw [h3.keys x, aux k.specified _ _ ((Cond.evaluateConds σ p.conds p.enabled).2 x)]
    have hfil : (p.tab.htable (Avtab.hash k p.tab.mask)).filter
        (fun x => q x && ((fun n : Avtab.Node => hits k n.key) ∘ stamped (Cond.evaluateConds σ p'.conds p'.enabled).2 p'.tab.node) x) =
        (p.tab.htable (Avtab.hash k p.tab.mask)).filter
        ((fun n : Avtab.Node => hits k n.key) ∘ stamped (Cond.evaluateConds σ p.conds p.enabled).2 p.tab.node) := by
      apply List.filter_congr
      intro x hx
      simp only [Function.comp]
      rw [hhit x]
      cases hh : hits k (stamped (Cond.evaluateConds σ p.conds p.enabled).2 p.tab.node x).key with
      | false => simp
      | true => rw [hqt x hx (hty x hx hh)]; rfl
    have hfil' := hfil
    simp only [Bool.and_comm (q _)] at hfil'
    first
      | rw [hfil]
      | rw [hfil']
    apply List.map_congr_left
    intro x hx
    rw [List.mem_filter] at hx
    exact hsame x hx.1 (hty x hx.1 hx.2)

/-- The hypotheses are met by a policy that the optimiser really shrinks: of five unconditional rules four remain, one without a
permission it had; of four conditional rules three remain, one with fewer permissions. -/
example : OptOk exP (fun _ => false) ∧ BoundsAreTypes exP.sp ∧ IsType exP.sp 1 ∧ IsType exP.sp 2 ∧
    (optimize exP).map (fun p' => ((Avtab.nodes p'.sp.te).map (fun n => (n.key.source, n.key.target, n.datum.data.toNat)), p'.tab.ids, p'.tab.nel)) =
      some ([(1, 2, 2), (1, 2, 2), (4, 2, 0), (4, 4, 1)], [0, 3, 1], 3) ∧
    (optimize exP).map (fun p' => (p'.tab.node 0).datum.data) = some 8#32 ∧ (optimize exP).map (fun p' => p'.conds.length) = some 1 := by
  refine ⟨exP_ok, ?_, (by unfold IsType; decide), (by unfold IsType; decide), ?_, ?_, ?_⟩
  · intro i d h hb
    have : d.bounds = 0 := by
      unfold exP exSp at h
      dsimp only at h
      repeat' split at h
      all_goals first | (cases h; rfl) | cases h
    exact absurd this hb
  · decide +kernel
  · decide +kernel
  · decide +kernel

/-- Types `a` (1) and `b` (2), attribute 3 = {b}, but the type map lists type `b` for type `a`; `allow b b {0}`, `allow 3 3 {0}`.
policydb_read (policydb.c:4449-4481) and policydb_validate (policydb_validate.c:1638-1656) accept such a map. -/
def exBad : OPolicy :=
  { sp := { exSp ⟨some (fun i => if i = 0 then [⟨⟨2, 2, 1, ALLOWED⟩, ⟨1#32, none⟩⟩, ⟨⟨3, 3, 1, ALLOWED⟩, ⟨1#32, none⟩⟩] else []), 2, 1, 0⟩ with
      pol := { Services.exPolicy.pol with nTypes := 3 }
      typeAttr := fun i => if i = 0 then some (word 3#64) else if i = 1 then some (word 6#64) else if i = 2 then some (word 4#64) else none
      typeStruct := fun i => if i = 0 then some ⟨1, 0, 0⟩ else if i = 1 then some ⟨2, 0, 0⟩ else if i = 2 then some ⟨3, 1, 0⟩ else none }
    attrType := fun i => if i = 1 then word 1#64 else if i = 2 then word 2#64 else Ebitmap.init
    tab := ⟨fun _ => [], 0, 0, 0, fun _ => ⟨⟨1, 1, 1, ALLOWED⟩, ⟨0#32, none⟩⟩⟩
    conds := []
    enabled := fun _ => false }

/-- C22 refuted for policies whose type map lists a type as if it were an attribute of another type, which loading and validation
do not exclude: a permission that the policy grants is not granted by the optimised policy. -/
theorem C22_type_listed_as_attribute_refuted :
    ∃ (p p' : OPolicy) (s : Context), optimize p = some p' ∧ IsType p.sp s.type ∧
      (Services.computeAv 1 (withBools p (fun _ => false)) s s 1 1#32).map (fun r => r.map (fun r => r.1.allowed)) = some (some 1#32) ∧
      (Services.computeAv 1 (withBools p' (fun _ => false)) s s 1 1#32).map (fun r => r.map (fun r => r.1.allowed)) = some (some 0#32) := by
  refine ⟨exBad, (optimize exBad).get (by decide +kernel), { Services.exS with type := 1 }, by simp, by unfold IsType; decide, by decide +kernel, by decide +kernel⟩

end Verif.Optimize
