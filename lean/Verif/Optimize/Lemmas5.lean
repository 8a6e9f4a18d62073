import Verif.Optimize.Lemmas4
import Verif.Services.AvLemmas

namespace Verif.Optimize
open Verif.Avtab Verif.Policy

theorem tab_nodes (t : CondTab) (en : Nat → Bool) : Avtab.nodes (t.avtab en) = t.ids.map (stamped en t.node) := by
  unfold Avtab.nodes CondTab.avtab CondTab.ids
  dsimp only
  rw [List.map_flatMap]

theorem stamped_key (en en' : Nat → Bool) (node : Nat → Avtab.Node) (id : Nat) :
    (stamped en node id).key.source = (node id).key.source ∧ (stamped en node id).key.target = (node id).key.target ∧
    (stamped en node id).key.cls = (node id).key.cls := ⟨rfl, rfl, rfl⟩

theorem stamped_before (en en' : Nat → Bool) (node node' : Nat → Avtab.Node) (hk : ∀ x, (node' x).key = (node x).key) (a b : Nat) :
    before (stamped en' node' a).key (stamped en' node' b).key = before (stamped en node a).key (stamped en node b).key := by
  unfold before stamped
  dsimp only
  rw [hk, hk]

theorem stamped_hash (en en' : Nat → Bool) (node node' : Nat → Avtab.Node) (hk : ∀ x, (node' x).key = (node x).key) (a m : Nat) :
    Avtab.hash (stamped en' node' a).key m = Avtab.hash (stamped en node a).key m := by
  unfold Avtab.hash stamped
  dsimp only
  rw [hk]

/-- A conditional table with fewer rules and the same keys is as good. -/
theorem tableOk_sub {t t' : CondTab} {en en' : Nat → Bool} (h : TableOk (t.avtab en)) (hm : t'.mask = t.mask) (hs : t'.nslot = t.nslot)
    (hk : ∀ x, (t'.node x).key = (t.node x).key) (hsub : ∀ i, (t'.htable i).Sublist (t.htable i)) (hc : t'.nel = t'.ids.length) :
    TableOk (t'.avtab en') := by
  refine ⟨?_, ?_, ?_, ?_⟩
  · intro tb htb i
    cases htb
    have := h.sorted _ rfl i
    dsimp only at this ⊢
    rw [List.pairwise_map] at this ⊢
    refine (this.sublist (hsub i)).imp ?_
    intro a b hab
    rw [stamped_before en en' t.node t'.node hk]; exact hab
  · intro tb htb i n hn
    cases htb
    obtain ⟨x, hx, rfl⟩ := List.mem_map.mp hn
    have := h.slot _ rfl i (stamped en t.node x) (List.mem_map_of_mem ((hsub i).subset hx))
    show Avtab.hash _ t'.mask = i ∧ i < t'.nslot
    rw [stamped_hash en en' t.node t'.node hk, hm, hs]
    exact this
  · intro h; cases h
  · rw [tab_nodes, List.length_map]; exact hc

theorem enabled_iff {σ0 : Cond.State} {conds : List Cond.Node} {en : Nat → Bool} (ho : Cond.OwnRules conds) (hc : Cond.Consistent σ0 conds en)
    (σ : Cond.State) {id : Nat} (hid : id ∈ listed conds) :
    (Cond.evaluateConds σ conds en).2 id = true ↔ Cond.SelectedBy σ conds id := by
  obtain ⟨e1, e2, -⟩ := Cond.evaluateConds_spec σ conds en ho hc
  have key : ∀ c ∈ conds, (∀ r ∈ c.trueList, (Cond.evaluateConds σ conds en).2 r = true ↔ Cond.evaluate σ c.expr = some true) ∧
      (∀ r ∈ c.falseList, (Cond.evaluateConds σ conds en).2 r = true ↔ Cond.evaluate σ c.expr = some false) := by
    intro c hc'
    have := e2 { c with curState := Cond.toInt (Cond.evaluate σ c.expr) } (by rw [e1]; exact List.mem_map_of_mem (f := fun n : Cond.Node => { n with curState := Cond.toInt (Cond.evaluate σ n.expr) }) hc')
    exact ⟨this.2.1, this.2.2⟩
  obtain ⟨c, hc', hm⟩ := List.mem_flatMap.mp hid
  rw [List.mem_append] at hm
  constructor
  · intro h
    rcases hm with hm | hm
    · exact ⟨c, hc', .inl ⟨((key c hc').1 id hm).mp h, hm⟩⟩
    · exact ⟨c, hc', .inr ⟨((key c hc').2 id hm).mp h, hm⟩⟩
  · rintro ⟨c2, h2, ⟨h3, h4⟩ | ⟨h3, h4⟩⟩
    · exact ((key c2 h2).1 id h4).mpr h3
    · exact ((key c2 h2).2 id h4).mpr h3

theorem isTypeRule_key {a b : Avtab.Node} (h : a.key = b.key) : isTypeRule a = isTypeRule b := by
  unfold isTypeRule; rw [h]

theorem isAttr_te (p : Services.SPolicy) (te : Avtab.Avtab) (i : Nat) : isAttr { p with te := te } i = isAttr p i := rfl

theorem ruleOk_te {p : Services.SPolicy} {te : Avtab.Avtab} {n : Avtab.Node} (h : RuleOk p n) : RuleOk { p with te := te } n :=
  ⟨h.kind, h.source, h.target, h.block⟩

/-- Everything about the optimiser. -/
structure Done (p p' : OPolicy) : Prop where
  sp : ∃ te, p'.sp = { p.sp with te := te }
  attrType : p'.attrType = p.attrType
  enabled : p'.enabled = p.enabled
  same : ∀ σ, Same p.sp (Active p.sp.te p.tab.node σ p.conds) (Active p'.sp.te p'.tab.node σ p'.conds)
  teMask : p'.sp.te.mask = p.sp.te.mask
  teNull : p'.sp.te.htable = none ↔ p.sp.te.htable = none
  teChain : ∀ tb tb', p.sp.te.htable = some tb → p'.sp.te.htable = some tb' → ∀ i, ((tb' i).map Node.key).Sublist ((tb i).map Node.key) ∧
        (tb' i).filter isTypeRule = (tb i).filter isTypeRule
  mask : p'.tab.mask = p.tab.mask
  nslot : p'.tab.nslot = p.tab.nslot
  keys : ∀ x, (p'.tab.node x).key = (p.tab.node x).key
  types : ∀ x, isTypeRule (p.tab.node x) = true → p'.tab.node x = p.tab.node x
  chain : ∀ i, ∃ q : Nat → Bool, p'.tab.htable i = (p.tab.htable i).filter q ∧ ∀ x ∈ p.tab.htable i, isTypeRule (p.tab.node x) = true → q x = true
  tySel : ∀ σ x, isTypeRule (p.tab.node x) = true → (Cond.SelectedBy σ p'.conds x ↔ Cond.SelectedBy σ p.conds x)
  tyList : ∀ x ∈ listed p.conds, isTypeRule (p.tab.node x) = true → x ∈ listed p'.conds

theorem nodup_flatMap_range {g : Nat → List Nat} {n : Nat} (h : ((List.range n).flatMap g).Nodup) :
    (∀ i ∈ List.range n, (g i).Nodup) ∧ ∀ i ∈ List.range n, ∀ j ∈ List.range n, i ≠ j → ∀ x ∈ g i, x ∉ g j := by
  have key : ∀ L : List Nat, (L.flatMap g).Nodup → (∀ i ∈ L, (g i).Nodup) ∧ (L.Nodup → ∀ i ∈ L, ∀ j ∈ L, i ≠ j → ∀ x ∈ g i, x ∉ g j) := by
    intro L
    induction L with
    | nil => intro _; exact ⟨fun i hi => (by cases hi), fun _ i hi => (by cases hi)⟩
    | cons a L ih =>
      intro hn
      rw [List.flatMap_cons, List.nodup_append] at hn
      obtain ⟨h1, h2, h3⟩ := hn
      obtain ⟨i1, i2⟩ := ih h2
      constructor
      · intro i hi
        rcases List.mem_cons.mp hi with rfl | hi
        · exact h1
        · exact i1 i hi
      · intro hL i hi j hj hne x hx hxj
        rw [List.nodup_cons] at hL
        rcases List.mem_cons.mp hi with hi | hi
        · rcases List.mem_cons.mp hj with hj | hj
          · exact hne (hi.trans hj.symm)
          · exact h3 x (hi ▸ hx) x (List.mem_flatMap.mpr ⟨j, hj, hxj⟩) rfl
        · rcases List.mem_cons.mp hj with hj | hj
          · exact h3 x (hj ▸ hxj) x (List.mem_flatMap.mpr ⟨i, hi, hx⟩) rfl
          · exact i2 hL.2 i hi j hj hne x hx hxj
  exact ⟨(key _ h).1, (key _ h).2 List.nodup_range⟩

theorem optimize_spec {p : OPolicy} {σ0 : Cond.State} (ok : OptOk p σ0) : ∃ p', optimize p = some p' ∧ OptOk p' σ0 ∧ Done p p' := by
  obtain ⟨te, t1, t2, t3, t4, t5, t6, t7⟩ := optimizeAvtab_spec ok.types ok.te ok.teRules
  have hrl : ∀ x ∈ listed p.conds, RuleOk p.sp (p.tab.node x) := fun x hx => ok.condRules x ((ok.all x).mp hx)
  obtain ⟨r, c1, c2⟩ := optimizeConds_spec ok.types t2 t3 p.enabled p.conds [] p.tab.node ok.own hrl
  have hperm : (listed r.1 ++ r.2.1).Perm (listed p.conds) := by simpa using c2.perm
  have hnd : (listed r.1 ++ r.2.1).Nodup := hperm.nodup_iff.mpr ok.own
  obtain ⟨hdis1, hdis2⟩ := nodup_flatMap_range ok.ids
  obtain ⟨w1, w2, w3, w4, w5⟩ := sweepSlots_spec (List.range p.tab.nslot) r.2.1 { p.tab with node := r.2.2 } List.nodup_range hdis1 hdis2
    (fun i hi => List.mem_range.mp hi)
  have hcount : p.tab.nel = p.tab.ids.length := by
    have := ok.cond.count
    rw [tab_nodes, List.length_map] at this
    exact this
  -- the table after the sweep, whether or not it was needed
  let tab' : CondTab := if r.2.1 = [] then { p.tab with node := r.2.2 }
      else sweepSlots (List.range p.tab.nslot) r.2.1 { p.tab with node := r.2.2 }
  have hout : ∀ i, i ∉ List.range p.tab.nslot → p.tab.htable i = [] := by
    intro i hi
    by_contra hne
    obtain ⟨x, hx⟩ := List.exists_mem_of_ne_nil _ hne
    exact hi (List.mem_range.mpr (ok.cond.slot _ rfl i _ (List.mem_map_of_mem hx)).2)
  have tm : tab'.mask = p.tab.mask := by
    unfold tab'; split
    · rfl
    · exact w1
  have tn : tab'.nslot = p.tab.nslot := by
    unfold tab'; split
    · rfl
    · exact w2
  have tnode : tab'.node = r.2.2 := by
    unfold tab'; split
    · rfl
    · exact w3
  have thash : ∀ i, tab'.htable i = (p.tab.htable i).filter (fun x => decide (x ∉ r.2.1)) := by
    intro i
    unfold tab'; split
    · rename_i h
      rw [h]
      exact (List.filter_eq_self.mpr (fun x _ => by simp)).symm
    · rw [w4 i]
      split
      · rfl
      · rename_i h; rw [hout i h]; rfl
  have tnel : tab'.nel = tab'.ids.length := by
    unfold tab'; split
    · exact hcount
    · exact w5 hcount
  have tids : ∀ x, x ∈ tab'.ids ↔ x ∈ p.tab.ids ∧ x ∉ r.2.1 := by
    intro x
    unfold CondTab.ids
    simp only [List.mem_flatMap, tn, thash, List.mem_filter, decide_eq_true_eq]
    constructor
    · rintro ⟨i, hi, hx, hd⟩; exact ⟨⟨i, hi, hx⟩, hd⟩
    · rintro ⟨⟨i, hi, hx⟩, hd⟩; exact ⟨i, hi, hx, hd⟩
  have hsub : ∀ i, (tab'.htable i).Sublist (p.tab.htable i) := by
    intro i; rw [thash]; exact List.filter_sublist
  have hlist : ∀ x, x ∈ listed r.1 ↔ x ∈ tab'.ids := by
    intro x
    rw [tids, ← ok.all x, ← hperm.mem_iff, List.mem_append]
    constructor
    · intro h
      exact ⟨.inl h, fun h2 => (List.nodup_append.mp hnd).2.2 x h x h2 rfl⟩
    · rintro ⟨h | h, h2⟩
      · exact h
      · exact absurd h h2
  have hidsn : tab'.ids.Nodup := by
    have hs : tab'.ids.Sublist p.tab.ids := by
      unfold CondTab.ids
      rw [tn]
      have : ∀ L : List Nat, (L.flatMap tab'.htable).Sublist (L.flatMap p.tab.htable) := by
        intro L
        induction L with
        | nil => exact List.Sublist.refl _
        | cons a L ih => rw [List.flatMap_cons, List.flatMap_cons]; exact (hsub a).append ih
      exact this _
    exact ok.ids.sublist hs
  let p' : OPolicy := { p with sp := { p.sp with te := te }, conds := r.1, tab := tab' }
  have hopt : optimize p = some p' := by
    unfold optimize
    dsimp only
    rw [t1, Option.bind_some, c1, Option.bind_some]
  refine ⟨p', hopt, ?_, ?_⟩
  · refine ⟨t2, fun n hn => ruleOk_te (t3 n hn), ?_, hidsn, ?_, ?_, hlist, ?_, ok.small, ok.attr, ok.attrWF, ok.attrTypeWF, ok.proper, ok.inverse⟩
    · exact tableOk_sub ok.cond tm tn (fun x => by rw [tnode]; exact c2.changed.key x) hsub tnel
    · intro x hx
      show RuleOk _ (tab'.node x)
      rw [tnode]
      exact ruleOk_te (c2.rules x (ok.condRules x ((tids x).mp hx).1))
    · show (listed r.1).Nodup
      exact (List.nodup_append.mp hnd).1
    · intro c hc
      obtain ⟨c0, h0, e1, e2, e3, e4⟩ := c2.from_ c hc
      obtain ⟨g1, g2, g3⟩ := ok.consistent c0 h0
      rw [e1, e2]
      exact ⟨g1, fun x hx => g2 x (e3 x hx), fun x hx => g3 x (e4 x hx)⟩
  · have hrest : ∀ σ, Same p.sp (Active p.sp.te p.tab.node σ p.conds) (Active te p.tab.node σ p.conds) := by
      intro σ
      refine same_congr (same_union t4 (same_refl p.sp (fun n => ∃ id, Cond.SelectedBy σ p.conds id ∧ n = p.tab.node id)))
        (fun _ => Iff.rfl) (fun _ => Iff.rfl)
    refine ⟨⟨te, rfl⟩, rfl, rfl, ?_, t5, t6, t7, tm, tn, ?_, ?_, ?_, ?_, ?_⟩
    · intro σ
      show Same p.sp _ (Active te tab'.node σ r.1)
      rw [tnode]
      exact same_trans (hrest σ) (c2.same σ)
    · intro x
      show (tab'.node x).key = _
      rw [tnode]; exact c2.changed.key x
    · intro x hx
      show tab'.node x = _
      rw [tnode]; exact c2.changed.types x hx
    · intro i
      refine ⟨_, thash i, ?_⟩
      intro x hx ht
      have hxl : x ∈ listed p.conds := by
        rw [ok.all]
        unfold CondTab.ids
        rw [List.mem_flatMap]
        refine ⟨i, ?_, hx⟩
        by_contra h
        rw [hout i h] at hx; cases hx
      have := c2.tyList x hxl ht
      rw [decide_eq_true_eq]
      exact fun h2 => (List.nodup_append.mp hnd).2.2 x this x h2 rfl
    · intro σ x hx
      exact ⟨c2.sel σ x, c2.types σ x hx⟩
    · intro x hx ht
      exact c2.tyList x hx ht

/-! ## Access vectors -/

/-- The fact that a decision bit has been changed from its default. -/
def factOf (b : Nat) : Services.Vec → Fact
  | .allowed => .allow b
  | .auditallow => .auditallow b
  | .auditdeny => .dontaudit b

theorem grants_factOf {b : Nat} (hb : b < 32) (v : Services.Vec) (kind : BitVec 16) (d : Datum) :
    Grants kind d (factOf b v) ↔ kind = v.kind ∧ d.data.getLsbD b = v.bit := by
  cases v <;> simp [factOf, Grants, hb, Services.Vec.kind, Services.Vec.bit]

theorem single_kind {kind : BitVec 16} (hk : kind ∈ avKinds ++ xKinds ++ typeKinds) (v : Services.Vec) :
    ((kind ||| ENABLED) &&& v.kind = v.kind ↔ kind = v.kind) ∧ (kind ||| ENABLED) &&& ENABLED = ENABLED ∧ kind &&& ENABLED ≠ ENABLED := by
  simp only [avKinds, xKinds, typeKinds, List.cons_append, List.nil_append, List.mem_cons, List.not_mem_nil, or_false] at hk
  rcases hk with rfl | rfl | rfl | rfl | rfl | rfl | rfl | rfl | rfl <;> cases v <;> decide

/-- The rules of the policy under boolean values. -/
def rulesOf (p : OPolicy) (σ : Cond.State) : Services.Rules :=
  ⟨Avtab.nodes p.sp.te, Avtab.nodes (p.tab.avtab (Cond.evaluateConds σ p.conds p.enabled).2)⟩

theorem tables_ok {p : OPolicy} {σ0 : Cond.State} (ok : OptOk p σ0) (σ : Cond.State) : Services.TablesOk (withBools p σ) (rulesOf p σ) := by
  have hcount : p.tab.nel = p.tab.ids.length := by
    have := ok.cond.count
    rw [tab_nodes, List.length_map] at this
    exact this
  refine ⟨contains_nodes ok.te, contains_nodes ?_, ?_⟩
  · exact tableOk_sub ok.cond rfl rfl (fun _ => rfl) (fun _ => List.Sublist.refl _) hcount
  · intro ty m hm
    have small := ok.small
    obtain ⟨a, b⟩ := ok.attrWF ty m hm
    exact ⟨a, fun x hx => by have := b x hx; omega⟩

theorem applies_iff {p : OPolicy} {σ0 : Cond.State} (ok : OptOk p σ0) (σ : Cond.State) (v : Services.Vec) (s t : Context)
    (cls : Nat) {b : Nat} (hb : b < 32) :
    (∃ r, Services.Applies (withBools p σ) (rulesOf p σ) v.kind s t cls r ∧ r.datum.data.getLsbD b = v.bit) ↔
    ∃ n, Active p.sp.te p.tab.node σ p.conds n ∧ Says p.sp s.type t.type cls (factOf b v) n := by
  unfold Services.Applies Says Active
  constructor
  · rintro ⟨r, ⟨h1, h2, h3, h4⟩, h5⟩
    rcases h4 with ⟨h4, h6⟩ | ⟨h4, h6, h7⟩
    · exact ⟨r, .inl h4, h1, h2, h3, (grants_factOf hb v _ _).mpr ⟨h6, h5⟩⟩
    · change r ∈ Avtab.nodes (p.tab.avtab _) at h4
      rw [tab_nodes] at h4
      obtain ⟨id, hid, rfl⟩ := List.mem_map.mp h4
      have rk := (ok.condRules id hid).kind
      have hen : (Cond.evaluateConds σ p.conds p.enabled).2 id = true := by
        by_contra hc
        have hc' : (Cond.evaluateConds σ p.conds p.enabled).2 id = false := by simpa using hc
        unfold stamped specOf at h7
        dsimp only at h7
        rw [hc', if_neg (by simp)] at h7
        exact (single_kind rk v).2.2 h7
      have hsp : specOf (Cond.evaluateConds σ p.conds p.enabled).2 p.tab.node id = (p.tab.node id).key.specified ||| ENABLED := by
        unfold specOf; rw [hen, if_pos rfl]
      unfold stamped at h6
      dsimp only at h6
      rw [hsp] at h6
      have hk := (single_kind rk v).1.mp h6
      exact ⟨p.tab.node id, .inr ⟨id, (enabled_iff ok.own ok.consistent σ ((ok.all id).mpr hid)).mp hen, rfl⟩, h1, h2, h3,
        (grants_factOf hb v _ _).mpr ⟨hk, h5⟩⟩
  · rintro ⟨n, hn, h1, h2, h3, h4⟩
    rw [grants_factOf hb] at h4
    rcases hn with hn | ⟨id, hs, rfl⟩
    · exact ⟨n, ⟨h1, h2, h3, .inl ⟨hn, h4.1⟩⟩, h4.2⟩
    · have hl := selectedBy_listed hs
      have hid := (ok.all id).mp hl
      have hen := (enabled_iff ok.own ok.consistent σ hl).mpr hs
      have hsp : specOf (Cond.evaluateConds σ p.conds p.enabled).2 p.tab.node id = (p.tab.node id).key.specified ||| ENABLED := by
        unfold specOf; rw [hen, if_pos rfl]
      have rk := (ok.condRules id hid).kind
      refine ⟨stamped (Cond.evaluateConds σ p.conds p.enabled).2 p.tab.node id, ⟨h1, h2, h3, .inr ⟨?_, ?_, ?_⟩⟩, h4.2⟩
      · show _ ∈ Avtab.nodes (p.tab.avtab _)
        rw [tab_nodes]
        exact List.mem_map_of_mem hid
      · show specOf _ _ id &&& v.kind = v.kind
        rw [hsp]; exact (single_kind rk v).1.mpr h4.1
      · show specOf _ _ id &&& ENABLED = ENABLED
        rw [hsp]; exact (single_kind rk v).2.1

theorem avd_ext {a a' : Services.Avd} (h : ∀ (v : Services.Vec) b, b < 32 → (v.changed b a ↔ v.changed b a')) : a = a' := by
  obtain ⟨x, y, z⟩ := a
  obtain ⟨x', y', z'⟩ := a'
  have e1 : x = x' := by
    apply BitVec.eq_of_getLsbD_eq
    intro i hi
    exact Bool.eq_iff_iff.mpr (h .allowed i hi)
  have e2 : y = y' := by
    apply BitVec.eq_of_getLsbD_eq
    intro i hi
    exact Bool.eq_iff_iff.mpr (h .auditallow i hi)
  have e3 : z = z' := by
    apply BitVec.eq_of_getLsbD_eq
    intro i hi
    have := h .auditdeny i hi
    simp only [Services.Vec.changed] at this
    cases hz : z.getLsbD i <;> cases hz' : z'.getLsbD i <;> simp_all
  rw [e1, e2, e3]

theorem tePass_same {p p' : OPolicy} {σ0 : Cond.State} (ok : OptOk p σ0) (ok' : OptOk p' σ0) (hd : Done p p') (σ : Cond.State)
    {s t : Context} (hs : IsType p.sp s.type) (ht : IsType p.sp t.type) {sattr tattr : Ebitmap.Ebitmap}
    {sbits tbits : List Nat} (h1 : p.sp.typeAttr (s.type - 1) = some sattr) (h2 : p.sp.typeAttr (t.type - 1) = some tattr)
    (h3 : Ebitmap.forEachPositiveBit (sattr.highbit + 1) sattr = some sbits)
    (h4 : Ebitmap.forEachPositiveBit (tattr.highbit + 1) tattr = some tbits) (cls : Nat) :
    Services.tePass (withBools p' σ) cls sbits tbits = Services.tePass (withBools p σ) cls sbits tbits := by
  obtain ⟨te, hte⟩ := hd.sp
  have hta : p'.sp.typeAttr = p.sp.typeAttr := by rw [hte]
  apply avd_ext
  intro v b hb
  rw [Services.tePass_applies (tables_ok ok σ) (s := s) (t := t) h1 h2 h3 h4 v cls b hb,
    Services.tePass_applies (tables_ok ok' σ) (s := s) (t := t) (by show p'.sp.typeAttr _ = _; rw [hta]; exact h1)
      (by show p'.sp.typeAttr _ = _; rw [hta]; exact h2) h3 h4 v cls b hb,
    applies_iff ok σ v s t cls hb, applies_iff ok' σ v s t cls hb]
  have := hd.same σ s.type t.type cls (factOf b v) hs ht
  rw [← this]
  unfold Says Services.Covers
  rw [hta]

end Verif.Optimize
