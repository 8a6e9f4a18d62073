import Verif.Optimize.Lemmas2

namespace Verif.Optimize
open Verif.Avtab Verif.Policy

/-! ## Tables -/

theorem length_setBucket (tb : Nat → List Avtab.Node) (i : Nat) (c : List Avtab.Node) : ∀ (L : List Nat), L.Nodup →
    (L.flatMap (setBucket tb i c)).length + (if i ∈ L then (tb i).length else 0) =
    (L.flatMap tb).length + (if i ∈ L then c.length else 0) := by
  intro L
  induction L with
  | nil => simp
  | cons j L ih =>
    intro hn
    rw [List.nodup_cons] at hn
    have := ih hn.2
    simp only [List.flatMap_cons, List.length_append]
    by_cases hji : j = i
    · subst hji
      have hni := hn.1
      simp only [hni, if_false, Nat.add_zero] at this
      simp only [List.mem_cons, true_or, if_true, setBucket] at this ⊢
      omega
    · have hs : setBucket tb i c j = tb j := by simp [setBucket, hji]
      have hij : i ≠ j := fun h => hji h.symm
      rw [hs]
      simp only [List.mem_cons, hij, false_or]
      omega

theorem mem_nodes {h : Avtab.Avtab} (ok : TableOk h) {tb : Nat → List Avtab.Node} (ht : h.htable = some tb) (n : Avtab.Node) :
    n ∈ Avtab.nodes h ↔ Mem tb n := by
  unfold Avtab.nodes Mem
  rw [ht]
  simp only [List.mem_flatMap, List.mem_range]
  constructor
  · rintro ⟨i, -, h⟩; exact ⟨i, h⟩
  · rintro ⟨i, h⟩; exact ⟨i, (ok.slot tb ht i n h).2, h⟩

/-- The walk over the slots. -/
structure Walked (p : Services.SPolicy) (h h' : Avtab.Avtab) (tb tb' : Nat → List Avtab.Node) : Prop where
  tab : h'.htable = some tb'
  mask : h'.mask = h.mask
  nslot : h'.nslot = h.nslot
  rules : ∀ j, ∀ n ∈ tb' j, RuleOk p n
  same : Same p (Mem tb) (Mem tb')
  keys : ∀ j, ((tb' j).map Node.key).Sublist ((tb j).map Node.key)
  types : ∀ j, (tb' j).filter isTypeRule = (tb j).filter isTypeRule
  count : h.nel = ((List.range h.nslot).flatMap tb).length → h'.nel = ((List.range h.nslot).flatMap tb').length

theorem setBucket_self (tb : Nat → List Avtab.Node) (i : Nat) : setBucket tb i (tb i) = tb := by
  funext j
  unfold setBucket
  split
  · rename_i h; rw [h]
  · rfl

theorem walkSlots_spec {p : Services.SPolicy} {at_ : Nat → Ebitmap.Ebitmap} (ok : TypesOk p at_) : ∀ (l : List Nat) (h : Avtab.Avtab)
    (tb : Nat → List Avtab.Node), h.htable = some tb → (∀ i ∈ l, i < h.nslot) → (∀ j, ∀ n ∈ tb j, RuleOk p n) →
    ∃ h' tb', walkSlots (typeMap p at_) l h = some h' ∧ Walked p h h' tb tb' := by
  intro l
  induction l with
  | nil =>
    intro h tb ht _ hr
    exact ⟨h, tb, rfl, ht, rfl, rfl, hr, same_refl _ _, fun _ => List.Sublist.refl _, fun _ => rfl, fun h => h⟩
  | cons i l ih =>
    intro h tb ht hl hr
    obtain ⟨c, c1, c2, c3, c4, c5⟩ := walkChain_spec ok h tb i (tb i) [] (by simpa using hr i) (fun j _ => hr j)
    rw [List.nil_append] at c3 c4 c5
    rw [setBucket_self] at c3
    obtain ⟨h', tb', w1, w2⟩ := ih
      { h with htable := some (setBucket tb i c), nel := h.nel - ((tb i).length - c.length) } (setBucket tb i c) rfl
      (fun j hj => hl j (List.mem_cons_of_mem _ hj)) (by
        intro j n hn
        unfold setBucket at hn
        split at hn
        · exact c2 n hn
        · exact hr j n hn)
    refine ⟨h', tb', ?_, w2.tab, w2.mask, w2.nslot, w2.rules, same_trans c3 w2.same, ?_, ?_, ?_⟩
    · unfold walkSlots
      rw [ht]
      dsimp only
      rw [c1, Option.bind_some]
      exact w1
    · intro j
      refine (w2.keys j).trans ?_
      unfold setBucket
      split
      · rename_i hj; subst hj; exact c4
      · exact List.Sublist.refl _
    · intro j
      rw [w2.types j]
      unfold setBucket
      split
      · rename_i hj; subst hj; exact c5
      · rfl
    · intro hc
      have hlen := length_setBucket tb i c (List.range h.nslot) List.nodup_range
      have hi : i ∈ List.range h.nslot := List.mem_range.mpr (hl i List.mem_cons_self)
      rw [if_pos hi, if_pos hi] at hlen
      have hle : c.length ≤ (tb i).length := by simpa using c4.length_le
      exact w2.count (by
        show h.nel - ((tb i).length - c.length) = ((List.range h.nslot).flatMap (setBucket tb i c)).length
        omega)

theorem sorted_keys {l l' : List Avtab.Node} (h : (l'.map Node.key).Sublist (l.map Node.key))
    (hs : l.Pairwise (fun a b => before b.key a.key = false)) : l'.Pairwise (fun a b => before b.key a.key = false) := by
  have h1 : (l.map Node.key).Pairwise (fun a b => before b a = false) := by rw [List.pairwise_map]; exact hs
  have h2 := h1.sublist h
  rw [List.pairwise_map] at h2
  exact h2

theorem optimizeAvtab_spec {p : Services.SPolicy} {at_ : Nat → Ebitmap.Ebitmap} (ok : TypesOk p at_) {h : Avtab.Avtab} (ht : TableOk h)
    (hr : ∀ n ∈ Avtab.nodes h, RuleOk p n) :
    ∃ h', optimizeAvtab (typeMap p at_) h = some h' ∧ TableOk h' ∧ (∀ n ∈ Avtab.nodes h', RuleOk p n) ∧
      Same p (· ∈ Avtab.nodes h) (· ∈ Avtab.nodes h') ∧ h'.mask = h.mask ∧ (h'.htable = none ↔ h.htable = none) ∧
      ∀ tb tb', h.htable = some tb → h'.htable = some tb' → ∀ i, ((tb' i).map Node.key).Sublist ((tb i).map Node.key) ∧
        (tb' i).filter isTypeRule = (tb i).filter isTypeRule := by
  unfold optimizeAvtab
  cases hh : h.htable with
  | none =>
    rw [ht.null hh]
    refine ⟨h, rfl, ht, hr, same_refl _ _, rfl, by rw [hh], ?_⟩
    intro tb _ h1 _; cases h1
  | some tb =>
    obtain ⟨h', tb', w1, w2⟩ := walkSlots_spec ok (List.range h.nslot) h tb hh (fun i hi => List.mem_range.mp hi)
      (fun j n hn => hr n ((mem_nodes ht hh n).mpr ⟨j, hn⟩))
    have hok : TableOk h' := by
      refine ⟨?_, ?_, ?_, ?_⟩
      · intro tb2 h2 i
        rw [w2.tab] at h2; cases h2
        exact sorted_keys (w2.keys i) (ht.sorted tb hh i)
      · intro tb2 h2 i n hn
        rw [w2.tab] at h2; cases h2
        have : n.key ∈ (tb i).map Node.key := (w2.keys i).subset (List.mem_map_of_mem hn)
        obtain ⟨n0, hn0, he⟩ := List.mem_map.mp this
        rw [w2.mask, w2.nslot, ← he]
        exact ht.slot tb hh i n0 hn0
      · intro h2; rw [w2.tab] at h2; cases h2
      · have hc := ht.count
        unfold Avtab.nodes at hc ⊢
        rw [hh] at hc
        rw [w2.tab, w2.nslot]
        exact w2.count hc
    refine ⟨h', w1, hok, ?_, ?_, w2.mask, by rw [w2.tab]; simp, ?_⟩
    · intro n hn
      obtain ⟨j, hj⟩ := (mem_nodes hok w2.tab n).mp hn
      exact w2.rules j n hj
    · intro s t cls f hs htt
      simp only [mem_nodes hok w2.tab, mem_nodes ht hh]
      exact w2.same s t cls f hs htt
    · intro tb1 tb2 h1 h2 i
      rw [w2.tab] at h2; cases h1; cases h2
      exact ⟨w2.keys i, w2.types i⟩

theorem enumerate_eq {h : Avtab.Avtab} (ok : TableOk h) {tb : Nat → List Avtab.Node} (ht : h.htable = some tb) (k : Key) :
    enumerate h k = (tb (Avtab.hash k h.mask)).filter (fun n => hits k n.key) := by
  have hs := ok.sorted tb ht
  unfold enumerate searchNode
  simp only [ht]
  cases hsc : searchChain k (tb (Avtab.hash k h.mask)) with
  | none =>
    have := searchChain_eq k _ (hs (Avtab.hash k h.mask))
    rw [hsc] at this
    have hd : (tb (Avtab.hash k h.mask)).dropWhile (fun n => !hits k n.key) = [] := by
      revert this
      cases List.dropWhile (fun n => !hits k n.key) (tb (Avtab.hash k h.mask)) <;> simp
    rw [← filter_dropWhile (fun n : Avtab.Node => hits k n.key), hd]
    rfl
  | some s => exact enumFrom_eq k _ s (hs _) hsc

theorem flatMap_filter_one {α : Type} (P : α → Bool) (g : Nat → List α) (i0 : Nat) : ∀ (L : List Nat), L.Nodup →
    (∀ j, j ∈ L → j ≠ i0 → ∀ a ∈ g j, P a = false) → (L.flatMap g).filter P = if i0 ∈ L then (g i0).filter P else [] := by
  intro L
  induction L with
  | nil => intro _ _; simp
  | cons j L ih =>
    intro hn hp
    rw [List.nodup_cons] at hn
    have := ih hn.2 (fun k hk => hp k (List.mem_cons_of_mem _ hk))
    rw [List.flatMap_cons, List.filter_append, this]
    by_cases hj : j = i0
    · subst hj; simp [hn.1]
    · have h0 : (g j).filter P = [] := by
        rw [List.filter_eq_nil_iff]
        intro a ha; simp [hp j List.mem_cons_self hj a ha]
      have hij : i0 ≠ j := fun h => hj h.symm
      rw [h0, List.nil_append]
      simp only [List.mem_cons, hij, false_or]

open Classical in
theorem contains_nodes {h : Avtab.Avtab} (ok : TableOk h) : Services.Contains h (Avtab.nodes h) := by
  intro k
  cases ht : h.htable with
  | none =>
    unfold enumerate searchNode Avtab.nodes
    rw [ht]; simp
  | some tb =>
    rw [enumerate_eq ok ht]
    apply List.Perm.of_eq
    unfold Avtab.nodes
    rw [ht]
    dsimp only
    have hP : ∀ n, decide (Answers k n) = hits k n.key := by
      intro n
      by_cases h : hits k n.key = true
      · rw [h, (decide_eq_true_iff).mpr ((hits_iff k n).mp h)]
      · have h' : hits k n.key = false := by simpa using h
        rw [h']
        exact decide_eq_false (fun hc => h ((hits_iff k n).mpr hc))
    simp only [hP]
    rw [flatMap_filter_one _ tb (Avtab.hash k h.mask) _ List.nodup_range]
    · split
      · rfl
      · rename_i hni
        rw [List.filter_eq_nil_iff]
        intro n hn
        exact absurd (List.mem_range.mpr (ok.slot tb ht _ n hn).2) hni
    · intro j _ hj n hn
      by_contra hc
      have hh : hits k n.key = true := by simpa using hc
      have := hash_triple (hits_triple hh) h.mask
      have hs := (ok.slot tb ht j n hn).1
      exact hj (by rw [← hs, this])

/-! ## The conditional lists -/

theorem setDatum_key (node : Nat → Avtab.Node) (id : Nat) (d : Datum) (x : Nat) : (setDatum node id d x).key = (node x).key := by
  unfold setDatum; split <;> rfl

theorem setDatum_ne (node : Nat → Avtab.Node) (id : Nat) (d : Datum) {x : Nat} (h : x ≠ id) : setDatum node id d x = node x := by
  unfold setDatum; rw [if_neg h]

theorem setDatum_self (node : Nat → Avtab.Node) (id : Nat) (d : Datum) : setDatum node id d id = ⟨(node id).key, d⟩ := by
  unfold setDatum; rw [if_pos rfl]

theorem setDatum_twice (node : Nat → Avtab.Node) (id : Nat) (d d' : Datum) :
    setDatum (setDatum node id d) id d' = setDatum node id d' := by
  funext x
  unfold setDatum
  split <;> rfl

theorem setDatum_same (node : Nat → Avtab.Node) (id : Nat) : setDatum node id (node id).datum = node := by
  funext x
  unfold setDatum
  split
  · rename_i h; subst h; rfl
  · rfl

theorem specOf_set (en : Nat → Bool) (node : Nat → Avtab.Node) (id : Nat) (d : Datum) (x : Nat) :
    specOf en (setDatum node id d) x = specOf en node x := by
  unfold specOf; rw [setDatum_key]

theorem specOf_stamp (en : Nat → Bool) (node : Nat → Avtab.Node) (id : Nat) : Stamp (node id).key.specified (specOf en node id) := by
  unfold specOf Stamp
  split
  · exact .inr rfl
  · exact .inl rfl

theorem condRedundantLoop_cut {p : Services.SPolicy} {at_ : Nat → Ebitmap.Ebitmap} (ok : TypesOk p at_) (en : Nat → Bool)
    {others : Avtab.Node → Prop} (node : Nat → Avtab.Node) (id : Nat) (hr : RuleOk p (node id)) :
    ∀ (l : List Nat) (d : Datum), DatumOk (node id).key.specified d → (∀ id2 ∈ l, RuleOk p (node id2)) →
      (∀ id2 ∈ l, id2 ≠ id → others (node id2)) →
      ∃ r, condRedundantLoop (typeMap p at_) en id l (setDatum node id d) = some (setDatum node id r.1, r.2) ∧
        Cut p others (node id).key (node id).key.specified d r := by
  intro l
  have small := ok.small
  induction l with
  | nil => intro d hd _ _; exact ⟨(d, false), rfl, cut_refl p others _ _ hd⟩
  | cons id2 l ih =>
    intro d hd hl ho
    have r2 := hl id2 List.mem_cons_self
    obtain ⟨s1, s2, -⟩ := hr.source
    obtain ⟨t1, t2, -⟩ := hr.target
    obtain ⟨s1', s2', -⟩ := r2.source
    obtain ⟨t1', t2', -⟩ := r2.target
    have next := fun d hd => ih d hd (fun x hx => hl x (List.mem_cons_of_mem _ hx)) (fun x hx => ho x (List.mem_cons_of_mem _ hx))
    unfold condRedundantLoop
    simp only [specOf_set, setDatum_key]
    rw [pred32_eq s1 (by omega), pred32_eq t1 (by omega), pred32_eq s1' (by omega), pred32_eq t1' (by omega)]
    split
    · exact next d hd
    · rename_i hne
      split
      · exact next d hd
      · rename_i hst
        obtain ⟨ss, hss⟩ := typeMap_total ok (i := (node id).key.source - 1) (by omega)
        obtain ⟨ts, hts⟩ := typeMap_total ok (i := (node id).key.target - 1) (by omega)
        rw [hss, Option.bind_some]
        split
        · exact next d hd
        · rename_i hc1
          rw [hts, Option.bind_some]
          split
          · exact next d hd
          · rename_i hc2
            have hid : id2 ≠ id := by
              intro h; subst h; exact hst ⟨rfl, rfl⟩
            push Not at hne
            obtain ⟨hsp, hcls⟩ := hne
            have hkind : (node id2).key.specified = (node id).key.specified := by
              rw [← (stamp_and hr.kind (specOf_stamp en node id)).1, hsp, (stamp_and r2.kind (specOf_stamp en node id2)).1]
            obtain ⟨-, cov1⟩ := typeMap_covers ok hss (vecContains_sound (by simpa using hc1))
            obtain ⟨-, cov2⟩ := typeMap_covers ok hts (vecContains_sound (by simpa using hc2))
            rw [Nat.sub_add_cancel s1, Nat.sub_add_cancel s1'] at cov1
            rw [Nat.sub_add_cancel t1, Nat.sub_add_cancel t1'] at cov2
            have step := cut_step (p := p) (others := others) (k := (node id).key) (sp := specOf en node id) hr.kind (specOf_stamp en node id) hd
              (ho id2 List.mem_cons_self hid) hkind hcls.symm (hkind ▸ r2.datum)
              (fun s t hs ht h1 h2 => ⟨cov1 s hs h1, cov2 t ht h2⟩)
            rw [setDatum_self, setDatum_ne node id d hid, setDatum_twice]
            dsimp only
            cases hres : (processDatum (specOf en node id) d (node id2).datum).2 with
            | true =>
              rw [if_pos rfl]
              refine ⟨processDatum (specOf en node id) d (node id2).datum, by rw [hres], step⟩
            | false =>
              rw [if_neg (by simp)]
              have hst : Cut p others (node id).key (node id).key.specified d
                  ((processDatum (specOf en node id) d (node id2).datum).1, false) := by rw [← hres]; exact step
              obtain ⟨r, h1, h2⟩ := next _ hst.ok
              exact ⟨r, h1, cut_trans hst h2⟩

/-- Rules of a table and of a set of conditional rules. -/
def MS (te : Avtab.Avtab) (node : Nat → Avtab.Node) (O : List Nat) (n : Avtab.Node) : Prop :=
  n ∈ Avtab.nodes te ∨ ∃ i ∈ O, n = node i

/-- What changing rule `id` may do to the rules. -/
structure Changed (p : Services.SPolicy) (U : List Nat) (node node' : Nat → Avtab.Node) : Prop where
  key : ∀ x, (node' x).key = (node x).key
  other : ∀ x, x ∉ U → node' x = node x
  types : ∀ x, isTypeRule (node x) = true → node' x = node x

theorem changed_refl (p : Services.SPolicy) (U : List Nat) (node : Nat → Avtab.Node) : Changed p U node node :=
  ⟨fun _ => rfl, fun _ _ => rfl, fun _ _ => rfl⟩

theorem changed_trans {p : Services.SPolicy} {U V : List Nat} {a b c : Nat → Avtab.Node} (h1 : Changed p U a b) (h2 : Changed p V b c) :
    Changed p (U ++ V) a c :=
  ⟨fun x => (h2.key x).trans (h1.key x), fun x hx => by
    rw [List.mem_append, not_or] at hx
    exact (h2.other x hx.2).trans (h1.other x hx.1), fun x hx => by
    have := h1.types x hx
    rw [h2.types x (by rw [this]; exact hx), this]⟩

theorem changed_mono {p : Services.SPolicy} {U V : List Nat} {a b : Nat → Avtab.Node} (h : Changed p U a b) (hs : ∀ x ∈ U, x ∈ V) :
    Changed p V a b := ⟨h.key, fun x hx => h.other x (fun hu => hx (hs x hu)), h.types⟩

theorem condTest_spec {p : Services.SPolicy} {at_ : Nat → Ebitmap.Ebitmap} (ok : TypesOk p at_) {te : Avtab.Avtab} (hte : TableOk te)
    (hter : ∀ n ∈ Avtab.nodes te, RuleOk p n) (en : Nat → Bool) {node : Nat → Avtab.Node} {id : Nat} {O cover : List Nat}
    (hid : id ∉ O) (hr : ∀ x ∈ id :: O, RuleOk p (node x)) (hcov : ∀ x ∈ cover, x = id ∨ x ∈ O) :
    ∃ node' b, condTest te (typeMap p at_) en id cover node = some (node', b) ∧ Changed p [id] node node' ∧
      RuleOk p (node' id) ∧ (isTypeRule (node id) = true → b = false) ∧
      Same p (MS te node (id :: O)) (MS te node' (if b then O else id :: O)) := by
  have rid := hr id List.mem_cons_self
  have stamp := specOf_stamp en node id
  have final : ∀ r : Datum × Bool, Cut p (MS te node O) (node id).key (node id).key.specified (node id).datum r →
      (isTypeRule (node id) = true → r = ((node id).datum, false)) →
      Changed p [id] node (setDatum node id r.1) ∧ RuleOk p (setDatum node id r.1 id) ∧ (isTypeRule (node id) = true → r.2 = false) ∧
      Same p (MS te node (id :: O)) (MS te (setDatum node id r.1) (if r.2 then O else id :: O)) := by
    intro r hc hty
    refine ⟨⟨setDatum_key node id r.1, fun x hx => setDatum_ne _ _ _ (by simpa using hx), ?_⟩, ?_, ?_, ?_⟩
    · intro x hx
      by_cases hxi : x = id
      · subst hxi; rw [hty hx]; rw [setDatum_same]
      · exact setDatum_ne _ _ _ hxi
    · rw [setDatum_self]
      exact ⟨rid.kind, rid.source, rid.target, hc.ok⟩
    · intro h; rw [hty h]
    · intro s t cls f hs ht
      have hO : ∀ x ∈ O, setDatum node id r.1 x = node x := fun x hx => setDatum_ne _ _ _ (fun h => hid (h ▸ hx))
      have up : ∀ n, MS te node O n → MS te (setDatum node id r.1) (if r.2 then O else id :: O) n := by
        rintro n (h | ⟨x, hx, h⟩)
        · exact .inl h
        · refine .inr ⟨x, ?_, by rw [hO x hx]; exact h⟩
          split
          · exact hx
          · exact List.mem_cons_of_mem _ hx
      constructor
      · rintro ⟨n, hm, hn⟩
        rcases hm with h | ⟨x, hx, rfl⟩
        · exact ⟨n, .inl h, hn⟩
        · by_cases hxi : x = id
          · subst hxi
            rw [setDatum_self] at hn
            exact ⟨node x, .inr ⟨x, List.mem_cons_self, rfl⟩, hn.1, hn.2.1, hn.2.2.1, hc.less f hn.2.2.2⟩
          · have hxO : x ∈ O := by
              split at hx
              · exact hx
              · exact (List.mem_cons.mp hx).resolve_left hxi
            rw [hO x hxO] at hn
            exact ⟨node x, .inr ⟨x, List.mem_cons_of_mem _ hxO, rfl⟩, hn⟩
      · rintro ⟨n, hm, hn⟩
        rcases hm with h | ⟨x, hx, rfl⟩
        · exact ⟨n, .inl h, hn⟩
        · rcases List.mem_cons.mp hx with rfl | hxO
          · obtain ⟨a, b, rfl, g⟩ := hn
            rcases hc.split s t f hs ht a b g with ⟨h1, h2⟩ | ⟨m, h1, h2⟩
            · refine ⟨setDatum node x r.1 x, .inr ⟨x, by rw [h1]; exact List.mem_cons_self, rfl⟩, ?_⟩
              rw [setDatum_self]
              exact ⟨a, b, rfl, h2⟩
            · exact ⟨m, up m h1, h2⟩
          · exact ⟨node x, up _ (.inr ⟨x, hxO, rfl⟩), hn⟩
  obtain ⟨r, hrr, hcut, hty⟩ := avruleRedundant_cut ok (others := MS te node O)
    (k := { (node id).key with specified := specOf en node id }) (kind := (node id).key.specified)
    (find := fun _ => search te) (notCond := false) rid.kind stamp
    (by
      intro d k' d2 hfd h1 h2 _
      cases htb : te.htable with
      | none =>
        unfold search at hfd
        rw [htb] at hfd; cases hfd
      | some tb =>
        obtain ⟨n, hn, hh, hd⟩ := search_sound htb hfd
        have hmem := (mem_nodes hte htb n).mpr ⟨_, hn⟩
        have rn := hter n hmem
        obtain ⟨t1, t2, t3⟩ := hits_triple hh
        have hkk := hits_kind (k := k') (kind := (node id).key.specified) rid.kind (by rw [h2]; exact stamp) rn.kind rfl hh
        exact ⟨n, .inl hmem, t1.symm, t2.symm, by rw [← t3, h1], hkk, hd, by rw [← hkk, ← hd]; exact rn.datum⟩)
    ⟨rid.source.1, rid.source.2.1⟩ ⟨rid.target.1, rid.target.2.1⟩ rid.datum
  have hcut' : Cut p (MS te node O) (node id).key (node id).key.specified (node id).datum r := ⟨hcut.split, hcut.less, hcut.ok⟩
  have hty' : isTypeRule (node id) = true → r = ((node id).datum, false) := fun h => hty (by simpa [isTypeRule] using h)
  unfold condTest
  rw [hrr, Option.bind_some]
  cases hres : r.2 with
  | true =>
    rw [if_pos rfl]
    have := final r hcut' hty'
    rw [hres] at this
    exact ⟨_, _, rfl, this⟩
  | false =>
    rw [if_neg (by simp)]
    unfold condRuleRedundant
    rw [specOf_set]
    have hrf : r = (r.1, false) := by rw [← hres]
    split
    · have := final r hcut' hty'
      rw [hres] at this
      exact ⟨_, _, rfl, this⟩
    · rename_i hne
      have hnt : isTypeRule (node id) = false := by
        by_contra hc
        have h : (node id).key.specified ∈ typeKinds := by simpa [isTypeRule] using hc
        exact hne ((stamp_masks rid.kind stamp).2.2.2.mpr h)
      obtain ⟨r2, h1, h2⟩ := condRedundantLoop_cut ok en (others := MS te node O) node id rid cover r.1 hcut'.ok
        (fun x hx => hr x (by
          rcases hcov x hx with h | h
          · rw [h]; exact List.mem_cons_self
          · exact List.mem_cons_of_mem _ h))
        (fun x hx hne => .inr ⟨x, (hcov x hx).resolve_left hne, rfl⟩)
      rw [hrf] at hcut'
      refine ⟨_, _, h1, ?_⟩
      exact final r2 (cut_trans hcut' h2) (fun h => by rw [hnt] at h; cases h)

end Verif.Optimize
