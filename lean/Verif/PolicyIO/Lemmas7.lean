import Verif.PolicyIO.Lemmas6

/-! # Writing and reading the whole policy -/

namespace Verif.PolicyIO
open Verif.Policy Verif.Services Verif.Validate

theorem ixd_of_valid {q : VPolicy} (h : Valid q) : Ixd q :=
  ⟨h.commonsNumbered, h.classesNumbered, fun _ => h.rolesNumbered, fun _ => h.typesNumbered, fun _ => h.usersNumbered,
    fun _ => h.boolsNumbered, fun hn => h.levelsNumbered (Or.inl hn), fun _ => h.catsNumbered⟩

theorem heldConds {p : PolicyDb} (hf : Fits p) (hv : Valid (held p).toV) : ∀ c ∈ p.conds, CondOk (held p).toV (heldCond c) := by
  intro c hc
  exact hv.conds (by have := hf.version; show 16 ≤ p.version; omega) _ (List.mem_map_of_mem hc)

theorem heldFiles {p : PolicyDb} (hf : Fits p) (hv : Valid (held p).toV) :
    ∀ f ∈ p.filenameTrans, FileTransFits f ∧ ∀ d ∈ f.data, d.2 < 2 ^ 32 - 64 := by
  intro f h
  refine ⟨hf.filenameTrans f h, fun d hd => ?_⟩
  have := (hv.filenameTrans (by have := hf.version; show 25 ≤ p.version; omega) _ (List.mem_map_of_mem h)).2.2.2 d hd
  have h1 : d.2 ≤ p.types.nprim := this.2.2.1
  have := hf.typeTable.2.1
  omega

theorem config_bits {mls hu : Nat} (hm : mls = 0 ∨ mls = 1) (hh : hu = 0 ∨ hu = 2 ∨ hu = 4) :
    (if ((if mls ≠ 0 then 1 else 0) + (hu &&& 6)).testBit 0 then 1 else 0) = mls ∧ ((if mls ≠ 0 then 1 else 0) + (hu &&& 6)) &&& 6 = hu ∧
    Word ((if mls ≠ 0 then 1 else 0) + (hu &&& 6)) := by
  unfold Word
  rcases hm with rfl | rfl <;> rcases hh with rfl | rfl | rfl <;> decide

/-- The policy before contexts, paths, range transitions and maps are read. -/
def before (p : PolicyDb) (t : Avtab.Avtab) : PolicyDb :=
  { held p with avtab := t, ocontexts := fun _ => [], genfs := [], rangeTrans := [], typeAttr := fun _ => Ebitmap.init, attrType := fun _ => Ebitmap.init }

theorem before_ixd {p : PolicyDb} {t : Avtab.Avtab} (h : Ixd (held p).toV) : Ixd (before p t).toV :=
  ⟨h.1, h.2.1, h.2.2.1, h.2.2.2.1, h.2.2.2.2.1, h.2.2.2.2.2.1, h.2.2.2.2.2.2.1, h.2.2.2.2.2.2.2⟩

/-- What follows the tables of rules. -/
theorem inv_rest {p : PolicyDb} (hf : Fits p) (hv : Valid (held p).toV) {valid : PolicyDb → Context → Bool} (ho : OfNames valid)
    (hc : ContextsValid valid (held p)) (t : Avtab.Avtab) (hp : (Avtab.nodes t).Perm ((Avtab.nodes p.avtab).map heldNode)) {ocb : Bytes}
    (hoc : wAll (writeOcons p) (List.range (lists p.target p.version)) = some ocb) :
    ∃ q, Inv (match index (before p t).toV with
      | none => Rd.fail
      | some a => do
        let ocons ← readOconLists (valid (before p t)) p.target 0 (lists p.target p.version)
        let genfs ← readGenfs (valid (before p t))
        let rangeTrans ← readRangeTrans p.types.nprim p.classes.nprim
        let maps ← readAttrs a.types p.types.nprim 0 p.types.nprim (fun _ => Ebitmap.init, fun _ => Ebitmap.init)
        Rd.reject (accept { before p t with
          ocontexts := nthList ocons
          genfs := genfs
          rangeTrans := rangeTrans
          typeAttr := maps.1
          attrType := maps.2 }.toV != some true)
        Rd.pure { before p t with
          ocontexts := nthList ocons
          genfs := genfs
          rangeTrans := rangeTrans
          typeAttr := maps.1
          attrType := maps.2 } : Rd PolicyDb)
      (ocb ++ (writeGenfs p.genfs ++ (writeRangeTrans p.rangeTrans ++ (List.range p.types.nprim).flatMap fun i => Ebitmap.write (p.typeAttr i)))) q ∧
      Same (held p) q ∧ Read q.toV ∧ Valid q.toV := by
  have ht : p.target = 0 ∨ p.target = 1 := by rcases hf.target with h | h <;> simp [h]
  have hvq : valid (before p t) = valid (held p) := ho _ _ rfl rfl rfl rfl rfl rfl
  have hix : Ixd (before p t).toV := before_ixd (ixd_of_valid hv)
  obtain ⟨a, ha⟩ := index_some hix
  have hty := (index_ok ha).2.types
  rw [ha, hvq]
  simp only
  -- the contexts
  obtain ⟨b1, hb1, i1⟩ := inv_oconLists (valid := valid (held p)) ht hf.oconCount hf.ocontexts hc.1 _ 0 (Nat.zero_add _)
  rw [← List.range_eq_range'] at hb1 i1
  rw [hoc, Option.some.injEq] at hb1
  subst hb1
  -- the paths
  obtain ⟨g, i2, hg⟩ := inv_genfs (valid := valid (held p)) hf.genfsCount (fun x hx => ⟨hf.genfs x hx, hc.2 x hx⟩) hf.genfsNames
  -- the range transitions
  have i3 := inv_rangeTrans (nt := p.types.nprim) (nc := p.classes.nprim) hf.rangeTransCount (Nat.le_of_lt hf.typeTable.2.1) (Nat.le_of_lt hf.classTable.2.1) (by
    intro t ht
    obtain ⟨h1, h2, h3, -⟩ := hv.rangeTrans t ht
    exact ⟨type_bound h1, type_bound h2, ⟨h3.1, h3.2.1⟩, hf.rangeTrans t ht⟩) hf.rangeTransKeys
  -- the maps
  have hent : ∀ i e, a.types i = some e ↔ i < p.types.nprim ∧ e ∈ (held p).types.entries ∧ (e.2.primary == 0) = false ∧ e.2.value = i + 1 := hty
  obtain ⟨s, i4, hs⟩ := inv_attrs (types := a.types) (ta := p.typeAttr) (Nat.le_of_lt hf.typeTable.2.1) (fun i hi => (hf.maps.wf i hi).1) hf.maps.bound (by
    intro i hi ⟨e, he⟩
    obtain ⟨-, h2, h3, h4⟩ := (hent i e).1 he
    obtain ⟨d, hd, rfl⟩ := List.mem_map.1 h2
    refine hf.maps.self i hi ⟨d, hd, ?_, h4⟩
    intro h0
    simp [heldType, h0] at h3) p.types.nprim 0 (fun _ => Ebitmap.init, fun _ => Ebitmap.init) (Nat.zero_add _) (by
      refine ⟨fun j hj => absurd hj (by omega), fun k _ => ⟨wf_init, fun j => ?_⟩⟩
      rw [getBit_init]
      simp)
  rw [← List.range_eq_range'] at i4
  have hta : ∀ i < p.types.nprim, s.1 i = p.typeAttr i := hs.1
  have hat : ∀ i < p.types.nprim, s.2 i = p.attrType i := by
    intro i hi
    refine bitmap_ext (hs.2 i hi).1 (hf.maps.wf i hi).2 fun j => ?_
    rw [(hs.2 i hi).2, hf.maps.inverse i hi]
    refine and_congr_right fun hj => or_congr Iff.rfl (and_congr_right fun hij => ?_)
    constructor
    · rintro ⟨e, he, hfl⟩
      obtain ⟨-, h2, h3, h4⟩ := (hent i e).1 he
      obtain ⟨d, hd, rfl⟩ := List.mem_map.1 h2
      refine ⟨d, hd, ?_, h4, ?_⟩
      · intro h0; simp [heldType, h0] at h3
      · intro h0; simp [heldType, h0] at hfl
    · rintro ⟨e, he, h1, h2, h3⟩
      refine ⟨(e.1, heldType e.2), (hent i _).2 ⟨hi, List.mem_map_of_mem (f := fun e : Str × TypeD => (e.1, heldType e.2)) he, ?_, h2⟩, ?_⟩
      · simp [heldType, h1]
      · simp [heldType, h3]
  have hq : { before p t with
      ocontexts := nthList ((List.range (lists p.target p.version)).map (heldOcons p))
      genfs := g
      rangeTrans := p.rangeTrans
      typeAttr := s.1
      attrType := s.2 } = result p t g s.1 s.2 := by
    rw [nthList_held]; rfl
  have hR := read_result hf hv hp hg hta hat
  have hV := valid_result hv hp hg hta hat
  refine ⟨result p t g s.1 s.2, ?_, ?_, hR, hV⟩
  · refine inv_bind i1 (inv_bind i2 (inv_bind i3 ?_))
    have := inv_bind (f := fun maps : (Nat → Ebitmap.Ebitmap) × (Nat → Ebitmap.Ebitmap) => (do
        Rd.reject (accept { before p t with
          ocontexts := nthList ((List.range (lists p.target p.version)).map (heldOcons p))
          genfs := g
          rangeTrans := p.rangeTrans
          typeAttr := maps.1
          attrType := maps.2 }.toV != some true)
        Rd.pure { before p t with
          ocontexts := nthList ((List.range (lists p.target p.version)).map (heldOcons p))
          genfs := g
          rangeTrans := p.rangeTrans
          typeAttr := maps.1
          attrType := maps.2 } : Rd PolicyDb)) (b' := []) i4 (c := result p t g s.1 s.2) (by
        simp only
        rw [hq]
        refine inv_reject ?_ (inv_pure _)
        rw [((accept_iff hR).2).2 hV]; rfl)
    rwa [List.append_nil] at this
  · exact
      { version := rfl, target := rfl, mls := rfl, handleUnknown := rfl, policycaps := rfl, permissive := rfl, commons := rfl, classes := rfl,
        roles := rfl, types := rfl, users := rfl, bools := rfl, levels := rfl, cats := rfl, rules := hp, conds := rfl, roleTrans := rfl,
        roleAllow := rfl, filenameTrans := rfl, filenameTransCount := rfl, ocontexts := rfl, genfs := hg, rangeTrans := rfl,
        typeAttr := hta, attrType := hat }

/-- A policy that fits is written, and what is read back is the same. -/
theorem write_read {p : PolicyDb} (hf : Fits p) (hv : Valid (held p).toV) {valid : PolicyDb → Context → Bool} (ho : OfNames valid)
    (hc : ContextsValid valid (held p)) :
    ∃ b q, write p = some b ∧ Inv (read valid) b q ∧ Same (held p) q ∧ Read q.toV ∧ Valid q.toV := by
  have ht : p.target = 0 ∨ p.target = 1 := by rcases hf.target with h | h <;> simp [h]
  obtain ⟨cb, c1, c2⟩ := inv_commons hf
  obtain ⟨clb, cl1, cl2⟩ := inv_classes hf hv
  obtain ⟨rb, r1, r2⟩ := inv_roles hf hv
  obtain ⟨tb, t1, t2⟩ := inv_types hf
  obtain ⟨ub, u1, u2⟩ := inv_users hf
  obtain ⟨bb, b1, b2⟩ := inv_bools hf hv
  obtain ⟨lb, l1, l2⟩ := inv_levels hf
  obtain ⟨ab, a1, a2⟩ := inv_cats hf
  obtain ⟨vb, t, v1, v2, v3, v4, v5⟩ := inv_avtab (p := p) (q := (held p).toV) rfl rfl hf.rules hv.rules
  obtain ⟨db, d1, d2⟩ := inv_conds (p := p) (q := (held p).toV) rfl rfl v4 v5 v3 (Nat.le_of_lt hf.boolTable.2.1) hf.condCount hf.conds (heldConds hf hv) hf.conflict
  have hmls : p.mls = 0 ∨ p.mls = 1 := by rcases hv.mls with h | h; exacts [Or.inl h, Or.inr h.1]
  obtain ⟨m1, m2, m3⟩ := config_bits (hu := p.handleUnknown) hmls hv.unknown
  obtain ⟨ocb, o1, -⟩ := inv_oconLists (valid := valid (held p)) ht hf.oconCount hf.ocontexts hc.1 _ 0 (Nat.zero_add _)
  rw [← List.range_eq_range'] at o1
  obtain ⟨q, i, hS, hR, hV⟩ := inv_rest hf hv ho hc t v3 o1
  refine ⟨w32 magic ++ (w32 (targetString p.target).length ++ (strBytes (targetString p.target) ++ (w32 p.version ++
    (w32 ((if p.mls ≠ 0 then 1 else 0) + (p.handleUnknown &&& 6)) ++
    (w32 8 ++ (w32 (lists p.target p.version) ++ (Ebitmap.write p.policycaps ++ (Ebitmap.write p.permissive ++
    (cb ++ (clb ++ (rb ++ (tb ++ (ub ++ (bb ++ (lb ++ (ab ++ (vb ++ (db ++
    (writeRoleTrans p.roleTrans ++ (writeRoleAllow p.roleAllow ++ (writeFilenameTrans p ++
    (ocb ++ (writeGenfs p.genfs ++ (writeRangeTrans p.rangeTrans ++
    (List.range p.types.nprim).flatMap fun i => Ebitmap.write (p.typeAttr i))))))))))))))))))))))))), q, ?_, ?_, hS, hR, hV⟩
  · unfold write
    simp only [oconNum_lists hf, c1, cl1, r1, t1, u1, b1, l1, a1, v1, d1, o1, Option.bind_eq_bind, Option.bind_some]
  · have hh := inv_header ht hf.version m3 (oconNum_lists hf) (by unfold Word lists; split <;> (try split) <;> omega)
    refine inv_congr (inv_bind (r := readHeader) (b' := Ebitmap.write p.policycaps ++ (Ebitmap.write p.permissive ++
      (cb ++ (clb ++ (rb ++ (tb ++ (ub ++ (bb ++ (lb ++ (ab ++ (vb ++ (db ++
      (writeRoleTrans p.roleTrans ++ (writeRoleAllow p.roleAllow ++ (writeFilenameTrans p ++
      (ocb ++ (writeGenfs p.genfs ++ (writeRangeTrans p.rangeTrans ++
      (List.range p.types.nprim).flatMap fun i => Ebitmap.write (p.typeAttr i))))))))))))))))))) hh ?_) ?_ rfl
    rotate_left
    · simp only [List.append_assoc]
    · refine inv_bind (inv_ebm hf.policycaps) (inv_bind (inv_ebm hf.permissive) (inv_bind c2 (inv_bind cl2 (inv_bind r2 (inv_bind t2 (inv_bind u2
        (inv_bind b2 (inv_bind l2 (inv_bind a2 (inv_bind v2 (inv_bind d2 (inv_bind (inv_roleTrans hf.roleTransCount hf.roleTrans)
        (inv_bind (inv_roleAllow hf.roleAllowCount hf.roleAllow) (inv_bind (inv_filenameTrans hf.filenameTransCount hf.filenameTransSum
        (heldFiles hf hv) hf.filenameTransKeys) ?_))))))))))))))
      simp only [m1, m2]
      exact i

end Verif.PolicyIO
