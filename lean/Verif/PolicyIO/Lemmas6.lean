import Verif.PolicyIO.Lemmas5

/-! # The whole policy -/

namespace Verif.PolicyIO
open Verif.Policy Verif.Services Verif.Validate

/-! ## Tables -/

theorem inv_symAll {δ ε : Type} {t : Symtab δ} {r : Rd (Option (Str × ε))} {w : Str × δ → Bytes} {g : δ → ε} (hf : TableFits t t.entries.length)
    (h : ∀ e ∈ t.entries, Inv r (w e) (some (e.1, g e.2))) (hl : ∀ e ∈ t.entries, 12 ≤ (w e).length) :
    ∃ b, writeSym t t.entries.length (fun e => some (w e)) = some b ∧ Inv (readSym r []) b ⟨t.entries.map fun e => (e.1, g e.2), t.nprim⟩ := by
  obtain ⟨h1, h2, h3, h4, h5⟩ := hf
  refine ⟨_, by unfold writeSym; rw [wAll_some]; rfl, ?_⟩
  exact inv_sym (inv_tableAll h h1.2) (Nat.le_of_lt h2) h3 h4 h5 (flatMap_length w 12 _ hl)

theorem map_pair {δ : Type} (t : Symtab δ) : (⟨t.entries.map fun e => (e.1, e.2), t.nprim⟩ : Symtab δ) = t := by
  show (⟨t.entries.map id, t.nprim⟩ : Symtab δ) = t
  rw [List.map_id]

theorem inv_commons {p : PolicyDb} (hf : Fits p) :
    ∃ b, writeSym p.commons p.commons.entries.length (fun e => some (writeCommon e)) = some b ∧ Inv (readSym readCommon []) b p.commons := by
  obtain ⟨b, h1, h2⟩ := inv_symAll (t := p.commons) (r := readCommon) (w := writeCommon) (g := id) hf.commonTable
    (fun e he => inv_common (hf.commonTable.1.1 e he) (hf.commons e he).1 (hf.commons e he).2)
    (fun e _ => by unfold writeCommon; simp only [List.length_append, w32_length]; omega)
  exact ⟨b, h1, inv_congr h2 rfl (map_pair _).symm⟩

theorem inv_types {p : PolicyDb} (hf : Fits p) :
    ∃ b, writeSym p.types p.types.entries.length (fun e => some (writeType e)) = some b ∧ Inv (readSym readType []) b (held p).types :=
  inv_symAll (t := p.types) (r := readType) (w := writeType) (g := heldType) hf.typeTable
    (fun e he => inv_type (hf.typeTable.1.1 e he) (hf.types e he).1 (hf.types e he).2)
    (fun e _ => by unfold writeType; simp only [List.length_append, w32_length]; omega)

theorem inv_users {p : PolicyDb} (hf : Fits p) :
    ∃ b, writeSym p.users p.users.entries.length (fun e => some (writeUser e)) = some b ∧ Inv (readSym readUser []) b (held p).users :=
  inv_symAll (t := p.users) (r := readUser) (w := writeUser) (g := heldUser) hf.userTable
    (fun e he => by
      obtain ⟨h1, h2, h3, h4, h5⟩ := hf.users e he
      exact inv_user (hf.userTable.1.1 e he) h1 h2 h3 h4 h5)
    (fun e _ => by unfold writeUser; simp only [List.length_append, w32_length]; omega)

theorem inv_bools {p : PolicyDb} (hf : Fits p) (hv : Valid (held p).toV) :
    ∃ b, writeSym p.bools p.bools.entries.length (fun e => some (writeBool e)) = some b ∧ Inv (readSym readBool []) b (held p).bools :=
  inv_symAll (t := p.bools) (r := readBool) (w := writeBool) (g := fun d => { d with flags := 0 }) hf.boolTable
    (fun e he => inv_bool (hf.boolTable.1.1 e he) (hf.bools e he) (hv.bools _ (List.mem_map_of_mem he)).2.1)
    (fun e _ => by unfold writeBool; simp only [List.length_append, w32_length]; omega)

theorem inv_levels {p : PolicyDb} (hf : Fits p) :
    ∃ b, writeSym p.levels p.levels.entries.length (fun e => some (writeSens e)) = some b ∧ Inv (readSym readSens []) b (held p).levels :=
  inv_symAll (t := p.levels) (r := readSens) (w := writeSens) (g := fun d => { d with notdefined := 0 }) hf.levelTable
    (fun e he => inv_sens (hf.levelTable.1.1 e he) (hf.levels e he))
    (fun e _ => by unfold writeSens writeLevel; simp only [List.length_append, w32_length]; omega)

theorem inv_cats {p : PolicyDb} (hf : Fits p) :
    ∃ b, writeSym p.cats p.cats.entries.length (fun e => some (writeCat e)) = some b ∧ Inv (readSym readCat []) b p.cats := by
  obtain ⟨b, h1, h2⟩ := inv_symAll (t := p.cats) (r := readCat) (w := writeCat) (g := id) hf.catTable
    (fun e he => inv_cat (hf.catTable.1.1 e he) (hf.cats e he))
    (fun e _ => by unfold writeCat; simp only [List.length_append, w32_length]; omega)
  exact ⟨b, h1, inv_congr h2 rfl (map_pair _).symm⟩

/-- The same for entries that may fail to be written. -/
theorem wAll_table {α κ δ : Type} [DecidableEq κ] {r : Rd (Option (κ × δ))} {w : α → Option Bytes} {g : α → κ × δ} :
    ∀ {l : List α} {t : List (κ × δ)}, (∀ a ∈ l, ∃ b, w a = some b ∧ Inv r b (some (g a)) ∧ 12 ≤ b.length) → ((t ++ l.map g).map (·.1)).Nodup →
    ∃ b, wAll w l = some b ∧ Inv (readTable r l.length t) b (t ++ l.map g) ∧ 12 * l.length ≤ b.length
  | [], t, _, _ => ⟨[], rfl, by rw [List.map_nil, List.append_nil]; exact inv_pure t, by simp⟩
  | a :: l, t, h, hn => by
    obtain ⟨b, h1, h2, h3⟩ := h a (by simp)
    obtain ⟨bs, h4, h5, h6⟩ := wAll_table (r := r) (g := g) (l := l) (t := t ++ [g a]) (fun x hx => h x (List.mem_cons_of_mem _ hx))
      (by rw [List.append_assoc]; exact hn)
    refine ⟨b ++ bs, by simp [wAll, h1, h4], ?_, by rw [List.length_append, List.length_cons, Nat.mul_add]; omega⟩
    rw [List.append_assoc] at h5
    intro rest
    rw [List.append_assoc]
    have hnot : ∀ x ∈ t, x.1 ≠ (g a).1 := by
      intro x hx hc
      rw [List.map_append, List.nodup_append] at hn
      exact hn.2.2 x.1 (List.mem_map_of_mem hx) (g a).1 (by simp) hc
    have := readTable_some (r := r) l.length t (b := b ++ (bs ++ rest)) (h2 _)
    rw [List.length_cons, this, if_neg]
    · exact h5 rest
    · intro hc
      obtain ⟨x, hx, he⟩ := List.any_eq_true.1 hc
      exact hnot x hx (by simpa using he)

theorem inv_classes {p : PolicyDb} (hf : Fits p) (hv : Valid (held p).toV) :
    ∃ b, writeSym p.classes p.classes.entries.length (writeClass p.version) = some b ∧
      Inv (readSym (readClass p.version p.commons.entries) []) b (held p).classes := by
  obtain ⟨h1, h2, h3, h4, h5⟩ := hf.classTable
  obtain ⟨b, b1, b2, b3⟩ := wAll_table (r := readClass p.version p.commons.entries) (w := writeClass p.version)
    (g := fun e => (e.1, heldClass p.version e.2)) (l := p.classes.entries) (t := []) (by
      intro e he
      have hm : (e.1, (heldClass p.version e.2).datum) ∈ (held p).toV.classes.entries := by
        show _ ∈ List.map _ (List.map _ _)
        rw [List.map_map]
        exact List.mem_map_of_mem (f := fun e : Str × ClassP => (e.1, (heldClass p.version e.2).datum)) he
      obtain ⟨-, -, -, -, -, -, -, hc, ht, -⟩ := hv.classes _ hm
      exact inv_class (h1.1 e he) (hf.classes e he) hf.commonTable.1.2
        (fun c hx => (hc _ (List.mem_map_of_mem hx)).2.2) (fun c hx => (ht _ (List.mem_map_of_mem hx)).2)) (by
      rw [List.nil_append, List.map_map]; exact h1.2)
  exact ⟨_, by unfold writeSym; rw [b1]; rfl, inv_sym b2 (Nat.le_of_lt h2) h3 h4 h5 b3⟩

theorem flatMap_roles (l : List (Str × RoleD)) : l.flatMap writeRole = (l.filter fun e => e.2.flavor != 1).flatMap writeRole := by
  induction l with
  | nil => rfl
  | cons e l ih =>
    rw [List.flatMap_cons, ih]
    by_cases h : e.2.flavor = 1
    · rw [List.filter_cons_of_neg (by simp [h])]
      unfold writeRole
      rw [if_pos h, List.nil_append]
    · rw [List.filter_cons_of_pos (by simp [h]), List.flatMap_cons]

theorem filterMap_roles (l : List (Str × RoleD)) :
    (l.filter fun e => e.2.flavor != 1).filterMap (fun e => if e.1 = objectR then none else some (e.1, heldRole e.2)) =
    (l.filter fun e => e.2.flavor != 1 && e.1 != "object_r".toList).map fun e => (e.1, heldRole e.2) := by
  induction l with
  | nil => rfl
  | cons e l ih =>
    by_cases h : e.2.flavor = 1
    · rw [List.filter_cons_of_neg (by simp [h]), List.filter_cons_of_neg (by simp [h]), ih]
    · rw [List.filter_cons_of_pos (by simp [h])]
      by_cases h' : e.1 = objectR
      · rw [List.filterMap_cons, if_pos h', List.filter_cons_of_neg (by
          show ¬ (e.2.flavor != 1 && e.1 != objectR) = true
          rw [Bool.and_eq_true, bne_iff_ne, bne_iff_ne]; exact fun hc => hc.2 h'), ih]
      · rw [List.filterMap_cons, if_neg h', List.filter_cons_of_pos (by
          show (e.2.flavor != 1 && e.1 != objectR) = true
          rw [Bool.and_eq_true, bne_iff_ne, bne_iff_ne]; exact ⟨h, h'⟩), List.map_cons, ih]

theorem inv_roles {p : PolicyDb} (hf : Fits p) (hv : Valid (held p).toV) :
    ∃ b, writeSym p.roles (p.roles.entries.filter fun e => e.2.flavor != 1).length (fun e => some (writeRole e)) = some b ∧
      Inv (readSym readRole [objectRole]) b (held p).roles := by
  obtain ⟨h1, h2, h3, h4, h5⟩ := hf.roleTable
  refine ⟨_, by unfold writeSym; rw [wAll_some]; rfl, ?_⟩
  rw [flatMap_roles]
  have hne : ∀ e ∈ p.roles.entries, e.2.flavor ≠ 1 → (e.1 = objectR ↔ e.2.value = 1) := by
    intro e he hfl
    refine ⟨fun h => (hf.roles e he).2.2.2.2 h hfl, fun h => ?_⟩
    by_contra hc
    have hp := hv.rolesNumbered.2
    have hp : ((heldRoles p.roles).entries).Pairwise fun e f => false = false → false = false → e.2.value ≠ f.2.value := hp
    unfold heldRoles at hp
    rw [List.pairwise_cons] at hp
    refine hp.1 (e.1, heldRole e.2) (List.mem_map_of_mem (f := fun e : Str × RoleD => (e.1, heldRole e.2)) (List.mem_filter.2 ⟨he, ?_⟩)) rfl rfl h.symm
    show (e.2.flavor != 1 && e.1 != objectR) = true
    rw [Bool.and_eq_true, bne_iff_ne, bne_iff_ne]
    exact ⟨hfl, hc⟩
  have key := inv_table (r := readRole) (w := writeRole) (g := fun e => if e.1 = objectR then none else some (e.1, heldRole e.2))
    (l := p.roles.entries.filter fun e => e.2.flavor != 1) (t := [objectRole]) (by
      intro e he
      obtain ⟨he, hfl⟩ := List.mem_filter.1 he
      have hfl : e.2.flavor ≠ 1 := by simpa using hfl
      obtain ⟨r1, r2, r3, r4, r5⟩ := hf.roles e he
      exact inv_role (h1.1 e he) r1 r2 r3 r4 (hne e he hfl) hfl) (by
      rw [filterMap_roles, List.singleton_append, List.map_cons, List.map_map, List.nodup_cons]
      constructor
      · intro hm
        obtain ⟨e, he, h⟩ := List.mem_map.1 hm
        obtain ⟨-, he⟩ := List.mem_filter.1 he
        have h : e.1 = "object_r".toList := h
        rw [h] at he
        simp at he
      · exact List.Nodup.sublist (List.filter_sublist.map _) h1.2)
  rw [filterMap_roles] at key
  refine inv_sym key (Nat.le_of_lt h2) h3 h4 h5 (flatMap_length writeRole 12 _ ?_)
  intro e he
  obtain ⟨-, hfl⟩ := List.mem_filter.1 he
  unfold writeRole
  rw [if_neg (by simpa using hfl)]
  simp only [List.length_append, w32_length]
  omega

/-! ## The header -/

theorem target_good {t : Nat} (ht : t = 0 ∨ t = 1) : GoodName (targetString t) ∧ (targetString t).length ≤ 32 := by
  rcases ht with rfl | rfl <;> (unfold GoodName; decide)

theorem inv_header {target version config n : Nat} (ht : target = 0 ∨ target = 1) (hv : 26 ≤ version ∧ version ≤ 34) (hc : Word config)
    (hn : oconNum target version = some n) (hn' : Word n) :
    Inv readHeader (w32 magic ++ (w32 (targetString target).length ++ (strBytes (targetString target) ++ (w32 version ++ (w32 config ++
      (w32 8 ++ w32 n)))))) (version, target, config, n) := by
  obtain ⟨g1, g2⟩ := target_good ht
  unfold readHeader
  refine inv_bind (inv_u32 (by unfold Word magic; omega)) (inv_bind (inv_u32 (word_len g1)) ?_)
  refine inv_reject (by rw [bne_self_eq_false]) (inv_reject (by have := g1.1; simp; exact ⟨this, g2⟩) ?_)
  refine inv_bind (inv_raw (strBytes_length _)) ?_
  rw [cstr_strBytes g1.2.2]
  have h0 : Inv (if targetString target = targetString 0 then Rd.pure 0 else if targetString target = targetString 1 then Rd.pure 1 else Rd.fail : Rd Nat) []
      target := by
    rcases ht with rfl | rfl
    · rw [if_pos rfl]; exact inv_pure _
    · rw [if_neg (by decide), if_pos rfl]; exact inv_pure _
  refine inv_congr (b := [] ++ (w32 version ++ (w32 config ++ (w32 8 ++ w32 n)))) (inv_bind h0 ?_) rfl rfl
  refine inv_bind (inv_u32 (by unfold Word; omega)) (inv_bind (inv_u32 hc) (inv_bind (inv_u32 (by unfold Word; omega)) ?_))
  have := inv_bind (f := fun oconN => (do
    Rd.reject (decide (version < 26) || decide (version > 34))
    match oconNum target version with
    | none => Rd.fail
    | some n => do
      Rd.reject (8 != 8 || oconN != n)
      Rd.pure (version, target, config, n) : Rd (Nat × Nat × Nat × Nat))) (b' := []) (inv_u32 hn') (c := (version, target, config, n))
    (inv_reject (by simp; omega) (by rw [hn]; exact inv_reject (by simp) (inv_pure _)))
  rwa [List.append_nil] at this

theorem oconNum_lists {p : PolicyDb} (hf : Fits p) : oconNum p.target p.version = some (lists p.target p.version) := by
  have := hf.version
  unfold oconNum lists
  rcases hf.target with h | ⟨h, h'⟩
  · rw [h, if_pos rfl, if_pos rfl]
    by_cases h31 : p.version < 31
    · rw [if_pos (by omega), if_pos h31]
    · rw [if_neg (by omega), if_pos (by omega), if_neg h31]
  · rw [h, if_neg (by omega), if_pos rfl, if_pos h']
    rfl

/-! ## The policy that is read is well formed and valid -/

theorem heldNode_ok {q : VPolicy} {c : Bool} {n : Avtab.Node} (h : NodeOk q c n) : NodeOk q c (heldNode n) := by
  unfold heldNode
  split
  · rename_i hx
    refine ⟨h.1, ?_⟩
    have hx : (n.key.specified &&& Avtab.XPERMS != 0) = true := hx
    rcases h.2 with ⟨k, _⟩ | ⟨k, _⟩ | ⟨k, h1, h2, h3, h4, _, h5⟩
    · rw [(kind_av k).2.2] at hx; cases hx
    · rw [(kind_type k).2.2] at hx; cases hx
    · exact Or.inr (Or.inr ⟨k, h1, h2, h3, h4, Or.inl rfl, h5⟩)
  · exact h

theorem nodeOk_xperms {q : VPolicy} {c : Bool} {n : Avtab.Node} (h : NodeOk q c n) : n.key.specified &&& Avtab.XPERMS ≠ 0 → n.datum.xperms ≠ none := by
  intro hx
  have hx : (n.key.specified &&& Avtab.XPERMS != 0) = true := bne_iff_ne.2 hx
  rcases h.2 with ⟨k, _⟩ | ⟨k, _⟩ | ⟨k, h1, h2, h3, h4, _, x, h5, _⟩
  · rw [(kind_av k).2.2] at hx; cases hx
  · rw [(kind_type k).2.2] at hx; cases hx
  · rw [h5]; simp

theorem range_wf {r : Range} (h : RangeFits r) : RangeWf r := ⟨h.1.2, h.2.2⟩

theorem heldOcon_wf {target i : Nat} {o : OconP} (h : OconFits target i o) :
    RangeWf (heldOcon target i o).context0.range ∧ RangeWf (heldOcon target i o).context1.range := by
  have h0 : RangeWf o.context0.range := range_wf h.1.2.2.2
  have h1 : target = 0 → i = 1 ∨ i = 3 → RangeWf o.context1.range := fun ht hi => range_wf ((h.2.1 ht).2.1 hi).1.2.2.2
  have he : RangeWf (⟨⟨0, Ebitmap.init⟩, ⟨0, Ebitmap.init⟩⟩ : Range) := ⟨wf_init, wf_init⟩
  unfold heldOcon
  split
  · rename_i ht
    split
    · exact ⟨h0, he⟩
    · split
      · rename_i hi; exact ⟨h0, h1 ht hi⟩
      · split
        · exact ⟨h0, he⟩
        · split
          · exact ⟨h0, he⟩
          · split
            · exact ⟨h0, he⟩
            · split <;> exact ⟨h0, he⟩
  · split
    · exact ⟨h0, he⟩
    · split
      · exact ⟨h0, he⟩
      · split
        · exact ⟨h0, he⟩
        · split
          · exact ⟨h0, he⟩
          · split <;> exact ⟨h0, he⟩

/-- What is read: `held p` with the rules and paths in another order. -/
def result (p : PolicyDb) (t : Avtab.Avtab) (g : List GenfsP) (ta at_ : Nat → Ebitmap.Ebitmap) : PolicyDb :=
  { held p with avtab := t, genfs := g, typeAttr := ta, attrType := at_ }

theorem read_result {p : PolicyDb} (hf : Fits p) (hv : Valid (held p).toV) {t : Avtab.Avtab} {g : List GenfsP} {ta at_ : Nat → Ebitmap.Ebitmap}
    (hp : (Avtab.nodes t).Perm ((Avtab.nodes p.avtab).map heldNode)) (hg : SameGenfs p.genfs g)
    (hta : ∀ i < p.types.nprim, ta i = p.typeAttr i) (hat : ∀ i < p.types.nprim, at_ i = p.attrType i) :
    Read (result p t g ta at_).toV := by
  have ht : p.target = 0 ∨ p.target = 1 := by rcases hf.target with h | h <;> simp [h]
  have hcon : ∀ c : Constraint, ConstraintFits c → ConWf (heldConstraint p.version c) := by
    intro c hc e he
    obtain ⟨x, hx, rfl⟩ := List.mem_map.1 he
    obtain ⟨-, -, h1, h2, h3, -⟩ := hc.2 x hx
    unfold heldExpr
    split
    · refine ⟨h1, ?_⟩
      show TypeSetWf (if _ then _ else _)
      split
      · exact ⟨h2, h3⟩
      · exact ⟨wf_init, wf_init⟩
    · exact ⟨wf_init, wf_init, wf_init⟩
  refine
    { sizes := ⟨(Nat.le_of_lt hf.commonTable.2.1), (Nat.le_of_lt hf.classTable.2.1), (Nat.le_of_lt hf.roleTable.2.1), (Nat.le_of_lt hf.typeTable.2.1), (Nat.le_of_lt hf.userTable.2.1), (Nat.le_of_lt hf.boolTable.2.1),
        (Nat.le_of_lt hf.levelTable.2.1), (Nat.le_of_lt hf.catTable.2.1)⟩
      names := ?_
      policycaps := hf.policycaps
      permissive := hf.permissive
      classes := ?_
      roles := ?_
      types := ?_
      users := ?_
      levels := ?_
      rules := ?_
      filenameTrans := ?_
      ocontexts := ?_
      genfs := ?_
      rangeTrans := fun t ht => range_wf (hf.rangeTrans t ht)
      maps := ?_ }
  · show ((p.levels.entries.map fun e => (e.1, { e.2 with notdefined := 0 })).map (·.1)).Nodup
    rw [List.map_map]
    exact hf.levelTable.1.2
  · intro e he
    obtain ⟨c, hc, rfl⟩ := List.mem_map.1 he
    obtain ⟨d, hd, rfl⟩ := List.mem_map.1 hc
    have hc := hf.classes d hd
    refine ⟨hc.perms.2.1, ?_, ?_⟩
    · intro c h
      obtain ⟨x, hx, rfl⟩ := List.mem_map.1 h
      exact hcon x (hc.constraints.2 x hx)
    · intro c h
      obtain ⟨x, hx, rfl⟩ := List.mem_map.1 h
      exact hcon x (hc.validatetrans.2 x hx)
  · intro e he
    rcases List.mem_cons.1 he with rfl | he
    · exact ⟨wf_init, wf_init, wf_init, wf_init⟩
    · obtain ⟨d, hd, rfl⟩ := List.mem_map.1 he
      obtain ⟨-, -, h1, h2, -⟩ := hf.roles d (List.mem_filter.1 hd).1
      exact ⟨h1, wf_init, h2, wf_init⟩
  · intro e he
    obtain ⟨d, hd, rfl⟩ := List.mem_map.1 he
    exact wf_init
  · intro e he
    obtain ⟨d, hd, rfl⟩ := List.mem_map.1 he
    obtain ⟨-, -, h1, h2, h3⟩ := hf.users d hd
    exact ⟨h1, range_wf h2, h3.2⟩
  · intro e he
    obtain ⟨d, hd, rfl⟩ := List.mem_map.1 he
    exact (hf.levels d hd).2
  · intro n hn
    rcases List.mem_append.1 hn with hn | hn
    · obtain ⟨m, hm, rfl⟩ := List.mem_map.1 (hp.mem_iff.1 hn)
      exact nodeOk_xperms (heldNode_ok (hv.rules m hm))
    · obtain ⟨c, hc, hn⟩ := List.mem_flatMap.1 hn
      have := hv.conds (by have := hf.version; show 16 ≤ p.version; omega) c hc
      rcases List.mem_append.1 hn with hn | hn
      · exact nodeOk_xperms (this.2.1 n hn)
      · exact nodeOk_xperms (this.2.2.1 n hn)
  · intro t ht d hd
    obtain ⟨f, hff, rfl⟩ := List.mem_map.1 ht
    exact ((hf.filenameTrans f hff).data d hd).1
  · intro i _ o ho
    obtain ⟨x, hx, rfl⟩ := List.mem_map.1 ho
    have hx : x ∈ heldOcons p i := hx
    unfold heldOcons at hx
    split at hx
    · rename_i hi
      obtain ⟨y, hy, rfl⟩ := List.mem_map.1 hx
      exact heldOcon_wf (hf.ocontexts i hi y (List.mem_filter.1 hy).1)
    · cases hx
  · intro x hx o ho
    obtain ⟨y, hy, rfl⟩ := List.mem_map.1 hx
    obtain ⟨e, he, rfl⟩ := List.mem_map.1 ho
    obtain ⟨z, hz, -, hh⟩ := sameGenfs_mem hg y hy
    exact range_wf ((hf.genfs z hz).entries e (hh.mem_iff.2 he)).2.2.2.2.2
  · intro i hi
    have hi : i < p.types.nprim := hi
    have := hf.maps.wf i hi
    show Ebitmap.WF (ta i) ∧ Ebitmap.WF (at_ i)
    rw [hta i hi, hat i hi]
    exact this

theorem valid_result {p : PolicyDb} (hv : Valid (held p).toV) {t : Avtab.Avtab} {g : List GenfsP} {ta at_ : Nat → Ebitmap.Ebitmap}
    (hp : (Avtab.nodes t).Perm ((Avtab.nodes p.avtab).map heldNode)) (hg : SameGenfs p.genfs g)
    (hta : ∀ i < p.types.nprim, ta i = p.typeAttr i) (hat : ∀ i < p.types.nprim, at_ i = p.attrType i) :
    Valid (result p t g ta at_).toV where
  commonsNumbered := hv.commonsNumbered
  classesNumbered := hv.classesNumbered
  rolesNumbered := hv.rolesNumbered
  typesNumbered := hv.typesNumbered
  usersNumbered := hv.usersNumbered
  boolsNumbered := hv.boolsNumbered
  levelsNumbered := hv.levelsNumbered
  catsNumbered := hv.catsNumbered
  version := hv.version
  mls := hv.mls
  target := hv.target
  unknown := hv.unknown
  policycaps := hv.policycaps
  permissive := hv.permissive
  commons := hv.commons
  classes := hv.classes
  roles := hv.roles
  types := hv.types
  users := hv.users
  bools := hv.bools
  levels := hv.levels
  cats := hv.cats
  rules := by
    intro n hn
    obtain ⟨m, hm, rfl⟩ := List.mem_map.1 (hp.mem_iff.1 hn)
    exact heldNode_ok (hv.rules m hm)
  conds := hv.conds
  roleTrans := hv.roleTrans
  roleAllow := hv.roleAllow
  filenameTrans := hv.filenameTrans
  ocontexts := hv.ocontexts
  genfs := by
    intro x hx
    obtain ⟨y, hy, rfl⟩ := List.mem_map.1 hx
    obtain ⟨z, hz, -, hh⟩ := sameGenfs_mem hg y hy
    have := hv.genfs ⟨true, z.head.map fun e => (e.context, e.sclass)⟩ (List.mem_map_of_mem (f := fun g : GenfsP => (⟨true, g.head.map fun e => (e.context, e.sclass)⟩ : Genfs)) hz)
    refine ⟨rfl, fun o ho => ?_⟩
    obtain ⟨e, he, rfl⟩ := List.mem_map.1 ho
    exact this.2 _ (List.mem_map_of_mem (hh.mem_iff.2 he))
  rangeTrans := hv.rangeTrans
  typeAttr := by
    intro i hi
    show Members (ta i) _
    rw [hta i hi]
    exact hv.typeAttr i hi
  attrType := by
    intro i hi
    show Members (at_ i) _
    rw [hat i hi]
    exact hv.attrType i hi

theorem type_bound {p : VPolicy} {v : Nat} (h : IsType p v) : 1 ≤ v ∧ v ≤ p.types.nprim := by
  unfold IsType at h
  split at h
  · exact h
  · exact ⟨h.1, h.2.1⟩

end Verif.PolicyIO
