import Verif.PolicyIO.Lemmas3

/-! # Role and name-based transitions, range transitions, and the maps of attributes -/

namespace Verif.PolicyIO
open Verif.Policy Verif.Services Verif.Validate

theorem inv_roleTrans {l : List RoleTrans} (hw : Word l.length) (h : ∀ t ∈ l, Word t.role ∧ Word t.type ∧ Word t.tclass ∧ Word t.newRole) :
    Inv readRoleTrans (writeRoleTrans l) l := by
  unfold readRoleTrans writeRoleTrans
  refine inv_bind (inv_u32 hw) (inv_timesId fun t ht => ?_)
  obtain ⟨h1, h2, h3, h4⟩ := h t ht
  refine inv_bind (inv_u32 h1) (inv_bind (inv_u32 h2) (inv_bind (inv_u32 h4) ?_))
  exact inv_last (g := fun c => (⟨t.role, t.type, c, t.newRole⟩ : RoleTrans)) (inv_u32 h3)

theorem inv_roleAllow {l : List (Nat × Nat)} (hw : Word l.length) (h : ∀ t ∈ l, Word t.1 ∧ Word t.2) :
    Inv readRoleAllow (writeRoleAllow l) l := by
  unfold readRoleAllow writeRoleAllow
  refine inv_bind (inv_u32 hw) (inv_timesId fun t ht => ?_)
  exact inv_bind (inv_u32 (h t ht).1) (inv_last (g := fun c => (t.1, c)) (inv_u32 (h t ht).2))

theorem inv_rangeTrans {nt nc : Nat} {l : List RangeTr} (hw : Word l.length) (hnt : nt ≤ 2 ^ 32 - 64) (hnc : nc ≤ 2 ^ 32 - 64)
    (h : ∀ t ∈ l, (1 ≤ t.source ∧ t.source ≤ nt) ∧ (1 ≤ t.target ∧ t.target ≤ nt) ∧ (1 ≤ t.tclass ∧ t.tclass ≤ nc) ∧ RangeFits t.range)
    (hk : l.Pairwise fun s t => ¬ (s.source = t.source ∧ s.target = t.target ∧ s.tclass = t.tclass)) :
    Inv (readRangeTrans nt nc) (writeRangeTrans l) l := by
  unfold readRangeTrans writeRangeTrans
  refine inv_bind (inv_u32 hw) ?_
  have key := inv_table (r := readRangeTr nt nc) (w := fun t : RangeTr => w32 t.source ++ (w32 t.target ++ (w32 t.tclass ++ writeRange t.range)))
    (g := fun t => some ((t.source, t.target, t.tclass), t.range)) (l := l) (t := []) (by
      intro t ht
      obtain ⟨h1, h2, h3, h4⟩ := h t ht
      unfold readRangeTr
      refine inv_bind (inv_u32 (by unfold Word; omega)) (inv_bind (inv_u32 (by unfold Word; omega)) ?_)
      refine inv_reject (by rw [valueIsValid_iff.2 h1]; rfl) (inv_reject (by rw [valueIsValid_iff.2 h2]; rfl) ?_)
      refine inv_bind (inv_u32 (by unfold Word; omega)) ?_
      refine inv_reject (by rw [valueIsValid_iff.2 h3]; rfl) ?_
      exact inv_last (g := fun r => some ((t.source, t.target, t.tclass), r)) (inv_range h4)) (by
      rw [List.nil_append, List.filterMap_eq_map', List.map_map]
      unfold List.Nodup
      rw [List.pairwise_map]
      refine hk.imp fun {s t} hn he => hn ?_
      have he : (s.source, s.target, s.tclass) = (t.source, t.target, t.tclass) := he
      rw [Prod.mk.injEq, Prod.mk.injEq] at he
      exact he)
  refine inv_congr (inv_last (g := fun t : List ((Nat × Nat × Nat) × Range) => t.map fun e => (⟨e.1.1, e.1.2.1, e.1.2.2, e.2⟩ : RangeTr)) key) rfl ?_
  rw [List.nil_append, List.filterMap_eq_map', List.map_map]
  exact (List.map_id l).symm

/-! ## Bitmaps -/

theorem highbit_le {e : Ebitmap.Ebitmap} (h : Ebitmap.WF e) : e.highbit ≤ 2 ^ 32 - 64 := by
  have h1 := h.high
  have h2 := h.small
  cases hl : e.node.getLast? with
  | none => rw [hl] at h1; simp only at h1; omega
  | some n =>
    rw [hl] at h1
    simp only at h1
    have h3 := h.aligned n (List.mem_of_getLast? hl)
    omega

theorem bit_lt {e : Ebitmap.Ebitmap} (h : Ebitmap.WF e) {b : Nat} (hb : Ebitmap.getBit e b = true) : b < 2 ^ 32 - 64 := by
  have := Ebitmap.getBit_lt_high ((Ebitmap.wf_iff_inv e).1 h) hb
  have := highbit_le h
  omega

theorem posBits_eq {e : Ebitmap.Ebitmap} (h : Ebitmap.WF e) : posBits e = (List.range (2 ^ 32)).filter (Ebitmap.getBit e) := by
  unfold posBits
  rw [Ebitmap.C04_for_each_positive_bit h (Nat.le_refl _), Option.getD_some]

theorem mem_posBits {e : Ebitmap.Ebitmap} (h : Ebitmap.WF e) (b : Nat) : b ∈ posBits e ↔ Ebitmap.getBit e b = true := by
  rw [posBits_eq h, List.mem_filter, List.mem_range]
  constructor
  · exact fun h => h.2
  · intro hb
    have := bit_lt h hb
    exact ⟨by omega, hb⟩

theorem posBits_nodup {e : Ebitmap.Ebitmap} (h : Ebitmap.WF e) : (posBits e).Nodup := by
  rw [posBits_eq h]
  exact List.nodup_range.sublist List.filter_sublist

theorem posBits_length {e : Ebitmap.Ebitmap} (h : Ebitmap.WF e) : (posBits e).length = Ebitmap.cardinality e := by
  rw [posBits_eq h, Ebitmap.C03_cardinality h, List.countP_eq_length_filter]

theorem getBit_init (b : Nat) : Ebitmap.getBit Ebitmap.init b = false := by
  cases h : Ebitmap.getBit Ebitmap.init b
  · rfl
  · have := Ebitmap.getBit_lt_high Ebitmap.inv_init h
    simp [Ebitmap.init] at this

/-- The bit is set, nothing else changes. -/
theorem setBit_spec {e : Ebitmap.Ebitmap} (h : Ebitmap.WF e) {b : Nat} (hb : b < 2 ^ 32 - 64) :
    ∃ e', Ebitmap.setBit e b true = some e' ∧ Ebitmap.WF e' ∧ ∀ c, Ebitmap.getBit e' c = true ↔ c = b ∨ Ebitmap.getBit e c = true := by
  obtain ⟨e', h1, h2, h3⟩ := (Ebitmap.C01_set_bit h b (by omega) true).1 hb
  refine ⟨e', h1, h2, fun c => ?_⟩
  rw [h3]
  split
  · rename_i hc; simp [hc]
  · rename_i hc; simp [hc]

/-- Two bitmaps with the same members are equal. -/
theorem bitmap_ext {e f : Ebitmap.Ebitmap} (he : Ebitmap.WF e) (hf : Ebitmap.WF f) (h : ∀ b, Ebitmap.getBit e b = true ↔ Ebitmap.getBit f b = true) :
    e = f := by
  refine Ebitmap.C03_canonical he hf fun b => ?_
  have := h b
  cases h1 : Ebitmap.getBit e b <;> cases h2 : Ebitmap.getBit f b <;> simp_all

/-! ## Name-based transitions from version 33 on -/

theorem checkDatum_ok : ∀ {l : List (Ebitmap.Ebitmap × Nat)} {st ot : Ebitmap.Ebitmap}, Ebitmap.WF st → Ebitmap.WF ot →
    (∀ d ∈ l, Ebitmap.WF d.1 ∧ d.2 < 2 ^ 32 - 64) → (l.Pairwise fun d e => d.2 ≠ e.2) →
    (l.Pairwise fun d e => ∀ b, ¬ (Ebitmap.getBit d.1 b = true ∧ Ebitmap.getBit e.1 b = true)) →
    (∀ d ∈ l, Ebitmap.getBit ot d.2 = false) → (∀ d ∈ l, ∀ b, ¬ (Ebitmap.getBit st b = true ∧ Ebitmap.getBit d.1 b = true)) →
    checkDatum l st ot = true
  | [], _, _, _, _, _, _, _, _, _ => rfl
  | d :: l, st, ot, hst, hot, hd, ht, hs, h1, h2 => by
    rw [List.pairwise_cons] at ht hs
    obtain ⟨hdw, hdb⟩ := hd d (by simp)
    obtain ⟨ot', e1, e2, e3⟩ := setBit_spec hot hdb
    unfold checkDatum
    rw [h1 d (by simp), if_neg (by simp), e1]
    simp only
    rw [if_neg]
    · obtain ⟨u1, u2⟩ := (Ebitmap.C02_or_and_xor hst hdw).2.1
      refine checkDatum_ok u1 e2 (fun x hx => hd x (List.mem_cons_of_mem _ hx)) ht.2 hs.2 ?_ ?_
      · intro x hx
        cases hb : Ebitmap.getBit ot' x.2
        · rfl
        · rcases (e3 x.2).1 hb with h | h
          · exact absurd h.symm (ht.1 x hx)
          · rw [h1 x (List.mem_cons_of_mem _ hx)] at h; cases h
      · intro x hx b hb
        rw [u2, Bool.or_eq_true] at hb
        rcases hb.1 with h | h
        · exact h2 x (List.mem_cons_of_mem _ hx) b ⟨h, hb.2⟩
        · exact hs.1 x hx b ⟨h, hb.2⟩
    · intro hm
      obtain ⟨b, hb⟩ := (Ebitmap.C03_relations hst hdw).2.2.1 hm
      exact h2 d (by simp) b hb

theorem inv_filename {f : FileTransP} (hf : FileTransFits f) (ho : ∀ d ∈ f.data, d.2 < 2 ^ 32 - 64) :
    Inv readFilename (writeFilename f) (some ((f.name, f.ttype, f.tclass), f.data)) := by
  unfold readFilename writeFilename
  refine inv_bind (inv_u32 (word_len hf.name)) ?_
  refine inv_bind (inv_str hf.name) ?_
  refine inv_bind (inv_u32 hf.key.1) ?_
  refine inv_bind (inv_u32 hf.key.2) ?_
  refine inv_bind (inv_u32 hf.count) ?_
  refine inv_reject (by rw [beq_eq_false_iff_ne]; intro h; exact hf.nonempty (List.length_eq_zero_iff.1 h)) ?_
  have hl := inv_timesId (r := (do
    let stypes ← ebm
    let otype ← u32
    Rd.pure (stypes, otype) : Rd (Ebitmap.Ebitmap × Nat))) (w := fun d : Ebitmap.Ebitmap × Nat => Ebitmap.write d.1 ++ w32 d.2) (l := f.data)
    fun d hd => inv_bind (inv_ebm (hf.data d hd).1) (inv_last (g := fun o => (d.1, o)) (inv_u32 (by have := ho d hd; unfold Word; omega)))
  have := inv_bind (f := fun data => (do
    Rd.reject (decide (f.data.length > 1) && !checkDatum data Ebitmap.init Ebitmap.init)
    Rd.pure (some ((f.name, f.ttype, f.tclass), data)) : Rd (Option ((Str × Nat × Nat) × List (Ebitmap.Ebitmap × Nat))))) (b' := []) hl
    (inv_reject (by
      rw [checkDatum_ok wf_init wf_init (fun d hd => ⟨(hf.data d hd).1, ho d hd⟩) hf.types hf.sources (fun d _ => getBit_init _)
        (fun d _ b h => by rw [getBit_init] at h; cases h.1)]
      simp) (inv_pure _))
  rwa [List.append_nil] at this

/-! ## Name-based transitions before version 33 -/

/-- The table in which `f` has the data `ds` so far. -/
def putFile (fs : List FileTransP) (f : FileTransP) (ds : List (Ebitmap.Ebitmap × Nat)) : List FileTransP :=
  if ds = [] then fs else fs ++ [{ f with data := ds }]

theorem filetransInsert_skip {fs gs : List FileTransP} {name : Str} {tt tc st ot : Nat}
    (h : ∀ g ∈ fs, ¬ (g.name = name ∧ g.ttype = tt ∧ g.tclass = tc)) :
    filetransInsert name tt tc st ot (fs ++ gs) = (filetransInsert name tt tc st ot gs).map fun r => (fs ++ r.1, r.2) := by
  induction fs with
  | nil => rw [List.nil_append]; cases filetransInsert name tt tc st ot gs <;> rfl
  | cons g fs ih =>
    rw [List.cons_append]
    show (if _ then _ else _) = _
    rw [if_neg (h g (by simp)), ih fun x hx => h x (List.mem_cons_of_mem _ hx), Option.map_map]
    rfl

theorem filetransInsert_put {fs : List FileTransP} {f : FileTransP} {ds ds' : List (Ebitmap.Ebitmap × Nat)} {st ot : Nat}
    (h : ∀ g ∈ fs, ¬ (g.name = f.name ∧ g.ttype = f.ttype ∧ g.tclass = f.tclass)) (hi : insertStype st ot ds = some (some ds'))
    (hne : ds' ≠ []) :
    filetransInsert f.name f.ttype f.tclass st ot (putFile fs f ds) = some (putFile fs f ds', 1) := by
  unfold putFile
  rw [if_neg hne]
  split
  · rename_i hd
    subst hd
    have := filetransInsert_skip (gs := []) (st := st) (ot := ot) h
    rw [List.append_nil] at this
    rw [this]
    simp only [insertStype, Option.some.injEq] at hi
    unfold filetransInsert
    cases hs : Ebitmap.setBit Ebitmap.init (st - 1) true with
    | none => rw [hs] at hi; cases hi
    | some e =>
      rw [hs] at hi
      simp only [Option.map_some, Option.some.injEq] at hi
      rw [← hi]; rfl
  · rw [filetransInsert_skip h]
    unfold filetransInsert
    rw [if_pos ⟨rfl, rfl, rfl⟩, hi]
    rfl

/-- The data to which a set with target type `o` is being added. -/
def putData (ds : List (Ebitmap.Ebitmap × Nat)) (e : Ebitmap.Ebitmap) (o : Nat) : List (Ebitmap.Ebitmap × Nat) :=
  if e = Ebitmap.init then ds else ds ++ [(e, o)]

theorem insertStype_skip {ds gs : List (Ebitmap.Ebitmap × Nat)} {b o : Nat} (h : ∀ d ∈ ds, Ebitmap.getBit d.1 b = false ∧ d.2 ≠ o) :
    insertStype (b + 1) o (ds ++ gs) = (insertStype (b + 1) o gs).map fun x => x.map fun l => ds ++ l := by
  induction ds with
  | nil =>
    rw [List.nil_append]
    cases insertStype (b + 1) o gs with
    | none => rfl
    | some x => cases x <;> rfl
  | cons d ds ih =>
    rw [List.cons_append]
    show (if Ebitmap.getBit d.1 b = true then _ else if _ then _ else _) = _
    rw [(h d (by simp)).1, if_neg (by simp), if_neg (h d (by simp)).2, ih fun x hx => h x (List.mem_cons_of_mem _ hx), Option.map_map]
    congr 1
    funext x
    cases x <;> rfl

theorem insertStype_put {ds : List (Ebitmap.Ebitmap × Nat)} {e : Ebitmap.Ebitmap} {b o : Nat} (h : ∀ d ∈ ds, Ebitmap.getBit d.1 b = false ∧ d.2 ≠ o)
    (he : Ebitmap.WF e) (hb : b < 2 ^ 32 - 64) (hn : Ebitmap.getBit e b = false) :
    ∃ e', Ebitmap.WF e' ∧ (∀ c, Ebitmap.getBit e' c = true ↔ c = b ∨ Ebitmap.getBit e c = true) ∧ e' ≠ Ebitmap.init ∧
      insertStype (b + 1) o (putData ds e o) = some (some (putData ds e' o)) := by
  obtain ⟨e', h1, h2, h3⟩ := setBit_spec he hb
  have hne : e' ≠ Ebitmap.init := by
    intro hc
    have := (h3 b).2 (Or.inl rfl)
    rw [hc, getBit_init] at this
    cases this
  refine ⟨e', h2, h3, hne, ?_⟩
  unfold putData
  rw [if_neg hne]
  split
  · rename_i hi
    have := insertStype_skip (gs := []) h
    rw [List.append_nil] at this
    rw [this]
    show some (((Ebitmap.setBit Ebitmap.init b true).map fun e => [(e, o)]).map _) = _
    rw [← hi, h1]
    rfl
  · rw [insertStype_skip h]
    show Option.map _ (if Ebitmap.getBit e b = true then _ else if o = o then some ((Ebitmap.setBit e b true).map fun e => (e, o) :: []) else _) = _
    rw [hn, if_neg (by simp), if_pos rfl, h1]
    rfl

/-- The numbers of source and new type in the order in which they are written. -/
def records (f : FileTransP) : List (Nat × Nat) := f.data.flatMap fun d => (posBits d.1).map fun b => (b, d.2)

/-- All of a loop of insertions. -/
def insAll (f : FileTransP) : List (Nat × Nat) → List FileTransP → Option (List FileTransP)
  | [], s => some s
  | r :: l, s =>
    match filetransInsert f.name f.ttype f.tclass (r.1 + 1) r.2 s with
    | some (s', 1) => insAll f l s'
    | _ => none

theorem insAll_append (f : FileTransP) (l l' : List (Nat × Nat)) (s : List FileTransP) :
    insAll f (l ++ l') s = (insAll f l s).bind (insAll f l') := by
  induction l generalizing s with
  | nil => rfl
  | cons r l ih =>
    rw [List.cons_append]
    unfold insAll
    split
    · exact ih _
    · rfl

/-- Adding the source types of one new type. -/
theorem insAll_bits {fs : List FileTransP} {f : FileTransP} {ds : List (Ebitmap.Ebitmap × Nat)} {o : Nat}
    (h : ∀ g ∈ fs, ¬ (g.name = f.name ∧ g.ttype = f.ttype ∧ g.tclass = f.tclass)) :
    ∀ (bs : List Nat) (e : Ebitmap.Ebitmap), Ebitmap.WF e → bs.Nodup → (∀ b ∈ bs, b < 2 ^ 32 - 64 ∧ Ebitmap.getBit e b = false ∧
      ∀ d ∈ ds, Ebitmap.getBit d.1 b = false ∧ d.2 ≠ o) →
    ∃ e', Ebitmap.WF e' ∧ (∀ c, Ebitmap.getBit e' c = true ↔ c ∈ bs ∨ Ebitmap.getBit e c = true) ∧
      insAll f (bs.map fun b => (b, o)) (putFile fs f (putData ds e o)) = some (putFile fs f (putData ds e' o))
  | [], e, he, _, _ => ⟨e, he, fun c => by simp, rfl⟩
  | b :: bs, e, he, hn, hb => by
    rw [List.nodup_cons] at hn
    obtain ⟨b1, b2, b3⟩ := hb b (by simp)
    obtain ⟨e1, w1, g1, n1, i1⟩ := insertStype_put b3 he b1 b2
    have hf := filetransInsert_put h i1 (by unfold putData; rw [if_neg n1]; simp)
    obtain ⟨e2, w2, g2, i2⟩ := insAll_bits (o := o) (ds := ds) h bs e1 w1 hn.2 (by
      intro c hc
      obtain ⟨c1, c2, c3⟩ := hb c (List.mem_cons_of_mem _ hc)
      refine ⟨c1, ?_, c3⟩
      cases hx : Ebitmap.getBit e1 c
      · rfl
      · rcases (g1 c).1 hx with h | h
        · subst h; exact absurd hc hn.1
        · rw [c2] at h; cases h)
    refine ⟨e2, w2, fun c => ?_, ?_⟩
    · rw [g2, g1, List.mem_cons]; tauto
    · rw [List.map_cons]
      unfold insAll
      rw [hf]
      exact i2

/-- Adding a whole entry. -/
theorem insAll_data {fs : List FileTransP} {f : FileTransP} (h : ∀ g ∈ fs, ¬ (g.name = f.name ∧ g.ttype = f.ttype ∧ g.tclass = f.tclass)) :
    ∀ (l ds : List (Ebitmap.Ebitmap × Nat)), (∀ d ∈ l, Ebitmap.WF d.1 ∧ ∃ b, Ebitmap.getBit d.1 b = true) →
    ((ds ++ l).Pairwise fun d e => d.2 ≠ e.2) →
    ((ds ++ l).Pairwise fun d e => ∀ b, ¬ (Ebitmap.getBit d.1 b = true ∧ Ebitmap.getBit e.1 b = true)) →
    insAll f (l.flatMap fun d => (posBits d.1).map fun b => (b, d.2)) (putFile fs f ds) = some (putFile fs f (ds ++ l))
  | [], ds, _, _, _ => by rw [List.append_nil]; rfl
  | d :: l, ds, hl, ht, hs => by
    obtain ⟨hw, b0, hb0⟩ := hl d (by simp)
    have ht1 := (List.pairwise_append.1 ht).2.2
    have hs1 := (List.pairwise_append.1 hs).2.2
    obtain ⟨e', w, g, i⟩ := insAll_bits (o := d.2) (ds := ds) h (posBits d.1) Ebitmap.init wf_init (posBits_nodup hw) (by
      intro b hb
      have hb := (mem_posBits hw b).1 hb
      refine ⟨bit_lt hw hb, getBit_init b, fun x hx => ⟨?_, ht1 x hx d (by simp)⟩⟩
      cases hc : Ebitmap.getBit x.1 b
      · rfl
      · exact absurd ⟨hc, hb⟩ (hs1 x hx d (by simp) b))
    have he : e' = d.1 := bitmap_ext w hw fun b => by
      rw [g, mem_posBits hw, getBit_init]; simp
    subst he
    rw [List.flatMap_cons, insAll_append]
    have hp0 : putData ds Ebitmap.init d.2 = ds := by unfold putData; rw [if_pos rfl]
    have hp1 : putData ds d.1 d.2 = ds ++ [d] := by
      unfold putData
      rw [if_neg]
      intro hc
      rw [hc, getBit_init] at hb0
      cases hb0
    rw [hp0, hp1] at i
    rw [i, Option.bind_some]
    have := insAll_data h l (ds ++ [d]) (fun x hx => hl x (List.mem_cons_of_mem _ hx)) (by rw [List.append_assoc]; exact ht)
      (by rw [List.append_assoc]; exact hs)
    rw [this, List.append_assoc]; rfl

theorem insAll_file {fs : List FileTransP} {f : FileTransP} (h : ∀ g ∈ fs, ¬ (g.name = f.name ∧ g.ttype = f.ttype ∧ g.tclass = f.tclass))
    (hf : FileTransFits f) : insAll f (records f) fs = some (fs ++ [f]) := by
  have := insAll_data h f.data [] hf.data (by rw [List.nil_append]; exact hf.types) (by rw [List.nil_append]; exact hf.sources)
  unfold putFile at this
  rw [if_pos rfl, List.nil_append, if_neg hf.nonempty] at this
  exact this

theorem records_length {f : FileTransP} (hf : FileTransFits f) : (records f).length = ruleCount f := by
  unfold records ruleCount
  rw [List.length_flatMap]
  congr 1
  refine List.map_congr_left fun d hd => ?_
  rw [List.length_map, posBits_length (hf.data d hd).1]

/-- One record. -/
def recordBytes (f : FileTransP) (r : Nat × Nat) : Bytes :=
  w32 f.name.length ++ (strBytes f.name ++ (w32 (r.1 + 1) ++ (w32 f.ttype ++ (w32 f.tclass ++ w32 r.2))))

theorem compat_bytes (f : FileTransP) : writeFilenameCompat f = (records f).flatMap (recordBytes f) := by
  unfold writeFilenameCompat records
  rw [List.flatMap_assoc]
  congr 1
  funext d
  rw [List.flatMap_map]
  rfl

/-- Reading the records of one entry. -/
theorem read_records {f : FileTransP} (hn : GoodName f.name) (hk : Word f.ttype ∧ Word f.tclass) :
    ∀ (l : List (Nat × Nat)) (m c : Nat) (s s' : List FileTransP) (rest : Bytes), (∀ r ∈ l, r.1 < 2 ^ 32 - 64 ∧ Word r.2) →
    insAll f l s = some s' →
    readFilenamesCompat (l.length + m) (s, c) (l.flatMap (recordBytes f) ++ rest) = readFilenamesCompat m (s', c + l.length) rest
  | [], m, c, s, s', rest, _, h => by
    simp only [insAll, Option.some.injEq] at h
    subst h
    simp
  | r :: l, m, c, s, s', rest, hr, h => by
    unfold insAll at h
    split at h
    · rename_i s1 hs1
      have hw := hr r (by simp)
      have ih := read_records hn hk l m (c + 1) s1 s' rest (fun x hx => hr x (List.mem_cons_of_mem _ hx)) h
      have hi : Inv (do
          let len ← u32
          let name ← strRead len
          let stype ← u32
          let ttype ← u32
          let tclass ← u32
          let otype ← u32
          Rd.reject (stype == 0)
          match filetransInsert name ttype tclass stype otype s with
          | none => Rd.fail
          | some r => Rd.pure (r.1, c + r.2) : Rd (List FileTransP × Nat)) (recordBytes f r) (s1, c + 1) := by
        refine inv_bind (inv_u32 (word_len hn)) (inv_bind (inv_str hn) (inv_bind (inv_u32 (by unfold Word; omega)) (inv_bind (inv_u32 hk.1)
          (inv_bind (inv_u32 hk.2) ?_))))
        have := inv_bind (f := fun otype => (do
          Rd.reject (r.1 + 1 == 0)
          match filetransInsert f.name f.ttype f.tclass (r.1 + 1) otype s with
          | none => Rd.fail
          | some r => Rd.pure (r.1, c + r.2) : Rd (List FileTransP × Nat))) (b' := []) (inv_u32 hw.2) (c := (s1, c + 1))
          (inv_reject rfl (by rw [hs1]; exact inv_pure _))
        rwa [List.append_nil] at this
      have hsplit : ∀ bs, readFilenamesCompat (l.length + m + 1) (s, c) bs = ((do
          let len ← u32
          let name ← strRead len
          let stype ← u32
          let ttype ← u32
          let tclass ← u32
          let otype ← u32
          Rd.reject (stype == 0)
          match filetransInsert name ttype tclass stype otype s with
          | none => Rd.fail
          | some r => Rd.pure (r.1, c + r.2) : Rd (List FileTransP × Nat)) bs).bind fun x => readFilenamesCompat (l.length + m) x.1 x.2 := by
        intro bs
        rw [readFilenamesCompat]
        show Rd.bind u32 _ bs = Option.bind (Rd.bind u32 _ bs) _
        unfold Rd.bind
        rw [Option.bind_assoc]
        congr 1; funext x1
        show Rd.bind (strRead x1.1) _ _ = Option.bind (Rd.bind (strRead x1.1) _ _) _
        unfold Rd.bind
        rw [Option.bind_assoc]
        congr 1; funext x2
        show Rd.bind u32 _ _ = Option.bind (Rd.bind u32 _ _) _
        unfold Rd.bind
        rw [Option.bind_assoc]
        congr 1; funext x3
        show Rd.bind u32 _ _ = Option.bind (Rd.bind u32 _ _) _
        unfold Rd.bind
        rw [Option.bind_assoc]
        congr 1; funext x4
        show Rd.bind u32 _ _ = Option.bind (Rd.bind u32 _ _) _
        unfold Rd.bind
        rw [Option.bind_assoc]
        congr 1; funext x5
        show Rd.bind u32 _ _ = Option.bind (Rd.bind u32 _ _) _
        unfold Rd.bind
        rw [Option.bind_assoc]
        congr 1; funext x6
        show Rd.bind (Rd.reject (x3.1 == 0)) _ _ = Option.bind (Rd.bind (Rd.reject (x3.1 == 0)) _ _) _
        unfold Rd.bind
        rw [Option.bind_assoc]
        congr 1; funext x7
        cases filetransInsert x2.1 x4.1 x5.1 x3.1 x6.1 s <;> rfl
      rw [List.length_cons, show l.length + 1 + m = l.length + m + 1 by omega, hsplit, List.flatMap_cons, List.append_assoc, hi, Option.bind_some, ih]
      congr 2
      omega
    · cases h

theorem read_files : ∀ (fs done : List FileTransP) (c : Nat), (∀ f ∈ fs, FileTransFits f ∧ ∀ d ∈ f.data, d.2 < 2 ^ 32 - 64) →
    ((done ++ fs).Pairwise fun f g => ¬ (f.name = g.name ∧ f.ttype = g.ttype ∧ f.tclass = g.tclass)) →
    Inv (readFilenamesCompat (fs.map ruleCount).sum (done, c)) (fs.flatMap writeFilenameCompat) (done ++ fs, c + (fs.map ruleCount).sum)
  | [], done, c, _, _ => by rw [List.append_nil]; exact inv_pure _
  | f :: fs, done, c, hf, hp => by
    intro rest
    obtain ⟨h1, h2⟩ := hf f (by simp)
    rw [List.map_cons, List.sum_cons, List.flatMap_cons, List.append_assoc, compat_bytes, ← records_length h1]
    rw [read_records h1.name h1.key (records f) _ c done (done ++ [f]) _ ?_ (insAll_file ?_ h1)]
    · have := read_files fs (done ++ [f]) (c + (records f).length) (fun x hx => hf x (List.mem_cons_of_mem _ hx))
        (by rw [List.append_assoc]; exact hp) rest
      rw [this, List.append_assoc]
      congr 3
      omega
    · intro r hr
      unfold records at hr
      obtain ⟨d, hd, hr⟩ := List.mem_flatMap.1 hr
      obtain ⟨b, hb, rfl⟩ := List.mem_map.1 hr
      exact ⟨bit_lt (h1.data d hd).1 ((mem_posBits (h1.data d hd).1 b).1 hb), by have := h2 d hd; unfold Word; omega⟩
    · intro g hg
      exact (List.pairwise_append.1 hp).2.2 g hg f (by simp)

theorem inv_filenameTrans {p : PolicyDb} (hw : Word p.filenameTrans.length ∧ Word p.filenameTransCount)
    (hsum : p.filenameTransCount = (p.filenameTrans.map ruleCount).sum)
    (hf : ∀ f ∈ p.filenameTrans, FileTransFits f ∧ ∀ d ∈ f.data, d.2 < 2 ^ 32 - 64)
    (hk : p.filenameTrans.Pairwise fun f g => ¬ (f.name = g.name ∧ f.ttype = g.ttype ∧ f.tclass = g.tclass)) :
    Inv (readFilenameTrans p.version) (writeFilenameTrans p) (p.filenameTrans, p.filenameTransCount) := by
  unfold readFilenameTrans writeFilenameTrans
  split
  · refine inv_bind (inv_u32 hw.2) ?_
    have := read_files p.filenameTrans [] 0 hf (by rw [List.nil_append]; exact hk)
    rw [List.nil_append, Nat.zero_add, ← hsum] at this
    exact this
  · refine inv_bind (inv_u32 hw.1) ?_
    have key := inv_table (r := readFilename) (w := writeFilename) (g := fun f => some ((f.name, f.ttype, f.tclass), f.data)) (l := p.filenameTrans)
      (t := []) (fun f h => inv_filename (hf f h).1 (hf f h).2) (by
        rw [List.nil_append, List.filterMap_eq_map', List.map_map]
        unfold List.Nodup
        rw [List.pairwise_map]
        refine hk.imp fun {s t} hn he => hn ?_
        have he : (s.name, s.ttype, s.tclass) = (t.name, t.ttype, t.tclass) := he
        rw [Prod.mk.injEq, Prod.mk.injEq] at he
        exact he)
    refine inv_congr (inv_last (g := fun t : List ((Str × Nat × Nat) × List (Ebitmap.Ebitmap × Nat)) =>
      (t.map (fun e => (⟨e.1.1, e.1.2.1, e.1.2.2, e.2⟩ : FileTransP)), (t.map fun e => (e.2.map fun d => Ebitmap.cardinality d.1).sum).sum)) key) rfl ?_
    rw [List.nil_append, List.filterMap_eq_map', List.map_map, List.map_map, hsum]
    congr 1
    exact (List.map_id _).symm

end Verif.PolicyIO
