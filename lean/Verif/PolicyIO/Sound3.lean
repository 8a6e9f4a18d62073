import Verif.PolicyIO.Sound2

/-! # What is known of the transitions, contexts and maps that are read -/

namespace Verif.PolicyIO
open Verif.Policy Verif.Services Verif.Validate

theorem sound_roleTrans : Sound readRoleTrans fun _ => True := by
  unfold readRoleTrans
  exact sound_bind sound_u32 fun n => sound_mono (sound_times (P := fun _ => True) (sound_bind sound_u32 fun _ => sound_bind sound_u32 fun _ =>
    sound_bind sound_u32 fun _ => sound_bind sound_u32 fun _ => sound_pure fun _ _ _ _ => trivial) n) fun _ _ _ => trivial

theorem sound_roleAllow : Sound readRoleAllow fun _ => True := by
  unfold readRoleAllow
  exact sound_bind sound_u32 fun n => sound_mono (sound_times (P := fun _ => True) (sound_bind sound_u32 fun _ => sound_bind sound_u32 fun _ =>
    sound_pure fun _ _ => trivial) n) fun _ _ _ => trivial

/-! ## Name-based transitions -/

theorem setBit_inv {e e' : Ebitmap.Ebitmap} (h : Ebitmap.WF e) {b : Nat} (hb : b < 2 ^ 32) (hs : Ebitmap.setBit e b true = some e') :
    Ebitmap.WF e' ∧ ∀ c, Ebitmap.getBit e' c = true ↔ c = b ∨ Ebitmap.getBit e c = true := by
  by_cases hlt : b < 2 ^ 32 - 64
  · obtain ⟨f, f1, f2, f3⟩ := setBit_spec h hlt
    rw [hs, Option.some.injEq] at f1
    subst f1
    exact ⟨f2, f3⟩
  · rw [(Ebitmap.C01_set_bit h b hb true).2 (by omega)] at hs
    cases hs

theorem checkDatum_inv : ∀ {l : List (Ebitmap.Ebitmap × Nat)} {st ot : Ebitmap.Ebitmap}, Ebitmap.WF st → Ebitmap.WF ot →
    (∀ d ∈ l, Ebitmap.WF d.1 ∧ d.2 < 2 ^ 32) → checkDatum l st ot = true →
    (l.Pairwise fun d e => d.2 ≠ e.2) ∧
    (l.Pairwise fun d e => ∀ b, ¬ (Ebitmap.getBit d.1 b = true ∧ Ebitmap.getBit e.1 b = true)) ∧
    (∀ d ∈ l, Ebitmap.getBit ot d.2 = false) ∧ (∀ d ∈ l, ∀ b, ¬ (Ebitmap.getBit st b = true ∧ Ebitmap.getBit d.1 b = true))
  | [], _, _, _, _, _, _ => ⟨List.Pairwise.nil, List.Pairwise.nil, by simp, by simp⟩
  | d :: l, st, ot, hst, hot, hd, h => by
    obtain ⟨hdw, hdb⟩ := hd d (by simp)
    unfold checkDatum at h
    cases ho : Ebitmap.getBit ot d.2 with
    | true => rw [ho, if_pos rfl] at h; cases h
    | false =>
      rw [ho, if_neg (by simp)] at h
      cases hs : Ebitmap.setBit ot d.2 true with
      | none => rw [hs] at h; cases h
      | some ot' =>
        rw [hs] at h
        simp only at h
        obtain ⟨o1, o2⟩ := setBit_inv hot hdb hs
        cases hm : Ebitmap.matchAny st d.1 with
        | true => rw [hm, if_pos rfl] at h; cases h
        | false =>
          rw [hm, if_neg (by simp)] at h
          obtain ⟨u1, u2⟩ := (Ebitmap.C02_or_and_xor hst hdw).2.1
          obtain ⟨i1, i2, i3, i4⟩ := checkDatum_inv u1 o1 (fun x hx => hd x (List.mem_cons_of_mem _ hx)) h
          have hst' : ∀ b, ¬ (Ebitmap.getBit st b = true ∧ Ebitmap.getBit d.1 b = true) := by
            intro b hb
            have := (Ebitmap.C03_relations hst hdw).2.2.2 ⟨b, hb⟩
            rw [hm] at this; cases this
          refine ⟨List.pairwise_cons.2 ⟨fun x hx he => ?_, i1⟩, List.pairwise_cons.2 ⟨fun x hx b hb => ?_, i2⟩, ?_, ?_⟩
          · have := i3 x hx
            rw [(o2 x.2).2 (Or.inl he.symm)] at this
            cases this
          · exact i4 x hx b ⟨by rw [u2, hb.1, Bool.or_true], hb.2⟩
          · intro x hx
            rcases List.mem_cons.1 hx with rfl | hx
            · exact ho
            · cases hb : Ebitmap.getBit ot x.2 with
              | false => rfl
              | true =>
                have := i3 x hx
                rw [(o2 x.2).2 (Or.inr hb)] at this
                cases this
          · intro x hx b hb
            rcases List.mem_cons.1 hx with rfl | hx
            · exact hst' b hb
            · exact i4 x hx b ⟨by rw [u2, hb.1, Bool.true_or], hb.2⟩

/-- What is known of the data of an entry. -/
structure DataRead (strict : Prop) (l : List (Ebitmap.Ebitmap × Nat)) : Prop where
  nonempty : l ≠ []
  wf : ∀ d ∈ l, Ebitmap.WF d.1
  types : l.Pairwise fun d e => d.2 ≠ e.2
  sources : strict → l.Pairwise fun d e => ∀ b, ¬ (Ebitmap.getBit d.1 b = true ∧ Ebitmap.getBit e.1 b = true)

theorem sound_filename : Sound readFilename fun o => ∀ e, o = some e → DataRead True e.2 := by
  unfold readFilename
  refine sound_bind sound_u32 fun _ => sound_bind (sound_str _) fun _ => sound_bind sound_u32 fun _ => sound_bind sound_u32 fun _ =>
    sound_bind sound_u32 fun n => sound_reject ?_
  refine sound_bind (sound_times (P := fun d : Ebitmap.Ebitmap × Nat => Ebitmap.WF d.1 ∧ Word d.2) (sound_bind sound_ebm fun _ => sound_bind sound_u32 fun _ =>
    sound_pure fun h1 h2 => ⟨h2, h1⟩) n) fun l => sound_reject (sound_pure ?_)
  rintro hc ⟨hl, hd⟩ hn - - - - - e he
  rw [Option.some.injEq] at he
  subst he
  have hne : l ≠ [] := by
    rintro rfl
    rw [beq_eq_false_iff_ne] at hn
    exact hn hl.symm
  by_cases h1 : n > 1
  · have hcd : checkDatum l Ebitmap.init Ebitmap.init = true := by
      cases h : checkDatum l Ebitmap.init Ebitmap.init with
      | true => rfl
      | false => rw [h, decide_eq_true h1] at hc; cases hc
    obtain ⟨i1, i2, -, -⟩ := checkDatum_inv wf_init wf_init (fun d h => hd d h) hcd
    exact ⟨hne, fun d h => (hd d h).1, i1, fun _ => i2⟩
  · have hlen : l.length = 1 := by
      have : l.length ≠ 0 := fun h => hne (List.length_eq_zero_iff.1 h)
      omega
    obtain ⟨d, rfl⟩ := List.length_eq_one_iff.1 hlen
    exact ⟨hne, fun d h => (hd d h).1, List.pairwise_singleton _ _, fun _ => List.pairwise_singleton _ _⟩

theorem countP_set {f g : Nat → Bool} {b : Nat} (hf : f b = false) (h : ∀ c, g c = true ↔ c = b ∨ f c = true) (n : Nat) :
    (List.range n).countP g = (List.range n).countP f + if b < n then 1 else 0 := by
  induction n with
  | zero => rfl
  | succ n ih =>
    rw [List.range_succ, List.countP_append, List.countP_append, ih]
    simp only [List.countP_cons, List.countP_nil]
    by_cases hn : n = b
    · subst hn
      rw [if_pos ((h n).2 (Or.inl rfl)), hf, if_neg (Nat.lt_irrefl _), if_pos (Nat.lt_succ_self _)]
      simp
    · have e : g n = f n := by
        have := h n
        cases hg : g n <;> cases hf' : f n <;> simp_all
      rw [e]
      by_cases hb : b < n
      · have h2 : b < n + 1 := by omega
        simp only [if_pos hb, if_pos h2]; omega
      · have h2 : ¬ b < n + 1 := by omega
        simp only [if_neg hb, if_neg h2]; omega

theorem setBit_card {e e' : Ebitmap.Ebitmap} (h : Ebitmap.WF e) {b : Nat} (hb : b < 2 ^ 32) (hs : Ebitmap.setBit e b true = some e')
    (hg : Ebitmap.getBit e b = false) : Ebitmap.cardinality e' = Ebitmap.cardinality e + 1 := by
  obtain ⟨h1, h2⟩ := setBit_inv h hb hs
  rw [Ebitmap.C03_cardinality h1, Ebitmap.C03_cardinality h, countP_set hg h2, if_pos hb]

theorem insertStype_inv {stype otype : Nat} (hs : stype < 2 ^ 32) : ∀ {l l' : List (Ebitmap.Ebitmap × Nat)},
    insertStype stype otype l = some (some l') → (∀ d ∈ l, Ebitmap.WF d.1) → (l.Pairwise fun d e => d.2 ≠ e.2) →
    l' ≠ [] ∧ (∀ d ∈ l', Ebitmap.WF d.1) ∧ (l'.Pairwise fun d e => d.2 ≠ e.2) ∧ (∀ x ∈ l'.map (·.2), x = otype ∨ x ∈ l.map (·.2)) ∧
    (l'.map fun d => Ebitmap.cardinality d.1).sum = (l.map fun d => Ebitmap.cardinality d.1).sum + 1
  | [], l', h, _, _ => by
    unfold insertStype at h
    rw [Option.some.injEq, Option.map_eq_some_iff] at h
    obtain ⟨e, h1, rfl⟩ := h
    obtain ⟨g1, -⟩ := setBit_inv wf_init (by omega) h1
    refine ⟨by simp, by simpa using g1, by simp, by simp, ?_⟩
    have := setBit_card wf_init (b := stype - 1) (by omega) h1 (by simp [Ebitmap.getBit, Ebitmap.init, Ebitmap.getBitNodes])
    simp only [List.map_cons, List.map_nil, List.sum_cons, List.sum_nil]
    rw [this]
    rfl
  | d :: l, l', h, hw, hp => by
    unfold insertStype at h
    rw [List.pairwise_cons] at hp
    split at h
    · cases h
    · rename_i hbit
      split at h
      · rename_i ho
        rw [Option.some.injEq, Option.map_eq_some_iff] at h
        obtain ⟨e, h1, rfl⟩ := h
        obtain ⟨g1, -⟩ := setBit_inv (hw d (by simp)) (by omega) h1
        refine ⟨by simp, ?_, List.pairwise_cons.2 ⟨fun x hx => ?_, hp.2⟩, ?_, ?_⟩
        · intro x hx
          rcases List.mem_cons.1 hx with rfl | hx
          · exact g1
          · exact hw x (List.mem_cons_of_mem _ hx)
        · rw [← ho]; exact hp.1 x hx
        · intro x hx
          rw [List.map_cons, List.mem_cons] at hx
          rcases hx with rfl | hx
          · exact Or.inl rfl
          · exact Or.inr (List.mem_cons_of_mem _ hx)
        · have := setBit_card (hw d (by simp)) (b := stype - 1) (by omega) h1 (by simpa using hbit)
          simp only [List.map_cons, List.sum_cons, this]
          omega
      · rename_i ho
        rw [Option.map_eq_some_iff] at h
        obtain ⟨o, h1, h2⟩ := h
        rw [Option.map_eq_some_iff] at h2
        obtain ⟨l1, rfl, rfl⟩ := h2
        obtain ⟨g1, g2, g3, g4, g5⟩ := insertStype_inv hs h1 (fun x hx => hw x (List.mem_cons_of_mem _ hx)) hp.2
        refine ⟨by simp, ?_, List.pairwise_cons.2 ⟨fun x hx he => ?_, g3⟩, ?_, by simp only [List.map_cons, List.sum_cons, g5]; omega⟩
        · intro x hx
          rcases List.mem_cons.1 hx with rfl | hx
          · exact hw x (by simp)
          · exact g2 x hx
        · rcases g4 x.2 (List.mem_map_of_mem hx) with h | h
          · exact ho (he.trans h)
          · obtain ⟨y, hy, hye⟩ := List.mem_map.1 h
            exact hp.1 y hy (he.trans hye.symm)
        · intro x hx
          rw [List.map_cons, List.mem_cons] at hx
          rcases hx with rfl | hx
          · exact Or.inr (by simp)
          · rcases g4 x hx with h | h
            · exact Or.inl h
            · exact Or.inr (List.mem_cons_of_mem _ h)

/-- What is known of the entries. -/
structure FilesRead (strict : Prop) (l : List FileTransP) : Prop where
  data : ∀ f ∈ l, DataRead strict f.data
  keys : l.Pairwise fun f g => ¬ (f.name = g.name ∧ f.ttype = g.ttype ∧ f.tclass = g.tclass)

theorem filetransInsert_inv {name : Str} {tt tc st ot : Nat} (hs : st < 2 ^ 32) : ∀ {l : List FileTransP} {r : List FileTransP × Nat},
    filetransInsert name tt tc st ot l = some r → FilesRead False l →
    (FilesRead False r.1 ∧ (r.1.map ruleCount).sum = (l.map ruleCount).sum + r.2) ∧ ∀ g ∈ r.1, (g.name = name ∧ g.ttype = tt ∧ g.tclass = tc) ∨ ∃ f ∈ l, g.name = f.name ∧ g.ttype = f.ttype ∧ g.tclass = f.tclass
  | [], r, h, _ => by
    unfold filetransInsert at h
    rw [Option.map_eq_some_iff] at h
    obtain ⟨e, h1, rfl⟩ := h
    obtain ⟨g1, -⟩ := setBit_inv wf_init (by omega) h1
    refine ⟨⟨⟨?_, List.pairwise_singleton _ _⟩, ?_⟩, ?_⟩
    · intro f hf
      rw [List.mem_singleton] at hf
      subst hf
      exact ⟨by simp, by simpa using g1, by simp, fun h => h.elim⟩
    · have := setBit_card wf_init (b := st - 1) (by omega) h1 (by simp [Ebitmap.getBit, Ebitmap.init, Ebitmap.getBitNodes])
      simp only [List.map_cons, List.map_nil, List.sum_cons, List.sum_nil, ruleCount]
      rw [this]
      rfl
    · intro g hg
      rw [List.mem_singleton] at hg
      subst hg
      exact Or.inl ⟨rfl, rfl, rfl⟩
  | f :: l, r, h, hf => by
    unfold filetransInsert at h
    obtain ⟨hd, hk⟩ := hf
    rw [List.pairwise_cons] at hk
    split at h
    · rename_i hkey
      cases hi : insertStype st ot f.data with
      | none =>
        rw [hi] at h
        simp only [Option.some.injEq] at h
        subst h
        exact ⟨⟨⟨hd, List.pairwise_cons.2 hk⟩, rfl⟩, fun g hg => Or.inr ⟨g, hg, rfl, rfl, rfl⟩⟩
      | some o =>
        rw [hi] at h
        cases o with
        | none => cases h
        | some data =>
          simp only [Option.some.injEq] at h
          subst h
          have hdf := hd f (by simp)
          obtain ⟨g1, g2, g3, -, g5⟩ := insertStype_inv hs hi hdf.wf hdf.types
          refine ⟨⟨⟨?_, List.pairwise_cons.2 hk⟩, by simp only [List.map_cons, List.sum_cons, ruleCount, g5]; omega⟩, ?_⟩
          · intro g hg
            rcases List.mem_cons.1 hg with rfl | hg
            · exact ⟨g1, g2, g3, fun h => h.elim⟩
            · exact hd g (List.mem_cons_of_mem _ hg)
          · intro g hg
            rcases List.mem_cons.1 hg with rfl | hg
            · exact Or.inl hkey
            · exact Or.inr ⟨g, List.mem_cons_of_mem _ hg, rfl, rfl, rfl⟩
    · rename_i hkey
      rw [Option.map_eq_some_iff] at h
      obtain ⟨s, h1, rfl⟩ := h
      obtain ⟨⟨⟨i1, i2⟩, i4⟩, i3⟩ := filetransInsert_inv hs h1 ⟨fun g hg => hd g (List.mem_cons_of_mem _ hg), hk.2⟩
      refine ⟨⟨⟨?_, List.pairwise_cons.2 ⟨?_, i2⟩⟩, by simp only [List.map_cons, List.sum_cons, i4]; omega⟩, ?_⟩
      · intro g hg
        rcases List.mem_cons.1 hg with rfl | hg
        · exact hd g (by simp)
        · exact i1 g hg
      · intro g hg hc
        rcases i3 g hg with h | ⟨y, hy, h⟩
        · exact hkey ⟨hc.1.trans h.1, hc.2.1.trans h.2.1, hc.2.2.trans h.2.2⟩
        · exact hk.1 y hy ⟨hc.1.trans h.1, hc.2.1.trans h.2.1, hc.2.2.trans h.2.2⟩
      · intro g hg
        rcases List.mem_cons.1 hg with rfl | hg
        · exact Or.inr ⟨g, by simp, rfl, rfl, rfl⟩
        · rcases i3 g hg with h | ⟨y, hy, h⟩
          · exact Or.inl h
          · exact Or.inr ⟨y, List.mem_cons_of_mem _ hy, h⟩

theorem sound_compat : ∀ n s, Sound (readFilenamesCompat n s) fun r =>
    FilesRead False s.1 ∧ s.2 = (s.1.map ruleCount).sum → FilesRead False r.1 ∧ r.2 = (r.1.map ruleCount).sum
  | 0, s => sound_pure fun h => h
  | n + 1, s => by
    unfold readFilenamesCompat
    refine sound_bind sound_u32 fun _ => sound_bind (sound_str _) fun name => sound_bind sound_u32 fun st => sound_bind sound_u32 fun tt =>
      sound_bind sound_u32 fun tc => sound_bind sound_u32 fun ot => sound_reject ?_
    cases hi : filetransInsert name tt tc st ot s.1 with
    | none => exact sound_fail
    | some r =>
      refine sound_mono (sound_compat n _) fun q h _ _ _ _ hst _ _ hs => ?_
      have := (filetransInsert_inv hst hi hs.1).1
      exact h ⟨this.1, by dsimp only; rw [this.2, hs.2]⟩

theorem sound_filenameTrans (version : Nat) : Sound (readFilenameTrans version) fun r => FilesRead (33 ≤ version) r.1 ∧ r.2 = (r.1.map ruleCount).sum := by
  unfold readFilenameTrans
  refine sound_bind sound_u32 fun n => sound_ite (fun hv => ?_) fun hv => ?_
  · refine sound_mono (sound_compat n ([], 0)) fun r h _ => ?_
    obtain ⟨⟨h1, h2⟩, h3⟩ := h ⟨⟨by simp, List.Pairwise.nil⟩, rfl⟩
    exact ⟨⟨fun f hf => ⟨(h1 f hf).nonempty, (h1 f hf).wf, (h1 f hf).types, fun h => by omega⟩, h2⟩, h3⟩
  · refine sound_bind (sound_table sound_filename n []) fun t => sound_pure fun h _ => ?_
    obtain ⟨h1, h2, -⟩ := h (by simp) List.nodup_nil
    refine ⟨⟨?_, ?_⟩, by rw [List.map_map]; rfl⟩
    · intro f hf
      obtain ⟨e, he, rfl⟩ := List.mem_map.1 hf
      have := h1 e he
      exact ⟨this.nonempty, this.wf, this.types, fun _ => this.sources trivial⟩
    · rw [List.pairwise_map]
      rw [List.Nodup, List.pairwise_map] at h2
      refine h2.imp fun {a b} hab hc => hab ?_
      obtain ⟨⟨a1, a2, a3⟩, a4⟩ := a
      obtain ⟨⟨b1, b2, b3⟩, b4⟩ := b
      simp only at hc ⊢
      rw [hc.1, hc.2.1, hc.2.2]

/-! ## Contexts -/

/-- What is known of an entry of a list of contexts. -/
def OconRead (valid : Context → Bool) (target i : Nat) (o : OconP) : Prop :=
  (RangeWf o.context0.range ∧ RangeWf o.context1.range) ∧ valid o.context0 = true ∧ (target = 0 → i = 1 ∨ i = 3 → valid o.context1 = true)

theorem oconRead_one {valid : Context → Bool} {target i : Nat} {o : OconP} (h0 : ContextFits o.context0 ∧ valid o.context0 = true)
    (h1 : o.context1 = emptyContext) (hi : ¬ (target = 0 ∧ (i = 1 ∨ i = 3))) : OconRead valid target i o :=
  ⟨⟨range_wf h0.1.2.2.2, by rw [h1]; exact ⟨wf_init, wf_init⟩⟩, h0.2, fun ht h => absurd ⟨ht, h⟩ hi⟩

theorem sound_oconSelinux (valid : Context → Bool) (i : Nat) : Sound (readOconSelinux valid i) (OconRead valid 0 i) := by
  unfold readOconSelinux
  split
  · exact sound_bind sound_u32 fun _ => sound_reject (sound_bind (sound_context valid) fun _ => sound_pure fun h _ _ => oconRead_one h rfl (by omega))
  · exact sound_bind sound_u32 fun _ => sound_bind sound_u32 fun _ => sound_bind sound_u32 fun _ => sound_bind (sound_context valid) fun _ =>
      sound_pure fun h _ _ _ => oconRead_one h rfl (by omega)
  · exact sound_bind (sound_raw _) fun _ => sound_bind (sound_raw _) fun _ => sound_bind (sound_context valid) fun _ =>
      sound_pure fun h _ _ => oconRead_one h rfl (by omega)
  · exact sound_bind sound_u32 fun _ => sound_bind sound_u32 fun _ => sound_bind (sound_str _) fun _ => sound_bind (sound_context valid) fun _ =>
      sound_pure fun h _ _ _ => oconRead_one h rfl (by omega)
  · exact sound_bind (sound_raw _) fun _ => sound_bind (sound_raw _) fun _ => sound_bind (sound_context valid) fun _ =>
      sound_pure fun h _ _ => oconRead_one h rfl (by omega)
  · exact sound_bind (sound_raw _) fun _ => sound_bind sound_u32 fun _ => sound_bind sound_u32 fun _ => sound_reject (sound_bind (sound_context valid) fun _ =>
      sound_pure fun h _ _ _ _ => oconRead_one h rfl (by omega))
  · exact sound_bind sound_u32 fun _ => sound_bind sound_u32 fun _ => sound_reject (sound_reject (sound_bind (sound_str _) fun _ =>
      sound_bind (sound_context valid) fun _ => sound_pure fun h _ _ _ _ _ => oconRead_one h rfl (by omega)))
  · exact sound_bind sound_u32 fun _ => sound_reject (sound_bind (sound_str _) fun _ => sound_bind (sound_context valid) fun _ =>
      sound_bind (sound_context valid) fun _ => sound_pure fun h1 h0 _ _ _ => ⟨⟨range_wf h0.1.2.2.2, range_wf h1.1.2.2.2⟩, h0.2, fun _ _ => h1.2⟩)

theorem sound_oconXen (valid : Context → Bool) (target i : Nat) (ht : target ≠ 0) : Sound (readOconXen valid i) (OconRead valid target i) := by
  unfold readOconXen
  split
  · exact sound_bind sound_u32 fun _ => sound_reject (sound_bind (sound_context valid) fun _ => sound_pure fun h _ _ => oconRead_one h rfl (by omega))
  · exact sound_bind sound_u32 fun _ => sound_bind (sound_context valid) fun _ => sound_pure fun h _ => oconRead_one h rfl (by omega)
  · exact sound_bind sound_u32 fun _ => sound_bind sound_u32 fun _ => sound_bind (sound_context valid) fun _ =>
      sound_pure fun h _ _ => oconRead_one h rfl (by omega)
  · exact sound_bind sound_u64 fun _ => sound_bind sound_u64 fun _ => sound_bind (sound_context valid) fun _ =>
      sound_pure fun h _ _ => oconRead_one h rfl (by omega)
  · exact sound_bind sound_u32 fun _ => sound_bind (sound_context valid) fun _ => sound_pure fun h _ => oconRead_one h rfl (by omega)
  · exact sound_bind sound_u32 fun _ => sound_bind (sound_str _) fun _ => sound_bind (sound_context valid) fun _ =>
      sound_pure fun h _ _ => oconRead_one h rfl (by omega)

theorem sound_ocons (valid : Context → Bool) (target i : Nat) : Sound (readOcons valid target i) fun l => ∀ o ∈ l, OconRead valid target i o := by
  unfold readOcons
  refine sound_bind sound_u32 fun n => ?_
  by_cases ht : target = 0
  · subst ht
    rw [if_pos rfl]
    exact sound_mono (sound_times (sound_oconSelinux valid i) n) fun l h _ => h.2
  · rw [if_neg ht]
    exact sound_mono (sound_times (sound_oconXen valid target i ht) n) fun l h _ => h.2

theorem sound_oconLists (valid : Context → Bool) (target : Nat) : ∀ i n, Sound (readOconLists valid target i n) fun ls =>
    ls.length = n ∧ ∀ k, ∀ o ∈ nthList ls k, OconRead valid target (i + k) o
  | i, 0 => sound_pure ⟨rfl, fun k o ho => by simp [nthList] at ho⟩
  | i, n + 1 => by
    refine sound_bind (sound_ocons valid target i) fun l => sound_bind (sound_oconLists valid target (i + 1) n) fun r => sound_pure fun h1 h2 => ?_
    refine ⟨by rw [List.length_cons, h1.1], fun k o ho => ?_⟩
    cases k with
    | zero => exact h2 o (by simpa [nthList] using ho)
    | succ k =>
      have := h1.2 k o (by simpa [nthList] using ho)
      rwa [Nat.add_assoc, Nat.add_comm 1 k] at this

/-! ## Paths -/

theorem strLt_irrefl : ∀ s : Str, strLt s s = false
  | [] => rfl
  | c :: s => by unfold strLt; rw [if_neg (by omega), if_neg (by omega)]; exact strLt_irrefl s

theorem strLt_trans : ∀ {a b c : Str}, strLt a b = true → strLt b c = true → strLt a c = true
  | [], [], _, h, _ => by cases h
  | [], _ :: _, [], _, h => by cases h
  | [], _ :: _, _ :: _, _, _ => rfl
  | _ :: _, [], _, h, _ => by cases h
  | _ :: _, _ :: _, [], _, h => by cases h
  | x :: a, y :: b, z :: c, h1, h2 => by
    unfold strLt at h1 h2 ⊢
    by_cases hxy : x.toNat < y.toNat
    · by_cases hyz : y.toNat < z.toNat
      · rw [if_pos (by omega)]
      · rw [if_neg hyz] at h2
        by_cases hzy : z.toNat < y.toNat
        · rw [if_pos hzy] at h2; cases h2
        · rw [if_pos (by omega)]
    · rw [if_neg hxy] at h1
      by_cases hyx : y.toNat < x.toNat
      · rw [if_pos hyx] at h1; cases h1
      · rw [if_neg hyx] at h1
        by_cases hyz : y.toNat < z.toNat
        · rw [if_pos (by omega)]
        · rw [if_neg hyz] at h2
          by_cases hzy : z.toNat < y.toNat
          · rw [if_pos hzy] at h2; cases h2
          · rw [if_neg hzy] at h2
            rw [if_neg (by omega), if_neg (by omega)]
            exact strLt_trans h1 h2

theorem strLt_total : ∀ {a b : Str}, a ≠ b → strLt a b = false → strLt b a = true
  | [], [], h, _ => absurd rfl h
  | [], _ :: _, _, h => by cases h
  | _ :: _, [], _, _ => rfl
  | x :: a, y :: b, hne, h => by
    unfold strLt at h ⊢
    by_cases hxy : x.toNat < y.toNat
    · rw [if_pos hxy] at h; cases h
    · rw [if_neg hxy] at h
      by_cases hyx : y.toNat < x.toNat
      · rw [if_pos hyx]
      · rw [if_neg hyx] at h
        rw [if_neg hyx, if_neg hxy]
        have : x = y := Char.toNat_inj.1 (by omega)
        subst this
        exact strLt_total (fun hc => hne (by rw [hc])) h

/-- The entries of a file system: longer paths first, none twice. -/
def EntriesRead (valid : Context → Bool) (l : List GenfsEntry) : Prop :=
  (∀ e ∈ l, ContextFits e.context ∧ valid e.context = true) ∧
  (l.Pairwise fun a b => b.name.length ≤ a.name.length ∧ (a.name = b.name → a.sclass ≠ b.sclass ∧ a.sclass ≠ 0 ∧ b.sclass ≠ 0))

theorem genfsInsert_inv {e : GenfsEntry} : ∀ {l l' : List GenfsEntry}, genfsInsert e l = some l' →
    (l.Pairwise fun a b => b.name.length ≤ a.name.length ∧ (a.name = b.name → a.sclass ≠ b.sclass ∧ a.sclass ≠ 0 ∧ b.sclass ≠ 0)) →
    l'.Perm (e :: l) ∧
    l'.Pairwise fun a b => b.name.length ≤ a.name.length ∧ (a.name = b.name → a.sclass ≠ b.sclass ∧ a.sclass ≠ 0 ∧ b.sclass ≠ 0)
  | [], l', h, _ => by
    simp only [genfsInsert, Option.some.injEq] at h
    subst h
    exact ⟨List.Perm.refl _, List.pairwise_singleton _ _⟩
  | c :: l, l', h, hp => by
    have hp' := hp
    rw [List.pairwise_cons] at hp
    unfold genfsInsert at h
    split at h
    · cases h
    · rename_i hne
      split at h
      · rename_i hlen
        rw [Option.some.injEq] at h
        subst h
        refine ⟨List.Perm.refl _, List.pairwise_cons.2 ⟨fun x hx => ?_, hp'⟩⟩
        have hx : x.name.length ≤ c.name.length := by
          rcases List.mem_cons.1 hx with rfl | hx
          · omega
          · exact (hp.1 x hx).1
        refine ⟨by omega, fun he => ?_⟩
        rw [he] at hlen
        omega
      · rename_i hlen
        rw [Option.map_eq_some_iff] at h
        obtain ⟨l1, h1, rfl⟩ := h
        obtain ⟨g1, g2⟩ := genfsInsert_inv h1 hp.2
        refine ⟨(g1.cons c).trans (List.Perm.swap e c l), List.pairwise_cons.2 ⟨fun x hx => ?_, g2⟩⟩
        rcases List.mem_cons.1 (g1.mem_iff.1 hx) with rfl | hx
        · refine ⟨by omega, fun he => ?_⟩
          by_contra hc
          apply hne
          refine ⟨he.symm, ?_⟩
          by_cases c1 : c.sclass = 0
          · exact Or.inl c1
          · by_cases c2 : x.sclass = 0
            · exact Or.inr (Or.inl c2)
            · refine Or.inr (Or.inr ?_)
              by_contra c3
              exact hc ⟨fun h => c3 h.symm, c1, c2⟩
        · exact hp.1 x hx

theorem sound_entries (valid : Context → Bool) : ∀ n h, Sound (readGenfsEntries valid n h) fun l => EntriesRead valid h → EntriesRead valid l
  | 0, h => sound_pure fun h => h
  | n + 1, h => by
    unfold readGenfsEntries
    refine sound_bind sound_u32 fun _ => sound_bind (sound_str _) fun name => sound_bind sound_u32 fun sc => sound_bind (sound_context valid) fun c => ?_
    cases hi : genfsInsert ⟨name, sc, c⟩ h with
    | none => exact sound_fail
    | some h' =>
      refine sound_mono (sound_entries valid n h') fun l hl hc _ _ _ hh => hl ?_
      obtain ⟨g1, g2⟩ := genfsInsert_inv hi hh.2
      refine ⟨fun e he => ?_, g2⟩
      rcases List.mem_cons.1 (g1.mem_iff.1 he) with rfl | he
      · exact hc
      · exact hh.1 e he

theorem genfsSplit_inv {fstype : Str} : ∀ {g : List GenfsP} {r : List GenfsP × List GenfsP}, genfsSplit fstype g = some r →
    (g.Pairwise fun a b => strLt a.fstype b.fstype = true) →
    g = r.1 ++ r.2 ∧ (∀ a ∈ r.1, strLt a.fstype fstype = true) ∧ ∀ b ∈ r.2, strLt fstype b.fstype = true
  | [], r, h, _ => by
    simp only [genfsSplit, Option.some.injEq] at h
    subst h
    exact ⟨rfl, by simp, by simp⟩
  | x :: g, r, h, hp => by
    rw [List.pairwise_cons] at hp
    unfold genfsSplit at h
    split at h
    · cases h
    · rename_i hne
      split at h
      · rename_i hlt
        rw [Option.some.injEq] at h
        subst h
        refine ⟨rfl, by simp, fun b hb => ?_⟩
        rcases List.mem_cons.1 hb with rfl | hb
        · exact hlt
        · exact strLt_trans hlt (hp.1 b hb)
      · rename_i hlt
        rw [Option.map_eq_some_iff] at h
        obtain ⟨s, h1, rfl⟩ := h
        obtain ⟨g1, g2, g3⟩ := genfsSplit_inv h1 hp.2
        refine ⟨by rw [g1]; rfl, fun a ha => ?_, g3⟩
        rcases List.mem_cons.1 ha with rfl | ha
        · exact strLt_total hne (by simpa using hlt)
        · exact g2 a ha

/-- What is known of the file systems. -/
def GenfsRead (valid : Context → Bool) (g : List GenfsP) : Prop :=
  (∀ x ∈ g, EntriesRead valid x.head) ∧ g.Pairwise fun a b => strLt a.fstype b.fstype = true

theorem sound_genfsLoop (valid : Context → Bool) : ∀ n g, Sound (readGenfsLoop valid n g) fun r => GenfsRead valid g → GenfsRead valid r
  | 0, g => sound_pure fun h => h
  | n + 1, g => by
    unfold readGenfsLoop
    refine sound_bind sound_u32 fun _ => sound_bind (sound_str _) fun fs => ?_
    cases hi : genfsSplit fs g with
    | none => exact sound_fail
    | some r =>
      refine sound_bind sound_u32 fun k => sound_bind (sound_entries valid k []) fun head => ?_
      refine sound_mono (sound_genfsLoop valid n _) fun l hl hh _ _ _ hg => hl ?_
      obtain ⟨g1, g2, g3⟩ := genfsSplit_inv hi hg.2
      have hp := hg.2
      rw [g1, List.pairwise_append] at hp
      refine ⟨fun x hx => ?_, ?_⟩
      · rcases List.mem_append.1 hx with h | h
        · exact hg.1 x (by rw [g1]; exact List.mem_append_left _ h)
        · rcases List.mem_cons.1 h with rfl | h
          · exact hh ⟨by simp, List.Pairwise.nil⟩
          · exact hg.1 x (by rw [g1]; exact List.mem_append_right _ h)
      · rw [List.pairwise_append, List.pairwise_cons]
        refine ⟨hp.1, ⟨g3, hp.2.1⟩, fun a ha b hb => ?_⟩
        rcases List.mem_cons.1 hb with rfl | hb
        · exact g2 a ha
        · exact hp.2.2 a ha b hb

theorem sound_genfs (valid : Context → Bool) : Sound (readGenfs valid) (GenfsRead valid) :=
  sound_bind sound_u32 fun n => sound_mono (sound_genfsLoop valid n []) fun _ h _ => h ⟨by simp, List.Pairwise.nil⟩

/-! ## Range transitions -/

theorem sound_rangeTrans (nt nc : Nat) : Sound (readRangeTrans nt nc) fun l => (∀ t ∈ l, RangeFits t.range) ∧
    l.Pairwise fun s t => ¬ (s.source = t.source ∧ s.target = t.target ∧ s.tclass = t.tclass) := by
  have h : Sound (readRangeTr nt nc) fun o => ∀ e, o = some e → RangeFits e.2 := by
    unfold readRangeTr
    refine sound_bind sound_u32 fun _ => sound_bind sound_u32 fun _ => sound_reject (sound_reject (sound_bind sound_u32 fun _ => sound_reject
      (sound_bind sound_range fun r => sound_pure ?_)))
    rintro hr - - - - - - e he
    rw [Option.some.injEq] at he
    subst he
    exact hr
  unfold readRangeTrans
  refine sound_bind sound_u32 fun n => sound_bind (sound_table h n []) fun t => sound_pure fun ht _ => ?_
  obtain ⟨h1, h2, -⟩ := ht (by simp) List.nodup_nil
  refine ⟨fun x hx => ?_, ?_⟩
  · obtain ⟨e, he, rfl⟩ := List.mem_map.1 hx
    exact h1 e he
  · rw [List.pairwise_map]
    rw [List.Nodup, List.pairwise_map] at h2
    refine h2.imp fun {a b} hab hc => hab ?_
    obtain ⟨⟨a1, a2, a3⟩, a4⟩ := a
    obtain ⟨⟨b1, b2, b3⟩, b4⟩ := b
    simp only at hc ⊢
    rw [hc.1, hc.2.1, hc.2.2]

end Verif.PolicyIO
