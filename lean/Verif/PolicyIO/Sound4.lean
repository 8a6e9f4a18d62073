import Verif.PolicyIO.Sound3
import Verif.PolicyIO.Lemmas7

/-! # What is known of a policy that is read -/

namespace Verif.PolicyIO
open Verif.Policy Verif.Services Verif.Validate

/-! ## The maps between types and attributes -/

theorem attrLoop_bound {n i : Nat} (hi : i < n) : ∀ (l : List Nat) {a a' : Nat → Ebitmap.Ebitmap}, attrLoop n i l a = some a' → ∀ j ∈ l, j < n
  | [], _, _, _ => by simp
  | x :: l, a, a', h => by
    unfold attrLoop at h
    intro j hj
    split at h
    · rename_i hx
      rcases List.mem_cons.1 hj with rfl | hj
      · omega
      · exact attrLoop_bound hi l h j hj
    · split at h
      · cases h
      · rw [Option.bind_eq_some_iff] at h
        obtain ⟨e, -, h⟩ := h
        rcases List.mem_cons.1 hj with rfl | hj
        · omega
        · exact attrLoop_bound hi l h j hj

theorem attrStep_inv {types : Index TypeD} {n i : Nat} {m : Ebitmap.Ebitmap} {s s' : (Nat → Ebitmap.Ebitmap) × (Nat → Ebitmap.Ebitmap)}
    (hn : n ≤ 2 ^ 32 - 64) (hi : i < n) (hw : Ebitmap.WF m) (hs : ∀ k < n, Ebitmap.WF (s.2 k)) (h : attrStep types n i m s = some s') :
    (∀ j, j ≠ i → s'.1 j = s.1 j) ∧
    (Ebitmap.WF (s'.1 i) ∧ ∀ c, Ebitmap.getBit (s'.1 i) c = true ↔ Ebitmap.getBit m c = true ∨ c = i ∧ ∃ e, types i = some e) ∧
    (∀ c, Ebitmap.getBit m c = true → c < n) ∧
    ∀ k < n, Ebitmap.WF (s'.2 k) ∧ ∀ j, Ebitmap.getBit (s'.2 k) j = true ↔ Ebitmap.getBit (s.2 k) j = true ∨
      j = i ∧ (k ≠ i ∧ Ebitmap.getBit m k = true ∨ k = i ∧ ∃ e, types i = some e ∧ e.2.flavor ≠ 1) := by
  unfold attrStep at h
  rw [Option.bind_eq_some_iff] at h
  obtain ⟨a, h1, h⟩ := h
  have hb := attrLoop_bound hi _ h1
  obtain ⟨a', h1', h2⟩ := attrLoop_ok hn hi (posBits m) s.2 hb hs
  rw [h1, Option.some.injEq] at h1'
  subst h1'
  have hbm : ∀ c, Ebitmap.getBit m c = true → c < n := fun c hc => hb c ((mem_posBits hw c).2 hc)
  have h3 : ∀ k < n, ∀ j, Ebitmap.getBit (a k) j = true ↔ Ebitmap.getBit (s.2 k) j = true ∨ j = i ∧ k ≠ i ∧ Ebitmap.getBit m k = true := by
    intro k hk j
    rw [(h2 k hk).2, mem_posBits hw]
  have first : ∀ x : Ebitmap.Ebitmap, ∀ j, j ≠ i → upd s.1 i x j = s.1 j := by
    intro x j hj
    unfold upd
    rw [if_neg hj]
  cases ht : types i with
  | none =>
    rw [ht] at h
    simp only [Option.some.injEq] at h
    subst h
    refine ⟨first _, ?_, hbm, fun k hk => ⟨(h2 k hk).1, fun j => ?_⟩⟩
    · simp only [upd, if_pos]
      exact ⟨hw, fun c => by simp⟩
    · rw [h3 k hk]
      simp
  | some t =>
    rw [ht] at h
    simp only at h
    obtain ⟨m', m1, m2, m3⟩ := setBit_spec hw (b := i) (by omega)
    rw [m1, Option.bind_some] at h
    have second : Ebitmap.WF (upd s.1 i m' i) ∧ ∀ c, Ebitmap.getBit (upd s.1 i m' i) c = true ↔ Ebitmap.getBit m c = true ∨ c = i ∧ ∃ e, some t = some e := by
      simp only [upd, if_pos]
      refine ⟨m2, fun c => ?_⟩
      rw [m3]
      constructor
      · rintro (h | h)
        · exact Or.inr ⟨h, t, rfl⟩
        · exact Or.inl h
      · rintro (h | h)
        · exact Or.inr h
        · exact Or.inl h.1
    split at h
    · rename_i hf
      obtain ⟨e, e1, e2, e3⟩ := setBit_spec (h2 i hi).1 (b := i) (by omega)
      rw [e1] at h
      simp only [Option.map_some, Option.some.injEq] at h
      subst h
      refine ⟨first _, second, hbm, fun k hk => ?_⟩
      show Ebitmap.WF (upd a i e k) ∧ ∀ j, Ebitmap.getBit (upd a i e k) j = true ↔ _
      unfold upd
      by_cases hki : k = i
      · subst hki
        rw [if_pos rfl]
        refine ⟨e2, fun j => ?_⟩
        rw [e3, h3 k hk]
        constructor
        · rintro (h | h | ⟨-, h, -⟩)
          · exact Or.inr ⟨h, Or.inr ⟨rfl, t, rfl, hf⟩⟩
          · exact Or.inl h
          · exact absurd rfl h
        · rintro (h | ⟨h, -⟩)
          · exact Or.inr (Or.inl h)
          · exact Or.inl h
      · rw [if_neg hki]
        refine ⟨(h2 k hk).1, fun j => ?_⟩
        rw [h3 k hk]
        simp [hki]
    · rename_i hf
      simp only [Option.some.injEq] at h
      subst h
      refine ⟨first _, second, hbm, fun k hk => ⟨(h2 k hk).1, fun j => ?_⟩⟩
      rw [h3 k hk]
      constructor
      · rintro (h | ⟨h, h'⟩)
        · exact Or.inl h
        · exact Or.inr ⟨h, Or.inl h'⟩
      · rintro (h | ⟨h, h' | ⟨h', e, he, he'⟩⟩)
        · exact Or.inl h
        · exact Or.inr ⟨h, h'⟩
        · rw [Option.some.injEq] at he
          subst he
          exact absurd he' hf

/-- The maps after the first `i` rounds. -/
structure MapsAt (types : Index TypeD) (n i : Nat) (s : (Nat → Ebitmap.Ebitmap) × (Nat → Ebitmap.Ebitmap)) : Prop where
  wf : ∀ j < i, Ebitmap.WF (s.1 j)
  self : ∀ j < i, (∃ e, types j = some e) → Ebitmap.getBit (s.1 j) j = true
  bound : ∀ j < i, ∀ c, Ebitmap.getBit (s.1 j) c = true → c < n
  other : ∀ k < n, Ebitmap.WF (s.2 k) ∧ ∀ j, Ebitmap.getBit (s.2 k) j = true ↔
    j < i ∧ (k ≠ j ∧ Ebitmap.getBit (s.1 j) k = true ∨ k = j ∧ ∃ e, types k = some e ∧ e.2.flavor ≠ 1)

theorem mapsAt_step {types : Index TypeD} {n i : Nat} {m : Ebitmap.Ebitmap} {s s' : (Nat → Ebitmap.Ebitmap) × (Nat → Ebitmap.Ebitmap)}
    (hn : n ≤ 2 ^ 32 - 64) (hi : i < n) (hw : Ebitmap.WF m) (hs : MapsAt types n i s) (h : attrStep types n i m s = some s') :
    MapsAt types n (i + 1) s' := by
  obtain ⟨h1, ⟨h2, h3⟩, h4, h5⟩ := attrStep_inv hn hi hw (fun k hk => (hs.other k hk).1) h
  have cases_ : ∀ j, j < i + 1 → j = i ∨ j < i ∧ j ≠ i := by intro j hj; omega
  refine ⟨?_, ?_, ?_, ?_⟩
  · intro j hj
    rcases cases_ j hj with rfl | ⟨h, h'⟩
    · exact h2
    · rw [h1 j h']; exact hs.wf j h
  · intro j hj he
    rcases cases_ j hj with rfl | ⟨h, h'⟩
    · exact (h3 j).2 (Or.inr ⟨rfl, he⟩)
    · rw [h1 j h']; exact hs.self j h he
  · intro j hj c hc
    rcases cases_ j hj with rfl | ⟨h, h'⟩
    · rcases (h3 c).1 hc with h | ⟨rfl, -⟩
      · exact h4 c h
      · exact hi
    · rw [h1 j h'] at hc; exact hs.bound j h c hc
  · intro k hk
    refine ⟨(h5 k hk).1, fun j => ?_⟩
    rw [(h5 k hk).2, (hs.other k hk).2]
    constructor
    · rintro (⟨h, h'⟩ | ⟨rfl, h'⟩)
      · rw [h1 j (by omega)]
        exact ⟨by omega, h'⟩
      · refine ⟨by omega, ?_⟩
        rcases h' with ⟨h', h''⟩ | ⟨rfl, h'⟩
        · exact Or.inl ⟨h', (h3 k).2 (Or.inl h'')⟩
        · exact Or.inr ⟨rfl, h'⟩
    · rintro ⟨h, h'⟩
      rcases cases_ j h with rfl | ⟨hj, hj'⟩
      · refine Or.inr ⟨rfl, ?_⟩
        rcases h' with ⟨h', h''⟩ | ⟨rfl, h'⟩
        · rcases (h3 k).1 h'' with h'' | ⟨h'', -⟩
          · exact Or.inl ⟨h', h''⟩
          · exact absurd h'' h'
        · exact Or.inr ⟨rfl, h'⟩
      · rw [h1 j hj'] at h'
        exact Or.inl ⟨hj, h'⟩

theorem ext_attrs (types : Index TypeD) (n : Nat) : ∀ k i s, Sound (readAttrs types n i k s) fun _ => True
  | 0, _, _ => sound_pure trivial
  | k + 1, i, s => by
    unfold readAttrs
    refine sound_bind sound_ebm fun m => ?_
    cases attrStep types n i m s with
    | none => exact sound_fail
    | some s' => exact sound_mono (ext_attrs types n k (i + 1) s') fun _ _ _ => trivial

theorem sound_attrs {types : Index TypeD} {n : Nat} (hn : n ≤ 2 ^ 32 - 64) : ∀ k i s, i + k = n →
    Sound (readAttrs types n i k s) fun r => MapsAt types n i s → MapsAt types n n r
  | 0, i, s, h => by
    rw [Nat.add_zero] at h
    subst h
    exact sound_pure fun h => h
  | k + 1, i, s, h => by
    unfold readAttrs
    refine sound_bind sound_ebm fun m => ?_
    cases ha : attrStep types n i m s with
    | none => exact sound_fail
    | some s' => exact sound_mono (sound_attrs hn k (i + 1) s' (by omega)) fun r hr hw hs => hr (mapsAt_step hn (by omega) hw hs ha)

/-! ## The header -/

theorem sound_header : Sound readHeader fun h => 26 ≤ h.1 ∧ h.1 ≤ 34 ∧ (h.2.1 = 0 ∨ h.2.1 = 1 ∧ h.1 = 30) ∧ h.2.2.2 = lists h.2.1 h.1 := by
  unfold readHeader
  refine sound_bind sound_u32 fun _ => sound_bind sound_u32 fun len => sound_reject (sound_reject (sound_bind (sound_raw _) fun s => ?_))
  refine sound_bind (P := fun t : Nat => t = 0 ∨ t = 1) (sound_ite (fun _ => sound_pure (Or.inl rfl)) fun _ => sound_ite (fun _ => sound_pure (Or.inr rfl)) fun _ => sound_fail)
    fun target => ?_
  refine sound_bind sound_u32 fun version => sound_bind sound_u32 fun config => sound_bind sound_u32 fun _ => sound_bind sound_u32 fun oc => sound_reject ?_
  cases ho : oconNum target version with
  | none => exact sound_fail
  | some n =>
    refine sound_reject (sound_pure ?_)
    rintro - hv - - - - ht - - - - -
    simp only [Bool.or_eq_false_iff, decide_eq_false_iff_not] at hv
    unfold oconNum at ho
    refine ⟨by show 26 ≤ version; omega, by show version ≤ 34; omega, ?_, ?_⟩
    · show target = 0 ∨ target = 1 ∧ version = 30
      rcases ht with rfl | rfl
      · exact Or.inl rfl
      · rw [if_neg (by omega), if_pos rfl] at ho
        split at ho
        · exact Or.inr ⟨rfl, ‹_›⟩
        · cases ho
    · show n = lists target version
      unfold lists
      rcases ht with rfl | rfl
      · rw [if_pos rfl] at ho
        rw [if_pos rfl]
        split at ho
        · rw [if_pos (by omega)]; exact (Option.some.inj ho).symm
        · split at ho
          · rw [if_neg (by omega)]; exact (Option.some.inj ho).symm
          · cases ho
      · rw [if_neg (by omega), if_pos rfl] at ho
        split at ho
        · rw [if_neg (by omega)]; exact (Option.some.inj ho).symm
        · cases ho

/-! ## The rules -/

theorem mem_log (rules : List (Avtab.Key × Avtab.Datum)) (log : List Avtab.Node) :
    ∀ n ∈ (rules.map (fun q => Avtab.Op.insert q.1 q.2)).foldl Avtab.logStep log, n ∈ log ∨ ∃ q ∈ rules, n = Avtab.stored q.1 q.2 := by
  induction rules generalizing log with
  | nil => exact fun n hn => Or.inl hn
  | cons q rules ih =>
    intro n hn
    rw [List.map_cons, List.foldl_cons] at hn
    rcases ih _ n hn with h | ⟨r, hr, h⟩
    · unfold Avtab.logStep at h
      simp only at h
      split at h
      · exact Or.inl h
      · rcases List.mem_cons.1 h with h | h
        · exact Or.inr ⟨q, by simp, h⟩
        · exact Or.inl h
    · exact Or.inr ⟨r, List.mem_cons_of_mem _ hr, h⟩

theorem rules_of_loaded {t : Avtab.Avtab} (h : Loaded t) : ∃ l, l.Perm (Avtab.nodes t) ∧ l ≠ [] ∧ (∀ n ∈ l, Avtab.Storable n) ∧
    l.Pairwise fun a b => Avtab.isXperm a.key = false → ¬ Avtab.Answers a.key b := by
  obtain ⟨rules, h1, h2, h3, h4, h5⟩ := h
  have hne : rules.length ≠ 0 := fun h => h1 (List.length_eq_zero_iff.1 h)
  have hr : Avtab.Rel t (Avtab.logOf (rules.map (fun q => .insert q.1 q.2))) := by
    rw [h3]; exact Avtab.rel_run _ hne _
  refine ⟨_, (Avtab.nodes_perm hr).symm, fun h => ?_, fun n hn => ?_, Avtab.C06_unique rules fun q hq => Avtab.singleKind_of_popcount (h2 q hq).single⟩
  · rw [h] at h4
    exact hne h4.symm
  · rcases mem_log rules [] n hn with h | ⟨q, hq, rfl⟩
    · cases h
    · rw [stored_of_storable (h2 q hq)]
      exact h2 q hq

/-! ## The whole policy -/

theorem sound_imp {α : Type} {r : Rd α} {P : Prop} {Q : α → Prop} (h : P → Sound r Q) (h' : Sound r fun _ => True) : Sound r fun a => P → Q a := by
  by_cases hp : P
  · exact sound_mono (h hp) fun _ h _ => h
  · exact sound_mono h' fun _ _ h => absurd h hp

theorem strLt_ne {a b : Str} (h : strLt a b = true) : a ≠ b := by
  rintro rfl
  rw [strLt_irrefl] at h
  cases h

theorem storable_xperms {n : Avtab.Node} (h : Avtab.Storable n) (hx : n.key.specified &&& Avtab.XPERMS ≠ 0) : n.datum.xperms ≠ none := by
  obtain ⟨x, h1, -⟩ := h.perms (by unfold Avtab.isXperm; simpa using hx)
  rw [h1]
  simp

/-- What is known when the rules have been read. -/
structure Begun (p : PolicyDb) : Prop where
  version : 26 ≤ p.version ∧ p.version ≤ 34
  target : p.target = 0 ∨ p.target = 1 ∧ p.version = 30
  policycaps : Ebitmap.WF p.policycaps
  permissive : Ebitmap.WF p.permissive
  commons : p.commons.nprim ≤ 2 ^ 32 - 64 ∧ (p.commons.entries.map (·.1)).Nodup
  classes : p.classes.nprim ≤ 2 ^ 32 - 64 ∧ (p.classes.entries.map (·.1)).Nodup ∧ ∀ e ∈ p.classes.entries,
    e.2.datum.perms.nprim ≤ 32 ∧ (∀ c ∈ e.2.datum.constraints, ConWf c) ∧ (∀ c ∈ e.2.datum.validatetrans, ConWf c)
  roles : p.roles.nprim ≤ 2 ^ 32 - 64 ∧ (p.roles.entries.map (·.1)).Nodup ∧ ∀ e ∈ p.roles.entries,
    Ebitmap.WF e.2.dominates ∧ Ebitmap.WF e.2.roles ∧ TypeSetWf e.2.types
  types : p.types.nprim ≤ 2 ^ 32 - 64 ∧ (p.types.entries.map (·.1)).Nodup ∧ ∀ e ∈ p.types.entries, Ebitmap.WF e.2.types
  users : p.users.nprim ≤ 2 ^ 32 - 64 ∧ (p.users.entries.map (·.1)).Nodup ∧ ∀ e ∈ p.users.entries,
    Ebitmap.WF e.2.roles.roles ∧ RangeWf e.2.expRange ∧ Ebitmap.WF e.2.expDfltlevel.cat
  bools : p.bools.nprim ≤ 2 ^ 32 - 64 ∧ (p.bools.entries.map (·.1)).Nodup
  levels : p.levels.nprim ≤ 2 ^ 32 - 64 ∧ (p.levels.entries.map (·.1)).Nodup ∧ ∀ e ∈ p.levels.entries, Ebitmap.WF e.2.level.cat
  cats : p.cats.nprim ≤ 2 ^ 32 - 64 ∧ (p.cats.entries.map (·.1)).Nodup
  loaded : Loaded p.avtab
  conds : CondsRead (Avtab.nodes p.avtab) [] p.conds
  files : FilesRead (33 ≤ p.version) p.filenameTrans
  fileCount : p.filenameTransCount = (p.filenameTrans.map ruleCount).sum

theorem sound_tail {valid : PolicyDb → Context → Bool} (ho : OfNames valid) (p : PolicyDb) (n : Nat) : Sound (match index p.toV with
      | none => Rd.fail
      | some a => do
        let ocons ← readOconLists (valid p) p.target 0 n
        let genfs ← readGenfs (valid p)
        let rangeTrans ← readRangeTrans p.types.nprim p.classes.nprim
        let maps ← readAttrs a.types p.types.nprim 0 p.types.nprim (fun _ => Ebitmap.init, fun _ => Ebitmap.init)
        Rd.reject (accept { p with
          ocontexts := nthList ocons
          genfs := genfs
          rangeTrans := rangeTrans
          typeAttr := maps.1
          attrType := maps.2 }.toV != some true)
        Rd.pure { p with
          ocontexts := nthList ocons
          genfs := genfs
          rangeTrans := rangeTrans
          typeAttr := maps.1
          attrType := maps.2 } : Rd PolicyDb) fun q => Begun p ∧ n = lists p.target p.version → Accepted valid q := by
  cases ha : index p.toV with
  | none => exact sound_fail
  | some a =>
  refine sound_bind (sound_oconLists _ _ _ _) fun ocons => sound_bind (sound_genfs _) fun genfs => ?_
  refine sound_bind (sound_rangeTrans _ _) fun rtr => ?_
  refine sound_bind (sound_imp (P := p.types.nprim ≤ 2 ^ 32 - 64) (fun hn => sound_attrs hn p.types.nprim 0 _ (Nat.zero_add _)) (ext_attrs _ _ _ _ _)) fun maps => ?_
  refine sound_reject (sound_pure ?_)
  rintro hacc hmaps ⟨hrtr, hrk⟩ hgen ⟨hol, hoc⟩ ⟨hb, hn⟩
  have hm := hmaps hb.types.1 ⟨fun j hj => absurd hj (by omega), fun j hj => absurd hj (by omega), fun j hj => absurd hj (by omega),
    fun k _ => ⟨wf_init, fun j => by rw [getBit_init]; simp⟩⟩
  have hty := (index_ok ha).2.types
  have hent : ∀ i e, a.types i = some e ↔ i < p.types.nprim ∧ e ∈ p.types.entries ∧ (e.2.primary == 0) = false ∧ e.2.value = i + 1 := hty
  obtain ⟨l, l1, l2, l3, l4⟩ := rules_of_loaded hb.loaded
  have hvq : valid { p with
          ocontexts := nthList ocons
          genfs := genfs
          rangeTrans := rtr
          typeAttr := maps.1
          attrType := maps.2 } = valid p := ho _ _ rfl rfl rfl rfl rfl rfl
  have hlast : ∀ i, n ≤ i → nthList ocons i = [] := by
    intro i hi
    unfold nthList
    rw [List.getElem?_eq_none (by omega)]
    rfl
  have hread : Read { p with
          ocontexts := nthList ocons
          genfs := genfs
          rangeTrans := rtr
          typeAttr := maps.1
          attrType := maps.2 }.toV := by
    refine
      { sizes := ⟨hb.commons.1, hb.classes.1, hb.roles.1, hb.types.1, hb.users.1, hb.bools.1, hb.levels.1, hb.cats.1⟩
        names := hb.levels.2.1
        policycaps := hb.policycaps
        permissive := hb.permissive
        classes := ?_
        roles := hb.roles.2.2
        types := hb.types.2.2
        users := hb.users.2.2
        levels := hb.levels.2.2
        rules := ?_
        filenameTrans := ?_
        ocontexts := ?_
        genfs := ?_
        rangeTrans := fun t ht => range_wf (hrtr t ht)
        maps := fun i hi => ⟨hm.wf i hi, (hm.other i hi).1⟩ }
    · intro e he
      obtain ⟨c, hc, rfl⟩ := List.mem_map.1 he
      exact hb.classes.2.2 c hc
    · intro m hmem
      rcases List.mem_append.1 hmem with h | h
      · exact storable_xperms (l3 m (l1.mem_iff.2 h))
      · obtain ⟨c, hc, hcn⟩ := List.mem_flatMap.1 h
        exact storable_xperms (hb.conds.storable c hc m hcn)
    · intro t ht d hd
      obtain ⟨f, hf, rfl⟩ := List.mem_map.1 ht
      exact (hb.files.data f hf).wf d hd
    · intro i _ o hmem
      obtain ⟨x, hx, rfl⟩ := List.mem_map.1 hmem
      exact (hoc i x hx).1
    · intro x hx o hmem
      obtain ⟨y, hy, rfl⟩ := List.mem_map.1 hx
      obtain ⟨e, he, rfl⟩ := List.mem_map.1 hmem
      exact range_wf ((hgen.1 y hy).1 e he).1.2.2.2
  refine
    { version := hb.version
      target := hb.target
      isValid := ((accept_iff hread).2).1 (by simpa using hacc)
      names := ⟨hb.commons.2, hb.classes.2.1, hb.roles.2.1, hb.types.2.1, hb.users.2.1, hb.bools.2, hb.levels.2.1, hb.cats.2⟩
      rules := ⟨l, l1, l2, l3, l4⟩
      condRules := hb.conds.storable
      conflict := ⟨fun c hc m hmm ht r hr => hb.conds.outside c hc m hmm ht r (List.mem_append_left _ hr), hb.conds.branch, hb.conds.across⟩
      filenameTrans := fun f hf => ⟨(hb.files.data f hf).nonempty, (hb.files.data f hf).wf, (hb.files.data f hf).types⟩
      filenameTransKeys := hb.files.keys
      filenameTransCount := hb.fileCount
      filenameTransSources := fun hv f hf => (hb.files.data f hf).sources hv
      contexts := ⟨fun i _ o hmem => ?_, fun g hg e he => ?_⟩
      noOther := fun i hi => hlast i (by rw [hn]; exact hi)
      genfsNames := ?_
      genfsOrder := fun g hg => (hgen.1 g hg).2.imp fun h => h.1
      genfsDistinct := fun g hg => (hgen.1 g hg).2.imp fun h => h.2
      rangeTransKeys := hrk
      maps := ⟨fun i hi => ⟨hm.wf i hi, (hm.other i hi).1⟩, fun i hi ⟨e, he, he1, he2⟩ => hm.self i hi ⟨e, (hent i e).2 ⟨hi, he, by simpa using he1, he2⟩⟩,
        hm.bound, fun i hi j => ?_⟩ }
  · rw [hvq]
    have := hoc i o hmem
    rw [Nat.zero_add] at this
    exact ⟨this.2.1, this.2.2⟩
  · rw [hvq]
    exact ((hgen.1 g hg).1 e he).2
  · rw [List.Nodup, List.pairwise_map]
    exact hgen.2.imp fun h => strLt_ne h
  · show Ebitmap.getBit (maps.2 i) j = true ↔ _
    rw [(hm.other i hi).2]
    refine and_congr_right fun hj => or_congr Iff.rfl (and_congr_right fun hij => ?_)
    constructor
    · rintro ⟨e, he, hfl⟩
      obtain ⟨-, h2, h3, h4⟩ := (hent i e).1 he
      exact ⟨e, h2, by simpa using h3, h4, hfl⟩
    · rintro ⟨e, he, h1, h2, h3⟩
      exact ⟨e, (hent i e).2 ⟨hi, he, by simpa using h1, h2⟩, h3⟩

/-- Every policy that is read, whatever the bytes, is as it should be; what follows the policy has no influence, and if bytes are
missing at the end it is not read. -/
theorem sound_read {valid : PolicyDb → Context → Bool} (ho : OfNames valid) : Sound (read valid) (Accepted valid) := by
  unfold read
  refine sound_bind sound_header fun h => ?_
  refine sound_bind sound_ebm fun caps => sound_bind sound_ebm fun perm => ?_
  refine sound_bind (sound_sym sound_common (by simp) (by simp)) fun commons => ?_
  refine sound_bind (sound_sym (sound_class h.1 commons.entries) (by simp) (by simp)) fun classes => ?_
  refine sound_bind (sound_sym sound_role (t := [objectRole]) (by
    intro e he
    rw [List.mem_singleton] at he
    subst he
    exact ⟨wf_init, wf_init, wf_init, wf_init⟩) (by simp)) fun roles => ?_
  refine sound_bind (sound_sym sound_type (by simp) (by simp)) fun types => ?_
  refine sound_bind (sound_sym sound_user (by simp) (by simp)) fun users => ?_
  refine sound_bind (sound_sym sound_bool (by simp) (by simp)) fun bools => ?_
  refine sound_bind (sound_sym sound_sens (by simp) (by simp)) fun levels => ?_
  refine sound_bind (sound_sym sound_cat (by simp) (by simp)) fun cats => ?_
  refine sound_bind (sound_avtab h.1) fun avtab => ?_
  refine sound_bind (sound_imp (P := Loaded avtab) (fun h => sound_conds h) (ext_conds _ _ _)) fun conds => ?_
  refine sound_bind sound_roleTrans fun rt => sound_bind sound_roleAllow fun ra => ?_
  refine sound_bind (sound_filenameTrans h.1) fun ft => ?_
  refine sound_mono (sound_tail ho _ _) ?_
  rintro q hq hft - - hcd hav hcats hlev hboo huse htyp hrol hcla hcom hper hcap ⟨hv1, hv2, htg, hli⟩
  exact hq ⟨⟨⟨hv1, hv2⟩, htg, hcap, hper, ⟨hcom.1, hcom.2.2.1⟩, ⟨hcla.1, hcla.2.2.1, hcla.2.1⟩, ⟨hrol.1, hrol.2.2.1, hrol.2.1⟩,
    ⟨htyp.1, htyp.2.2.1, htyp.2.1⟩, ⟨huse.1, huse.2.2.1, huse.2.1⟩, ⟨hboo.1, hboo.2.2.1⟩, ⟨hlev.1, hlev.2.2.1, hlev.2.1⟩,
    ⟨hcats.1, hcats.2.2.1⟩, hav, hcd hav, hft.1, hft.2⟩, hli⟩

end Verif.PolicyIO
