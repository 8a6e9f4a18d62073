import Verif.ObjStmt.Lemmas6
import Verif.Services.ObjectsProps

namespace Verif.ObjStmt
open Verif.Policy Verif.Mls Verif.Services

/-! ## From the lists to the statements -/

theorem first_fm {κ : Type} {E : Stmt → Option (Ocon κ)} {m : κ → Prop} {o : Ocon κ} : ∀ {ss : List Stmt},
    FirstMatch (ss.filterMap E) m o → ∃ s, FirstStmt ss (fun s => ∃ e, E s = some e ∧ m e.key) s ∧ E s = some o := by
  intro ss
  induction ss with
  | nil => rintro ⟨pre, post, h, _⟩; simp at h
  | cons s ss ih =>
    rintro ⟨pre, post, h, hm, hp⟩
    cases hs : E s with
    | none =>
      rw [List.filterMap_cons, hs] at h
      obtain ⟨t, ⟨b, a, h1, h2, h3⟩, h4⟩ := ih ⟨pre, post, h, hm, hp⟩
      refine ⟨t, ⟨s :: b, a, by rw [h1]; rfl, h2, fun x hx => ?_⟩, h4⟩
      rcases List.mem_cons.mp hx with rfl | hx
      · simp [hs]
      · exact h3 x hx
    | some e =>
      rw [List.filterMap_cons, hs] at h
      dsimp only at h
      cases pre with
      | nil =>
        simp only [List.nil_append, List.cons.injEq] at h
        obtain ⟨rfl, h⟩ := h
        exact ⟨s, ⟨[], ss, rfl, ⟨e, hs, hm⟩, by simp⟩, hs⟩
      | cons x pre =>
        simp only [List.cons_append, List.cons.injEq] at h
        obtain ⟨rfl, h⟩ := h
        obtain ⟨t, ⟨b, a, h1, h2, h3⟩, h4⟩ := ih ⟨pre, post, h, hm, fun y hy => hp y (by simp [hy])⟩
        refine ⟨t, ⟨s :: b, a, by rw [h1]; rfl, h2, fun y hy => ?_⟩, h4⟩
        rcases List.mem_cons.mp hy with rfl | hy
        · rintro ⟨e', he', hm'⟩
          rw [hs] at he'; cases he'
          exact hp e (by simp) hm'
        · exact h3 y hy

theorem first_congr {ss : List Stmt} {P Q : Stmt → Prop} (h : ∀ s ∈ ss, P s ↔ Q s) {s : Stmt} (hf : FirstStmt ss P s) :
    FirstStmt ss Q s := by
  obtain ⟨b, a, rfl, h2, h3⟩ := hf
  exact ⟨b, a, rfl, (h s (by simp)).mp h2, fun x hx hq => h3 x hx ((h x (by simp [hx])).mpr hq)⟩

/-- Lists in the order of the statements. -/
theorem answers_first {κ : Type} {E : Stmt → Option (Ocon κ)} {m : κ → Prop} {ss : List Stmt} {P : Stmt → Prop} {dflt : Nat}
    {after : OState} {r : Reply} (hL : Labels1 (ss.filterMap E) m dflt after r)
    (hP : ∀ s ∈ ss, (∃ e, E s = some e ∧ m e.key) ↔ P s) (hctx : ∀ s e, E s = some e → s.label = some e.ctx0) :
    Answers ss P (FirstStmt ss P) (.sids [dflt]) after r := by
  rcases hL with ⟨o, x, h1, h2, h3⟩ | ⟨h1, h2⟩ | ⟨⟨o, h1⟩, h2, h3⟩
  · obtain ⟨s, hs, he⟩ := first_fm h1
    exact .inl ⟨s, o.ctx0, x, first_congr hP hs, hctx s o he, h2, h3⟩
  · refine .inr (.inl ⟨fun s hs hp => ?_, h2⟩)
    obtain ⟨e, he, hm⟩ := (hP s hs).mpr hp
    exact h1 e (List.mem_filterMap.mpr ⟨s, hs, he⟩) hm
  · obtain ⟨s, ⟨b, a, e, h4, _⟩, he⟩ := first_fm h1
    have hs : s ∈ ss := by rw [e]; simp
    exact .inr (.inr ⟨⟨s, hs, (hP s hs).mp h4⟩, h2, h3⟩)

/-- Sorted lists. -/
theorem answers_best {κ : Type} {E : Stmt → Option (Ocon κ)} {m : κ → Prop} {ss : List Stmt} {P : Stmt → Prop} {dflt : Nat}
    {l : List (Ocon κ)} (hl : l.Perm (ss.filterMap E)) {better : Stmt → Stmt → Prop} {after : OState} {r : Reply}
    (hL : Labels1 l m dflt after r)
    (hP : ∀ s ∈ ss, (∃ e, E s = some e ∧ m e.key) ↔ P s) (hctx : ∀ s e, E s = some e → s.label = some e.ctx0) {v : κ → Nat}
    (hsort : l.Pairwise (fun a b => v b.key ≤ v a.key))
    (hbet : ∀ s ∈ ss, ∀ t ∈ ss, better t s → ∀ e f, E s = some e → E t = some f → v e.key < v f.key) :
    Answers ss P (BestStmt ss P better) (.sids [dflt]) after r := by
  have hmem : ∀ e, e ∈ l ↔ ∃ s ∈ ss, E s = some e := fun e => by rw [hl.mem_iff, List.mem_filterMap]
  have best : ∀ o, FirstMatch l m o → ∃ s, BestStmt ss P better s ∧ E s = some o := by
    rintro o ⟨pre, post, rfl, hm, hp⟩
    obtain ⟨s, hs, he⟩ := (hmem o).mp (by simp)
    refine ⟨s, ⟨hs, (hP s hs).mp ⟨o, he, hm⟩, fun t ht hpt hb => ?_⟩, he⟩
    obtain ⟨f, hf, hmf⟩ := (hP t ht).mpr hpt
    have hlt := hbet s hs t ht hb o f he hf
    have hfm := (hmem f).mpr ⟨t, ht, hf⟩
    rw [List.pairwise_append, List.pairwise_cons] at hsort
    rcases List.mem_append.mp hfm with hx | hx
    · exact hp f hx hmf
    · rcases List.mem_cons.mp hx with rfl | hx
      · omega
      · have := hsort.2.1.1 f hx; omega
  rcases hL with ⟨o, x, h1, h2, h3⟩ | ⟨h1, h2⟩ | ⟨⟨o, h1⟩, h2, h3⟩
  · obtain ⟨s, hs, he⟩ := best o h1
    exact .inl ⟨s, o.ctx0, x, hs, hctx s o he, h2, h3⟩
  · refine .inr (.inl ⟨fun s hs hp => ?_, h2⟩)
    obtain ⟨e, he, hm⟩ := (hP s hs).mpr hp
    exact h1 e ((hmem e).mpr ⟨s, hs, he⟩) hm
  · obtain ⟨s, hs, he⟩ := best o h1
    exact .inr (.inr ⟨⟨s, hs.1, hs.2.1⟩, h2, h3⟩)

theorem answers_two {κ : Type} {E : Stmt → Option (Ocon κ)} {m : κ → Prop} {ss : List Stmt} {P : Stmt → Prop} {d0 d1 : Nat}
    {l : List (Ocon κ)} (hl : l = (ss.filterMap E).reverse) {after : OState} {r : Reply} (hL : Labels2 l m d0 d1 after r)
    (hP : ∀ s ∈ ss, (∃ e, E s = some e ∧ m e.key) ↔ P s)
    (hctx : ∀ s e, E s = some e → s.label = some e.ctx0 ∧ s.label2 = some e.ctx1) :
    Answers2 ss P (.sids [d0, d1]) after r := by
  have hmem : ∀ e, e ∈ l ↔ ∃ s ∈ ss, E s = some e := fun e => by rw [hl, List.mem_reverse, List.mem_filterMap]
  have get : ∀ o, FirstMatch l m o → ∃ s ∈ ss, P s ∧ E s = some o := by
    rintro o ⟨pre, post, hl, hm, hp⟩
    obtain ⟨s, hs, he⟩ := (hmem o).mp (by rw [hl]; simp)
    exact ⟨s, hs, (hP s hs).mp ⟨o, he, hm⟩, he⟩
  rcases hL with ⟨o, x, y, h1, h2, h3, h4⟩ | ⟨h1, h2⟩ | ⟨⟨o, h1⟩, h2, h3⟩
  · obtain ⟨s, hs, hp, he⟩ := get o h1
    obtain ⟨e1, e2⟩ := hctx s o he
    exact .inl ⟨s, hs, o.ctx0, o.ctx1, x, y, hp, e1, e2, h2, h3, h4⟩
  · refine .inr (.inl ⟨fun s hs hp => ?_, h2⟩)
    obtain ⟨e, he, hm⟩ := (hP s hs).mpr hp
    exact h1 e ((hmem e).mpr ⟨s, hs, he⟩) hm
  · obtain ⟨s, hs, hp, he⟩ := get o h1
    exact .inr (.inr ⟨⟨s, hs, hp⟩, h2, h3⟩)

/-! ## Fresh lists -/

theorem portE_ctx (s : Stmt) (e) (h : portE s = some e) : ∃ k c, e = entry k c ∧ s.label = some c := by
  unfold portE at h; split at h
  · rw [Option.map_eq_some_iff] at h
    obtain ⟨p, _, rfl⟩ := h; exact ⟨_, _, rfl, rfl⟩
  · cases h

theorem pkeyE_ctx (s : Stmt) (e) (h : pkeyE s = some e) : ∃ k c, e = entry k c ∧ s.label = some c := by
  unfold pkeyE at h; split at h
  · cases h; exact ⟨_, _, rfl, rfl⟩
  · cases h

theorem endportE_ctx (s : Stmt) (e) (h : endportE s = some e) : ∃ k c, e = entry k c ∧ s.label = some c := by
  unfold endportE at h; split at h
  · cases h; exact ⟨_, _, rfl, rfl⟩
  · cases h

theorem fsuseE_ctx (s : Stmt) (e) (h : fsuseE s = some e) : ∃ k c, e = entry k c ∧ s.label = some c := by
  unfold fsuseE at h; split at h
  · cases h; exact ⟨_, _, rfl, rfl⟩
  · cases h

theorem fsE_ctx (s : Stmt) (e) (h : fsE s = some e) : ∃ k c d, e = entry k c d ∧ s.label = some c ∧ s.label2 = some d := by
  unfold fsE at h; split at h
  · cases h; exact ⟨_, _, _, rfl, rfl, rfl⟩
  · cases h

theorem netifE_ctx (s : Stmt) (e) (h : netifE s = some e) : ∃ k c d, e = entry k c d ∧ s.label = some c ∧ s.label2 = some d := by
  unfold netifE at h; split at h
  · cases h; exact ⟨_, _, _, rfl, rfl, rfl⟩
  · cases h

theorem net4_label {s : Stmt} {x} (h : net4 s = some x) : s.label = some x.2 := by
  unfold net4 at h; split at h
  · cases h; rfl
  · cases h; rfl
  · cases h

theorem net6_label {s : Stmt} {x} (h : net6 s = some x) : s.label = some x.2 := by
  unfold net6 at h; split at h
  · cases h; rfl
  · cases h; rfl
  · cases h

theorem node4E_ctx (cfg : Cfg) (s : Stmt) (e) (h : node4E cfg s = some e) : ∃ k c, e = entry k c ∧ s.label = some c := by
  unfold node4E at h
  rw [Option.map_eq_some_iff] at h
  obtain ⟨x, hx, rfl⟩ := h
  exact ⟨_, _, rfl, net4_label hx⟩

theorem node6E_ctx (cfg : Cfg) (s : Stmt) (e) (h : node6E cfg s = some e) : ∃ k c, e = entry k c ∧ s.label = some c := by
  unfold node6E at h
  rw [Option.map_eq_some_iff] at h
  obtain ⟨x, hx, rfl⟩ := h
  exact ⟨_, _, rfl, net6_label hx⟩

theorem genE_ctx (cfg : Cfg) (f : Str) (s : Stmt) (e) (h : genE cfg f s = some e) : s.label = some e.ctx := by
  unfold genE at h
  split at h
  · split at h
    · rw [Option.map_eq_some_iff] at h
      obtain ⟨v, _, rfl⟩ := h; rfl
    · cases h
  · cases h

theorem fresh1 {κ : Type} {E : Stmt → Option (Ocon κ)} (hE : ∀ s e, E s = some e → ∃ k c, e = entry k c ∧ s.label = some c)
    {ss : List Stmt} (hw : ∀ s ∈ ss, s.WF) {l : List (Ocon κ)} (hl : ∀ o ∈ l, o ∈ ss.filterMap E) : Fresh l := by
  intro o ho
  obtain ⟨s, hs, he⟩ := List.mem_filterMap.mp (hl o ho)
  obtain ⟨k, c, rfl, hc⟩ := hE s o he
  exact ⟨rfl, rfl, hw s hs c (.inl hc), wf_empty⟩

theorem fresh2 {κ : Type} {E : Stmt → Option (Ocon κ)}
    (hE : ∀ s e, E s = some e → ∃ k c d, e = entry k c d ∧ s.label = some c ∧ s.label2 = some d)
    {ss : List Stmt} (hw : ∀ s ∈ ss, s.WF) {l : List (Ocon κ)} (hl : ∀ o ∈ l, o ∈ ss.filterMap E) : Fresh l := by
  intro o ho
  obtain ⟨s, hs, he⟩ := List.mem_filterMap.mp (hl o ho)
  obtain ⟨k, c, d, rfl, hc, hd⟩ := hE s o he
  exact ⟨rfl, rfl, hw s hs c (.inl hc), hw s hs d (.inr hd)⟩

theorem fresh_of_built {cfg : Cfg} {d : Nat} {ss : List Stmt} {db : Db} (h : Built cfg d ss db) (hw : ∀ s ∈ ss, s.WF) :
    FreshObjects db.ob where
  fs := fresh2 fsE_ctx hw (by rw [h.fs]; simp)
  netif := fresh2 netifE_ctx hw (by rw [h.netif]; simp)
  fsuse := fresh1 fsuseE_ctx hw (by rw [h.fsuse]; simp)
  port := fresh1 portE_ctx hw (by rw [h.port]; simp)
  ibpkey := fresh1 pkeyE_ctx hw (by rw [h.ibpkey]; simp)
  ibendport := fresh1 endportE_ctx hw (by rw [h.ibendport]; simp)
  node := fresh1 (node4E_ctx cfg) hw (fun o ho => h.node.2.mem_iff.mp ho)
  node6 := fresh1 (node6E_ctx cfg) hw (fun o ho => h.node6.2.mem_iff.mp ho)
  genfs := by
    intro g hg o ho
    obtain ⟨fs, l⟩ := g
    have := (h.genfs.entries fs l hg).2.mem_iff.mp ho
    obtain ⟨e, he, rfl⟩ := List.mem_map.mp this
    obtain ⟨s, hs, hse⟩ := List.mem_filterMap.mp he
    exact ⟨rfl, rfl, hw s hs _ (.inl (genE_ctx cfg fs s e hse)), wf_empty⟩

/-! ## genfs: the lists are those that `genfs_read` makes of them -/

def unEntry (o : Ocon (Str × Nat)) : GenEntry := ⟨o.key.1, o.key.2, o.ctx0⟩

theorem insertEntry_last (e : GenEntry) : ∀ l : List (Ocon (Str × Nat)),
    (∀ c ∈ l, e.name.length ≤ c.key.1.length ∧ Apart (mkEntry e) c) → insertEntry e l = some (l ++ [mkEntry e]) := by
  intro l
  induction l with
  | nil => intro _; rfl
  | cons c l ih =>
    intro h
    obtain ⟨h1, h2⟩ := h c (by simp)
    unfold insertEntry
    rw [if_neg, if_neg (by omega), ih (fun x hx => h x (by simp [hx]))]
    · rfl
    · rintro ⟨a, b⟩
      exact h2 ⟨(strcmp_zero _ _).mp a, by rcases b with b | b | b <;> simp [mkEntry, b]⟩

theorem readEntries_sorted : ∀ (es : List GenEntry) (acc : List (Ocon (Str × Nat))), EntriesOk (acc ++ es.map mkEntry) →
    readEntries es acc = some (acc ++ es.map mkEntry) := by
  intro es
  induction es with
  | nil => intro acc _; simp [readEntries]
  | cons e es ih =>
    intro acc h
    unfold readEntries
    rw [insertEntry_last e acc, Option.bind_some, ih (acc ++ [mkEntry e]) (by simpa using h)]
    · simp
    · intro c hc
      obtain ⟨h1, h2⟩ := h
      rw [List.pairwise_append] at h1 h2
      exact ⟨h1.2.2 c hc (mkEntry e) (by simp), (h2.2.2 c hc (mkEntry e) (by simp)).symm⟩

theorem insertFs_last (x : Str × List (Ocon (Str × Nat))) : ∀ g : Genfs, (∀ y ∈ g, strcmp y.1 x.1 < 0) →
    insertFs x g = some (g ++ [x]) := by
  intro g
  induction g with
  | nil => intro _; rfl
  | cons c g ih =>
    intro h
    have := h c (by simp)
    rw [strcmp_swap] at this
    unfold insertFs
    rw [if_neg (by omega), if_neg (by omega), ih (fun y hy => h y (by simp [hy]))]
    rfl

theorem genfsRead_sorted : ∀ (g acc : Genfs), FsSorted (acc ++ g) → (∀ x ∈ g, EntriesOk x.2) →
    (∀ x ∈ g, (x.2.map unEntry).map mkEntry = x.2) →
    genfsRead (g.map fun x => (x.1, x.2.map unEntry)) acc = some (acc ++ g) := by
  intro g
  induction g with
  | nil => intro acc _ _ _; simp [genfsRead]
  | cons x g ih =>
    intro acc hs he hu
    rw [List.map_cons]
    unfold genfsRead
    have h1 := readEntries_sorted (x.2.map unEntry) [] (by rw [List.nil_append, hu x (by simp)]; exact he x (by simp))
    rw [List.nil_append, hu x (by simp)] at h1
    dsimp only
    rw [h1, Option.bind_some, insertFs_last (x.1, x.2) acc, Option.bind_some, ih (acc ++ [(x.1, x.2)]) (by simpa using hs)
      (fun y hy => he y (by simp [hy])) (fun y hy => hu y (by simp [hy]))]
    · simp
    · intro y hy
      unfold FsSorted at hs
      rw [List.pairwise_append] at hs
      exact hs.2.2 y hy x (by simp)

/-- The policy file that would be read as the list. -/
def fileOf (g : Genfs) : List (Str × List GenEntry) := g.map fun x => (x.1, x.2.map unEntry)

theorem read_fileOf {es : Str → List GenEntry} {g : Genfs} (h : GenB es g) : genfsRead (fileOf g) [] = some g := by
  have := genfsRead_sorted g [] (by simpa using h.sorted) (fun x hx => (h.entries x.1 x.2 hx).1) (fun x hx => by
    rw [List.map_map]
    conv => rhs; rw [← List.map_id x.2]
    apply List.map_congr_left
    intro o ho
    obtain ⟨e, _, rfl⟩ := List.mem_map.mp ((h.entries x.1 x.2 hx).2.mem_iff.mp ho)
    rfl)
  simpa [fileOf] using this

theorem fileOf_mem {cfg : Cfg} {d : Nat} {ss : List Stmt} {db : Db} (h : Built cfg d ss db) {fs : Str} {e : GenEntry} :
    (∃ es, (fs, es) ∈ fileOf db.ob.genfs ∧ e ∈ es) ↔ ∃ s ∈ ss, genE cfg fs s = some e := by
  constructor
  · rintro ⟨es, h1, h2⟩
    obtain ⟨⟨f, l⟩, hx, he⟩ := List.mem_map.mp h1
    cases he
    obtain ⟨o, ho, rfl⟩ := List.mem_map.mp h2
    obtain ⟨e, he, rfl⟩ := List.mem_map.mp ((h.genfs.entries _ _ hx).2.mem_iff.mp ho)
    exact List.mem_filterMap.mp he
  · intro hs
    have hm : e ∈ ss.filterMap (genE cfg fs) := List.mem_filterMap.mpr hs
    obtain ⟨l, hl⟩ := h.genfs.all fs (List.ne_nil_of_mem hm)
    refine ⟨l.map unEntry, List.mem_map.mpr ⟨(fs, l), hl, rfl⟩, ?_⟩
    have := (h.genfs.entries fs l hl).2.mem_iff.mpr (List.mem_map_of_mem hm)
    exact List.mem_map.mpr ⟨_, this, rfl⟩

theorem genE_for {cfg : Cfg} (hc : cfg.WF) {s : Stmt} (hl : Legal cfg s) {fs path : Str} {cls : Nat} :
    ForFile cfg fs path cls s ↔ ∃ e, genE cfg fs s = some e ∧ e.name <+: path ∧ (e.sclass = 0 ∨ e.sclass = cls) := by
  cases s <;> simp only [ForFile, genE, reduceCtorEq, false_and, exists_false]
  case genfs f p t c =>
    obtain ⟨_, h1, h2⟩ := hl
    obtain ⟨c, rfl⟩ := ne_none.mp h2
    have : ∃ v, classValue cfg t = some v := by
      rcases t with _ | t'
      · exact ⟨0, rfl⟩
      · obtain ⟨n, v, h1, h2⟩ := h1 t' rfl
        exact ⟨v, (classValue_some _ _ _).mpr (.inr ⟨t', n, rfl, h1, h2⟩)⟩
    obtain ⟨v, hv⟩ := this
    by_cases hf : f = fs
    · subst hf
      simp only [true_and, if_true, hv, Option.map_some, Option.some.injEq, exists_eq_left', class_zero hc hv]
      have : (∃ t' n, t = some t' ∧ TypeClass t' n ∧ cfg.classOf n = some cls) ↔ t ≠ none ∧ v = cls := by
        constructor
        · rintro ⟨t', n, rfl, h3, h4⟩
          refine ⟨by simp, ?_⟩
          have := (classValue_some cfg (some t') cls).mpr (.inr ⟨t', n, rfl, h3, h4⟩)
          rw [hv] at this; exact Option.some.inj this
        · rintro ⟨h3, rfl⟩
          rcases (classValue_some cfg t v).mp hv with ⟨h4, _⟩ | h4
          · exact absurd h4 h3
          · exact h4
      rw [this]
      by_cases ht : t = none
      · simp [ht]
      · simp [ht]
    · simp [hf]

theorem best_stmt {cfg : Cfg} (hc : cfg.WF) {d : Nat} {ss : List Stmt} {db : Db} (h : Built cfg d ss db)
    (hl : ∀ s ∈ ss, Legal cfg s) {fs path : Str} {cls : Nat} {e : GenEntry}
    (hb : BestEntry (fileOf db.ob.genfs) fs path cls e) :
    ∃ s, BestStmt ss (ForFile cfg fs path cls) (fun t s => s.pathLength < t.pathLength) s ∧ s.label = some e.ctx := by
  obtain ⟨h1, h2, h3, h4⟩ := hb
  obtain ⟨s, hs, he⟩ := (fileOf_mem h).mp h1
  have len : ∀ s e, genE cfg fs s = some e → s.pathLength = e.name.length := by
    intro s e he
    unfold genE at he
    split at he
    · split at he
      · rw [Option.map_eq_some_iff] at he
        obtain ⟨v, _, rfl⟩ := he; rfl
      · cases he
    · cases he
  refine ⟨s, ⟨hs, (genE_for hc (hl s hs)).mpr ⟨e, he, h2, h3⟩, fun t ht hpt hlt => ?_⟩, genE_ctx cfg fs s e he⟩
  obtain ⟨e', he', hp', hc'⟩ := (genE_for hc (hl t ht)).mp hpt
  obtain ⟨es, ha, hb⟩ := (fileOf_mem h).mpr ⟨t, ht, he'⟩
  have := h4 es e' ha hb hp' hc'
  dsimp only at hlt
  rw [len s e he, len t e' he'] at hlt
  omega

theorem no_stmt {cfg : Cfg} (hc : cfg.WF) {d : Nat} {ss : List Stmt} {db : Db} (h : Built cfg d ss db)
    (hl : ∀ s ∈ ss, Legal cfg s) {fs path : Str} {cls : Nat} (hn : NoEntry (fileOf db.ob.genfs) fs path cls) :
    ∀ s ∈ ss, ¬ ForFile cfg fs path cls s := by
  intro s hs hf
  obtain ⟨e, he, hp, hcl⟩ := (genE_for hc (hl s hs)).mp hf
  obtain ⟨es, ha, hb⟩ := (fileOf_mem h).mpr ⟨s, hs, he⟩
  exact hn es e ha hb hp hcl

end Verif.ObjStmt
