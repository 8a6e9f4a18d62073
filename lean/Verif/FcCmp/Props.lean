import Verif.FcCmp.Complete
import Verif.FcCmp.Spec
/-! # Properties of comparing two handles -/
namespace Verif.FcCmp
open Verif.FileLabel
open Verif.FileLabel.Spec (Entry Sorts plain leading entriesFrom entries)
open Spec

/-! ## Which nodes there are -/

/-- The directories of a specification. -/
def pathOf (e : Entry) : List Bytes :=
  match plain e.regex with
  | none => leading e.regex
  | some t => litPath t

/-- The nodes of the tree are those on the way to a specification. -/
structure Alive (es : List Entry) (n : Node) : Prop where
  nodes : ∀ p, (at_ n p).isSome = true ↔ p = [] ∨ ∃ e ∈ es, p <+: pathOf e
  stem : n.stem = []

theorem alive_new : Alive [] (.new []) := by
  refine ⟨?_, rfl⟩
  intro p
  rw [at_new]
  split
  · rename_i h; simp [h]
  · rename_i h; simp [h]

theorem insert_alive {es : List Entry} {d d' : Data} (h : Alive es d.root) (e : Entry) (hl : e.regex.length < 65535)
    (hi : insertSpec none d e.regex e.kind e.ctx e.input e.line = some d') : Alive (es ++ [e]) d'.root := by
  have fin : ∀ {f : Node → Node} (_ : Local f) {p0 : List Bytes} (_ : p0 = pathOf e), Alive (es ++ [e]) (d.root.upd f p0) := by
    intro f hf p0 hp0
    refine ⟨fun p => ?_, by rw [upd_stem hf]; exact h.stem⟩
    rw [isSome_upd hf, h.nodes p, hp0]
    constructor
    · rintro ((rfl | ⟨x, hx, hp⟩) | hp)
      · exact Or.inl rfl
      · exact Or.inr ⟨x, List.mem_append_left _ hx, hp⟩
      · exact Or.inr ⟨e, by simp, hp⟩
    · rintro (rfl | ⟨x, hx, hp⟩)
      · exact Or.inl (Or.inl rfl)
      · rcases List.mem_append.1 hx with hx | hx
        · exact Or.inl (Or.inr ⟨x, hx, hp⟩)
        · simp only [List.mem_singleton] at hx
          subst hx
          exact Or.inr hp
  unfold insertSpec at hi
  have hm := hasMeta_plain e.regex 0
  simp only at hi
  cases hp : plain e.regex with
  | none =>
    rw [hp] at hm
    simp only [Option.isNone_none] at hm
    rw [if_pos hm, reStems_eq 0 e.regex hl] at hi
    simp only [Option.some.injEq] at hi
    subst hi
    exact fin (addRe_local _) (by unfold pathOf; rw [hp]; rfl)
  | some t =>
    rw [hp] at hm
    simp only [Option.isNone_some] at hm
    rw [if_neg (by rw [hm]; exact Bool.false_ne_true), simplify_plain, hp] at hi
    simp only at hi
    rw [litStems_eq] at hi
    simp only [Option.some.injEq] at hi
    subst hi
    exact fin (addLit_local _) (by unfold pathOf; rw [hp]; rfl)

theorem processLines_alive {inputno : Nat} {ls : List Bytes} {lineno : Nat} {d d' : Data} {es : List Entry}
    (h : Alive es d.root) (hp : processLines none inputno lineno ls d = some d') :
    Alive (es ++ entriesFrom inputno lineno ls) d'.root := by
  induction ls generalizing lineno d es with
  | nil => simp only [processLines, Option.some.injEq] at hp; subst hp; simpa [entriesFrom] using h
  | cons l ls ih =>
    rw [processLines] at hp
    rw [entriesFrom]
    cases hl : parseLine l with
    | ub => rw [hl] at hp; simp at hp
    | err => rw [hl] at hp; simp at hp
    | skip => rw [hl] at hp; exact ih h hp
    | spec r k c =>
      rw [hl] at hp
      simp only at hp ⊢
      cases hd1 : insertSpec none d r k c inputno (lineno + 1) with
      | none => rw [hd1] at hp; simp at hp
      | some d1 =>
        rw [hd1] at hp
        simp only at hp
        have := ih (insert_alive h ⟨r, k, c, inputno, lineno + 1⟩ (parseLine_short hl) hd1) hp
        rw [List.append_assoc, List.singleton_append] at this
        exact this

theorem processFiles_alive {i : Nat} {fs : List (List Bytes)} {d d' : Data} {es : List Entry}
    (h : Alive es d.root) (hp : processFiles none i fs d = some d') : Alive (es ++ entries i fs) d'.root := by
  induction fs generalizing i d es with
  | nil => simp only [processFiles, Option.some.injEq] at hp; subst hp; simpa [entries] using h
  | cons f fs ih =>
    rw [processFiles] at hp
    rw [entries]
    cases hf : processLines none i 0 f d with
    | none => rw [hf] at hp; simp at hp
    | some d1 =>
      rw [hf] at hp
      simp only at hp
      have := ih (processLines_alive h hf) hp
      rw [List.append_assoc] at this
      exact this

theorem wf_sort {q : Qsort} (hq : Sorts q) {n : Node} (h : WF n) : WF (sortNode q n) := by
  induction h with
  | mk s l r c hd hc ih =>
    rw [sortNode, sortNodes_map]
    have hp := (hq cmpNode (c.map (sortNode q))).1
    refine .mk _ _ _ _ ?_ ?_
    · refine (hp.map Node.stem).nodup_iff.2 ?_
      rw [List.map_map]
      rw [show (Node.stem ∘ sortNode q) = Node.stem from funext fun x => sortNode_stem q x]
      exact hd
    · intro x hx
      obtain ⟨y, hy, rfl⟩ := List.mem_map.1 (hp.mem_iff.1 hx)
      exact ih y hy

/-- A tree that was loaded. -/
structure Loaded (es : List Entry) (d : Data) : Prop where
  sorted : FileLabel.Sorted es d.root
  num : d.num = es.length
  wf : WF d.root
  alive : Alive es d.root

theorem load_loaded {q : Qsort} (hq : Sorts q) {files : List (List Bytes)} {d : Data} (h : load q none files = some d) :
    Loaded (entries 0 files) d := by
  obtain ⟨hs, hn⟩ := load_sorted hq h
  unfold load at h
  obtain ⟨d0, hd0, rfl⟩ := Option.map_eq_some_iff.1 h
  have hw := (processFiles_holds (es := []) (d := .empty) holds_new hd0).wf
  have ha := processFiles_alive (es := []) (d := .empty) alive_new hd0
  refine ⟨hs, hn, wf_sort hq hw, ⟨fun p => ?_, ?_⟩⟩
  · show (at_ (sortNode q d0.root) p).isSome = true ↔ _
    rw [at_sort hq hw, Option.isSome_map]
    exact ha.nodes p
  · show (sortNode q d0.root).stem = []
    rw [sortNode_stem]; exact ha.stem

/-! ## Trees -/

theorem kids_eq {f : Node → Node → Option Res} {cs ds : List Node} (hc : Ord cs) (hd : Ord ds)
    (h1 : ∀ c ∈ cs, ∃ d ∈ ds, c.stem = d.stem ∧ f c d = some .equal) (h2 : ∀ d ∈ ds, ∃ c ∈ cs, c.stem = d.stem) (r : Res) :
    kids f r cs ds = some r := by
  have irr : ∀ s : Bytes, ¬ strcmp s s < 0 := fun s => by have := strcmp_eq.2 (rfl : s = s); omega
  induction cs generalizing ds with
  | nil =>
    cases ds with
    | nil => rw [kids]
    | cons d ds => obtain ⟨c, hc, _⟩ := h2 d List.mem_cons_self; simp at hc
  | cons c cs ih =>
    cases ds with
    | nil => obtain ⟨d, hd, _⟩ := h1 c List.mem_cons_self; simp at hd
    | cons d ds =>
      have hd' := List.pairwise_cons.1 hd
      have hc' := List.pairwise_cons.1 hc
      have hs : c.stem = d.stem := by
        obtain ⟨y, hy, hys, -⟩ := h1 c List.mem_cons_self
        obtain ⟨z, hz, hzs⟩ := h2 d List.mem_cons_self
        rcases List.mem_cons.1 hy with rfl | hy
        · exact hys
        · rcases List.mem_cons.1 hz with rfl | hz
          · exact hzs
          · have a := hd'.1 y hy
            have b := hc'.1 z hz
            rw [← hys] at a
            rw [hzs] at b
            have := (strcmp_anti _ _).1 a
            omega
      have h0 := strcmp_eq.2 hs
      rw [kids, if_neg (by omega), if_neg (by omega)]
      obtain ⟨y, hy, hys, hf⟩ := h1 c List.mem_cons_self
      have hyd : y = d := by
        rcases List.mem_cons.1 hy with e | hy
        · exact e
        · have := hd'.1 y hy
          rw [← hys, hs] at this
          exact absurd this (irr _)
      subst hyd
      rw [hf]
      refine ih hc'.2 hd'.2 ?_ ?_
      · intro c' hc''
        obtain ⟨z, hz, hzs, hh⟩ := h1 c' (List.mem_cons_of_mem _ hc'')
        rcases List.mem_cons.1 hz with rfl | hz
        · have := hc'.1 c' hc''
          rw [hzs, hs] at this
          exact absurd this (irr _)
        · exact ⟨z, hz, hzs, hh⟩
      · intro d' hd''
        obtain ⟨z, hz, hzs⟩ := h2 d' (List.mem_cons_of_mem _ hd'')
        rcases List.mem_cons.1 hz with rfl | hz
        · have := hd'.1 d' hd''
          rw [← hzs, hs] at this
          exact absurd this (irr _)
        · exact ⟨z, hz, hzs⟩

theorem ord_nodup {l : List Node} (h : Ord l) : (l.map Node.stem).Nodup := by
  unfold List.Nodup
  rw [List.pairwise_map]
  refine List.Pairwise.imp ?_ h
  intro a b hab e
  rw [e] at hab
  have := strcmp_eq.2 (rfl : b.stem = b.stem)
  omega

/-- The children are in order everywhere. -/
def Strictly (n : Node) : Prop := ∀ p x, at_ n p = some x → Strict x

theorem Strictly.ord {n : Node} (h : Strictly n) : Ord n.children := h [] n rfl

theorem child_of {n c : Node} (h : Strictly n) (hc : c ∈ n.children) : child n c.stem = some c :=
  (find_unique (ord_nodup h.ord) _ _).2 ⟨hc, rfl⟩

theorem at_child {n c : Node} {s : Bytes} (h : child n s = some c) (p : List Bytes) : at_ n (s :: p) = at_ c p := by
  simp [at_, h]

theorem obs_child {β : Type} (g : Node → List β) {n c : Node} {s : Bytes} (h : child n s = some c) (p : List Bytes) :
    obsAt g n (s :: p) = obsAt g c p := by
  unfold obsAt
  rw [at_child h]

theorem Strictly.sub {n c : Node} {s : Bytes} (h : Strictly n) (hc : child n s = some c) : Strictly c :=
  fun p x hx => h (s :: p) x (by rw [at_child hc]; exact hx)

theorem child_some {n : Node} {s : Bytes} (h : (at_ n [s]).isSome = true) : ∃ c, child n s = some c := by
  cases hc : child n s with
  | none => simp [at_, hc] at h
  | some c => exact ⟨c, rfl⟩

theorem child_stem {n c : Node} {s : Bytes} (h : child n s = some c) : c ∈ n.children ∧ c.stem = s := by
  refine ⟨List.mem_of_find?_eq_some h, ?_⟩
  have := List.find?_some h
  simpa using this

theorem tree_le {k : Nat} {n m : Node} (hstem : n.stem = m.stem) (hn : Strictly n) (hm : Strictly m)
    (ho : ∀ p, Ordered (obsAt Node.lits m p)) (hk : ∀ p, (at_ n p).isSome = true → p.length < k)
    (hs : ∀ p, (at_ n p).isSome = true → (at_ m p).isSome = true)
    (hl : ∀ p, ((obsAt Node.lits n p).map litKey).Sublist ((obsAt Node.lits m p).map litKey))
    (hr : ∀ p, ((obsAt Node.res n p).map reKey).Sublist ((obsAt Node.res m p).map reKey)) :
    ∃ r, cmpTree k n m = some r ∧ Le r := by
  induction k generalizing n m with
  | zero => exact absurd (hk [] rfl) (by simp)
  | succ k ih =>
    obtain ⟨r1, h1, l1⟩ := lits_le (ho []) (hl []) (r := .equal) (Or.inl rfl)
    obtain ⟨r2, h2, l2⟩ := res_le (hr []) l1
    obtain ⟨r3, h3, l3⟩ := kids_le (f := cmpTree k) hn.ord hm.ord (by
      intro c hc
      have hcn := child_of hn hc
      obtain ⟨d, hd⟩ := child_some (hs [c.stem] (by rw [at_child hcn]; rfl))
      obtain ⟨hdm, hds⟩ := child_stem hd
      refine ⟨d, hdm, hds.symm, ?_⟩
      refine ih hds.symm (hn.sub hcn) (hm.sub hd) ?_ ?_ ?_ ?_ ?_
      · intro p; have := ho (c.stem :: p); rwa [obs_child _ hd] at this
      · intro p hp
        have := hk (c.stem :: p) (by rw [at_child hcn]; exact hp)
        simp only [List.length_cons] at this; omega
      · intro p hp
        have := hs (c.stem :: p) (by rw [at_child hcn]; exact hp)
        rwa [at_child hd] at this
      · intro p; have := hl (c.stem :: p); rwa [obs_child _ hcn, obs_child _ hd] at this
      · intro p; have := hr (c.stem :: p); rwa [obs_child _ hcn, obs_child _ hd] at this) l2
    refine ⟨r3, ?_, l3⟩
    have e1 : lits .equal n.lits m.lits = some r1 := h1
    have e2 : res r1 n.res m.res = some r2 := h2
    rw [cmpTree, if_neg (by simpa using strcmp_eq.2 hstem), e1, Option.bind_some, e2, Option.bind_some, h3]

theorem tree_ge {k : Nat} {n m : Node} (hstem : n.stem = m.stem) (hn : Strictly n) (hm : Strictly m)
    (ho : ∀ p, Ordered (obsAt Node.lits n p)) (hd : ∀ p, ((obsAt Node.res n p).map reKey).Nodup)
    (hk : ∀ p, (at_ m p).isSome = true → p.length < k)
    (hs : ∀ p, (at_ m p).isSome = true → (at_ n p).isSome = true)
    (hl : ∀ p, ((obsAt Node.lits m p).map litKey).Sublist ((obsAt Node.lits n p).map litKey))
    (hr : ∀ p, ((obsAt Node.res m p).map reKey).Sublist ((obsAt Node.res n p).map reKey)) :
    ∃ r, cmpTree k n m = some r ∧ Ge r := by
  induction k generalizing n m with
  | zero => exact absurd (hk [] rfl) (by simp)
  | succ k ih =>
    obtain ⟨r1, h1, l1⟩ := lits_ge (ho []) (hl []) (r := .equal) (Or.inl rfl)
    obtain ⟨r2, h2, l2⟩ := res_ge (hd []) (hr []) l1
    obtain ⟨r3, h3, l3⟩ := kids_ge (f := cmpTree k) hn.ord hm.ord (by
      intro c hc
      have hcn := child_of hm hc
      obtain ⟨d, hd'⟩ := child_some (hs [c.stem] (by rw [at_child hcn]; rfl))
      obtain ⟨hdm, hds⟩ := child_stem hd'
      refine ⟨d, hdm, hds, ?_⟩
      refine ih hds (hn.sub hd') (hm.sub hcn) ?_ ?_ ?_ ?_ ?_ ?_
      · intro p; have := ho (c.stem :: p); rwa [obs_child _ hd'] at this
      · intro p; have := hd (c.stem :: p); rwa [obs_child _ hd'] at this
      · intro p hp
        have := hk (c.stem :: p) (by rw [at_child hcn]; exact hp)
        simp only [List.length_cons] at this; omega
      · intro p hp
        have := hs (c.stem :: p) (by rw [at_child hcn]; exact hp)
        rwa [at_child hd'] at this
      · intro p; have := hl (c.stem :: p); rwa [obs_child _ hcn, obs_child _ hd'] at this
      · intro p; have := hr (c.stem :: p); rwa [obs_child _ hcn, obs_child _ hd'] at this) l2
    refine ⟨r3, ?_, l3⟩
    have e1 : lits .equal n.lits m.lits = some r1 := h1
    have e2 : res r1 n.res m.res = some r2 := h2
    rw [cmpTree, if_neg (by simpa using strcmp_eq.2 hstem), e1, Option.bind_some, e2, Option.bind_some, h3]

theorem tree_eq {k : Nat} {n m : Node} (hstem : n.stem = m.stem) (hn : Strictly n) (hm : Strictly m)
    (hk : ∀ p, (at_ n p).isSome = true → p.length < k)
    (hs : ∀ p, (at_ n p).isSome = true ↔ (at_ m p).isSome = true)
    (hl : ∀ p, (obsAt Node.lits n p).map litKey = (obsAt Node.lits m p).map litKey)
    (hr : ∀ p, (obsAt Node.res n p).map reKey = (obsAt Node.res m p).map reKey) :
    cmpTree k n m = some .equal := by
  induction k generalizing n m with
  | zero => exact absurd (hk [] rfl) (by simp)
  | succ k ih =>
    have e1 : lits .equal n.lits m.lits = some .equal := lits_eq (hl []) _
    have e2 : res .equal n.res m.res = some .equal := res_eq (hr []) _
    rw [cmpTree, if_neg (by simpa using strcmp_eq.2 hstem), e1, Option.bind_some, e2, Option.bind_some]
    refine kids_eq hn.ord hm.ord ?_ ?_ _
    · intro c hc
      have hcn := child_of hn hc
      obtain ⟨d, hd⟩ := child_some ((hs [c.stem]).1 (by rw [at_child hcn]; rfl))
      obtain ⟨hdm, hds⟩ := child_stem hd
      refine ⟨d, hdm, hds.symm, ?_⟩
      refine ih hds.symm (hn.sub hcn) (hm.sub hd) ?_ ?_ ?_ ?_
      · intro p hp
        have := hk (c.stem :: p) (by rw [at_child hcn]; exact hp)
        simp only [List.length_cons] at this; omega
      · intro p
        have := hs (c.stem :: p)
        rwa [at_child hd, at_child hcn] at this
      · intro p; have := hl (c.stem :: p); rwa [obs_child _ hcn, obs_child _ hd] at this
      · intro p; have := hr (c.stem :: p); rwa [obs_child _ hcn, obs_child _ hd] at this
    · intro d hd
      have hdm := child_of hm hd
      obtain ⟨c, hc⟩ := child_some ((hs [d.stem]).2 (by rw [at_child hdm]; rfl))
      exact ⟨c, (child_stem hc).1, (child_stem hc).2⟩

/-! ## Entries -/

theorem count_lits (es : List Entry) (p : List Bytes) (x : Bytes × Nat) :
    (((es.filter (fun e => (plain e.regex).any (fun t => decide (litPath t = p)))).map toLit).map litKey).count x =
      if litPath x.1 = p then times x.1 x.2 es else 0 := by
  induction es with
  | nil => simp [times]
  | cons e es ih =>
    cases hp : plain e.regex with
    | none => simpa [List.filter_cons, hp, times] using ih
    | some t =>
      have hk : litKey (toLit e) = (t, e.kind) := by simp [litKey, toLit, hp]
      by_cases hpt : litPath t = p
      · rw [List.filter_cons, if_pos (by simp [hp, hpt]), List.map_cons, List.map_cons, hk, List.count_cons, ih]
        by_cases hx : (t, e.kind) = x
        · subst hx
          simp [hpt, times, List.filter_cons, hp]
        · have : ¬ (plain e.regex = some x.1 ∧ e.kind = x.2) := by
            rw [hp]
            rintro ⟨h1, h2⟩
            exact hx (Prod.ext (by simpa using h1) h2)
          simp [hx, times, List.filter_cons, this]
      · rw [List.filter_cons, if_neg (by simp [hp, hpt]), ih]
        by_cases hxp : litPath x.1 = p
        · have : ¬ (plain e.regex = some x.1 ∧ e.kind = x.2) := by
            rw [hp]
            rintro ⟨h1, _⟩
            simp only [Option.some.injEq] at h1
            exact hpt (by rw [h1]; exact hxp)
          simp [hxp, times, List.filter_cons, this]
        · simp [hxp]

theorem Loaded.count {es : List Entry} {d : Data} (h : Loaded es d) (p : List Bytes) (x : Bytes × Nat) :
    ((obsAt Node.lits d.root p).map litKey).count x = if litPath x.1 = p then times x.1 x.2 es else 0 := by
  rw [((h.sorted.lits p).map litKey).count_eq x, count_lits]

theorem Loaded.exprs {es : List Entry} {d : Data} (h : Loaded es d) (p : List Bytes) :
    (obsAt Node.res d.root p).map reKey = exprs p es := by
  rw [h.sorted.res, List.map_map]
  unfold Spec.exprs
  have : (fun e : Entry => (plain e.regex).isNone && decide (leading e.regex = p)) =
      fun e => decide (plain e.regex = none ∧ leading e.regex = p) := by
    funext e
    rw [Bool.decide_and]
    congr 1
    cases plain e.regex <;> rfl
  rw [this]
  rfl

instance : Std.Antisymm keyLe := ⟨fun _ _ => keyLe_antisymm⟩

theorem Loaded.ordered {es : List Entry} {d : Data} (h : Loaded es d) (p : List Bytes) : Ordered (obsAt Node.lits d.root p) :=
  ordered_of (h.sorted.sortedL p)

theorem lits_included {es es' : List Entry} {d d' : Data} (h : Loaded es d) (h' : Loaded es' d')
    (hi : ∀ path kind, times path kind es ≤ times path kind es') (p : List Bytes) :
    ((obsAt Node.lits d.root p).map litKey).Sublist ((obsAt Node.lits d'.root p).map litKey) := by
  refine List.sublist_of_subperm_of_pairwise (r := keyLe) (List.subperm_ext_iff.2 ?_) (h.ordered p) (h'.ordered p)
  intro x _
  rw [h.count, h'.count]
  split
  · exact hi _ _
  · exact Nat.le_refl _

theorem included_of {es es' : List Entry} {d d' : Data} (h : Loaded es d) (h' : Loaded es' d')
    (hl : ∀ p, ((obsAt Node.lits d.root p).map litKey).Sublist ((obsAt Node.lits d'.root p).map litKey))
    (hr : ∀ p, ((obsAt Node.res d.root p).map reKey).Sublist ((obsAt Node.res d'.root p).map reKey)) : Included es es' := by
  constructor
  · intro path kind
    have := (hl (litPath path)).count_le (path, kind)
    rwa [h.count, h'.count, if_pos rfl, if_pos rfl] at this
  · intro dir
    have := hr dir
    rwa [h.exprs, h'.exprs] at this

theorem times_pos {path : Bytes} {kind : Nat} {es : List Entry} : 0 < times path kind es ↔
    ∃ e ∈ es, plain e.regex = some path ∧ e.kind = kind := by
  unfold times
  rw [List.length_pos_iff_exists_mem]
  simp

theorem included_path {es es' : List Entry} (h : Included es es') {e : Entry} (he : e ∈ es) :
    ∃ e' ∈ es', pathOf e' = pathOf e ∧ e'.kind = e.kind := by
  cases hp : plain e.regex with
  | none =>
    have hm : (e.regex, e.kind) ∈ Spec.exprs (leading e.regex) es :=
      List.mem_map.2 ⟨e, List.mem_filter.2 ⟨he, by simp [hp]⟩, rfl⟩
    obtain ⟨e', he', hx⟩ := List.mem_map.1 ((h.exprs _).subset hm)
    simp only [Prod.mk.injEq] at hx
    refine ⟨e', (List.mem_filter.1 he').1, ?_, hx.2⟩
    unfold pathOf
    rw [hx.1]
  | some t =>
    have h1 : 0 < times t e.kind es := times_pos.2 ⟨e, he, hp, rfl⟩
    obtain ⟨e', he', hp', hk⟩ := times_pos.1 (Nat.lt_of_lt_of_le h1 (h.paths t e.kind))
    refine ⟨e', he', ?_, hk⟩
    unfold pathOf
    rw [hp, hp']

theorem included_nodes {es es' : List Entry} {d d' : Data} (h : Loaded es d) (h' : Loaded es' d') (hi : Included es es') (p : List Bytes)
    (hp : (at_ d.root p).isSome = true) : (at_ d'.root p).isSome = true := by
  rw [h'.alive.nodes]
  rcases (h.alive.nodes p).1 hp with rfl | ⟨e, he, hpe⟩
  · exact Or.inl rfl
  · obtain ⟨e', he', hpp, -⟩ := included_path hi he
    exact Or.inr ⟨e', he', by rw [hpp]; exact hpe⟩

theorem included_nil {es : List Entry} (h : Included es []) : es = [] := by
  cases es with
  | nil => rfl
  | cons e es => obtain ⟨_, h, _⟩ := included_path h List.mem_cons_self; simp at h

theorem nil_included (es : List Entry) : Included [] es := ⟨fun _ _ => by simp [times], fun _ => by simp [Spec.exprs]⟩

/-! ## C114: comparing two handles -/

section
variable {es es' : List Entry} {d d' : Data} (h : Loaded es d) (h' : Loaded es' d')
include h h'

theorem cmp_le {r : Res} (hc : cmp d d' = some r) (hr : Le r) : Included es es' := by
  unfold cmp at hc
  split at hc
  · rename_i h0
    rw [List.length_eq_zero_iff.1 (h.num.symm.trans h0)]
    exact nil_included _
  · split at hc
    · simp only [Option.some.injEq] at hc; subst hc; exact absurd hr not_le_superset
    · exact included_of h h' (fun p => (cmpTree_le h'.wf hc hr p).1) (fun p => (cmpTree_le h'.wf hc hr p).2)

theorem cmp_ge {r : Res} (hc : cmp d d' = some r) (hr : Ge r) : Included es' es := by
  unfold cmp at hc
  split at hc
  · split at hc
    · rename_i h0
      rw [List.length_eq_zero_iff.1 (h'.num.symm.trans h0)]
      exact nil_included _
    · simp only [Option.some.injEq] at hc; subst hc; exact absurd hr not_ge_subset
  · split at hc
    · rename_i h0
      rw [List.length_eq_zero_iff.1 (h'.num.symm.trans h0)]
      exact nil_included _
    · exact included_of h' h (fun p => (cmpTree_ge h.wf hc hr p).1) (fun p => (cmpTree_ge h.wf hc hr p).2)

theorem cmp_of_le (hi : Included es es') : ∃ r, cmp d d' = some r ∧ Le r := by
  unfold cmp
  split
  · split
    · exact ⟨_, rfl, Or.inl rfl⟩
    · exact ⟨_, rfl, Or.inr rfl⟩
  · rename_i h0
    split
    · rename_i h1
      rw [List.length_eq_zero_iff.1 (h'.num.symm.trans h1)] at hi
      rw [included_nil hi] at h
      exact absurd h.num h0
    · refine tree_le (h.alive.stem.trans h'.alive.stem.symm) h.sorted.strict h'.sorted.strict h'.ordered ?_
        (included_nodes h h' hi) (lits_included h h' hi.paths) ?_
      · intro p hp; have := h.sorted.depth p hp; omega
      · intro p; rw [h.exprs, h'.exprs]; exact hi.exprs p

theorem cmp_of_ge (hn : ∀ dir, (Spec.exprs dir es).Nodup) (hi : Included es' es) : ∃ r, cmp d d' = some r ∧ Ge r := by
  unfold cmp
  split
  · rename_i h0
    split
    · exact ⟨_, rfl, Or.inl rfl⟩
    · rename_i h1
      rw [List.length_eq_zero_iff.1 (h.num.symm.trans h0)] at hi
      rw [included_nil hi] at h'
      exact absurd h'.num h1
  · split
    · exact ⟨_, rfl, Or.inr rfl⟩
    · refine tree_ge (h.alive.stem.trans h'.alive.stem.symm) h.sorted.strict h'.sorted.strict h.ordered ?_ ?_
        (included_nodes h' h hi) (lits_included h' h hi.paths) ?_
      · intro p; rw [h.exprs]; exact hn p
      · intro p hp; have := h'.sorted.depth p hp; omega
      · intro p; rw [h.exprs, h'.exprs]; exact hi.exprs p

theorem cmp_of_eq (hi : Included es es') (hi' : Included es' es) : cmp d d' = some .equal := by
  unfold cmp
  split
  · rename_i h0
    rw [List.length_eq_zero_iff.1 (h.num.symm.trans h0)] at hi'
    rw [included_nil hi'] at h'
    exact if_pos h'.num
  · rename_i h0
    split
    · rename_i h1
      rw [List.length_eq_zero_iff.1 (h'.num.symm.trans h1)] at hi
      rw [included_nil hi] at h
      exact absurd h.num h0
    · refine tree_eq (h.alive.stem.trans h'.alive.stem.symm) h.sorted.strict h'.sorted.strict ?_
        (fun p => ⟨included_nodes h h' hi p, included_nodes h' h hi' p⟩) ?_ ?_
      · intro p hp; have := h.sorted.depth p hp; omega
      · intro p
        exact (lits_included h h' hi.paths p).antisymm (lits_included h' h hi'.paths p)
      · intro p
        rw [h.exprs, h'.exprs]
        exact (hi.exprs p).antisymm (hi'.exprs p)
end

/-- Handles are equal exactly if the specifications of both are among those of the
other, and the first is a subset exactly if only those of the first are. -/
theorem C114_equal_subset (q q' : Qsort) (hq : Sorts q) (hq' : Sorts q') (files files' : List (List Bytes)) (d d' : Data)
    (hd : load q none files = some d) (hd' : load q' none files' = some d') :
    (cmp d d' = some .equal ↔ Included (entries 0 files) (entries 0 files') ∧ Included (entries 0 files') (entries 0 files)) ∧
    (cmp d d' = some .subset ↔ Included (entries 0 files) (entries 0 files') ∧ ¬ Included (entries 0 files') (entries 0 files)) := by
  have h := load_loaded hq hd
  have h' := load_loaded hq' hd'
  constructor
  · constructor
    · intro hc; exact ⟨cmp_le h h' hc (Or.inl rfl), cmp_ge h h' hc (Or.inl rfl)⟩
    · rintro ⟨h1, h2⟩; exact cmp_of_eq h h' h1 h2
  · constructor
    · intro hc
      refine ⟨cmp_le h h' hc (Or.inr rfl), fun h2 => ?_⟩
      rw [cmp_of_eq h h' (cmp_le h h' hc (Or.inr rfl)) h2] at hc
      simp at hc
    · rintro ⟨h1, h2⟩
      obtain ⟨r, hr, hl⟩ := cmp_of_le h h' h1
      rcases hl with rfl | rfl
      · exact absurd (cmp_ge h h' hr (Or.inl rfl)) h2
      · exact hr

/-- If the first is called a superset, only the specifications of the second are
among the others. The converse holds unless an expression is there twice. -/
theorem C114_superset_partial (q q' : Qsort) (hq : Sorts q) (hq' : Sorts q') (files files' : List (List Bytes)) (d d' : Data)
    (hd : load q none files = some d) (hd' : load q' none files' = some d') :
    (cmp d d' = some .superset → Included (entries 0 files') (entries 0 files) ∧ ¬ Included (entries 0 files) (entries 0 files')) ∧
    ((∀ dir, (exprs dir (entries 0 files)).Nodup) →
      Included (entries 0 files') (entries 0 files) ∧ ¬ Included (entries 0 files) (entries 0 files') →
      cmp d d' = some .superset) := by
  have h := load_loaded hq hd
  have h' := load_loaded hq' hd'
  constructor
  · intro hc
    refine ⟨cmp_ge h h' hc (Or.inr rfl), fun h2 => ?_⟩
    rw [cmp_of_eq h h' h2 (cmp_ge h h' hc (Or.inr rfl))] at hc
    simp at hc
  · rintro hn ⟨h1, h2⟩
    obtain ⟨r, hr, hl⟩ := cmp_of_ge h h' hn h1
    rcases hl with rfl | rfl
    · exact absurd (cmp_le h h' hr (Or.inl rfl)) h2
    · exact hr

/-- A handle is equal to itself. -/
theorem C114_refl (q : Qsort) (hq : Sorts q) (files : List (List Bytes)) (d : Data) (hd : load q none files = some d) :
    cmp d d = some .equal := by
  have h := load_loaded hq hd
  have hi : Included (entries 0 files) (entries 0 files) := ⟨fun _ _ => Nat.le_refl _, fun _ => List.Sublist.refl _⟩
  exact cmp_of_eq h h hi hi

theorem ok_of {x : Except Err Bytes} {c : Bytes} (h : x.toOption = some c) : x = .ok c := by
  cases x with
  | error _ => cases h
  | ok a => cases h; rfl

/-- Handles that are called equal may give different contexts: contexts are not
compared. -/
theorem C114_contexts_refuted : ∃ (files files' : List (List Bytes)) (d d' : Data) (path c c' : Bytes),
    load stable none files = some d ∧ load stable none files' = some d' ∧ cmp d d' = some .equal ∧
    lookup eng0 d [] [] path 0 = .ok c ∧ lookup eng0 d' [] [] path 0 = .ok c' ∧ c ≠ c' := by
  have hr : ((load stable none [[str "/etc x"]]).bind fun d => (load stable none [[str "/etc y"]]).map fun d' =>
      (cmp d d', (lookup eng0 d [] [] (str "/etc") 0).toOption, (lookup eng0 d' [] [] (str "/etc") 0).toOption)) =
      some (some .equal, some (str "x"), some (str "y")) := by decide +kernel
  obtain ⟨d, hd, hr⟩ := Option.bind_eq_some_iff.1 hr
  obtain ⟨d', hd', hr⟩ := Option.map_eq_some_iff.1 hr
  simp only [Prod.mk.injEq] at hr
  exact ⟨_, _, d, d', str "/etc", str "x", str "y", hd, hd', hr.1, ok_of hr.2.1, ok_of hr.2.2, by decide +kernel⟩

/-- Even handles with the same lines, contexts included, may be called equal and
give different contexts: the order of expressions with different directories is not
compared. -/
theorem C114_order_refuted : ∃ (files files' : List (List Bytes)) (d d' : Data) (path c c' : Bytes),
    files.flatten.Perm files'.flatten ∧
    load stable none files = some d ∧ load stable none files' = some d' ∧ cmp d d' = some .equal ∧
    lookup eng0 d [] [] path 0 = .ok c ∧ lookup eng0 d' [] [] path 0 = .ok c' ∧ c ≠ c' := by
  have hr : ((load stable none [[str "/usr/.* x", str ".* y"]]).bind fun d =>
      (load stable none [[str ".* y", str "/usr/.* x"]]).map fun d' =>
      (cmp d d', (lookup eng0 d [] [] (str "/usr/b") 0).toOption, (lookup eng0 d' [] [] (str "/usr/b") 0).toOption)) =
      some (some .equal, some (str "y"), some (str "x")) := by decide +kernel
  obtain ⟨d, hd, hr⟩ := Option.bind_eq_some_iff.1 hr
  obtain ⟨d', hd', hr⟩ := Option.map_eq_some_iff.1 hr
  simp only [Prod.mk.injEq] at hr
  exact ⟨[[str "/usr/.* x", str ".* y"]], [[str ".* y", str "/usr/.* x"]], d, d', str "/usr/b", str "y", str "x",
    List.Perm.swap _ _ _, hd, hd', hr.1, ok_of hr.2.1, ok_of hr.2.2, by decide +kernel⟩

/-- A superset with an expression twice may be called incomparable, though the
other handle is called a subset of it. -/
theorem C114_superset_refuted : ∃ (files files' : List (List Bytes)) (d d' : Data),
    load stable none files = some d ∧ load stable none files' = some d' ∧
    Included (entries 0 files') (entries 0 files) ∧ ¬ Included (entries 0 files) (entries 0 files') ∧
    cmp d' d = some .subset ∧ cmp d d' = none := by
  have hr : ((load stable none [[str "/a.* x", str "/b.* x", str "/a.* x"]]).bind fun d =>
      (load stable none [[str "/b.* x", str "/a.* x"]]).map fun d' => (cmp d' d, cmp d d')) =
      some (some .subset, none) := by decide +kernel
  obtain ⟨d, hd, hr⟩ := Option.bind_eq_some_iff.1 hr
  obtain ⟨d', hd', hr⟩ := Option.map_eq_some_iff.1 hr
  simp only [Prod.mk.injEq] at hr
  have h := ((C114_equal_subset stable stable stable_sorts stable_sorts _ _ d' d hd' hd).2).1 hr.1
  exact ⟨_, _, d, d', hd, hd', h.1, h.2, hr.1, hr.2⟩

/-- Handles of each kind: a superset and a subset with a path and expressions, and
two that cannot be compared because the order is not the same. -/
example : ((load stable none [[str "/a.* x", str "/b.* x", str "/usr/l x"]]).bind fun d =>
    (load stable none [[str "/b.* y"]]).map fun d' => (cmp d d', cmp d' d)) = some (some .superset, some .subset) := by
  decide +kernel

example : ((load stable none [[str "/a.* x", str "/b.* x"]]).bind fun d =>
    (load stable none [[str "/b.* x", str "/a.* x"]]).map fun d' => (cmp d d', cmp d' d)) = some (none, none) := by
  decide +kernel

/-- The hypothesis of `C114_superset_partial`: no expression twice. -/
example (dir : List Bytes) : (exprs dir (entries 0 [[str "/a.* x", str "/b.* x"]])).Nodup := by
  have : entries 0 [[str "/a.* x", str "/b.* x"]] = [⟨str "/a.*", 0, str "x", 0, 1⟩, ⟨str "/b.*", 0, str "x", 0, 2⟩] := by
    decide +kernel
  rw [this]
  refine List.Nodup.sublist ((List.filter_sublist).map _) (?_ : [(str "/a.*", 0), (str "/b.*", 0)].Nodup)
  decide +kernel

end Verif.FcCmp
