import Verif.Link.Lemmas3

/-!
# Properties of linking
-/

namespace Verif.Link

theorem greatest_union (p : Pol) (bs : List Block) : Greatest p bs fun id => ∃ T, Supported p bs T ∧ T id := by
  constructor
  · rintro id ⟨T, hT, h⟩
    obtain ⟨d, hd, e, hall⟩ := hT id h
    refine ⟨d, hd, e, ?_⟩
    intro k n hn
    obtain ⟨d', h1, h2, h3⟩ := hall k n hn
    exact ⟨d', h1, ⟨T, hT, h2⟩, h3⟩
  · intro T hT id h
    exact ⟨T, hT, h⟩

theorem greatest_eq {p : Pol} {bs : List Block} {G H : Nat → Prop} (hG : Greatest p bs G) (hH : Greatest p bs H)
    (id : Nat) : G id ↔ H id := ⟨hH.2 G hG.1 id, hG.2 H hH.1 id⟩

theorem body_not_else {p : Pol} {bs : List Block} (ok : LinkOk p bs) {d d' e : Decl} (hd : Body bs d)
    (he : Else bs d' e) : d.id ≠ e.id := by
  obtain ⟨b, hb, hbd⟩ := hd
  obtain ⟨b', hb', ds, hbr⟩ := he
  obtain ⟨i, hi⟩ := List.mem_iff_getElem?.1 hb
  obtain ⟨j, hj⟩ := List.mem_iff_getElem?.1 (List.mem_of_mem_tail hb')
  by_cases hij : i = j
  · subst hij
    rw [hi] at hj; cases hj
    simp only [hbr, List.head?_cons, Option.some.injEq] at hbd
    subst hbd
    have h := ok.ids
    rw [List.Nodup, List.pairwise_flatMap] at h
    have := h.1 b hb
    rw [hbr] at this
    simp only [List.map_cons, List.pairwise_cons, List.mem_cons] at this
    exact this.1 e.id (Or.inl rfl)
  · exact ids_apart ok hij hi hj (List.mem_of_mem_head? (by simp [hbd])) (by simp [hbr])

/-! ## C69: the optional blocks that are switched on -/

/-- C69 (partial): linking switches on the largest set of bodies whose requirements are all
declared within the set, and the `else` of every optional statement whose body is left out.
It fails exactly if a body that is not optional is left out, and then it reports a symbol
that this body requires and that no body of the set declares.

Missing: a body that is not optional and requires a class that no body declares
(see `C69_refuted`); the requirements of the `else` branches (see `C69_else_refuted`). -/
theorem C69_partial {p : Pol} {bs : List Block} (ok : LinkOk p bs) (hc : ClassesDeclared p bs) {fuel : Nat}
    (hf : bs.length < fuel) :
    ∃ G, Greatest p bs G ∧
      (((∀ d, Mandatory bs d → G d.id) ∧
        ∃ bs', enableAvrules p fuel bs = some (.ok (.ok, none, bs')) ∧
          (∀ id, On bs' id ↔ G id ∨ ∃ d e, Else bs d e ∧ e.id = id ∧ ¬ G d.id) ∧
          (∀ d, Body bs d → (On bs' d.id ↔ G d.id)) ∧
          (∀ b ∈ bs', ∀ (i : Nat) (d : Decl), b.branches[i]? = some d → (d.enabled = true ↔ b.enabled = some i)) ∧
          bs'.map bare = bs.map bare) ∨
       (∃ d k n bs', Mandatory bs d ∧ ¬ G d.id ∧
          enableAvrules p fuel bs = some (.ok (.ereq, some ⟨k, n, none⟩, bs')) ∧
          Needs p d k n ∧ ¬ ∃ d', Body bs d' ∧ G d'.id ∧ Declares p k n d'.id)) := by
  have hcls : ∀ (S' : Nat → Bool) d nm, Mandatory bs d → Needs p d .classes nm →
      (∀ d, Mandatory bs d → true = true → S' d.id = true) → Avail p bs S' .classes nm := by
    intro S' d nm hd hn hS
    obtain ⟨d', hd', hdec⟩ := hc d hd nm hn
    obtain ⟨b, hb, _, hbd⟩ := hd'
    exact ⟨d', ⟨b, hb, hbd⟩, hS d' ⟨b, hb, by assumption, hbd⟩ rfl, hdec⟩
  refine ⟨_, greatest_union p bs, ?_⟩
  unfold enableAvrules
  rw [start_eq ok.body]
  simp only
  have hlt : count bs (fun _ => true) < fuel := Nat.lt_of_le_of_lt (count_le_length _ _) hf
  rcases loop_spec ok fuel (fun _ => true) none hlt with ⟨S', e, hT, hmet, hman⟩ | ⟨r, d, bs', e, hd, hT, h⟩ | ⟨d, S', nm, e, hd, hn, h1, _, h2⟩
  · left
    have hG : ∀ d, Body bs d → ((∃ T, Supported p bs T ∧ T d.id) ↔ S' d.id = true) := by
      intro d hd
      constructor
      · rintro ⟨T, hs, ht⟩; exact hT T hs (fun _ _ => rfl) _ ht
      · intro h
        refine ⟨fun id => ∃ d, Body bs d ∧ d.id = id ∧ S' id = true, ?_, d, hd, rfl, h⟩
        rintro id ⟨d, hd, rfl, hS⟩
        refine ⟨d, hd, rfl, ?_⟩
        intro k n hn
        obtain ⟨d', a, b, c⟩ := hmet d hd hS k n hn
        exact ⟨d', a, ⟨d', a, rfl, b⟩, c⟩
    have hon : ∀ id, On (elses (rend bs S')) id ↔ (∃ T, Supported p bs T ∧ T id) ∨
        ∃ d e, Else bs d e ∧ e.id = id ∧ ¬ ∃ T, Supported p bs T ∧ T d.id := by
      intro id
      rw [on_elses ok.body]
      apply or_congr
      · constructor
        · rintro ⟨d, hd, rfl, h⟩; exact (hG d hd).2 h
        · rintro ⟨T, hs, ht⟩
          obtain ⟨d, hd, rfl, _⟩ := hs id ht
          exact ⟨d, hd, rfl, (hG d hd).1 ⟨T, hs, ht⟩⟩
      · constructor
        · rintro ⟨d, x, hx, rfl, h⟩
          obtain ⟨b, hb, ds, hbr⟩ := hx
          refine ⟨d, x, ⟨b, hb, ds, hbr⟩, rfl, ?_⟩
          rw [hG d ⟨b, List.mem_of_mem_tail hb, by simp [hbr]⟩, h]
          simp
        · rintro ⟨d, x, hx, rfl, h⟩
          obtain ⟨b, hb, ds, hbr⟩ := hx
          refine ⟨d, x, ⟨b, hb, ds, hbr⟩, rfl, ?_⟩
          rw [hG d ⟨b, List.mem_of_mem_tail hb, by simp [hbr]⟩] at h
          simpa using h
    refine ⟨?_, elses (rend bs S'), ?_, hon, ?_, pointer_elses ok.body S', bare_elses bs S'⟩
    · rintro d ⟨b, hb, ho, hbd⟩
      exact (hG d ⟨b, hb, hbd⟩).2 (hman d ⟨b, hb, ho, hbd⟩ rfl)
    · rw [e]
    · intro d hd
      rw [hon]
      constructor
      · rintro (h | ⟨d', x, hx, e', _⟩)
        · exact h
        · exact absurd e'.symm (body_not_else ok hd hx)
      · exact Or.inl
  · right
    rcases h with ⟨k, n, rfl, hn, hu⟩ | ⟨S', nm, hn, h1, h2⟩
    · refine ⟨d, k, n, bs', hd, ?_, by rw [e], hn, ?_⟩
      · rintro ⟨T, hs, ht⟩; exact hT T hs (fun _ _ => rfl) ht
      · rintro ⟨d', hb, ⟨T, hs, ht⟩, hdec⟩
        exact hu T hs (fun _ _ => rfl) ⟨d', hb, ht, hdec⟩
    · exact absurd (hcls S' d nm hd hn h1) h2
  · exact absurd (hcls S' d nm hd hn h1) h2

/-- C69: whatever the declarations require, linking never goes on for ever, never fails an
assertion, and if it neither succeeds nor reports a failed requirement then a body that is
not optional requires a class that no body of the largest set declares. -/
theorem C69_classes {p : Pol} {bs : List Block} (ok : LinkOk p bs) {fuel : Nat} (hf : bs.length < fuel) :
    ∃ G, Greatest p bs G ∧
      ((∃ bs', enableAvrules p fuel bs = some (.ok (.ok, none, bs')) ∧ (∀ d, Mandatory bs d → G d.id) ∧
          ∀ d, Body bs d → (On bs' d.id ↔ G d.id)) ∨
       (∃ d r bs', enableAvrules p fuel bs = some (.ok (.ereq, some r, bs')) ∧ Mandatory bs d ∧ ¬ G d.id) ∨
       (enableAvrules p fuel bs = some (.error .ub) ∧ ∃ d n, Mandatory bs d ∧ Needs p d .classes n ∧
          ¬ ∃ d', Body bs d' ∧ G d'.id ∧ Declares p .classes n d'.id)) := by
  refine ⟨_, greatest_union p bs, ?_⟩
  unfold enableAvrules
  rw [start_eq ok.body]
  simp only
  have hlt : count bs (fun _ => true) < fuel := Nat.lt_of_le_of_lt (count_le_length _ _) hf
  rcases loop_spec ok fuel (fun _ => true) none hlt with ⟨S', e, hT, hmet, hman⟩ | ⟨r, d, bs', e, hd, hT, h⟩ | ⟨d, S', nm, e, hd, hn, h1, hk, h2⟩
  · left
    have hG : ∀ d, Body bs d → ((∃ T, Supported p bs T ∧ T d.id) ↔ S' d.id = true) := by
      intro d hd
      constructor
      · rintro ⟨T, hs, ht⟩; exact hT T hs (fun _ _ => rfl) _ ht
      · intro h
        refine ⟨fun id => ∃ d, Body bs d ∧ d.id = id ∧ S' id = true, ?_, d, hd, rfl, h⟩
        rintro id ⟨d, hd, rfl, hS⟩
        refine ⟨d, hd, rfl, ?_⟩
        intro k n hn
        obtain ⟨d', a, b, c⟩ := hmet d hd hS k n hn
        exact ⟨d', a, ⟨d', a, rfl, b⟩, c⟩
    refine ⟨elses (rend bs S'), by rw [e], ?_, ?_⟩
    · rintro d ⟨b, hb, ho, hbd⟩
      exact (hG d ⟨b, hb, hbd⟩).2 (hman d ⟨b, hb, ho, hbd⟩ rfl)
    · intro d hd
      rw [on_elses ok.body]
      constructor
      · rintro (⟨d', hd', e', h⟩ | ⟨d', x, hx, e', _⟩)
        · rw [hG d hd]; exact h
        · exact absurd e'.symm (body_not_else ok hd hx)
      · intro h
        exact Or.inl ⟨d, hd, rfl, (hG d hd).1 h⟩
  · right; left
    refine ⟨d, r, bs', by rw [e], hd, ?_⟩
    rintro ⟨T, hs, ht⟩; exact hT T hs (fun _ _ => rfl) ht
  · right; right
    refine ⟨by rw [e], d, nm, hd, hn, ?_⟩
    rintro ⟨d', hb, ⟨T, hs, ht⟩, hdec⟩
    exact h2 ⟨d', hb, hk T hs (fun _ _ => rfl) _ ht, hdec⟩

/-- C69: the largest set exists and does not depend on the order of the modules and of the
blocks in them. -/
theorem C69_order (p : Pol) {bs bs' : List Block} (h : bs.Perm bs') :
    (∃ G, Greatest p bs G) ∧
    ∀ G H, Greatest p bs G → Greatest p bs' H → ∀ id, G id ↔ H id := by
  have hb : ∀ d, Body bs d ↔ Body bs' d := by
    intro d
    constructor
    · rintro ⟨b, hb, hd⟩; exact ⟨b, h.mem_iff.1 hb, hd⟩
    · rintro ⟨b, hb, hd⟩; exact ⟨b, h.mem_iff.2 hb, hd⟩
  have hs : ∀ T, Supported p bs T ↔ Supported p bs' T := by
    intro T
    simp only [Supported, hb]
  refine ⟨⟨_, greatest_union p bs⟩, ?_⟩
  intro G H hG hH id
  exact ⟨hH.2 G ((hs G).1 hG.1) id, hG.2 H ((hs H).2 hH.1) id⟩

/-- C69: a block without a body makes linking fail. -/
theorem C69_empty (p : Pol) {bs : List Block} {b : Block} (hb : b ∈ bs) (h : b.branches = []) (fuel : Nat) :
    enableAvrules p fuel bs = some (.ok (.err, none, bs)) := by
  simp [enableAvrules, start_none hb h]

/-! ### A concrete case -/

theorem search_mem {α : Type} {t : List (String × α)} {n : String} {v : α} (h : search t n = some v) : (n, v) ∈ t := by
  simp only [search, Option.map_eq_some_iff] at h
  obtain ⟨e, he, rfl⟩ := h
  have hm := List.mem_of_find?_eq_some he
  have hn := List.find?_some he
  simp only [beq_iff_eq] at hn
  subst hn
  exact hm

/-- A base policy (declaration 1) with the class `file` and the type `a`; a module
(declaration 2) that requires `a` and `file` and declares `b`; optional statements: 3 requires
`b` and declares `c`; 4 requires `d` and declares `e`; 5 requires `e` and declares `d`;
6 requires `x`, which nobody declares, and declares `f`, its `else` is 7; 8 requires `f`. -/
def exP : Pol where
  scope
    | .types => [("a", ⟨true, [1]⟩), ("b", ⟨true, [2]⟩), ("c", ⟨true, [3]⟩), ("d", ⟨true, [5]⟩),
        ("e", ⟨true, [4]⟩), ("x", ⟨false, [6]⟩), ("f", ⟨true, [6]⟩)]
    | .classes => [("file", ⟨true, [1]⟩)]
    | _ => []
  names
    | .types => ["a", "b", "c", "d", "e", "x", "f"]
    | .classes => ["file"]
    | _ => []
  classes := [⟨[("read", 1), ("write", 2)], none⟩]
  declLen := 9

def exReq (types classes : List Nat) : Kind → List Nat
  | .types => types
  | .classes => classes
  | _ => []

def exB : List Block :=
  [⟨false, [⟨1, false, exReq [] [], []⟩], none⟩,
   ⟨false, [⟨2, false, exReq [0] [0], [[1]]⟩], none⟩,
   ⟨true, [⟨3, false, exReq [1] [0], [[0, 1]]⟩], none⟩,
   ⟨true, [⟨4, false, exReq [3] [], []⟩], none⟩,
   ⟨true, [⟨5, false, exReq [4] [], []⟩], none⟩,
   ⟨true, [⟨6, false, exReq [5] [], []⟩, ⟨7, false, exReq [] [], []⟩], none⟩,
   ⟨true, [⟨8, false, exReq [6] [], []⟩], none⟩]

theorem exP_ok : LinkOk exP exB where
  body := by decide
  ids := by decide
  scope := by
    rintro k name id ⟨s, hs, _, hid⟩
    have h : ∀ k, ∀ e ∈ exP.scope k, ∀ id ∈ e.2.declIds, 1 ≤ id ∧ id ≤ exP.declLen := by
      intro k; cases k <;> decide
    exact h k _ (search_mem hs) id hid
  one := by
    intro k name s _ _ hs _
    have h : ∀ k, ∀ e ∈ exP.scope k, e.2.declIds.length ≤ 1 := by
      intro k; cases k <;> decide
    exact h k _ (search_mem hs)
  names := by
    have h : ∀ k, ∀ b ∈ exB, ∀ d ∈ b.branches, ∀ j ∈ d.required k, j < (exP.names k).length := by
      intro k; cases k <;> decide
    intro b hb d hd k
    exact h k b hb d hd
  classes := rfl
  lastClass := by decide
  order := by
    intro i j a b id hij hi hj h
    have h1 := (List.getElem?_eq_some_iff.1 hi).1
    have h2 := (List.getElem?_eq_some_iff.1 hj).1
    have e : i = j := by simp only [exP, List.length_cons, List.length_nil] at h1 h2; omega
    subst e
    rw [hi] at hj; cases hj
    exact h
  perms := by
    intro b hb d hd i js c hjs hc
    have h1 := (List.getElem?_eq_some_iff.1 hc).1
    have e : i = 0 := by simp only [exP, List.length_cons, List.length_nil] at h1; omega
    subst e
    simp only [exP, List.getElem?_cons_zero, Option.some.injEq] at hc
    subst hc
    have h : ∀ b ∈ exB, ∀ d ∈ b.branches, ∀ js ∈ d.classPerms, ∀ j ∈ js, j = 0 ∨ j = 1 := by decide
    intro j hj
    rcases h b hb d hd js (List.mem_of_getElem? hjs) j hj with rfl | rfl
    · exact ⟨"read", by simp⟩
    · exact ⟨"write", by simp⟩

theorem exP_classes : ClassesDeclared exP exB := by
  rintro d ⟨b, hb, ho, hd⟩ name ⟨j, hj, hn⟩
  refine ⟨⟨1, false, exReq [] [], []⟩, ⟨_, (by unfold exB; exact List.mem_cons_self), rfl, rfl⟩, ?_⟩
  have h1 := (List.getElem?_eq_some_iff.1 hn).1
  have e : j = 0 := by simp only [exP, List.length_cons, List.length_nil] at h1; omega
  subst e
  simp only [exP, List.getElem?_cons_zero, Option.some.injEq] at hn
  subst hn
  exact ⟨⟨true, [1]⟩, by decide, rfl, by simp⟩

/-- In the example the two statements that support each other are switched on, and so is the
`else`. -/
def onIds (bs : List Block) : List Nat := ((bs.flatMap (·.branches)).filter (·.enabled)).map (·.id)

example : (match enableAvrules exP 8 exB with
    | some (.ok (.ok, none, bs)) => some (onIds bs)
    | _ => none) = some [1, 2, 3, 4, 5, 7] := by decide +kernel

/-- `C69_partial`, `C69_classes` apply to it. -/
example := C69_partial exP_ok exP_classes (fuel := 8) (by decide)
example := C69_classes exP_ok (fuel := 8) (by decide)

/-- With a mandatory body that requires `f` linking fails and says so. -/
example : (match enableAvrules exP 9 (exB ++ [⟨false, [⟨9, false, exReq [6] [], []⟩], none⟩]) with
    | some (.ok (st, r, _)) => some (st, r)
    | _ => none) = some (.ereq, some ⟨.types, "f", none⟩) := by decide +kernel

/-! ### Refutations -/

/-- A module whose global block requires the class `foo`, which is not declared.  The scope
table of the class has only the requirement. -/
def exQ : Pol where
  scope
    | .types => [("a", ⟨true, [1]⟩), ("x", ⟨false, [3]⟩)]
    | .classes => [("file", ⟨true, [1]⟩), ("foo", ⟨false, [2]⟩)]
    | _ => []
  names
    | .types => ["a", "x"]
    | .classes => ["file", "foo"]
    | _ => []
  classes := [⟨[("read", 1), ("write", 2)], none⟩, ⟨[("bar", 1)], none⟩]
  declLen := 4

/-- C69 is false for classes: if a module requires a class that is not declared, linking reads
an indeterminate value to say what is missing. -/
theorem C69_refuted : ∃ (p : Pol) (bs : List Block), LinkOk p bs ∧
    ∀ fuel, bs.length < fuel → enableAvrules p fuel bs = some (.error .ub) := by
  have ok : LinkOk exQ [⟨false, [⟨1, false, exReq [] [], []⟩], none⟩,
      ⟨false, [⟨2, false, exReq [0] [1], [[], [0]]⟩], none⟩] := by
    refine ⟨by decide, by decide, ?_, ?_, ?_, rfl, by decide, ?_, ?_⟩
    · rintro k name id ⟨s, hs, _, hid⟩
      have h : ∀ k, ∀ e ∈ exQ.scope k, ∀ id ∈ e.2.declIds, 1 ≤ id ∧ id ≤ exQ.declLen := by
        intro k; cases k <;> decide
      exact h k _ (search_mem hs) id hid
    · intro k name s _ _ hs _
      have h : ∀ k, ∀ e ∈ exQ.scope k, e.2.declIds.length ≤ 1 := by
        intro k; cases k <;> decide
      exact h k _ (search_mem hs)
    · have h : ∀ k, ∀ b ∈ ([⟨false, [⟨1, false, exReq [] [], []⟩], none⟩,
          ⟨false, [⟨2, false, exReq [0] [1], [[], [0]]⟩], none⟩] : List Block), ∀ d ∈ b.branches,
          ∀ j ∈ d.required k, j < (exQ.names k).length := by
        intro k; cases k <;> decide
      intro b hb d hd k
      exact h k b hb d hd
    · rintro i j a b id hij hi hj ⟨s, hs, hd, hid⟩
      have h1 := (List.getElem?_eq_some_iff.1 hi).1
      have h2 := (List.getElem?_eq_some_iff.1 hj).1
      simp only [exQ, List.length_cons, List.length_nil] at h1 h2
      have : j = 0 ∨ j = 1 := by omega
      rcases this with rfl | rfl
      · have : i = 0 := by omega
        subst this
        rw [hi] at hj; cases hj
        exact ⟨s, hs, hd, hid⟩
      · simp only [exQ, List.getElem?_cons_succ, List.getElem?_cons_zero, Option.some.injEq] at hj
        subst hj
        have : search (exQ.scope .classes) "foo" = some ⟨false, [2]⟩ := by decide
        rw [this] at hs; cases hs; cases hd
    · have h : ∀ (b : Block), b ∈ ([⟨false, [⟨1, false, exReq [] [], []⟩], none⟩,
          ⟨false, [⟨2, false, exReq [0] [1], [[], [0]]⟩], none⟩] : List Block) → ∀ d ∈ b.branches,
          ∀ js ∈ d.classPerms, ∀ j ∈ js, j = 0 := by decide
      intro b hb d hd i js c hjs hc j hj
      have := h b hb d hd js (List.mem_of_getElem? hjs) j hj
      subst this
      match i with
      | 0 =>
        simp only [exQ, List.getElem?_cons_zero, Option.some.injEq] at hc
        subst hc; exact ⟨"read", by simp⟩
      | 1 =>
        simp only [exQ, List.getElem?_cons_succ, List.getElem?_cons_zero, Option.some.injEq] at hc
        subst hc; exact ⟨"bar", by simp⟩
      | i + 2 => simp [exQ] at hc
  refine ⟨_, _, ok, ?_⟩
  intro fuel hf
  match fuel with
  | 0 => simp at hf
  | n + 1 =>
    have e : pass exQ 2 0 ⟨[⟨false, [⟨1, true, exReq [] [], []⟩], some 0⟩,
        ⟨false, [⟨2, true, exReq [0] [1], [[], [0]]⟩], some 0⟩], none, false⟩ = .error .ub := by
      rfl
    simp only [enableAvrules, start, startBlock, Option.bind_some, Option.map_some, List.map_nil]
    rw [loop]
    simp only [List.length_cons, List.length_nil]
    rw [e]

/-- C69 is false for the report: if an optional statement was switched off for the type `x`
before, the report for the missing class names `x`, which the module does not require. -/
theorem C69_report_refuted : ∃ (p : Pol) (bs : List Block) (d : Decl) (n : String),
    (match enableAvrules p 5 bs with
      | some (.ok (st, r, _)) => some (st, r)
      | _ => none) = some (.ereq, some ⟨.types, n, none⟩) ∧
    (∀ d', Mandatory bs d' → d'.id = 1 ∨ d' = d) ∧ ¬ Needs p d .types n := by
  refine ⟨exQ, [⟨false, [⟨1, false, exReq [] [], []⟩], none⟩,
    ⟨true, [⟨3, false, exReq [1] [], []⟩], none⟩,
    ⟨false, [⟨2, false, exReq [0] [1], [[], [0]]⟩], none⟩], ⟨2, false, exReq [0] [1], [[], [0]]⟩, "x",
    by decide +kernel, ?_, ?_⟩
  · rintro d' ⟨b, hb, ho, hd⟩
    simp only [List.mem_cons, List.not_mem_nil, or_false] at hb
    rcases hb with rfl | rfl | rfl
    · simp at hd; subst hd; simp
    · cases ho
    · simp at hd; subst hd; simp
  · rintro ⟨j, hj, hn⟩
    simp only [exReq, List.mem_cons, List.not_mem_nil, or_false] at hj
    subst hj
    simp [exQ] at hn

/-- C69 is false for the `else` branches: the compiler adds the requirements of the enclosing
statements to the `else` of a nested optional statement (`copy_requirements`,
module_compiler.c:1372-1419), but linking switches the `else` on without looking at them.  Here
the optional statement 3 requires `x`, which nobody declares; the statement nested in it has the
body 5 and the `else` 6, which uses `x`. -/
theorem C69_else_refuted : ∃ (p : Pol) (bs bs' : List Block) (e : Decl) (n : String),
    enableAvrules p 5 bs = some (.ok (.ok, none, bs')) ∧ On bs' e.id ∧ (∃ d, Else bs d e) ∧
    Needs p e .types n ∧ ∀ id, ¬ Declares p .types n id := by
  refine ⟨{ exQ with declLen := 6 }, [⟨false, [⟨1, false, exReq [] [], []⟩], none⟩,
    ⟨true, [⟨3, false, exReq [1] [], []⟩], none⟩,
    ⟨true, [⟨5, false, exReq [1] [], []⟩, ⟨6, false, exReq [1] [], []⟩], none⟩],
    [⟨false, [⟨1, true, exReq [] [], []⟩], some 0⟩,
    ⟨true, [⟨3, false, exReq [1] [], []⟩], none⟩,
    ⟨true, [⟨5, false, exReq [1] [], []⟩, ⟨6, true, exReq [1] [], []⟩], some 1⟩],
    ⟨6, false, exReq [1] [], []⟩, "x", by rfl, ?_, ?_, ?_, ?_⟩
  · exact ⟨_, List.mem_cons_of_mem _ (List.mem_cons_of_mem _ (List.mem_cons_self)), ⟨6, true, exReq [1] [], []⟩,
      by simp, rfl, rfl⟩
  · exact ⟨⟨5, false, exReq [1] [], []⟩, _, List.mem_cons_of_mem _ (List.mem_cons_self), [], rfl⟩
  · exact ⟨1, by simp [exReq], rfl⟩
  · rintro id ⟨s, hs, hd, _⟩
    have : search (exQ.scope .types) "x" = some ⟨false, [3]⟩ := by decide
    have hs' : search (exQ.scope .types) "x" = some s := hs
    rw [this] at hs'; cases hs'; cases hd

end Verif.Link
