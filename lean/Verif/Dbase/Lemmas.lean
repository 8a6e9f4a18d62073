import Verif.Dbase.Spec
import Mathlib.Data.List.Nodup
import Mathlib.Data.List.Perm.Subperm

namespace Verif.Dbase
variable {R K : Type}

/-- A segment of a doubly linked list: the entries in the order of their `next` pointers. -/
def Seg (h : Nat → Option (Entry R)) : Option Nat → Option Nat → List (Nat × R) → Option Nat →
    Option Nat → Prop
  | p, first, [], last, nxt => first = nxt ∧ last = p
  | p, first, (a, r) :: as, last, nxt =>
    ∃ n, first = some a ∧ h a = some ⟨some r, p, n⟩ ∧ Seg h (some a) n as last nxt

/-- The list in memory holds the records `l`, newest first. -/
def Rep (d : Llist R) (l : List R) : Prop :=
  ∃ as : List (Nat × R), as.map (·.2) = l ∧ Seg d.heap none d.cache as d.tail none ∧
    (as.map (·.1)).Nodup ∧ (∀ a ∈ as.map (·.1), a < d.fresh) ∧ d.sz = l.length

theorem upd_ne (h : Nat → Option (Entry R)) {a x : Nat} (e) (hx : x ≠ a) : upd h a e x = h x := by
  simp [upd, hx]

theorem upd_same (h : Nat → Option (Entry R)) (a : Nat) (e) : upd h a e a = e := by simp [upd]

theorem seg_frame {h h' : Nat → Option (Entry R)} :
    ∀ (as : List (Nat × R)) {p first last nxt}, (∀ a ∈ as.map (·.1), h' a = h a) →
      Seg h p first as last nxt → Seg h' p first as last nxt
  | [], _, _, _, _, _, hs => hs
  | (a, r) :: as, _, _, _, _, hf, ⟨n, h1, h2, h3⟩ =>
    ⟨n, h1, by rw [hf a (by simp)]; exact h2,
      seg_frame as (fun x hx => hf x (by simp at hx ⊢; exact Or.inr hx)) h3⟩

theorem seg_append {h : Nat → Option (Entry R)} :
    ∀ (xs ys : List (Nat × R)) {p first last nxt}, Seg h p first (xs ++ ys) last nxt ↔
      ∃ m q, Seg h p first xs q m ∧ Seg h q m ys last nxt
  | [], ys, p, first, last, nxt => by
    constructor
    · intro hs; exact ⟨first, p, ⟨rfl, rfl⟩, hs⟩
    · rintro ⟨m, q, ⟨rfl, rfl⟩, h2⟩; exact h2
  | (a, r) :: xs, ys, p, first, last, nxt => by
    constructor
    · rintro ⟨n, h1, h2, h3⟩
      obtain ⟨m, q, h4, h5⟩ := (seg_append xs ys).1 h3
      exact ⟨m, q, ⟨n, h1, h2, h4⟩, h5⟩
    · rintro ⟨m, q, ⟨n, h1, h2, h4⟩, h5⟩
      exact ⟨n, h1, h2, (seg_append xs ys).2 ⟨m, q, h4, h5⟩⟩

theorem length_le_of_lt {l : List Nat} {n : Nat} (hn : l.Nodup) (hb : ∀ a ∈ l, a < n) :
    l.length ≤ n := by
  have h1 : l ⊆ List.range n := fun a ha => List.mem_range.2 (hb a ha)
  have := (List.subperm_of_subset hn h1).length_le
  simpa using this

theorem locate_seg (cmp : R → K → Bool) (h : Nat → Option (Entry R)) (k : K) :
    ∀ (as : List (Nat × R)) {p first last} (f : Nat), Seg h p first as last none → as.length ≤ f →
      locate cmp h k f first = some ((as.find? (fun x => cmp x.2 k)).map (·.1))
  | [], _, _, _, f, ⟨h1, _⟩, _ => by subst h1; cases f <;> rfl
  | (a, r) :: as, _, _, _, 0, _, hf => by simp at hf
  | (a, r) :: as, _, _, _, f + 1, ⟨n, h1, h2, h3⟩, hf => by
    subst h1
    have ih := locate_seg cmp h k as f h3 (by simp at hf; omega)
    unfold locate
    rw [h2]
    dsimp only
    cases hc : cmp r k
    · rw [List.find?_cons_of_neg (by simp [hc])]
      simpa using ih
    · rw [List.find?_cons_of_pos (by simp [hc])]
      rfl

theorem walkBack_seg (h : Nat → Option (Entry R)) :
    ∀ (as : List (Nat × R)) {p first last nxt} (f : Nat), Seg h p first as last nxt →
      walkBack h (as.length + f) last = (walkBack h f p).map ((as.map (·.2)).reverse ++ ·)
  | [], p, _, _, _, f, ⟨_, h2⟩ => by
    subst h2
    simp
  | (a, r) :: as, p, _, _, _, f, ⟨n, _, h2, h3⟩ => by
    have ih := walkBack_seg h as (f + 1) h3
    have e : ((a, r) :: as).length + f = as.length + (f + 1) := by simp; omega
    rw [e, ih]
    show Option.map _ (walkBack h (f + 1) (some a)) = _
    have hw : walkBack h (f + 1) (some a) = (walkBack h f p).map (r :: ·) := by
      rw [walkBack, h2]
    rw [hw]
    cases walkBack h f p <;> simp

theorem iterLoop_of_walkBack (fn : Nat → R → Int) (h : Nat → Option (Entry R)) :
    ∀ (f i : Nat) (p : Option Nat) (rs : List R), walkBack h f p = some rs →
      iterLoop fn h i f p = some (specIterate fn i rs)
  | f, i, none, rs, hw => by
    cases f <;> simp [walkBack] at hw <;> subst hw <;> simp [iterLoop, specIterate]
  | 0, i, some a, rs, hw => by simp [walkBack] at hw
  | f + 1, i, some a, rs, hw => by
    unfold walkBack at hw
    unfold iterLoop
    cases he : h a with
    | none => simp [he] at hw
    | some e =>
      rw [he] at hw
      dsimp only at hw ⊢
      cases hd : e.data with
      | none => simp [hd] at hw
      | some r =>
        rw [hd] at hw
        dsimp only at hw ⊢
        cases hw2 : walkBack h f e.prev with
        | none => simp [hw2] at hw
        | some rs' =>
          rw [hw2] at hw
          simp at hw
          subst hw
          have ih := iterLoop_of_walkBack fn h f (i + 1) e.prev rs' hw2
          rw [ih, specIterate]
          split_ifs <;> rfl

theorem freeAll_seg : ∀ (as : List (Nat × R)) (h : Nat → Option (Entry R)) {p first last} (f : Nat),
    Seg h p first as last none → (as.map (·.1)).Nodup → as.length ≤ f →
      ∃ h', freeAll f h first = some h'
  | [], h, _, _, _, f, ⟨h1, _⟩, _, _ => by subst h1; cases f <;> exact ⟨h, rfl⟩
  | (a, r) :: as, h, _, _, _, 0, _, _, hf => by simp at hf
  | (a, r) :: as, h, _, _, _, f + 1, ⟨n, h1, h2, h3⟩, hn, hf => by
    subst h1
    rw [List.map_cons, List.nodup_cons] at hn
    have h4 : Seg (upd h a none) (some a) n as _ none :=
      seg_frame as (fun x hx => upd_ne _ _ (fun e => hn.1 (e ▸ hx))) h3
    obtain ⟨h', he⟩ := freeAll_seg as _ f h4 hn.2 (by simp at hf; omega)
    refine ⟨h', ?_⟩
    unfold freeAll
    rw [h2]
    exact he

theorem delFind_seg (cmp : R → K → Bool) (h : Nat → Option (Entry R)) (k : K) :
    ∀ (as : List (Nat × R)) {p first last} (f : Nat), Seg h p first as last none → as.length ≤ f →
      (as.find? (fun x => cmp x.2 k) = none ∧ delFind cmp h k f p first = some none) ∨
      ∃ pre a r post q, as = pre ++ (a, r) :: post ∧ (∀ x ∈ pre, cmp x.2 k = false) ∧ cmp r k = true ∧
        Seg h p first pre q (some a) ∧ delFind cmp h k f p first = some (some (q, a))
  | [], _, _, _, f, ⟨h1, _⟩, _ => by subst h1; left; cases f <;> exact ⟨rfl, rfl⟩
  | (a, r) :: as, _, _, _, 0, _, hf => by simp at hf
  | (a, r) :: as, p, _, last, f + 1, ⟨n, h1, h2, h3⟩, hf => by
    subst h1
    have ih := delFind_seg cmp h k as f h3 (by simp at hf; omega)
    cases hc : cmp r k
    · rcases ih with ⟨i1, i2⟩ | ⟨pre, a', r', post, q, e1, e2, e3, e4, e5⟩
      · left
        refine ⟨by rw [List.find?_cons_of_neg (by simp [hc])]; exact i1, ?_⟩
        unfold delFind; rw [h2]; simpa [hc] using i2
      · right
        refine ⟨(a, r) :: pre, a', r', post, q, by rw [e1]; rfl, ?_, e3, ⟨n, rfl, h2, e4⟩, ?_⟩
        · intro x hx
          rcases List.mem_cons.1 hx with rfl | hx
          · exact hc
          · exact e2 x hx
        · unfold delFind; rw [h2]; simpa [hc] using e5
    · right
      refine ⟨[], a, r, as, p, rfl, by simp, hc, ⟨rfl, rfl⟩, ?_⟩
      unfold delFind; rw [h2]; simp [hc]

theorem replaceNewest_append (cmp : R → K → Bool) (k : K) (r x : R) (post : List R) (hx : cmp x k = true) :
    ∀ pre : List R, (∀ y ∈ pre, cmp y k = false) →
      replaceNewest cmp k r (pre ++ x :: post) = pre ++ r :: post
  | [], _ => by simp [replaceNewest, hx]
  | y :: pre, h => by
    simp [replaceNewest, h y (by simp), replaceNewest_append cmp k r x post hx pre
      (fun z hz => h z (by simp [hz]))]

theorem Rep.length_le {d : Llist R} {as : List (Nat × R)} (hn : (as.map (·.1)).Nodup)
    (hb : ∀ a ∈ as.map (·.1), a < d.fresh) : as.length ≤ d.fresh := by
  have := length_le_of_lt hn hb
  simpa using this

theorem rep_cacheInit (d : Llist R) : Rep (cacheInit d) [] :=
  ⟨[], rfl, ⟨rfl, rfl⟩, by simp, by simp, rfl⟩

theorem rep_of_fields {d d' : Llist R} {l : List R} (h : Rep d l) (h1 : d'.heap = d.heap)
    (h2 : d'.fresh = d.fresh) (h3 : d'.cache = d.cache) (h4 : d'.tail = d.tail) (h5 : d'.sz = d.sz) :
    Rep d' l := by
  obtain ⟨as, e1, e2, e3, e4, e5⟩ := h
  exact ⟨as, e1, by rw [h1, h3, h4]; exact e2, e3, by rw [h2]; exact e4, by rw [h5]; exact e5⟩

/-- The last address of a segment. -/
theorem seg_last_none {h : Nat → Option (Entry R)} : ∀ (as : List (Nat × R)) {p first last nxt},
    Seg h p first as last nxt → last = none → as = [] ∧ p = none
  | [], _, _, _, _, ⟨_, h2⟩, hl => ⟨rfl, h2 ▸ hl⟩
  | (a, r) :: as, _, _, _, _, ⟨n, _, _, h3⟩, hl => by
    have := (seg_last_none as h3 hl).2
    simp at this

theorem prepend_rep {d : Llist R} {l : List R} (h : Rep d l) (r : R) :
    ∃ d', prepend .ok d r = some (d', .ok) ∧ Rep d' (r :: l) ∧ d'.serial = d.serial ∧
      d'.modified = d.modified := by
  obtain ⟨as, e1, e2, e3, e4, e5⟩ := h
  have hfr : d.fresh ∉ as.map (·.1) := fun hm => absurd (e4 _ hm) (by omega)
  have hnd : (((d.fresh, r) :: as).map (·.1)).Nodup := by
    rw [List.map_cons, List.nodup_cons]; exact ⟨hfr, e3⟩
  have hbd : ∀ a ∈ ((d.fresh, r) :: as).map (·.1), a < d.fresh + 1 := by
    intro a ha
    rcases List.mem_cons.1 ha with rfl | ha
    · show d.fresh < d.fresh + 1; omega
    · have := e4 a ha; omega
  cases as with
  | nil =>
    obtain ⟨hc, ht⟩ := e2
    simp only [List.map_nil] at e1
    subst e1
    refine ⟨{ d with heap := upd d.heap d.fresh (some ⟨some r, none, none⟩), fresh := d.fresh + 1,
                     tail := some d.fresh, cache := some d.fresh, sz := d.sz + 1 },
      by unfold prepend; simp only [hc, ht]; simp, ⟨[(d.fresh, r)], rfl, ?_, hnd, hbd, ?_⟩, rfl, rfl⟩
    · exact ⟨none, rfl, by simp [upd_same], rfl, rfl⟩
    · simpa using e5
  | cons x as =>
    obtain ⟨a, r0⟩ := x
    obtain ⟨n, hc, ha, hs⟩ := e2
    have hne : a ≠ d.fresh := fun e => hfr (by simp [e])
    have htl : d.tail ≠ none := fun ht => by
      have := (seg_last_none as hs ht).2
      simp at this
    have e3' := e3
    rw [List.map_cons, List.nodup_cons] at e3'
    have hrd : upd d.heap d.fresh (some ⟨some r, none, some a⟩) a = some ⟨some r0, none, n⟩ := by
      rw [upd_ne _ _ hne, ha]
    refine ⟨{ d with
        heap := upd (upd d.heap d.fresh (some ⟨some r, none, some a⟩)) a (some ⟨some r0, some d.fresh, n⟩),
        fresh := d.fresh + 1, tail := if d.tail = none then some d.fresh else d.tail, cache := some d.fresh,
        sz := d.sz + 1 }, by unfold prepend; simp only [hc, hrd], ⟨(d.fresh, r) :: (a, r0) :: as, ?_, ?_, hnd, hbd, ?_⟩,
      rfl, rfl⟩
    · simp [← e1]
    · refine ⟨some a, rfl, ?_, n, rfl, ?_, ?_⟩
      · dsimp only
        rw [upd_ne _ _ (Ne.symm hne), upd_same]
      · dsimp only
        rw [upd_same]
      · dsimp only
        rw [if_neg htl]
        refine seg_frame as (fun y hy => ?_) hs
        have hya : y ≠ a := fun e => e3'.1 (e ▸ hy)
        have hyf : y ≠ d.fresh := fun e => hfr (by rw [← e]; exact List.mem_cons_of_mem _ hy)
        rw [upd_ne _ _ hya, upd_ne _ _ hyf]
    · show d.sz + 1 = _
      rw [e5]; rfl

theorem locate_rep {d : Llist R} {l : List R} (cmp : R → K → Bool) (h : Rep d l) (k : K) :
    (l.any (cmp · k) = false ∧ locate cmp d.heap k d.fresh d.cache = some none) ∨
    ∃ pre a r post n q, Seg d.heap none d.cache pre q (some a) ∧ d.heap a = some ⟨some r, q, n⟩ ∧
      Seg d.heap (some a) n post d.tail none ∧ l = pre.map (·.2) ++ r :: post.map (·.2) ∧
      (∀ x ∈ pre.map (·.2), cmp x k = false) ∧ cmp r k = true ∧
      ((pre ++ (a, r) :: post).map (·.1)).Nodup ∧
      (∀ x ∈ (pre ++ (a, r) :: post).map (·.1), x < d.fresh) ∧
      locate cmp d.heap k d.fresh d.cache = some (some a) ∧
      delFind cmp d.heap k d.fresh none d.cache = some (some (q, a)) := by
  obtain ⟨as, e1, e2, e3, e4, e5⟩ := h
  have hl := locate_seg cmp d.heap k as d.fresh e2 (Rep.length_le e3 e4)
  rcases delFind_seg cmp d.heap k as d.fresh e2 (Rep.length_le e3 e4) with ⟨f1, f2⟩ |
    ⟨pre, a, r, post, q, g1, g2, g3, g4, g5⟩
  · left
    rw [f1] at hl
    refine ⟨?_, by simpa using hl⟩
    rw [List.find?_eq_none] at f1
    rw [← e1, List.any_map]
    rw [List.any_eq_false]
    intro x hx
    exact f1 x hx
  · right
    have hfind : as.find? (fun x => cmp x.2 k) = some (a, r) := by
      rw [List.find?_eq_some_iff_append]
      exact ⟨g3, pre, post, g1, fun x hx => by simp [g2 x hx]⟩
    rw [hfind] at hl
    rw [g1] at e1 e2 e3 e4
    obtain ⟨m, q', h1, n, h2, h3, h4⟩ := (seg_append pre _).1 e2
    subst h2
    have hq : q' = q := by
      clear e1 e2 e3 e4 hl hfind g1 h3 h4 g5 e5 g2
      have key : ∀ (as : List (Nat × R)) {p first q q' nxt}, Seg d.heap p first as q nxt →
          Seg d.heap p first as q' nxt → q' = q := by
        intro as
        induction as with
        | nil => rintro p first q q' nxt ⟨_, rfl⟩ ⟨_, rfl⟩; rfl
        | cons x as ih =>
          obtain ⟨b, rb⟩ := x
          rintro p first q q' nxt ⟨n, _, b2, b3⟩ ⟨n', _, c2, c3⟩
          rw [b2] at c2
          simp at c2
          subst c2
          exact ih b3 c3
      exact key pre g4 h1
    subst hq
    exact ⟨pre, a, r, post, n, q', h1, h3, h4, by rw [← e1]; simp,
      fun x hx => by
        obtain ⟨y, hy, rfl⟩ := List.mem_map.1 hx
        exact g2 y hy, g3, e3, e4, by simpa using hl, g5⟩

theorem replaceAt_rep {d : Llist R} {l : List R} (cmp : R → K → Bool) (k : K) (r0 : R) {pre a r post n q}
    (h1 : Seg d.heap none d.cache pre q (some a)) (h2 : d.heap a = some ⟨some r, q, n⟩)
    (h3 : Seg d.heap (some a) n post d.tail none) (h4 : l = pre.map (·.2) ++ r :: post.map (·.2))
    (h5 : ∀ x ∈ pre.map (·.2), cmp x k = false) (h6 : cmp r k = true)
    (h7 : ((pre ++ (a, r) :: post).map (·.1)).Nodup)
    (h8 : ∀ x ∈ (pre ++ (a, r) :: post).map (·.1), x < d.fresh) (hsz : d.sz = l.length) :
    ∃ d', replaceAt .ok d a r0 = some (d', .ok) ∧ Rep d' (replaceNewest cmp k r0 l) ∧
      d'.serial = d.serial ∧ d'.modified = true := by
  refine ⟨{ d with heap := upd d.heap a (some ⟨some r0, q, n⟩), modified := true },
    by unfold replaceAt; simp only [h2], ⟨pre ++ (a, r0) :: post, ?_, ?_, ?_, ?_, ?_⟩, rfl, rfl⟩
  · rw [h4, replaceNewest_append cmp k r0 r _ h6 _ h5]; simp
  · dsimp only
    rw [List.map_append, List.map_cons] at h7
    have hd := List.nodup_append.1 h7
    have hpre : a ∉ pre.map (·.1) := fun hm => hd.2.2 a hm a (by simp) rfl
    have hpost : a ∉ post.map (·.1) := (List.nodup_cons.1 hd.2.1).1
    rw [seg_append]
    refine ⟨some a, q, seg_frame pre (fun x hx => upd_ne _ _ (fun e => hpre (e ▸ hx))) h1, n, rfl, ?_,
      seg_frame post (fun x hx => upd_ne _ _ (fun e => hpost (e ▸ hx))) h3⟩
    rw [upd_same]
  · simpa using h7
  · simpa using h8
  · show d.sz = _
    rw [hsz, h4, replaceNewest_append cmp k r0 r _ h6 _ h5]; simp

theorem rep_sz {d : Llist R} {l : List R} (h : Rep d l) : d.sz = l.length := by
  obtain ⟨as, _, _, _, _, e5⟩ := h
  exact e5

theorem walkBack_rep {d : Llist R} {l : List R} (h : Rep d l) :
    walkBack d.heap d.fresh d.tail = some l.reverse := by
  obtain ⟨as, e1, e2, e3, e4, e5⟩ := h
  have hl := Rep.length_le e3 e4
  have := walkBack_seg d.heap as (d.fresh - as.length) e2
  rw [show as.length + (d.fresh - as.length) = d.fresh by omega] at this
  rw [this, ← e1]
  cases d.fresh - as.length <;> simp [walkBack]

theorem freeAll_rep {d : Llist R} {l : List R} (h : Rep d l) :
    ∃ h', freeAll d.fresh d.heap d.cache = some h' := by
  obtain ⟨as, e1, e2, e3, e4, e5⟩ := h
  exact freeAll_seg as d.heap d.fresh e2 e3 (Rep.length_le e3 e4)

theorem setNext_seg {h : Nat → Option (Entry R)} {p first q m} (n : Option Nat) :
    ∀ (pre : List (Nat × R)), Seg h p first pre q m → (pre.map (·.1)).Nodup → pre ≠ [] →
      ∃ b h', q = some b ∧ b ∈ pre.map (·.1) ∧ setNext h b n = some h' ∧ Seg h' p first pre q n ∧
        ∀ x, x ≠ b → h' x = h x := by
  intro pre
  induction pre generalizing p first with
  | nil => intro _ _ hne; exact absurd rfl hne
  | cons x pre ih =>
    obtain ⟨a, r⟩ := x
    rintro ⟨n', h1, h2, h3⟩ hn _
    rw [List.map_cons, List.nodup_cons] at hn
    cases pre with
    | nil =>
      obtain ⟨g1, g2⟩ := h3
      refine ⟨a, _, g2, by simp, by unfold setNext; rw [h2], ⟨n, h1, by rw [upd_same], rfl, g2⟩, ?_⟩
      intro x hx
      exact upd_ne _ _ hx
    | cons y pre =>
      obtain ⟨b, h', c1, c2, c3, c4, c5⟩ := ih h3 hn.2 (by simp)
      refine ⟨b, h', c1, List.mem_cons_of_mem _ c2, c3, ⟨n', h1, ?_, c4⟩, c5⟩
      rw [c5 a (fun e => hn.1 (e ▸ c2))]
      exact h2

theorem del_rep {d : Llist R} {l : List R} (cmp : R → K → Bool) (h : Rep d l) (k : K) :
    ∃ d', del cmp d k = some d' ∧ Rep d' (l.eraseP (cmp · k)) ∧ d'.serial = d.serial ∧
      d'.modified = (d.modified || l.any (cmp · k)) := by
  rcases locate_rep cmp h k with ⟨f1, f2⟩ | ⟨pre, a, r, post, n, q, h1, h2, h3, h4, h5, h6, h7, h8, _, h10⟩
  · obtain ⟨as, e1, e2, e3, e4, e5⟩ := id h
    rcases delFind_seg cmp d.heap k as d.fresh e2 (Rep.length_le e3 e4) with ⟨g1, g2⟩ |
      ⟨pre, a, r, post, q, g1, g2, g3, g4, g5⟩
    · refine ⟨d, by unfold del; rw [g2], ?_, rfl, by rw [f1]; simp⟩
      rw [List.eraseP_of_forall_not]
      · exact h
      · rw [List.any_eq_false] at f1; exact f1
    · rw [List.any_eq_false] at f1
      refine absurd g3 (f1 r ?_)
      rw [← e1, g1]; simp
  · have hsz := rep_sz h
    have hany : l.any (cmp · k) = true := by
      rw [h4, List.any_eq_true]; exact ⟨r, by simp, h6⟩
    have her : l.eraseP (cmp · k) = pre.map (·.2) ++ post.map (·.2) := by
      rw [h4, List.eraseP_append_right _ (fun b hb => by simp [h5 b hb]),
        List.eraseP_cons_of_pos (by simpa using h6)]
    rw [List.map_append, List.map_cons] at h7 h8
    have hd := List.nodup_append.1 h7
    have hpre : a ∉ pre.map (·.1) := fun hm => hd.2.2 a hm a (by simp) rfl
    have hpost := List.nodup_cons.1 hd.2.1
    have hdis : ∀ x ∈ pre.map (·.1), x ∉ post.map (·.1) := fun x hx hy =>
      hd.2.2 x hx x (List.mem_cons_of_mem _ hy) rfl
    -- first step
    have hstep1 : ∃ h1' cache', unlink1 d q n = some (h1', cache') ∧ Seg h1' none cache' pre q n ∧
        ∀ x, x ∉ pre.map (·.1) → h1' x = d.heap x := by
      cases pre with
      | nil =>
        obtain ⟨_, g2⟩ := h1
        subst g2
        exact ⟨_, _, rfl, ⟨rfl, rfl⟩, fun _ _ => rfl⟩
      | cons x pre =>
        obtain ⟨b, h', c1, c2, c3, c4, c5⟩ := setNext_seg n (x :: pre) h1 hd.1 (by simp)
        refine ⟨h', d.cache, by rw [c1]; simp [unlink1, c3], c4, ?_⟩
        intro y hy
        exact c5 y (fun e => hy (e ▸ c2))
    obtain ⟨hp1, cache', s1, s2, s3⟩ := hstep1
    have h3' : Seg hp1 (some a) n post d.tail none :=
      seg_frame post (fun x hx => s3 x (fun hp => hdis x hp hx)) h3
    have hstep2 : ∃ h2' tail', unlink2 d hp1 q n = some (h2', tail') ∧ Seg h2' q n post tail' none ∧
        ∀ x, x ∉ post.map (·.1) → h2' x = hp1 x := by
      cases post with
      | nil =>
        obtain ⟨g1, g2⟩ := h3'
        subst g1
        exact ⟨_, _, rfl, ⟨rfl, rfl⟩, fun _ _ => rfl⟩
      | cons x post =>
        obtain ⟨c, rc⟩ := x
        obtain ⟨n', g1, g2, g3⟩ := h3'
        subst g1
        have hcn := List.nodup_cons.1 hpost.2
        refine ⟨_, d.tail, by simp only [unlink2, setPrev, g2]; rfl, ⟨n', rfl, by rw [upd_same], ?_⟩, ?_⟩
        · exact seg_frame post (fun y hy => upd_ne _ _ (fun e => hcn.1 (e ▸ hy))) g3
        · intro y hy
          exact upd_ne _ _ (fun e => hy (by simp [e]))
    obtain ⟨hp2, tail', t1, t2, t3⟩ := hstep2
    refine ⟨{ d with heap := upd hp2 a none, cache := cache', tail := tail', sz := d.sz - 1, modified := true },
      by unfold del; rw [h10]; dsimp only; rw [h2]; dsimp only; rw [s1]; dsimp only; rw [t1],
      ⟨pre ++ post, by rw [her]; simp, ?_, ?_, ?_, ?_⟩, rfl, by simp [hany]⟩
    · dsimp only
      rw [seg_append]
      refine ⟨n, q, ?_, ?_⟩
      · refine seg_frame pre (fun x hx => ?_) s2
        have hxa : x ≠ a := fun e => hpre (e ▸ hx)
        show upd hp2 a none x = hp1 x
        rw [upd_ne _ _ hxa, t3 x (hdis x hx)]
      · exact seg_frame post (fun x hx => upd_ne _ _ (fun e => hpost.1 (e ▸ hx))) t2
    · rw [List.map_append]
      exact List.nodup_append.2 ⟨hd.1, hpost.2, fun x hx y hy e => hdis x hx (e ▸ hy)⟩
    · intro x hx
      rw [List.map_append, List.mem_append] at hx
      apply h8
      rw [List.mem_append]
      exact hx.imp id (List.mem_cons_of_mem _)
    · show d.sz - 1 = _
      rw [hsz, her, h4]
      simp only [List.length_append, List.length_cons]
      omega

/-- One operation. -/
theorem runOp_rep {d : Llist R} {l : List R} (cmp : R → K → Bool) (h : Rep d l) (hs : d.serial.isSome)
    (o : Op R K) (hn : NoLoss cmp o l) :
    ∃ d', runOp cmp o d = some (d', (specOp cmp o l).2) ∧ Rep d' (specOp cmp o l).1 ∧ d'.serial.isSome := by
  cases o with
  | add m r =>
    cases m with
    | ok =>
      obtain ⟨d', e1, e2, e3, _⟩ := prepend_rep h r
      exact ⟨{ d' with modified := true }, by simp [runOp, add, e1, specOp], rep_of_fields e2 rfl rfl rfl rfl rfl,
        by simpa [e3] using hs⟩
    | noEntry => exact ⟨d, rfl, h, hs⟩
    | noClone => exact ⟨d, rfl, h, hs⟩
  | modify m k r =>
    rcases locate_rep cmp h k with ⟨f1, f2⟩ | ⟨pre, a, r', post, n, q, h1, h2, h3, h4, h5, h6, h7, h8, h9, h10⟩
    · cases m with
      | ok =>
        obtain ⟨d', e1, e2, e3, _⟩ := prepend_rep h r
        refine ⟨{ d' with modified := true }, by simp [runOp, modify, f2, e1, specOp, f1], ?_, by simpa [e3] using hs⟩
        simp only [specOp, f1]
        exact rep_of_fields e2 rfl rfl rfl rfl rfl
      | noEntry => exact ⟨d, by simp [runOp, modify, f2, prepend, specOp], h, hs⟩
      | noClone => exact ⟨d, by simp [runOp, modify, f2, prepend, specOp], h, hs⟩
    · have hany : l.any (cmp · k) = true := by
        rw [h4, List.any_eq_true]; exact ⟨r', by simp, h6⟩
      have hm : m = .ok := hn hany
      subst hm
      obtain ⟨d', e1, e2, e3, _⟩ := replaceAt_rep cmp k r h1 h2 h3 h4 h5 h6 h7 h8 (rep_sz h)
      refine ⟨d', by simp [runOp, modify, h9, e1, specOp, hany], ?_, by simpa [e3] using hs⟩
      simp only [specOp, hany]
      exact e2
  | set m k r =>
    rcases locate_rep cmp h k with ⟨f1, f2⟩ | ⟨pre, a, r', post, n, q, h1, h2, h3, h4, h5, h6, h7, h8, h9, h10⟩
    · refine ⟨d, ?_, ?_, hs⟩
      · simp [runOp, set_, f2, specOp, f1]
      · simp only [specOp, f1]
        simpa using h
    · have hany : l.any (cmp · k) = true := by
        rw [h4, List.any_eq_true]; exact ⟨r', by simp, h6⟩
      have hm : m = .ok := hn hany
      subst hm
      obtain ⟨d', e1, e2, e3, _⟩ := replaceAt_rep cmp k r h1 h2 h3 h4 h5 h6 h7 h8 (rep_sz h)
      refine ⟨d', by simp [runOp, set_, h9, e1, specOp, hany], ?_, by simpa [e3] using hs⟩
      simp only [specOp, hany]
      exact e2
  | del k =>
    obtain ⟨d', e1, e2, e3, _⟩ := del_rep cmp h k
    exact ⟨d', by simp [runOp, e1, specOp], e2, by simpa [e3] using hs⟩
  | clear s =>
    cases s with
    | none => exact ⟨d, rfl, h, hs⟩
    | some s =>
      obtain ⟨h', e⟩ := freeAll_rep h
      obtain ⟨t, ht⟩ := Option.isSome_iff_exists.1 hs
      refine ⟨{ d with serial := some s, heap := h', cache := none, tail := none, sz := 0, modified := true },
        by simp [runOp, clear, setSerial, ht, e, specOp], ⟨[], rfl, ⟨rfl, rfl⟩, by simp, by simp, rfl⟩, rfl⟩

theorem runOps_rep (cmp : R → K → Bool) : ∀ (os : List (Op R K)) (d : Llist R) (l : List R), Rep d l →
    d.serial.isSome → NoLosses cmp os l →
    ∃ d', runOps cmp os d = some (d', (specOps cmp os l).2) ∧ Rep d' (specOps cmp os l).1 ∧
      d'.serial.isSome
  | [], d, l, h, hs, _ => ⟨d, rfl, h, hs⟩
  | o :: os, d, l, h, hs, hn => by
    obtain ⟨d1, e1, e2, e3⟩ := runOp_rep cmp h hs o hn.1
    obtain ⟨d2, g1, g2, g3⟩ := runOps_rep cmp os d1 _ e2 e3 hn.2
    refine ⟨d2, ?_, ?_, g3⟩
    · unfold runOps
      rw [e1]
      dsimp only
      rw [g1]
      rfl
    · simpa [specOps] using g2

/-! ### Reading the file -/

theorem readLoop_rep (io : Io) : ∀ (ls : List (Line R)) (i : Nat) (d : Llist R) (l : List R), Rep d l →
    d.modified = false →
    ∃ d' s, readLoop io i ls d = some (d', s) ∧ d'.serial = d.serial ∧ d'.modified = false ∧ (∃ l', Rep d' l') ∧
      (s = .ok → ∃ rs, records ls = some rs ∧ Rep d' (rs.reverse ++ l)) := by
  intro ls
  induction ls with
  | nil =>
    intro i d l h hm
    unfold readLoop
    split_ifs with hc
    · exact ⟨d, .err, rfl, rfl, hm, ⟨l, h⟩, by simp⟩
    · exact ⟨d, .ok, rfl, rfl, hm, ⟨l, h⟩, fun _ => ⟨[], rfl, by simpa using h⟩⟩
  | cons x ls ih =>
    intro i d l h hm
    unfold readLoop
    split_ifs with hc
    · exact ⟨d, .err, rfl, rfl, hm, ⟨l, h⟩, by simp⟩
    · cases x with
      | bad => exact ⟨d, .err, rfl, rfl, hm, ⟨l, h⟩, by simp⟩
      | record r =>
        cases hmm : io.mem i with
        | noEntry => exact ⟨d, .err, by simp [hmm, prepend], rfl, hm, ⟨l, h⟩, by simp⟩
        | noClone => exact ⟨d, .err, by simp [hmm, prepend], rfl, hm, ⟨l, h⟩, by simp⟩
        | ok =>
          obtain ⟨d1, e1, e2, e3, e4⟩ := prepend_rep h r
          obtain ⟨d2, s, g1, g2, g3, g4, g5⟩ := ih (i + 1) d1 _ e2 (e4.trans hm)
          refine ⟨d2, s, by simp only [hmm, e1]; exact g1, g2.trans e3, g3, g4, fun hs => ?_⟩
          obtain ⟨rs, k1, k2⟩ := g5 hs
          exact ⟨r :: rs, by simp [records, k1], by simpa using k2⟩

theorem dropCache_rep {d : Llist R} {l : List R} (h : Rep d l) :
    ∃ d', dropCache d = some d' ∧ d'.serial = none ∧ (d.serial.isSome → d'.modified = false) := by
  unfold dropCache
  cases hs : d.serial with
  | none => exact ⟨d, rfl, hs, by simp⟩
  | some s =>
    obtain ⟨h', e⟩ := freeAll_rep h
    exact ⟨_, by dsimp only; rw [e], rfl, fun _ => rfl⟩

end Verif.Dbase
