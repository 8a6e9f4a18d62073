import Verif.Prelude
import Verif.Link.Spec

/-! # Lemmas: what the checks of one declaration compute -/

namespace Verif.Link

/-- The blocks with exactly the bodies in `S` switched on. -/
def rendB (S : Nat → Bool) (b : Block) : Block :=
  match b.branches with
  | [] => b
  | d :: ds => { b with
      branches := { d with enabled := S d.id } :: ds.map fun d => { d with enabled := false }
      enabled := if S d.id then some 0 else none }

def rend (bs : List Block) (S : Nat → Bool) : List Block := bs.map (rendB S)

/-- A symbol is declared by a body in `S`. -/
def Avail (p : Pol) (bs : List Block) (S : Nat → Bool) (k : Kind) (name : String) : Prop :=
  ∃ d, Body bs d ∧ S d.id = true ∧ Declares p k name d.id

theorem start_eq {bs : List Block} (h : ∀ b ∈ bs, b.branches ≠ []) :
    start bs = some (rend bs fun _ => true) := by
  induction bs with
  | nil => rfl
  | cons b bs ih =>
    have hb := h b (by simp)
    have := ih fun b hb => h b (by simp [hb])
    cases hbr : b.branches with
    | nil => exact absurd hbr hb
    | cons d ds => simp [start, startBlock, hbr, this, rend, rendB]

theorem start_none {bs : List Block} {b : Block} (hb : b ∈ bs) (h : b.branches = []) : start bs = none := by
  induction bs with
  | nil => simp at hb
  | cons c bs ih =>
    rcases List.mem_cons.1 hb with e | hb
    · subst e; simp [start, startBlock, h]
    · simp only [start, ih hb]
      cases startBlock c <;> rfl

/-- The declarations of the rendered blocks, with their numbers. -/
theorem mem_rend {bs : List Block} (h : ∀ b ∈ bs, b.branches ≠ []) (S : Nat → Bool) (x : Decl) :
    x ∈ (rend bs S).flatMap (·.branches) ↔
      (∃ d, Body bs d ∧ x = { d with enabled := S d.id }) ∨
      (∃ b ∈ bs, ∃ d ∈ b.branches.tail, x = { d with enabled := false }) := by
  simp only [rend, List.mem_flatMap, List.mem_map]
  constructor
  · rintro ⟨_, ⟨b, hb, rfl⟩, hx⟩
    cases hbr : b.branches with
    | nil => exact absurd hbr (h b hb)
    | cons d ds =>
      simp only [rendB, hbr, List.mem_cons, List.mem_map] at hx
      rcases hx with rfl | ⟨e, he, rfl⟩
      · exact Or.inl ⟨d, ⟨b, hb, by simp [hbr]⟩, rfl⟩
      · exact Or.inr ⟨b, hb, e, by simpa [hbr] using he, rfl⟩
  · rintro (⟨d, ⟨b, hb, hd⟩, rfl⟩ | ⟨b, hb, d, hd, rfl⟩)
    · refine ⟨_, ⟨b, hb, rfl⟩, ?_⟩
      cases hbr : b.branches with
      | nil => simp [hbr] at hd
      | cons e ds => simp only [hbr, List.head?_cons, Option.some.injEq] at hd; subst hd; simp [rendB, hbr]
    · refine ⟨_, ⟨b, hb, rfl⟩, ?_⟩
      cases hbr : b.branches with
      | nil => simp [hbr] at hd
      | cons e ds => simp only [hbr, List.tail_cons] at hd; simp only [rendB, hbr, List.mem_cons, List.mem_map]; exact Or.inr ⟨d, hd, rfl⟩

theorem rend_ids (bs : List Block) (S : Nat → Bool) :
    ((rend bs S).flatMap fun b => b.branches.map (·.id)) = bs.flatMap fun b => b.branches.map (·.id) := by
  induction bs with
  | nil => rfl
  | cons b bs ih =>
    simp only [rend, List.map_cons, List.flatMap_cons] at ih ⊢
    rw [ih]
    congr 1
    cases hbr : b.branches <;> simp [rendB, hbr, Function.comp_def]

theorem nodup_inj {l : List Decl} (h : (l.map (·.id)).Nodup) {x y : Decl} (hx : x ∈ l) (hy : y ∈ l)
    (e : x.id = y.id) : x = y := by
  induction l with
  | nil => simp at hx
  | cons a l ih =>
    simp only [List.map_cons, List.nodup_cons, List.mem_map, not_exists, not_and] at h
    rcases List.mem_cons.1 hx with hx1 | hx1 <;> rcases List.mem_cons.1 hy with hy1 | hy1
    · rw [hx1, hy1]
    · subst hx1; exact absurd e.symm (h.1 y hy1)
    · subst hy1; exact absurd e (h.1 x hx1)
    · exact ih h.2 hx1 hy1

/-- The numbers of all declarations are distinct. -/
theorem decl_inj {p : Pol} {bs : List Block} (ok : LinkOk p bs) {x y : Decl}
    (hx : x ∈ bs.flatMap (·.branches)) (hy : y ∈ bs.flatMap (·.branches)) (e : x.id = y.id) : x = y := by
  apply nodup_inj (l := bs.flatMap (·.branches)) _ hx hy e
  have := ok.ids
  rw [List.map_flatMap]
  exact this

theorem body_mem {bs : List Block} {d : Decl} (h : Body bs d) : d ∈ bs.flatMap (·.branches) := by
  obtain ⟨b, hb, hd⟩ := h
  exact List.mem_flatMap.2 ⟨b, hb, List.mem_of_mem_head? (by simp [hd])⟩

theorem body_inj {p : Pol} {bs : List Block} (ok : LinkOk p bs) {x y : Decl} (hx : Body bs x) (hy : Body bs y)
    (e : x.id = y.id) : x = y := decl_inj ok (body_mem hx) (body_mem hy) e

theorem findDecl_rend {p : Pol} {bs : List Block} (ok : LinkOk p bs) (S : Nat → Bool) (id : Nat) :
    (match findDecl (rend bs S) id with | none => false | some d => d.enabled) = true ↔
      ∃ d, Body bs d ∧ S d.id = true ∧ d.id = id := by
  have hinj : ∀ x ∈ (rend bs S).flatMap (·.branches), ∀ y ∈ (rend bs S).flatMap (·.branches), x.id = y.id → x = y := by
    intro x hx y hy e
    apply nodup_inj (l := (rend bs S).flatMap (·.branches)) _ hx hy e
    rw [List.map_flatMap, rend_ids]
    exact ok.ids
  constructor
  · intro h
    split at h
    · simp at h
    · rename_i x hx
      have hm := List.mem_of_find?_eq_some hx
      have hid := List.find?_some hx
      simp only [List.mem_reverse] at hm
      simp only [beq_iff_eq] at hid
      rcases (mem_rend ok.body S x).1 hm with ⟨d, hd, rfl⟩ | ⟨b, hb, d, hd, rfl⟩
      · exact ⟨d, hd, h, hid⟩
      · simp at h
  · rintro ⟨d, hd, hS, rfl⟩
    have hm := (mem_rend ok.body S { d with enabled := S d.id }).2 (Or.inl ⟨d, hd, rfl⟩)
    cases hf : findDecl (rend bs S) d.id with
    | none =>
      have := List.find?_eq_none.1 hf _ (List.mem_reverse.2 hm)
      simp at this
    | some x =>
      have hxm := List.mem_of_find?_eq_some hf
      have hid := List.find?_some hf
      simp only [beq_iff_eq] at hid
      have := hinj x (List.mem_reverse.1 hxm) _ hm hid
      subst this
      exact hS

open Classical in
theorem declEnabled_rend {p : Pol} {bs : List Block} (ok : LinkOk p bs) (S : Nat → Bool) {id : Nat}
    (h1 : 1 ≤ id) (h2 : id ≤ p.declLen) :
    declEnabled p (rend bs S) id = .ok (decide (∃ d, Body bs d ∧ S d.id = true ∧ d.id = id)) := by
  unfold declEnabled
  rw [if_neg (by omega)]
  congr 1
  rw [Bool.eq_iff_iff]
  exact (findDecl_rend ok S id).trans (by simp)

open Classical in
theorem anyEnabled_rend {p : Pol} {bs : List Block} (ok : LinkOk p bs) (S : Nat → Bool) {ids : List Nat}
    (h : ∀ id ∈ ids, 1 ≤ id ∧ id ≤ p.declLen) :
    anyEnabled p (rend bs S) ids = .ok (decide (∃ d, Body bs d ∧ S d.id = true ∧ d.id ∈ ids)) := by
  induction ids with
  | nil => simp [anyEnabled]
  | cons id ids ih =>
    have hid := h id (by simp)
    rw [anyEnabled, declEnabled_rend ok S hid.1 hid.2]
    by_cases hc : ∃ d, Body bs d ∧ S d.id = true ∧ d.id = id
    · simp only [hc, decide_true]
      congr 1
      obtain ⟨d, a, b, c⟩ := hc
      symm
      simp only [decide_eq_true_eq]
      exact ⟨d, a, b, by simp [c]⟩
    · simp only [hc, decide_false]
      rw [ih fun id hid => h id (by simp [hid])]
      congr 1
      rw [decide_eq_decide]
      constructor
      · rintro ⟨d, a, b, c⟩; exact ⟨d, a, b, by simp [c]⟩
      · rintro ⟨d, a, b, c⟩
        rcases List.mem_cons.1 c with c | c
        · exact absurd ⟨d, a, b, c⟩ hc
        · exact ⟨d, a, b, c⟩

open Classical in
theorem isIdEnabled_rend {p : Pol} {bs : List Block} (ok : LinkOk p bs) (S : Nat → Bool) (k : Kind) (name : String) :
    isIdEnabled p (rend bs S) name k = .ok (decide (Avail p bs S k name)) := by
  unfold isIdEnabled
  cases hs : search (p.scope k) name with
  | none =>
    simp only
    congr 1; symm
    simp only [decide_eq_false_iff_not]
    rintro ⟨d, _, _, s, h, _⟩
    rw [hs] at h; cases h
  | some s =>
    simp only
    cases hd : s.decl with
    | false =>
      simp only [Bool.not_false, if_true]
      congr 1; symm
      simp only [decide_eq_false_iff_not]
      rintro ⟨d, _, _, s', h, h', _⟩
      rw [hs] at h; cases h; simp [hd] at h'
    | true =>
      have hrange : ∀ id ∈ s.declIds, 1 ≤ id ∧ id ≤ p.declLen := fun id hid =>
        ok.scope k name id ⟨s, hs, hd, hid⟩
      have hav : ∀ q : Nat → Prop, (∀ id, q id ↔ id ∈ s.declIds) →
          ((∃ d, Body bs d ∧ S d.id = true ∧ q d.id) ↔ Avail p bs S k name) := by
        intro q hq
        constructor
        · rintro ⟨d, a, b, c⟩; exact ⟨d, a, b, s, hs, hd, (hq _).1 c⟩
        · rintro ⟨d, a, b, s', h, _, c⟩
          rw [hs] at h; cases h
          exact ⟨d, a, b, (hq _).2 c⟩
      simp only [Bool.not_true, Bool.false_eq_true, if_false]
      cases hl : s.declIds.getLast? with
      | none =>
        simp only
        congr 1; symm
        simp only [decide_eq_false_iff_not]
        rw [← hav (fun _ => False) (by intro id; simp [List.getLast?_eq_none_iff.1 hl])]
        simp
      | some last =>
        simp only
        by_cases hk : k = .roles ∨ k = .users
        · rw [if_pos hk, anyEnabled_rend ok S hrange]
          congr 1
          rw [decide_eq_decide]
          exact hav (fun id => id ∈ s.declIds) fun _ => Iff.rfl
        · rw [if_neg hk]
          rw [not_or] at hk
          have h1 := ok.one k name s hk.1 hk.2 hs hd
          have hids : s.declIds = [last] := by
            match hm : s.declIds with
            | [] => rw [hm] at hl; simp at hl
            | [a] => rw [hm] at hl; simp at hl; simp [hl]
            | a :: b :: l => rw [hm] at h1; simp at h1
          have hr := hrange last (by simp [hids])
          rw [declEnabled_rend ok S hr.1 hr.2]
          congr 1
          rw [decide_eq_decide]
          exact hav (fun id => id = last) fun id => by simp [hids]

/-- The result of the check of the symbols of one table. -/
theorem symbolsMet_rend {p : Pol} {bs : List Block} (ok : LinkOk p bs) (S : Nat → Bool) (k : Kind)
    (req : Option Missing) : ∀ (js : List Nat), (∀ j ∈ js, j < (p.names k).length) →
    ((∀ j ∈ js, ∀ n, (p.names k)[j]? = some n → Avail p bs S k n) ∧
      symbolsMet p (rend bs S) k req js = .ok (.yes, req)) ∨
    (∃ j ∈ js, ∃ n, (p.names k)[j]? = some n ∧ ¬ Avail p bs S k n ∧
      symbolsMet p (rend bs S) k req js = .ok (.no, some ⟨k, j + 1, req.bind (·.perm)⟩)) := by
  classical
  intro js
  induction js with
  | nil => intro _; left; exact ⟨by simp, rfl⟩
  | cons j js ih =>
    intro h
    have hj := h j (by simp)
    have hn : (p.names k)[j]? = some (p.names k)[j] := List.getElem?_eq_getElem hj
    simp only [symbolsMet, hn, isIdEnabled_rend ok]
    by_cases hav : Avail p bs S k (p.names k)[j]
    · simp only [hav, decide_true]
      rcases ih fun j hj => h j (by simp [hj]) with ⟨a, b⟩ | ⟨j', hj', n, a, b, c⟩
      · left
        refine ⟨?_, b⟩
        intro j' hj' n hn'
        rcases List.mem_cons.1 hj' with rfl | hj'
        · rw [hn] at hn'; cases hn'; exact hav
        · exact a j' hj' n hn'
      · right; exact ⟨j', by simp [hj'], n, a, b, c⟩
    · right
      simp only [hav, decide_false]
      exact ⟨j, by simp, _, hn, hav, rfl⟩

theorem tablesMet_rend {p : Pol} {bs : List Block} (ok : LinkOk p bs) (S : Nat → Bool) (d : Decl)
    (hd : ∀ k, ∀ j ∈ d.required k, j < (p.names k).length) (req : Option Missing) : ∀ (ks : List Kind),
    ((∀ k ∈ ks, k ≠ .classes → ∀ n, Needs p d k n → Avail p bs S k n) ∧
      tablesMet p (rend bs S) d req ks = .ok (.yes, req)) ∨
    (∃ k n j pm, k ≠ .classes ∧ Needs p d k n ∧ ¬ Avail p bs S k n ∧ (p.names k)[j]? = some n ∧
      tablesMet p (rend bs S) d req ks = .ok (.no, some ⟨k, j + 1, pm⟩)) := by
  intro ks
  induction ks with
  | nil => left; exact ⟨by simp, rfl⟩
  | cons k ks ih =>
    rw [tablesMet]
    by_cases hk : k = .classes
    · rw [if_pos hk]
      rcases ih with ⟨a, b⟩ | h
      · left
        refine ⟨?_, b⟩
        intro k' hk' hne
        rcases List.mem_cons.1 hk' with rfl | hk'
        · exact absurd hk hne
        · exact a k' hk' hne
      · right; exact h
    · rw [if_neg hk]
      rcases symbolsMet_rend ok S k req (d.required k) (hd k) with ⟨a, b⟩ | ⟨j, hj, n, hn, hav, b⟩
      · rw [b]
        simp only
        rcases ih with ⟨a', b'⟩ | h
        · left
          refine ⟨?_, b'⟩
          intro k' hk' hne
          rcases List.mem_cons.1 hk' with rfl | hk'
          · rintro n ⟨j, hj, hn⟩; exact a j hj n hn
          · exact a' k' hk' hne
        · right; exact h
      · right
        rw [b]
        exact ⟨k, n, j, _, hk, ⟨j, hj, hn⟩, hav, hn, rfl⟩

theorem search_isSome {α : Type} {t : List (String × α)} {n : String} {v : α} (h : (n, v) ∈ t) :
    (search t n).isSome = true := by
  unfold search
  rw [Option.isSome_map, List.find?_isSome]
  exact ⟨(n, v), h, by simp⟩

theorem findPerm_mem {t : List (String × Nat)} {v : Nat} {n : String} (h : findPerm t v = some n) : (n, v) ∈ t := by
  simp only [findPerm, Option.map_eq_some_iff] at h
  obtain ⟨e, he, rfl⟩ := h
  have hm := List.mem_of_find?_eq_some he
  have hv := List.find?_some he
  simp only [beq_iff_eq] at hv
  subst hv
  exact hm

theorem findPerm_isSome {t : List (String × Nat)} {v : Nat} {n : String} (h : (n, v) ∈ t) :
    ∃ m, findPerm t v = some m := by
  rw [← Option.isSome_iff_exists]
  simp only [findPerm, Option.isSome_map, List.find?_isSome]
  exact ⟨_, h, by simp⟩

theorem permsMet_ok (c : Class) (i : Nat) (req : Option Missing) : ∀ (js : List Nat),
    (∀ j ∈ js, ∃ n, (n, j + 1) ∈ c.perms ++ c.common.getD []) →
    permsMet c i req js = .ok (.yes, req) := by
  intro js
  induction js with
  | nil => intro _; rfl
  | cons j js ih =>
    intro h
    obtain ⟨n, hn⟩ := h j (by simp)
    have ih := ih fun j hj => h j (by simp [hj])
    rw [permsMet]
    cases hf : findPerm c.perms (j + 1) with
    | some m =>
      have := search_isSome (findPerm_mem hf)
      obtain ⟨v, hv⟩ := Option.isSome_iff_exists.1 this
      simp [isPermExistent, hv, ih]
    | none =>
      rcases List.mem_append.1 hn with hn | hn
      · obtain ⟨m, hm⟩ := findPerm_isSome hn
        rw [hf] at hm; cases hm
      · cases hc : c.common with
        | none => simp [hc] at hn
        | some t =>
          simp only [hc, Option.getD_some] at hn
          obtain ⟨m, hm⟩ := findPerm_isSome hn
          simp only [Option.bind_some, hm]
          have h1 := search_isSome (findPerm_mem hm)
          have : isPermExistent c m = true := by
            unfold isPermExistent
            split
            · rfl
            · rw [hc]; exact h1
          simp [this, ih]

theorem classesMet_rend {p : Pol} {bs : List Block} (ok : LinkOk p bs) (S : Nat → Bool) (req : Option Missing) :
    ∀ (l : List (List Nat)) (i : Nat), i + l.length ≤ (p.names .classes).length →
    (∀ o js c, l[o]? = some js → p.classes[i + o]? = some c → ∀ j ∈ js, ∃ n, (n, j + 1) ∈ c.perms ++ c.common.getD []) →
    ((∀ o n, o < l.length → (p.names .classes)[i + o]? = some n → Avail p bs S .classes n) ∧
      classesMet p (rend bs S) req i l = .ok (.yes, req)) ∨
    (∃ o n, o < l.length ∧ (p.names .classes)[i + o]? = some n ∧ ¬ Avail p bs S .classes n ∧
      classesMet p (rend bs S) req i l = .ok (.no, req)) := by
  classical
  intro l
  induction l with
  | nil => intro i _ _; left; exact ⟨by simp, rfl⟩
  | cons js l ih =>
    intro i hi hp
    simp only [List.length_cons] at hi
    have h1 : i < (p.names .classes).length := by omega
    have h2 : i < p.classes.length := by rw [ok.classes]; omega
    have e1 : (p.names .classes)[i]? = some (p.names .classes)[i] := List.getElem?_eq_getElem h1
    have e2 : p.classes[i]? = some p.classes[i] := List.getElem?_eq_getElem h2
    rw [classesMet, e1, e2]
    simp only [isIdEnabled_rend ok]
    by_cases hav : Avail p bs S .classes (p.names .classes)[i]
    · simp only [hav, decide_true]
      obtain ⟨d, _, _, s, hs, _⟩ := hav
      have hpm := permsMet_ok p.classes[i] i req js fun j hj => hp 0 js _ (by simp) (by simpa using e2) j hj
      simp only [hs, hpm]
      rcases ih (i + 1) (by omega) (by
        intro o js' c ho hc
        exact hp (o + 1) js' c (by simpa using ho) (by rw [show i + (o + 1) = i + 1 + o by omega]; exact hc)) with ⟨a, b⟩ | ⟨o, n, ho, hn, ha, b⟩
      · left
        refine ⟨?_, b⟩
        intro o n ho hn
        cases o with
        | zero => rw [Nat.add_zero, e1] at hn; cases hn; exact ⟨d, by assumption, by assumption, s, hs, by assumption⟩
        | succ o => exact a o n (by simp only [List.length_cons] at ho; omega) (by rw [show i + 1 + o = i + (o + 1) by omega]; exact hn)
      · right
        exact ⟨o + 1, n, by simp only [List.length_cons]; omega, by rw [show i + (o + 1) = i + 1 + o by omega]; exact hn, ha, b⟩
    · right
      simp only [hav, decide_false]
      exact ⟨0, _, by simp, e1, hav, trivial⟩

/-- All requirements of the declaration are met by the bodies in `S`. -/
def AllMet (p : Pol) (bs : List Block) (S : Nat → Bool) (d : Decl) : Prop :=
  ∀ k n, Needs p d k n → Avail p bs S k n

/-- What `is_decl_requires_met` computes. -/
theorem requiresMet_rend {p : Pol} {bs : List Block} (ok : LinkOk p bs) (S : Nat → Bool) {d : Decl}
    (hd : d ∈ bs.flatMap (·.branches)) (v : Bool) (req : Option Missing) :
    (AllMet p bs S d ∧ requiresMet p (rend bs S) { d with enabled := v } req = .ok (.yes, req)) ∨
    (∃ k n j pm, k ≠ .classes ∧ Needs p d k n ∧ ¬ Avail p bs S k n ∧ (p.names k)[j]? = some n ∧
      requiresMet p (rend bs S) { d with enabled := v } req = .ok (.no, some ⟨k, j + 1, pm⟩)) ∨
    (∃ n, Needs p d .classes n ∧ ¬ Avail p bs S .classes n ∧
      requiresMet p (rend bs S) { d with enabled := v } req = .ok (.no, req)) := by
  obtain ⟨b, hb, hdb⟩ := List.mem_flatMap.1 hd
  have hnames := ok.names b hb d hdb
  have hlast := ok.lastClass b hb d hdb
  unfold requiresMet
  rcases tablesMet_rend ok S { d with enabled := v } hnames req kinds with ⟨a, e⟩ | ⟨k, n, j, pm, hk, hn, ha, hj, e⟩
  · rw [e]
    simp only
    have hlen : d.classPerms.length ≤ (p.names .classes).length := by
      by_cases hne : d.classPerms = []
      · simp [hne]
      · have h1 := hnames .classes _ (hlast.2 hne)
        have : d.classPerms.length ≠ 0 := by simpa using hne
        omega
    rcases classesMet_rend ok S req d.classPerms 0 (by omega) (by
        intro o js c ho hc
        exact ok.perms b hb d hdb o js c ho (by simpa using hc)) with ⟨a', e'⟩ | ⟨o, n, ho, hn, ha, e'⟩
    · left
      refine ⟨?_, e'⟩
      intro k n hneed
      by_cases hk : k = .classes
      · subst hk
        obtain ⟨j, hj, hn⟩ := hneed
        exact a' j n (hlast.1 j hj) (by simpa using hn)
      · exact a k (by cases k <;> simp [kinds]) hk n hneed
    · right; right
      have hne : d.classPerms ≠ [] := by intro h; simp [h] at ho
      have hm := hlast.2 hne
      have hml := hnames .classes _ hm
      rw [Nat.zero_add] at hn
      refine ⟨_, ⟨_, hm, List.getElem?_eq_getElem hml⟩, ?_, e'⟩
      rintro ⟨d', h1, h2, h3⟩
      exact ha ⟨d', h1, h2, ok.order o (d.classPerms.length - 1) n _ d'.id (by omega) hn
        (List.getElem?_eq_getElem hml) h3⟩
  · right; left
    rw [e]
    exact ⟨k, n, j, pm, hk, hn, ha, hj, rfl⟩

end Verif.Link
