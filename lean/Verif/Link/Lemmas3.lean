import Verif.Link.Lemmas2

/-! # Lemmas: the loop and the `else` branches -/

namespace Verif.Link

def count (bs : List Block) (S : Nat → Bool) : Nat :=
  bs.countP fun b => match b.branches.head? with | some d => S d.id | none => false

theorem count_le_length (bs : List Block) (S : Nat → Bool) : count bs S ≤ bs.length := List.countP_le_length

theorem countP_lt {α : Type} {l : List α} {f g : α → Bool} (h : ∀ x ∈ l, f x = true → g x = true)
    {y : α} (hy : y ∈ l) (hg : g y = true) (hf : f y = false) : l.countP f < l.countP g := by
  induction l with
  | nil => simp at hy
  | cons a l ih =>
    have hle : l.countP f ≤ l.countP g := List.countP_mono_left fun x hx => h x (by simp [hx])
    rcases List.mem_cons.1 hy with e | hy
    · subst e
      rw [List.countP_cons_of_pos hg, List.countP_cons_of_neg (by simp [hf])]
      omega
    · have := ih (fun x hx => h x (by simp [hx])) hy
      have ha := h a (by simp)
      cases hfa : f a with
      | true => rw [List.countP_cons_of_pos hfa, List.countP_cons_of_pos (ha hfa)]; omega
      | false =>
        rw [List.countP_cons_of_neg (by simp [hfa])]
        have : l.countP g ≤ (a :: l).countP g := by
          rw [List.countP_cons]; omega
        omega

theorem count_lt {bs : List Block} {S S' : Nat → Bool} (h : ∀ id, S' id = true → S id = true) {d : Decl}
    (hd : Body bs d) (h1 : S d.id = true) (h2 : S' d.id = false) : count bs S' < count bs S := by
  obtain ⟨b, hb, hbd⟩ := hd
  refine countP_lt ?_ hb (by simpa [hbd] using h1) (by simpa [hbd] using h2)
  intro c _ hc
  cases hh : c.branches.head? with
  | none => simp [hh] at hc
  | some e => simp only [hh] at hc ⊢; exact h _ hc

theorem rend_length (bs : List Block) (S : Nat → Bool) : (rend bs S).length = bs.length := by simp [rend]

/-- What the loop computes. -/
def Outcome (p : Pol) (bs : List Block) (S : Nat → Bool)
    (x : Option (Except Fault (Status × Option Report × List Block))) : Prop :=
  (∃ S', x = some (.ok (.ok, none, rend bs S')) ∧
    (∀ T, Supported p bs T → (∀ id, T id → S id = true) → ∀ id, T id → S' id = true) ∧
    (∀ d, Body bs d → S' d.id = true → AllMet p bs S' d) ∧
    (∀ d, Mandatory bs d → S d.id = true → S' d.id = true)) ∨
  (∃ r d bs', x = some (.ok (.ereq, some r, bs')) ∧ Mandatory bs d ∧
    (∀ T, Supported p bs T → (∀ id, T id → S id = true) → ¬ T d.id) ∧
    ((∃ k nm, r = ⟨k, nm, none⟩ ∧ Needs p d k nm ∧
        ∀ T, Supported p bs T → (∀ id, T id → S id = true) → ¬ ∃ d', Body bs d' ∧ T d'.id ∧ Declares p k nm d'.id) ∨
      ∃ (S' : Nat → Bool) (nm : String), Needs p d .classes nm ∧ (∀ d, Mandatory bs d → S d.id = true → S' d.id = true) ∧
        ¬ Avail p bs S' .classes nm)) ∨
  (∃ (d : Decl) (S' : Nat → Bool) (nm : String), x = some (.error .ub) ∧ Mandatory bs d ∧ Needs p d .classes nm ∧
    (∀ d, Mandatory bs d → S d.id = true → S' d.id = true) ∧
    (∀ T, Supported p bs T → (∀ id, T id → S id = true) → ∀ id, T id → S' id = true) ∧
    ¬ Avail p bs S' .classes nm)

theorem loop_spec {p : Pol} {bs : List Block} (ok : LinkOk p bs) : ∀ (fuel : Nat) (S : Nat → Bool) (req : Option Missing),
    count bs S < fuel → Outcome p bs S (loop p fuel (rend bs S) req) := by
  intro fuel
  induction fuel with
  | zero => intro S req h; omega
  | succ fuel ih =>
    intro S req hf
    rw [loop, rend_length]
    rcases pass_spec ok bs.length 0 S req false (by omega) with ⟨S', req', ch', h1, h2, h3, h4, h5, h6⟩ | ⟨r, d, h1, h2, h3, h4⟩ | ⟨d, S', nm, h1, h2, h3, h4, h5, h6⟩
    · rw [h1]
      simp only
      cases ch' with
      | false =>
        rcases h4 with h4 | ⟨e, _, hall⟩
        · cases h4
        · subst e
          left
          refine ⟨S', by simp, fun _ _ h => h, ?_, h6⟩
          rintro d ⟨b, hb, hd⟩ hS
          obtain ⟨j, hj⟩ := List.mem_iff_getElem?.1 hb
          exact hall j (by omega) b d hj hd hS
      | true =>
        simp only [if_true]
        rcases h5 rfl with h | ⟨d, hd, hS, hS'⟩
        · cases h
        · have hlt := count_lt h2 hd hS hS'
          rcases ih S' req' (by omega) with ⟨S2, e, a, b, c⟩ | ⟨r, d, bs', e, a, b, c⟩ | ⟨d, S2, nm, e, a, b, c, f, g⟩
          · left
            exact ⟨S2, e, fun T hT hTS => a T hT (h3 T hT hTS), b, fun d hm h => c d hm (h6 d hm h)⟩
          · right; left
            refine ⟨r, d, bs', e, a, fun T hT hTS => b T hT (h3 T hT hTS), ?_⟩
            rcases c with ⟨k, nm, c1, c2, c3⟩ | ⟨S2, nm, c1, c2, c3⟩
            · exact Or.inl ⟨k, nm, c1, c2, fun T hT hTS => c3 T hT (h3 T hT hTS)⟩
            · exact Or.inr ⟨S2, nm, c1, fun d hm h => c2 d hm (h6 d hm h), c3⟩
          · right; right
            exact ⟨d, S2, nm, e, a, b, fun d hm h => c d hm (h6 d hm h), fun T hT hTS => f T hT (h3 T hT hTS), g⟩
    · right; left
      rw [h1]
      exact ⟨r, d, _, rfl, h2, h3, h4⟩
    · right; right
      rw [h1]
      exact ⟨d, S', nm, rfl, h2, h3, h4, h5, h6⟩

/-! ### The `else` branches -/

theorem mem_elses {bs : List Block} {S : Nat → Bool} {c : Block} (h : c ∈ elses (rend bs S)) :
    (∃ b ∈ bs, c = rendB S b) ∨ (∃ b ∈ bs.tail, c = elseBlock (rendB S b)) := by
  cases bs with
  | nil => simp [rend, elses] at h
  | cons b bs =>
    simp only [rend, List.map_cons, elses, List.mem_cons, List.map_map, List.mem_map, Function.comp] at h
    rcases h with rfl | ⟨a, ha, rfl⟩
    · exact Or.inl ⟨b, by simp, rfl⟩
    · exact Or.inr ⟨a, by simpa using ha, rfl⟩

theorem elseBlock_on {S : Nat → Bool} {b : Block} {d : Decl} {ds : List Decl} (hb : b.branches = d :: ds)
    (h : S d.id = true) : elseBlock (rendB S b) = rendB S b := by
  simp [elseBlock, rendB, hb, h]

theorem elseBlock_single {S : Nat → Bool} {b : Block} {d : Decl} (hb : b.branches = [d]) :
    elseBlock (rendB S b) = rendB S b := by
  cases h : S d.id <;> simp [elseBlock, rendB, hb, h]

theorem elseBlock_else {S : Nat → Bool} {b : Block} {d e : Decl} {ds : List Decl} (hb : b.branches = d :: e :: ds)
    (h : S d.id = false) : elseBlock (rendB S b) = { b with
      branches := { d with enabled := false } :: { e with enabled := true } :: ds.map fun d => { d with enabled := false }
      enabled := some 1 } := by
  simp [elseBlock, rendB, hb, h]

/-- Which declarations are switched on in the end. -/
theorem on_elses {bs : List Block} (hbody : ∀ b ∈ bs, b.branches ≠ []) (S : Nat → Bool) (id : Nat) :
    On (elses (rend bs S)) id ↔
      (∃ d, Body bs d ∧ d.id = id ∧ S id = true) ∨ (∃ d e, Else bs d e ∧ e.id = id ∧ S d.id = false) := by
  constructor
  · rintro ⟨c, hc, x, hx, hid, hen⟩
    have key : ∀ b ∈ bs, x ∈ (rendB S b).branches → ∃ d, Body bs d ∧ d.id = id ∧ S id = true := by
      intro b hb hx
      cases hbr : b.branches with
      | nil => exact absurd hbr (hbody b hb)
      | cons d ds =>
        simp only [rendB, hbr, List.mem_cons, List.mem_map] at hx
        rcases hx with rfl | ⟨e, _, rfl⟩
        · simp only at hid hen
          exact ⟨d, ⟨b, hb, by simp [hbr]⟩, hid, by rw [← hid]; exact hen⟩
        · simp at hen
    rcases mem_elses hc with ⟨b, hb, rfl⟩ | ⟨b, hb, rfl⟩
    · exact Or.inl (key b hb hx)
    · have hb' := List.mem_of_mem_tail hb
      match hbr : b.branches with
      | [] => exact absurd hbr (hbody b hb')
      | [d] => rw [elseBlock_single hbr] at hx; exact Or.inl (key b hb' hx)
      | d :: e :: ds =>
        cases hS : S d.id with
        | true => rw [elseBlock_on hbr hS] at hx; exact Or.inl (key b hb' hx)
        | false =>
          rw [elseBlock_else hbr hS] at hx
          simp only [List.mem_cons, List.mem_map] at hx
          rcases hx with rfl | rfl | ⟨y, _, rfl⟩
          · simp at hen
          · exact Or.inr ⟨d, e, ⟨b, hb, ds, hbr⟩, hid, hS⟩
          · simp at hen
  · rintro (⟨d, ⟨b, hb, hd⟩, rfl, hS⟩ | ⟨d, e, ⟨b, hb, ds, hbr⟩, rfl, hS⟩)
    · have hin : rendB S b ∈ elses (rend bs S) := by
        cases hbr : b.branches with
        | nil => exact absurd hbr (hbody b hb)
        | cons d' ds =>
          simp only [hbr, List.head?_cons, Option.some.injEq] at hd
          subst hd
          cases bs with
          | nil => simp at hb
          | cons b0 bs =>
            simp only [rend, List.map_cons, elses, List.mem_cons, List.map_map, List.mem_map, Function.comp]
            rcases List.mem_cons.1 hb with rfl | hb
            · exact Or.inl rfl
            · exact Or.inr ⟨b, hb, elseBlock_on hbr hS⟩
      refine ⟨_, hin, { d with enabled := S d.id }, ?_, rfl, hS⟩
      cases hbr : b.branches with
      | nil => simp [hbr] at hd
      | cons d' ds =>
        simp only [hbr, List.head?_cons, Option.some.injEq] at hd
        subst hd
        simp [rendB, hbr]
    · have hin : elseBlock (rendB S b) ∈ elses (rend bs S) := by
        cases bs with
        | nil => simp at hb
        | cons b0 bs =>
          simp only [rend, List.map_cons, elses, List.mem_cons, List.map_map, List.mem_map, Function.comp]
          exact Or.inr ⟨b, by simpa using hb, rfl⟩
      rw [elseBlock_else hbr hS] at hin
      exact ⟨_, hin, { e with enabled := true }, by simp, rfl, rfl⟩

theorem rendB_pointer (S : Nat → Bool) (b : Block) (hb : b.branches ≠ []) (i : Nat) (d : Decl)
    (h : (rendB S b).branches[i]? = some d) : d.enabled = true ↔ (rendB S b).enabled = some i := by
  cases hbr : b.branches with
  | nil => exact absurd hbr hb
  | cons x xs =>
    simp only [rendB, hbr] at h ⊢
    cases i with
    | zero =>
      simp only [List.getElem?_cons_zero, Option.some.injEq] at h
      subst h
      cases S x.id <;> simp
    | succ i =>
      simp only [List.getElem?_cons_succ, List.getElem?_map, Option.map_eq_some_iff] at h
      obtain ⟨y, _, rfl⟩ := h
      cases S x.id <;> simp

/-- The pointer of a block points to the declaration that is switched on. -/
theorem pointer_elses {bs : List Block} (hbody : ∀ b ∈ bs, b.branches ≠ []) (S : Nat → Bool) :
    ∀ c ∈ elses (rend bs S), ∀ (i : Nat) (d : Decl), c.branches[i]? = some d →
      (d.enabled = true ↔ c.enabled = some i) := by
  intro c hc i d h
  rcases mem_elses hc with ⟨b, hb, rfl⟩ | ⟨b, hb, rfl⟩
  · exact rendB_pointer S b (hbody b hb) i d h
  · have hb' := List.mem_of_mem_tail hb
    match hbr : b.branches with
    | [] => exact absurd hbr (hbody b hb')
    | [d'] => rw [elseBlock_single hbr] at h ⊢; exact rendB_pointer S b (hbody b hb') i d h
    | d' :: e :: ds =>
      cases hS : S d'.id with
      | true => rw [elseBlock_on hbr hS] at h ⊢; exact rendB_pointer S b (hbody b hb') i d h
      | false =>
        rw [elseBlock_else hbr hS] at h ⊢
        match i with
        | 0 => simp at h; subst h; simp
        | 1 => simp at h; subst h; simp
        | i + 2 =>
          simp only [List.getElem?_cons_succ, List.getElem?_map, Option.map_eq_some_iff] at h
          obtain ⟨y, _, rfl⟩ := h
          simp

theorem bare_rendB (S : Nat → Bool) (b : Block) : bare (rendB S b) = bare b := by
  cases hb : b.branches <;> simp [bare, rendB, hb, Function.comp_def]

theorem bare_elseBlock (b : Block) : bare (elseBlock b) = bare b := by
  unfold elseBlock
  split
  · rename_i h _; simp [bare, *]
  · rfl

/-- Nothing but the switches changes. -/
theorem bare_elses (bs : List Block) (S : Nat → Bool) : (elses (rend bs S)).map bare = bs.map bare := by
  cases bs with
  | nil => rfl
  | cons b bs =>
    simp [rend, elses, Function.comp_def, bare_rendB, bare_elseBlock]

end Verif.Link
