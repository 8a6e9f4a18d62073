import Verif.Prelude
import Verif.LocalPol.Spec
import Verif.ObjStmt.Props

namespace Verif.LocalPol
open Verif.Policy Verif.Mls Verif.Services Verif.ObjStmt

/-! ## Lists with new first entries -/

theorem load_push {ρ κ : Type} (mk : ρ → Option (Ocon κ)) : ∀ (rs : List ρ) (l l' : List (Ocon κ)),
    loadRecords (pushEntry mk) rs l = some l' ↔ (∀ r ∈ rs, mk r ≠ none) ∧ l' = (rs.filterMap mk).reverse ++ l := by
  intro rs
  induction rs with
  | nil => intro l l'; simp [loadRecords, eq_comm]
  | cons r rs ih =>
    intro l l'
    rw [loadRecords, pushEntry]
    cases h : mk r with
    | none => simp [h]
    | some e => simp [ih, h]

theorem first_append {κ : Type} {l l' : List (Ocon κ)} {m : κ → Prop} {o : Ocon κ} :
    FirstMatch (l ++ l') m o → FirstMatch l m o ∨ (NoMatch l m ∧ FirstMatch l' m o) := by
  induction l with
  | nil => intro h; exact .inr ⟨by simp [NoMatch], h⟩
  | cons a l ih =>
    rintro ⟨pre, post, h, hm, hp⟩
    cases pre with
    | nil =>
      simp only [List.cons_append, List.nil_append, List.cons.injEq] at h
      obtain ⟨rfl, _⟩ := h
      exact .inl ⟨[], l, rfl, hm, by simp⟩
    | cons x pre =>
      simp only [List.cons_append, List.cons.injEq] at h
      obtain ⟨rfl, h⟩ := h
      rcases ih ⟨pre, post, h, hm, fun y hy => hp y (by simp [hy])⟩ with ⟨b, c, h1, h2, h3⟩ | ⟨h1, h2⟩
      · refine .inl ⟨a :: b, c, by rw [h1]; rfl, h2, fun y hy => ?_⟩
        rcases List.mem_cons.mp hy with rfl | hy
        · exact hp y (by simp)
        · exact h3 y hy
      · refine .inr ⟨fun y hy => ?_, h2⟩
        rcases List.mem_cons.mp hy with rfl | hy
        · exact hp y (by simp)
        · exact h1 y hy

theorem last_fm {ρ κ : Type} {E : ρ → Option (Ocon κ)} {m : κ → Prop} {o : Ocon κ} : ∀ {rs : List ρ},
    FirstMatch ((rs.filterMap E).reverse) m o →
      ∃ s ∈ rs, LastRec rs (fun s => ∃ e, E s = some e ∧ m e.key) s ∧ E s = some o := by
  intro rs
  induction rs with
  | nil => rintro ⟨pre, post, h, _⟩; simp at h
  | cons s rs ih =>
    intro h
    cases hs : E s with
    | none =>
      rw [List.filterMap_cons, hs] at h
      obtain ⟨t, ht, ⟨b, a, h1, h2, h3⟩, h4⟩ := ih h
      exact ⟨t, by simp [ht], ⟨s :: b, a, by rw [h1]; rfl, h2, h3⟩, h4⟩
    | some e =>
      rw [List.filterMap_cons, hs] at h
      dsimp only at h
      rw [List.reverse_cons] at h
      rcases first_append h with h | ⟨h1, b, a, h2, h3, h4⟩
      · obtain ⟨t, ht, ⟨b, a, h1, h2, h3⟩, h4⟩ := ih h
        exact ⟨t, by simp [ht], ⟨s :: b, a, by rw [h1]; rfl, h2, h3⟩, h4⟩
      · have : o = e := by
          have hm : o ∈ [e] := by rw [h2]; simp
          simpa using hm
        subst this
        refine ⟨s, by simp, ⟨[], rs, rfl, ⟨o, hs, h3⟩, fun x hx => ?_⟩, hs⟩
        rintro ⟨e', he', hm'⟩
        exact h1 e' (by rw [List.mem_reverse, List.mem_filterMap]; exact ⟨x, hx, he'⟩) hm'

theorem last_congr {ρ : Type} {l : List ρ} {P Q : ρ → Prop} (h : ∀ s ∈ l, P s ↔ Q s) {s : ρ} (hf : LastRec l P s) : LastRec l Q s := by
  obtain ⟨b, a, rfl, h2, h3⟩ := hf
  exact ⟨b, a, rfl, (h s (by simp)).mp h2, fun x hx hq => h3 x hx ((h x (by simp [hx])).mpr hq)⟩

/-- From a list with new first entries to the records. -/
theorem overrides_of {ρ κ : Type} {E : ρ → Option (Ocon κ)} {m : κ → Prop} {rs rs' : List ρ} {P chosen : ρ → Prop} {dflt : Nat}
    {pol : List (Ocon κ)} {label : ρ → Option Context} {after : OState} {r : Reply}
    (hL : Labels1 ((rs'.filterMap E).reverse ++ pol) m dflt after r) (hperm : rs'.Perm rs)
    (hP : ∀ s ∈ rs, (∃ e, E s = some e ∧ m e.key) ↔ P s) (hctx : ∀ s e, E s = some e → label s = some e.ctx0)
    (hc : ∀ s ∈ rs, LastRec rs' P s → chosen s) :
    Overrides rs P chosen label (Labels1 pol m dflt after r) after r := by
  have hP' : ∀ s ∈ rs', (∃ e, E s = some e ∧ m e.key) ↔ P s := fun s hs => hP s (hperm.mem_iff.mp hs)
  have none' : ∀ {l}, NoMatch ((rs'.filterMap E).reverse ++ l) m → (∀ s ∈ rs, ¬ P s) ∧ NoMatch l m := by
    intro l h
    refine ⟨fun s hs hp => ?_, fun x hx => h x (by simp [hx])⟩
    obtain ⟨e, he, hm⟩ := (hP s hs).mpr hp
    exact h e (by rw [List.mem_append, List.mem_reverse, List.mem_filterMap]; exact .inl ⟨s, hperm.mem_iff.mpr hs, he⟩) hm
  have first' : ∀ o, FirstMatch ((rs'.filterMap E).reverse ++ pol) m o →
      (∃ s ∈ rs, P s ∧ chosen s ∧ E s = some o) ∨ ((∀ s ∈ rs, ¬ P s) ∧ FirstMatch pol m o) := by
    intro o ho
    rcases first_append ho with h | ⟨h1, h2⟩
    · obtain ⟨s, hs, hl, he⟩ := last_fm h
      have hl' := last_congr hP' hl
      have hs' := hperm.mem_iff.mp hs
      refine .inl ⟨s, hs', ?_, hc s hs' hl', he⟩
      obtain ⟨_, _, _, h, _⟩ := hl'
      exact h
    · exact .inr ⟨(none' (l := []) (by simpa using h1)).1, h2⟩
  rcases hL with ⟨o, x, h1, h2, h3⟩ | ⟨h1, h2⟩ | ⟨⟨o, h1⟩, h2, h3⟩
  · rcases first' o h1 with ⟨s, hs, hp, hch, he⟩ | ⟨hn, hf⟩
    · exact .inl ⟨s, o.ctx0, x, hs, hp, hch, hctx s o he, h2, h3⟩
    · exact .inr (.inl ⟨hn, .inl ⟨o, x, hf, h2, h3⟩⟩)
  · obtain ⟨a, b⟩ := none' h1
    exact .inr (.inl ⟨a, .inr (.inl ⟨b, h2⟩)⟩)
  · rcases first' o h1 with ⟨s, hs, hp, hch, he⟩ | ⟨hn, hf⟩
    · exact .inr (.inr ⟨⟨s, hs, hp⟩, h2, h3⟩)
    · exact .inr (.inl ⟨hn, .inr (.inr ⟨⟨o, hf⟩, h2, h3⟩)⟩)

/-! ## Numbers -/

theorem u16_fit {n : Int} (h : 0 ≤ n ∧ n < 2 ^ 16) : (u16 n : Int) = n := by unfold u16; omega
theorem u8_fit {n : Int} (h : 0 ≤ n ∧ n < 2 ^ 8) : (u8 n : Int) = n := by unfold u8; omega

theorem ipproto_iff (p : Int) (ip : Nat) : ipproto p = some ip ↔ IsProto p ip := by
  unfold ipproto IsProto
  split
  · subst_vars; simp; omega
  · split
    · subst_vars; simp; omega
    · split
      · subst_vars; simp; omega
      · split
        · subst_vars; simp; omega
        · simp; omega

theorem portEntry_some {r : PortRec} {e : Ocon PortKey} : portEntry r = some e ↔
    ∃ ip c, IsProto r.proto ip ∧ u16 r.low ≤ u16 r.high ∧ r.con = some c ∧ e = entry ⟨ip, u16 r.low, u16 r.high⟩ c := by
  unfold portEntry
  cases h : ipproto r.proto with
  | none =>
    have : ∀ ip, ¬ IsProto r.proto ip := fun ip hi => by rw [← ipproto_iff, h] at hi; cases hi
    simp [this]
  | some p =>
    have : ∀ ip, IsProto r.proto ip ↔ p = ip := fun ip => by rw [← ipproto_iff, h, Option.some.injEq]
    simp only [this]
    split
    · simp; omega
    · rw [Option.map_eq_some_iff]
      constructor
      · rintro ⟨c, h1, rfl⟩; exact ⟨p, c, rfl, by omega, h1, rfl⟩
      · rintro ⟨ip, c, rfl, _, h1, rfl⟩; exact ⟨c, h1, rfl⟩

theorem pkeyEntry_some {r : PkeyRec} {e : Ocon PkeyKey} : pkeyEntry r = some e ↔
    ∃ c, u16 r.low ≤ u16 r.high ∧ r.con = some c ∧ e = entry ⟨r.subnet, u16 r.low, u16 r.high⟩ c := by
  unfold pkeyEntry
  split
  · simp; omega
  · rw [Option.map_eq_some_iff]
    constructor
    · rintro ⟨c, h1, rfl⟩; exact ⟨c, by omega, h1, rfl⟩
    · rintro ⟨c, _, h1, rfl⟩; exact ⟨c, h1, rfl⟩

theorem endportEntry_some {r : EndportRec} {e : Ocon (Str × Nat)} : endportEntry r = some e ↔
    ∃ c, r.con = some c ∧ e = entry (r.dev.take 63, u8 r.port) c := by
  unfold endportEntry
  rw [Option.map_eq_some_iff]
  exact exists_congr fun c => and_congr_right fun _ => eq_comm

theorem ifaceEntry_some {r : IfaceRec} {e : Ocon Str} : ifaceEntry r = some e ↔
    ∃ c d, r.ifcon = some c ∧ r.msgcon = some d ∧ e = entry r.name c d := by
  unfold ifaceEntry
  cases r.ifcon <;> cases r.msgcon <;> simp [eq_comm]

/-! ## Interfaces -/

/-- The first entry with a name. -/
def named (l : List (Ocon Str)) (n : Str) : Option (Ocon Str) := l.find? (fun c => decide (c.key = n))

theorem replace_named {e : Ocon Str} : ∀ (l l' : List (Ocon Str)), replaceFirst e.key e l = some l' →
    ∀ n, named l' n = if e.key = n then some e else named l n := by
  intro l
  induction l with
  | nil => intro l' h; cases h
  | cons c l ih =>
    intro l' h n
    rw [replaceFirst] at h
    by_cases hc : strcmp e.key c.key = 0
    · rw [if_pos hc] at h
      cases h
      rw [strcmp_zero] at hc
      by_cases hn : e.key = n
      · simp [named, hn]
      · simp [named, hn, ← hc]
    · rw [if_neg hc, Option.map_eq_some_iff] at h
      obtain ⟨l'', h1, rfl⟩ := h
      have := ih l'' h1 n
      rw [strcmp_zero] at hc
      simp only [named, List.find?_cons]
      by_cases hcn : c.key = n
      · subst hcn; simp [hc]
      · simp only [hcn, decide_false]
        exact this

theorem replace_none {e : Ocon Str} : ∀ (l : List (Ocon Str)), replaceFirst e.key e l = none → named l e.key = none := by
  intro l
  induction l with
  | nil => intro _; rfl
  | cons c l ih =>
    intro h
    rw [replaceFirst] at h
    by_cases hc : strcmp e.key c.key = 0
    · rw [if_pos hc] at h; cases h
    · rw [if_neg hc, Option.map_eq_none_iff] at h
      rw [strcmp_zero] at hc
      have : ¬ c.key = e.key := fun h => hc h.symm
      simp only [named, List.find?_cons, this, decide_false]
      exact ih h

theorem ifaceModify_some {l l' : List (Ocon Str)} {r : IfaceRec} (h : ifaceModify l r = some l') :
    ∃ e, ifaceEntry r = some e ∧ e.key = r.name ∧ ∀ n, named l' n = if r.name = n then some e else named l n := by
  unfold ifaceModify at h
  cases he : ifaceEntry r with
  | none => rw [he] at h; cases h
  | some e =>
    have hk : e.key = r.name := by obtain ⟨c, d, _, _, rfl⟩ := ifaceEntry_some.mp he; rfl
    refine ⟨e, rfl, hk, fun n => ?_⟩
    rw [he] at h
    dsimp only at h
    rw [← hk] at h ⊢
    cases hr : replaceFirst e.key e l with
    | some l'' => rw [hr] at h; cases h; exact replace_named l l' hr n
    | none =>
      rw [hr] at h; cases h
      by_cases hn : e.key = n
      · simp [named, hn]
      · simp [named, hn]

theorem ifaceModify_none {l : List (Ocon Str)} {r : IfaceRec} : ifaceModify l r = none ↔ ifaceEntry r = none := by
  unfold ifaceModify
  cases ifaceEntry r with
  | none => simp
  | some e => simp only [reduceCtorEq, iff_false]; split <;> simp

theorem load_iface : ∀ {rs : List IfaceRec} {l l' : List (Ocon Str)}, loadRecords ifaceModify rs l = some l' → ∀ n,
    (∃ r e, LastRec rs (fun r => r.name = n) r ∧ ifaceEntry r = some e ∧ named l' n = some e) ∨
    ((∀ r ∈ rs, r.name ≠ n) ∧ named l' n = named l n) := by
  intro rs
  induction rs with
  | nil => intro l l' h n; cases h; exact .inr ⟨by simp, rfl⟩
  | cons r rs ih =>
    intro l l' h n
    rw [loadRecords] at h
    cases hm : ifaceModify l r with
    | none => rw [hm] at h; cases h
    | some l1 =>
      rw [hm] at h
      obtain ⟨e, he, hk, hn⟩ := ifaceModify_some hm
      rcases ih h n with ⟨t, e', ⟨b, a, h1, h2, h3⟩, h4, h5⟩ | ⟨h1, h2⟩
      · exact .inl ⟨t, e', ⟨r :: b, a, by rw [h1]; rfl, h2, h3⟩, h4, h5⟩
      · rw [hn n] at h2
        by_cases hr : r.name = n
        · rw [if_pos hr] at h2
          exact .inl ⟨r, e, ⟨[], rs, rfl, hr, h1⟩, he, h2⟩
        · rw [if_neg hr] at h2
          exact .inr ⟨by simpa [hr] using h1, h2⟩

theorem load_iface_ok : ∀ {rs : List IfaceRec} {l : List (Ocon Str)},
    loadRecords ifaceModify rs l ≠ none ↔ ∀ r ∈ rs, ifaceEntry r ≠ none := by
  intro rs
  induction rs with
  | nil => intro l; simp [loadRecords]
  | cons r rs ih =>
    intro l
    rw [loadRecords]
    cases hm : ifaceModify l r with
    | none => rw [ifaceModify_none] at hm; simp [hm]
    | some l1 =>
      have : ifaceEntry r ≠ none := fun h => by rw [← ifaceModify_none (l := l), hm] at h; cases h
      simp [ih, this]

theorem named_first {l : List (Ocon Str)} {n : Str} {o : Ocon Str} : FirstMatch l (fun k => k = n) o ↔ named l n = some o := by
  constructor
  · rintro ⟨pre, post, rfl, h1, h2⟩
    unfold named
    rw [List.find?_append]
    have : pre.find? (fun c => decide (c.key = n)) = none := by
      rw [List.find?_eq_none]; intro x hx; simpa using h2 x hx
    rw [this]
    simp [h1]
  · intro h
    rw [named, List.find?_eq_some_iff_append] at h
    obtain ⟨h1, pre, post, rfl, h2⟩ := h
    exact ⟨pre, post, rfl, by simpa using h1, fun x hx => by simpa using h2 x hx⟩

theorem named_none {l : List (Ocon Str)} {n : Str} : NoMatch l (fun k => k = n) ↔ named l n = none := by
  unfold named NoMatch
  rw [List.find?_eq_none]
  simp

/-! ## Fresh lists -/

theorem fresh_push {ρ κ : Type} {mk : ρ → Option (Ocon κ)} {rs : List ρ} {l : List (Ocon κ)} (hl : Fresh l)
    (h : ∀ r ∈ rs, ∀ e, mk r = some e → ∃ k c, e = entry k c ∧ WFRange c.range) : Fresh ((rs.filterMap mk).reverse ++ l) := by
  intro o ho
  rw [List.mem_append, List.mem_reverse, List.mem_filterMap] at ho
  rcases ho with ⟨r, hr, he⟩ | ho
  · obtain ⟨k, c, rfl, hc⟩ := h r hr o he
    exact ⟨rfl, rfl, hc, wf_empty⟩
  · exact hl o ho

theorem fresh_replace {e : Ocon Str} {n : Str} : ∀ {l l' : List (Ocon Str)}, replaceFirst n e l = some l' →
    ∀ o ∈ l', o = e ∨ o ∈ l := by
  intro l
  induction l with
  | nil => intro l' h; cases h
  | cons c l ih =>
    intro l' h o ho
    rw [replaceFirst] at h
    split at h
    · cases h
      rcases List.mem_cons.mp ho with rfl | ho
      · exact .inl rfl
      · exact .inr (by simp [ho])
    · rw [Option.map_eq_some_iff] at h
      obtain ⟨l'', h1, rfl⟩ := h
      rcases List.mem_cons.mp ho with rfl | ho
      · exact .inr (by simp)
      · rcases ih h1 o ho with h | h
        · exact .inl h
        · exact .inr (by simp [h])

theorem fresh_iface : ∀ {rs : List IfaceRec} {l l' : List (Ocon Str)}, loadRecords ifaceModify rs l = some l' → Fresh l →
    (∀ r ∈ rs, ∀ c, r.ifcon = some c ∨ r.msgcon = some c → WFRange c.range) → Fresh l' := by
  intro rs
  induction rs with
  | nil => intro l l' h hl _; cases h; exact hl
  | cons r rs ih =>
    intro l l' h hl hw
    rw [loadRecords] at h
    cases hm : ifaceModify l r with
    | none => rw [hm] at h; cases h
    | some l1 =>
      rw [hm] at h
      refine ih h ?_ (fun r hr => hw r (by simp [hr]))
      unfold ifaceModify at hm
      cases he : ifaceEntry r with
      | none => rw [he] at hm; cases hm
      | some e =>
        rw [he] at hm
        dsimp only at hm
        have hmem : ∀ o ∈ l1, o = e ∨ o ∈ l := by
          cases hr : replaceFirst r.name e l with
          | some l2 => rw [hr] at hm; cases hm; exact fresh_replace hr
          | none => rw [hr] at hm; cases hm; intro o ho; simpa using ho
        intro o ho
        rcases hmem o ho with rfl | h
        · obtain ⟨c, d, h1, h2, rfl⟩ := ifaceEntry_some.mp he
          exact ⟨rfl, rfl, hw r (by simp) c (.inl h1), hw r (by simp) d (.inr h2)⟩
        · exact hl o h

end Verif.LocalPol
