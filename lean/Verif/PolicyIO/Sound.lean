import Verif.PolicyIO.Lemmas7

/-! # What is known of whatever is read -/

namespace Verif.PolicyIO
open Verif.Policy Verif.Services Verif.Validate

/-- The number of bytes below which no number in a table is too large for a bitmap (about 48 GiB). -/
def maxLen : Nat := 12 * (2 ^ 32 - 64)

/-- What is read from a stream that is not too long satisfies `P`; a front part of the stream is consumed, and what is behind the
stream does not matter. -/
def Sound {α : Type} (r : Rd α) (P : α → Prop) : Prop :=
  ∀ bs a rest, r bs = some (a, rest) → (bs.length ≤ maxLen → P a) ∧ (∃ c, bs = c ++ rest) ∧ ∀ x, r (bs ++ x) = some (a, rest ++ x)

theorem sound_bind {α β : Type} {r : Rd α} {f : α → Rd β} {P : α → Prop} {Q : β → Prop} (h : Sound r P)
    (h' : ∀ a, Sound (f a) fun b => P a → Q b) : Sound (r >>= f) Q := by
  intro bs b rest hr
  have hr : (r bs).bind (fun x => f x.1 x.2) = some (b, rest) := hr
  obtain ⟨⟨a, bs1⟩, h1, h2⟩ := Option.bind_eq_some_iff.1 hr
  obtain ⟨p1, ⟨c1, e1⟩, x1⟩ := h bs a bs1 h1
  obtain ⟨p2, ⟨c2, e2⟩, x2⟩ := h' a bs1 b rest h2
  refine ⟨fun hl => p2 ?_ (p1 hl), ⟨c1 ++ c2, by rw [e1, e2, List.append_assoc]⟩, fun x => ?_⟩
  · rw [e1, List.length_append] at hl; omega
  · show (r (bs ++ x)).bind (fun x => f x.1 x.2) = _
    rw [x1, Option.bind_some]
    exact x2 x

theorem sound_pure {α : Type} {a : α} {P : α → Prop} (h : P a) : Sound (Rd.pure a) P := by
  intro bs b rest hr
  simp only [Rd.pure, Option.some.injEq, Prod.mk.injEq] at hr
  obtain ⟨rfl, rfl⟩ := hr
  exact ⟨fun _ => h, ⟨[], rfl⟩, fun x => rfl⟩

theorem sound_fail {α : Type} {P : α → Prop} : Sound (Rd.fail : Rd α) P := by
  intro bs b rest hr; cases hr

theorem sound_mono {α : Type} {r : Rd α} {P Q : α → Prop} (h : Sound r P) (hpq : ∀ a, P a → Q a) : Sound r Q := by
  intro bs a rest hr
  obtain ⟨h1, h2, h3⟩ := h bs a rest hr
  exact ⟨fun hl => hpq a (h1 hl), h2, h3⟩

theorem sound_reject {β : Type} {f : Unit → Rd β} {c : Bool} {Q : β → Prop} (h : Sound (f ()) fun b => c = false → Q b) :
    Sound (Rd.reject c >>= f) Q := by
  cases c
  · intro bs b rest hr
    obtain ⟨h1, h2, h3⟩ := h bs b rest hr
    exact ⟨fun hl => h1 hl rfl, h2, h3⟩
  · intro bs b rest hr; cases hr

theorem sound_reject' {β : Type} {f : Unit → Rd β} {c : Bool} {Q : β → Prop} (h : c = false → Sound (f ()) Q) :
    Sound (Rd.reject c >>= f) Q := by
  cases c
  · exact h rfl
  · intro bs b rest hr; cases hr

theorem sound_ite {α : Type} {c : Prop} [Decidable c] {r r' : Rd α} {P : α → Prop} (h : c → Sound r P) (h' : ¬ c → Sound r' P) :
    Sound (if c then r else r') P := by
  split
  · exact h ‹_›
  · exact h' ‹_›

/-- The same where the stream is named. -/
theorem sound_iteAt {α : Type} {c : Prop} [Decidable c] {r r' : Rd α} {P : α → Prop} (h : c → Sound r P) (h' : ¬ c → Sound r' P) :
    Sound (fun bs => if c then r bs else r' bs) P := by
  by_cases hc : c
  · have : (fun bs => if c then r bs else r' bs) = r := by funext bs; rw [if_pos hc]
    rw [this]; exact h hc
  · have : (fun bs => if c then r bs else r' bs) = r' := by funext bs; rw [if_neg hc]
    rw [this]; exact h' hc

theorem sound_opt {α β : Type} {o : Option α} {f : α → Rd β} {Q : β → Prop} (h : ∀ a, o = some a → Sound (f a) Q) :
    Sound (match o with | none => Rd.fail | some a => f a) Q := by
  cases o with
  | none => exact sound_fail
  | some a => exact h a rfl

/-! ## The basic readers -/

theorem sound_nextLE (k : Nat) : Sound (nextLE k : Rd Nat) fun n => n < 256 ^ k := by
  intro bs a rest hr
  refine ⟨fun _ => nextLE_lt hr, ?_, ?_⟩
  · unfold nextLE at hr
    split at hr
    · cases hr
    · rw [Option.some.injEq, Prod.mk.injEq] at hr
      exact ⟨bs.take k, by rw [← hr.2, List.take_append_drop]⟩
  · intro x
    unfold nextLE at hr ⊢
    split at hr
    · cases hr
    · rename_i hl
      rw [Option.some.injEq, Prod.mk.injEq] at hr
      rw [if_neg (by simp; omega), List.take_append_of_le_length (by omega), List.drop_append_of_le_length (by omega), hr.1, hr.2]

theorem sound_u32 : Sound u32 Word := sound_mono (sound_nextLE 4) fun a h => by unfold Word; omega

theorem sound_u64 : Sound u64 fun n => n < 2 ^ 64 := sound_mono (sound_nextLE 8) fun a h => by omega

theorem sound_raw (n : Nat) : Sound (raw n) fun bs => bs.length = n := by
  intro bs a rest hr
  unfold raw at hr
  split at hr
  · cases hr
  · rename_i hl
    rw [Option.some.injEq, Prod.mk.injEq] at hr
    refine ⟨fun _ => by rw [← hr.1]; show (List.take n bs).length = n; rw [List.length_take]; omega, ⟨bs.take n, by rw [← hr.2, List.take_append_drop]⟩, fun x => ?_⟩
    unfold raw
    rw [if_neg (by simp; omega), List.take_append_of_le_length (by omega), List.drop_append_of_le_length (by omega), hr.1, hr.2]

theorem sound_str (len : Nat) : Sound (strRead len) fun _ => True :=
  sound_reject (sound_bind (sound_raw len) fun _ => sound_pure fun _ _ => trivial)

theorem readNodes_eq (hb count : Nat) (l : Option Nat) : (Ebitmap.readNodes hb (count + 1) l : Rd (List Ebitmap.Node)) = (do
    let startbit ← (nextLE 4 : Rd Nat)
    if startbit % 64 ≠ 0 then Rd.fail
    else if startbit > hb - 64 then Rd.fail
    else do
      let m ← (nextLE 8 : Rd Nat)
      if BitVec.ofNat 64 m = 0#64 then Rd.fail
      else if Ebitmap.outOfOrder l startbit then Rd.fail
      else do
        let ns ← (Ebitmap.readNodes hb count (some startbit) : Rd (List Ebitmap.Node))
        Rd.pure (⟨startbit, BitVec.ofNat 64 m⟩ :: ns) : Rd (List Ebitmap.Node)) := by
  funext bs
  show _ = Rd.bind (nextLE 4) _ bs
  unfold Ebitmap.readNodes Rd.bind
  cases nextLE 4 bs with
  | none => rfl
  | some x =>
    obtain ⟨s, b1⟩ := x
    simp only [Option.bind_some]
    by_cases h1 : s % 64 ≠ 0
    · rw [if_pos h1, if_pos h1]; rfl
    rw [if_neg h1, if_neg h1]
    by_cases h2 : s > hb - 64
    · rw [if_pos h2, if_pos h2]; rfl
    rw [if_neg h2, if_neg h2]
    show _ = Rd.bind (nextLE 8) _ b1
    unfold Rd.bind
    cases nextLE 8 b1 with
    | none => rfl
    | some y =>
      obtain ⟨m, b2⟩ := y
      simp only [Option.bind_some]
      by_cases h3 : BitVec.ofNat 64 m = 0#64
      · rw [if_pos h3, if_pos h3]; rfl
      rw [if_neg h3, if_neg h3]
      by_cases h4 : Ebitmap.outOfOrder l s = true
      · rw [if_pos h4, if_pos h4]; rfl
      rw [if_neg h4, if_neg h4]
      show _ = Rd.bind _ _ b2
      unfold Rd.bind
      cases Ebitmap.readNodes hb count (some s) b2 <;> rfl

theorem sound_nodes (hb : Nat) : ∀ (count : Nat) (l : Option Nat), Sound (Ebitmap.readNodes hb count l : Rd (List Ebitmap.Node)) fun _ => True
  | 0, l => by
    show Sound (Rd.pure []) _
    exact sound_pure trivial
  | count + 1, l => by
    rw [readNodes_eq]
    refine sound_bind (sound_nextLE 4) fun s => ?_
    refine sound_ite (fun _ => sound_fail) fun _ => sound_ite (fun _ => sound_fail) fun _ => ?_
    refine sound_bind (sound_nextLE 8) fun m => ?_
    refine sound_ite (fun _ => sound_fail) fun _ => sound_ite (fun _ => sound_fail) fun _ => ?_
    exact sound_bind (sound_nodes hb count (some s)) fun _ => sound_pure fun _ _ _ => trivial

theorem ebm_eq : ebm = (do
    let mapsize ← (nextLE 4 : Rd Nat)
    let highbit ← (nextLE 4 : Rd Nat)
    let count ← (nextLE 4 : Rd Nat)
    if mapsize ≠ 64 then Rd.fail
    else if highbit = 0 then Rd.pure ⟨[], 0⟩
    else if highbit % 64 ≠ 0 then Rd.fail
    else if count = 0 then Rd.fail
    else do
      let ns ← (Ebitmap.readNodes highbit count none : Rd (List Ebitmap.Node))
      if Ebitmap.lastEnd ns ≠ highbit then Rd.fail else Rd.pure ⟨ns, highbit⟩ : Rd Ebitmap.Ebitmap) := by
  funext bs
  show Ebitmap.read bs = Rd.bind (nextLE 4) _ bs
  unfold Ebitmap.read Rd.bind
  cases nextLE 4 bs with
  | none => rfl
  | some x =>
    obtain ⟨ms, b1⟩ := x
    simp only [Option.bind_some]
    show _ = Rd.bind (nextLE 4) _ b1
    unfold Rd.bind
    cases nextLE 4 b1 with
    | none => rfl
    | some y =>
      obtain ⟨hb, b2⟩ := y
      simp only [Option.bind_some]
      show _ = Rd.bind (nextLE 4) _ b2
      unfold Rd.bind
      cases nextLE 4 b2 with
      | none => rfl
      | some z =>
        obtain ⟨count, b3⟩ := z
        simp only [Option.bind_some]
        by_cases h1 : ms ≠ 64
        · rw [if_pos h1, if_pos h1]; rfl
        rw [if_neg h1, if_neg h1]
        by_cases h2 : hb = 0
        · rw [if_pos h2, if_pos h2]; rfl
        rw [if_neg h2, if_neg h2]
        by_cases h3 : hb % 64 ≠ 0
        · rw [if_pos h3, if_pos h3]; rfl
        rw [if_neg h3, if_neg h3]
        by_cases h4 : count = 0
        · rw [if_pos h4, if_pos h4]; rfl
        rw [if_neg h4, if_neg h4]
        show _ = Rd.bind _ _ b3
        unfold Rd.bind
        cases Ebitmap.readNodes hb count none b3 with
        | none => rfl
        | some w =>
          obtain ⟨ns, b4⟩ := w
          simp only [Option.bind_some]
          by_cases h5 : Ebitmap.lastEnd ns ≠ hb
          · rw [if_pos h5, if_pos h5]; rfl
          · rw [if_neg h5, if_neg h5]; rfl

theorem sound_ebm : Sound ebm Ebitmap.WF := by
  have h : Sound ebm fun _ => True := by
    rw [ebm_eq]
    refine sound_bind (sound_nextLE 4) fun _ => sound_bind (sound_nextLE 4) fun _ => sound_bind (sound_nextLE 4) fun _ => ?_
    refine sound_ite (fun _ => sound_fail) fun _ => sound_ite (fun _ => sound_pure fun _ _ _ => trivial) fun _ => ?_
    refine sound_ite (fun _ => sound_fail) fun _ => sound_ite (fun _ => sound_fail) fun _ => ?_
    refine sound_bind (sound_nodes _ _ _) fun _ => sound_ite (fun _ => sound_fail) fun _ => sound_pure fun _ _ _ _ => trivial
  intro bs a rest hr
  obtain ⟨-, h2, h3⟩ := h bs a rest hr
  exact ⟨fun _ => Ebitmap.C05_read_wf hr, h2, h3⟩

theorem sound_times {α : Type} {r : Rd α} {P : α → Prop} (h : Sound r P) : ∀ n, Sound (times r n) fun l => l.length = n ∧ ∀ a ∈ l, P a
  | 0 => sound_pure ⟨rfl, by simp⟩
  | n + 1 => sound_bind h fun a => sound_bind (sound_times h n) fun l => sound_pure fun hl ha =>
    ⟨by rw [List.length_cons, hl.1], fun x hx => by
      rcases List.mem_cons.1 hx with rfl | hx
      · exact ha
      · exact hl.2 x hx⟩

theorem sound_table {κ δ : Type} [DecidableEq κ] {r : Rd (Option (κ × δ))} {P : κ × δ → Prop} (h : Sound r fun o => ∀ e, o = some e → P e) :
    ∀ n (t : List (κ × δ)), Sound (readTable r n t) fun l => (∀ e ∈ t, P e) → (t.map (·.1)).Nodup → (∀ e ∈ l, P e) ∧ (l.map (·.1)).Nodup ∧ t ⊆ l
  | 0, t => sound_pure fun h1 h2 => ⟨h1, h2, fun _ h => h⟩
  | n + 1, t => by
    unfold readTable
    refine sound_bind h fun o => ?_
    cases o with
    | none => exact sound_mono (sound_table h n t) fun l hl _ => hl
    | some e =>
      refine sound_reject (sound_mono (sound_table h n (t ++ [e])) fun l hl hany he h1 h2 => ?_)
      obtain ⟨g1, g2, g3⟩ := hl (by
        intro x hx
        rcases List.mem_append.1 hx with hx | hx
        · exact h1 x hx
        · rw [List.mem_singleton] at hx; exact he x (by rw [hx])) (by
        rw [List.map_append, List.nodup_append]
        refine ⟨h2, by simp, ?_⟩
        intro a ha b hb hab
        obtain ⟨x, hx, rfl⟩ := List.mem_map.1 ha
        rw [List.map_singleton, List.mem_singleton] at hb
        rw [List.any_eq_false] at hany
        exact hany x hx (by rw [beq_iff_eq, hab, hb]))
      exact ⟨g1, g2, fun x hx => g3 (List.mem_append_left _ hx)⟩

/-! ## Ranges and contexts -/

theorem sound_range : Sound readRange RangeFits := by
  unfold readRange
  refine sound_bind sound_u32 fun items => sound_reject' fun h => ?_
  have hi : items = 0 ∨ items = 1 ∨ items = 2 := by have := of_decide_eq_false h; omega
  rcases hi with rfl | rfl | rfl
  · show Sound (ebm >>= fun lc => Rd.pure (⟨⟨0, lc⟩, ⟨0, Ebitmap.cpy lc⟩⟩ : Range)) _
    refine sound_bind sound_ebm fun lc => sound_pure fun h2 _ => ⟨⟨by show 0 < 2 ^ 32; omega, h2⟩, ⟨by show 0 < 2 ^ 32; omega, ?_⟩⟩
    rw [Ebitmap.cpy_eq]; exact h2
  · show Sound (u32 >>= fun low => ebm >>= fun lc => Rd.pure (⟨⟨low, lc⟩, ⟨low, Ebitmap.cpy lc⟩⟩ : Range)) _
    refine sound_bind sound_u32 fun low => sound_bind sound_ebm fun lc => sound_pure fun h2 h4 _ => ⟨⟨h4, h2⟩, ⟨h4, ?_⟩⟩
    rw [Ebitmap.cpy_eq]; exact h2
  · exact sound_bind sound_u32 fun low => sound_bind sound_u32 fun high => sound_bind sound_ebm fun lc => sound_bind sound_ebm fun hc =>
      sound_pure fun h1 h2 h3 h4 _ => ⟨⟨h4, h2⟩, ⟨h3, h1⟩⟩

theorem sound_context (valid : Context → Bool) : Sound (readContext valid) fun c => ContextFits c ∧ valid c = true := by
  unfold readContext
  refine sound_bind sound_u32 fun u => sound_bind sound_u32 fun r => sound_bind sound_u32 fun t => sound_bind sound_range fun rg => ?_
  exact sound_reject (sound_pure fun h h1 h2 h3 h4 => ⟨⟨h4, h3, h2, h1⟩, by simpa using h⟩)

theorem sound_level : Sound readLevel LevelFits := by
  unfold readLevel
  exact sound_bind sound_u32 fun s => sound_bind sound_ebm fun c => sound_pure fun h1 h2 => ⟨h2, h1⟩

theorem sound_typeSet : Sound readTypeSet fun s => TypeSetWf s ∧ Word s.flags := by
  unfold readTypeSet
  exact sound_bind sound_ebm fun s => sound_bind sound_ebm fun c => sound_bind sound_u32 fun f => sound_pure fun h1 h2 h3 => ⟨⟨h3, h2⟩, h1⟩

/-! ## Symbols -/

theorem sound_perm (nprim : Nat) : Sound (readPerm nprim) fun o => ∀ e, o = some e → 1 ≤ e.2 ∧ e.2 ≤ nprim := by
  unfold readPerm
  refine sound_bind sound_u32 fun _ => sound_bind sound_u32 fun v => sound_bind (sound_str _) fun k => sound_reject (sound_pure ?_)
  rintro h - - - e he
  rw [Option.some.injEq] at he
  subst he
  exact valueIsValid_iff.1 (by simpa using h)

theorem sound_common : Sound readCommon fun o => ∀ e, o = some e → e.2.perms.nprim ≤ 32 := by
  unfold readCommon
  refine sound_bind sound_u32 fun _ => sound_bind sound_u32 fun v => sound_bind sound_u32 fun np => sound_bind sound_u32 fun n =>
    sound_bind (sound_str _) fun k => sound_reject (sound_bind (sound_table (sound_perm np) n []) fun l => sound_pure ?_)
  rintro - h - - - - - e he
  rw [Option.some.injEq] at he
  subst he
  simpa using h

theorem sound_cexprs (v : Nat) (x : Bool) : ∀ n d, Sound (readCExprs v x n d) fun l => ∀ e ∈ l, Ebitmap.WF e.names ∧ TypeSetWf e.typeNames
  | 0, d => sound_reject (sound_pure fun _ e he => by simp at he)
  | n + 1, d => by
    have hw : TypeSetWf emptyTypeSet := ⟨wf_init, wf_init⟩
    unfold readCExprs
    refine sound_bind sound_u32 fun t => sound_bind sound_u32 fun a => sound_bind sound_u32 fun o => ?_
    refine sound_ite (fun _ => sound_reject (sound_bind (sound_cexprs v x n _) fun l => sound_pure ?_)) fun _ => ?_
    · intro hl _ _ _ _ e he
      rcases List.mem_cons.1 he with rfl | he
      · exact ⟨wf_init, hw⟩
      · exact hl e he
    refine sound_ite (fun _ => sound_reject (sound_bind (sound_cexprs v x n _) fun l => sound_pure ?_)) fun _ => ?_
    · intro hl _ _ _ _ e he
      rcases List.mem_cons.1 he with rfl | he
      · exact ⟨wf_init, hw⟩
      · exact hl e he
    refine sound_ite (fun _ => sound_reject (sound_bind (sound_cexprs v x n _) fun l => sound_pure ?_)) fun _ => ?_
    · intro hl _ _ _ _ e he
      rcases List.mem_cons.1 he with rfl | he
      · exact ⟨wf_init, hw⟩
      · exact hl e he
    refine sound_ite (fun _ => sound_reject (sound_reject (sound_bind sound_ebm fun names => ?_))) fun _ => sound_fail
    have ht : ∀ (Q : List CExpr → Prop) (f : TypeSet → Rd (List CExpr)), (∀ s, Sound (f s) fun l => TypeSetWf s → Q l) →
        Sound (if v ≥ 29 then readTypeSet >>= f else Rd.pure emptyTypeSet >>= f) Q := by
      intro Q f hf
      refine sound_ite (fun _ => sound_bind (sound_mono sound_typeSet fun s h => h.1) hf) fun _ => ?_
      exact sound_bind (sound_pure (P := TypeSetWf) hw) hf
    refine ht _ (fun s => do
      let l ← readCExprs v x n (d + 1)
      Rd.pure (⟨t, a, o, names, s⟩ :: l)) fun s => sound_bind (sound_cexprs v x n _) fun l => sound_pure ?_
    intro hl hs hn _ _ _ _ _ e he
    rcases List.mem_cons.1 he with rfl | he
    · exact ⟨hn, hs⟩
    · exact hl e he

theorem sound_constraint (v : Nat) (x : Bool) : Sound (readConstraint v x) ConWf := by
  unfold readConstraint
  exact sound_bind sound_u32 fun _ => sound_bind sound_u32 fun n => sound_bind (sound_cexprs v x n _) fun l => sound_pure fun h _ _ => h

theorem sound_comkey (commons : List (Str × CommonD)) (n : Nat) : Sound (readComkey commons n) fun _ => True := by
  unfold readComkey
  refine sound_ite (fun _ => sound_pure trivial) fun _ => sound_bind (sound_str n) fun k => ?_
  cases findCommon commons k with
  | none => exact sound_fail
  | some c => exact sound_pure fun _ => trivial

theorem sound_since (v n : Nat) : Sound (since v n) fun _ => True :=
  sound_ite (fun _ => sound_mono sound_u32 fun _ _ => trivial) fun _ => sound_pure trivial

theorem sound_class (v : Nat) (commons : List (Str × CommonD)) : Sound (readClass v commons) fun o => ∀ e, o = some e →
    e.2.datum.perms.nprim ≤ 32 ∧ (∀ c ∈ e.2.datum.constraints, ConWf c) ∧ (∀ c ∈ e.2.datum.validatetrans, ConWf c) := by
  unfold readClass
  refine sound_bind sound_u32 fun _ => sound_bind sound_u32 fun _ => sound_bind sound_u32 fun _ => sound_bind sound_u32 fun np =>
    sound_bind sound_u32 fun _ => sound_bind sound_u32 fun _ => sound_bind (sound_str _) fun _ => sound_reject (sound_reject ?_)
  refine sound_bind (sound_comkey _ _) fun _ => sound_bind (sound_table (sound_perm np) _ _) fun _ =>
    sound_bind (sound_times (sound_constraint v false) _) fun cs => sound_bind sound_u32 fun _ =>
    sound_bind (sound_times (sound_constraint v true) _) fun vs => sound_bind (sound_since _ _) fun _ => sound_bind (sound_since _ _) fun _ =>
    sound_bind (sound_since _ _) fun _ => sound_bind (sound_since _ _) fun _ => sound_pure ?_
  rintro - - - - h1 - h2 - - h3 - - - - - - - - e he
  rw [Option.some.injEq] at he
  subst he
  exact ⟨by simpa using h3, h2.2, h1.2⟩

theorem sound_role : Sound readRole fun o => ∀ e, o = some e → Ebitmap.WF e.2.dominates ∧ Ebitmap.WF e.2.roles ∧ TypeSetWf e.2.types := by
  unfold readRole
  refine sound_bind sound_u32 fun _ => sound_bind sound_u32 fun _ => sound_bind sound_u32 fun _ => sound_bind (sound_str _) fun _ =>
    sound_bind sound_ebm fun d => sound_bind sound_ebm fun t => sound_ite (fun _ => sound_reject (sound_pure ?_)) fun _ => sound_pure ?_
  · rintro - - - - - - - e he
    cases he
  · rintro h1 h2 - - - - e he
    rw [Option.some.injEq] at he
    subst he
    exact ⟨h2, wf_init, h1, wf_init⟩

theorem sound_type : Sound readType fun o => ∀ e, o = some e → Ebitmap.WF e.2.types := by
  unfold readType
  refine sound_bind sound_u32 fun _ => sound_bind sound_u32 fun _ => sound_bind sound_u32 fun _ => sound_bind sound_u32 fun _ =>
    sound_bind (sound_str _) fun _ => sound_pure ?_
  rintro - - - - - e he
  rw [Option.some.injEq] at he
  subst he
  exact wf_init

theorem sound_user : Sound readUser fun o => ∀ e, o = some e → Ebitmap.WF e.2.roles.roles ∧ RangeWf e.2.expRange ∧ Ebitmap.WF e.2.expDfltlevel.cat := by
  unfold readUser
  refine sound_bind sound_u32 fun _ => sound_bind sound_u32 fun _ => sound_bind sound_u32 fun _ => sound_bind (sound_str _) fun _ =>
    sound_bind sound_ebm fun _ => sound_bind sound_range fun _ => sound_bind sound_level fun _ => sound_pure ?_
  rintro h1 h2 h3 - - - - e he
  rw [Option.some.injEq] at he
  subst he
  exact ⟨h3, range_wf h2, h1.2⟩

theorem sound_bool : Sound readBool fun o => ∀ e, o = some e → True := by
  unfold readBool
  exact sound_bind sound_u32 fun _ => sound_bind sound_u32 fun _ => sound_bind sound_u32 fun _ => sound_reject (sound_bind (sound_str _) fun _ =>
    sound_pure fun _ _ _ _ _ _ _ => trivial)

theorem sound_sens : Sound readSens fun o => ∀ e, o = some e → Ebitmap.WF e.2.level.cat := by
  unfold readSens
  refine sound_bind sound_u32 fun _ => sound_bind sound_u32 fun _ => sound_bind (sound_str _) fun _ => sound_bind sound_level fun _ => sound_pure ?_
  rintro h1 - - - e he
  rw [Option.some.injEq] at he
  subst he
  exact h1.2

theorem sound_cat : Sound readCat fun o => ∀ e, o = some e → True := by
  unfold readCat
  exact sound_bind sound_u32 fun _ => sound_bind sound_u32 fun _ => sound_bind sound_u32 fun _ => sound_bind (sound_str _) fun _ =>
    sound_pure fun _ _ _ _ _ _ => trivial

theorem sound_room (n : Nat) : Sound (fun bs => Rd.reject (decide (n * 12 > bs.length)) bs : Rd Unit) fun _ => n ≤ 2 ^ 32 - 64 := by
  intro bs a rest hr
  have hr : Rd.reject (decide (n * 12 > bs.length)) bs = some (a, rest) := hr
  by_cases h : n * 12 > bs.length
  · rw [decide_eq_true h] at hr; cases hr
  · rw [decide_eq_false h] at hr
    simp only [Rd.reject, Rd.pure, Bool.false_eq_true, if_false, Option.some.injEq, Prod.mk.injEq] at hr
    obtain ⟨-, rfl⟩ := hr
    refine ⟨fun hl => by unfold maxLen at hl; omega, ⟨[], rfl⟩, fun x => ?_⟩
    show Rd.reject (decide (n * 12 > (bs ++ x).length)) (bs ++ x) = _
    rw [decide_eq_false (by rw [List.length_append]; omega)]
    rfl

theorem sound_sym {δ : Type} {r : Rd (Option (Str × δ))} {P : Str × δ → Prop} (h : Sound r fun o => ∀ e, o = some e → P e) {t : List (Str × δ)}
    (ht : ∀ e ∈ t, P e) (hn : (t.map (·.1)).Nodup) :
    Sound (readSym r t) fun s => s.nprim ≤ 2 ^ 32 - 64 ∧ (∀ e ∈ s.entries, P e) ∧ (s.entries.map (·.1)).Nodup ∧ t ⊆ s.entries := by
  unfold readSym
  refine sound_bind sound_u32 fun np => sound_bind sound_u32 fun n => sound_reject ?_
  refine sound_bind (sound_room np) fun _ => sound_reject (sound_bind (sound_table h n t) fun l => sound_pure ?_)
  rintro h1 - h2 - - -
  exact ⟨h2, h1 ht hn⟩

end Verif.PolicyIO
