import Verif.Client.Spec
import Verif.Prelude

namespace Verif.Client

/-- What the library has kept of translations is an answer there was. -/
structure Inv (ds : List Daemon) (ss : List Bool) (w : World) : Prop where
  dm : w.daemon ∈ ds
  sk : w.socket ∈ ss
  on : ∀ p b, w.once p = some b → b ∈ ss
  tr : ∀ t th r q x, w.thr t = some th → th.tr r = some (q, x) → Answer ds ss r q x

/-- What the library has kept of the attributes of a thread is what the kernel holds. -/
def GoodT (th : Thread) : Prop := ∀ a v, th.cache a = keep v → th.kern a = v

def Good (w : World) : Prop := ∀ t th, w.thr t = some th → GoodT th

theorem Inv.has {ds ss w} (h : Inv ds ss w) (p : Nat) : w.has p ∈ ss := by
  unfold World.has
  cases e : w.once p with
  | none => exact h.sk
  | some b => exact h.on p b e

theorem translate_inv {ds : List Daemon} {ss : List Bool} {d : Daemon} {has : Bool} {tr r s} (hd : d ∈ ds) (hh : has ∈ ss)
    (ht : ∀ r q x, tr r = some (q, x) → Answer ds ss r q x) :
    (∀ x, (translate d has tr r s).1 = some x → Answer ds ss r s x) ∧
    ∀ r' q x, (translate d has tr r s).2 r' = some (q, x) → Answer ds ss r' q x := by
  have hask : (∀ x, (translate.ask d tr r s).1 = some x → Answer ds ss r s x) ∧
      ∀ r' q x, (translate.ask d tr r s).2 r' = some (q, x) → Answer ds ss r' q x := by
    unfold translate.ask
    cases e : d r s with
    | some y =>
      simp only
      refine ⟨fun x hx => .inl ⟨d, hd, by rw [e]; exact hx⟩, fun r' q x h => ?_⟩
      split at h
      · cases h; subst_vars; exact .inl ⟨d, hd, e⟩
      · exact ht _ _ _ h
    | none =>
      simp only
      by_cases hr : r = .toColor
      · rw [if_pos hr]
        refine ⟨fun x h => (nomatch h), fun r' q x h => ?_⟩
        simp only at h
        split at h
        · cases h
        · exact ht _ _ _ h
      · rw [if_neg hr]
        refine ⟨fun x h => ?_, fun r' q x h => ?_⟩
        · cases h; exact .inr ⟨rfl, .inr ⟨hr, d, hd, e⟩⟩
        · simp only at h
          split at h
          · cases h; subst_vars; exact .inr ⟨rfl, .inr ⟨hr, d, hd, e⟩⟩
          · exact ht _ _ _ h
  unfold translate
  cases has with
  | false =>
    simp only [Bool.false_eq_true, if_false]
    exact ⟨fun x h => by cases h; exact .inr ⟨rfl, .inl hh⟩, ht⟩
  | true =>
    simp only [if_true]
    cases e : tr r with
    | none => exact hask
    | some qx =>
      obtain ⟨q, x⟩ := qx
      simp only
      split
      · rename_i hq
        exact ⟨fun y h => by cases h; exact hq ▸ ht _ _ _ e, ht⟩
      · exact hask

/-- What a translation does: the thread is as before but for its translation variables. -/
theorem trans_spec {ds ss w t th r v} (h : Inv ds ss w) (ht : w.thr t = some th) :
    Inv ds ss (w.trans t th r v).1 ∧
    (∀ u, ∃ f : Thread → Req → Option (Bytes × Bytes), (w.trans t th r v).1.thr u = (w.thr u).map fun y => { y with tr := f y }) ∧
    match v with
    | none => (w.trans t th r v).2 = if r = .toColor then .fail else .val none
    | some s => (r = .toColor ∧ (w.trans t th r v).2 = .fail ∧ w.daemon r s = none) ∨ ∃ x, (w.trans t th r v).2 = .val (some x) ∧ Answer ds ss r s x := by
  cases v with
  | none =>
    refine ⟨h, fun u => ⟨fun y => y.tr, ?_⟩, rfl⟩
    show w.thr u = _
    cases w.thr u <;> rfl
  | some s =>
    have hi := translate_inv (r := r) (s := s) h.dm (h.has th.pid) (fun r q x => h.tr t th r q x ht)
    refine ⟨⟨h.dm, h.sk, ?_, ?_⟩, fun u => ?_, ?_⟩
    · intro p b hb
      simp only [World.trans] at hb
      split at hb
      · cases hb; exact h.has _
      · exact h.on p b hb
    · intro u y r' q x hu hy
      simp only [World.trans, World.put] at hu
      split at hu
      · cases hu; exact hi.2 _ _ _ hy
      · exact h.tr u y r' q x hu hy
    · by_cases e : u = t
      · refine ⟨fun _ => (translate w.daemon (w.has th.pid) th.tr r s).2, ?_⟩
        simp [World.trans, World.put, e, ht]
      · refine ⟨fun y => y.tr, ?_⟩
        simp [World.trans, World.put, e]
    · show _ ∨ _
      simp only [World.trans]
      cases e : (translate w.daemon (w.has th.pid) th.tr r s).1 with
      | some x => exact .inr ⟨x, rfl, hi.1 x e⟩
      | none =>
        have hask : (translate.ask w.daemon th.tr r s).1 = none → r = .toColor ∧ w.daemon r s = none := by
          intro e
          unfold translate.ask at e
          split at e
          · cases e
          · rename_i hd
            split at e
            · rename_i hr; exact ⟨hr, hd⟩
            · cases e
        suffices h : r = .toColor ∧ w.daemon r s = none from .inl ⟨h.1, rfl, h.2⟩
        unfold translate at e
        split at e
        · split at e
          · split at e
            · cases e
            · exact hask e
          · exact hask e
        · cases e

theorem keep_inj {u v : Option Bytes} (h : keep u = keep v) : u = v := by
  cases u <;> cases v <;> simp_all [keep]

theorem keep_ne_unset {v : Option Bytes} : keep v ≠ .unset := by cases v <;> simp [keep]

theorem setAttr_cases (k : Kernel) (th : Thread) (a : Attr) (v : Option Bytes) (io : Bool) :
    (th.cache a = keep v ∧ setAttr k th a v io = (th, true)) ∨ setAttr k th a v io = writeAttr k th a v io := by
  unfold setAttr
  split
  · rename_i h; exact .inl ⟨h, rfl⟩
  · rename_i c s h
    split
    · rename_i e; exact .inl ⟨by rw [h, e]; rfl, rfl⟩
    · exact .inr rfl
  · exact .inr rfl

theorem setAttr_good {k th a v io} (hg : GoodT th) (hx : Exact k a v) :
    GoodT (setAttr k th a v io).1 ∧ (setAttr k th a v io).1.tr = th.tr ∧
    (∀ x, x ≠ a → (setAttr k th a v io).1.kern x = th.kern x) ∧
    ((setAttr k th a v io).2 = true → (setAttr k th a v io).1.kern a = v) ∧
    ((setAttr k th a v io).2 = false → (setAttr k th a v io).1.kern = th.kern ∧ (io = false ∨ k.put a v = none)) := by
  rcases setAttr_cases k th a v io with ⟨hc, e⟩ | e
  · rw [e]; exact ⟨hg, rfl, fun _ _ => rfl, fun _ => hg a v hc, fun h => nomatch h⟩
  · rw [e]
    unfold writeAttr
    cases io with
    | false => exact ⟨hg, rfl, fun _ _ => rfl, fun h => (nomatch h), fun _ => ⟨rfl, .inl rfl⟩⟩
    | true =>
      simp only [if_true]
      cases e : k.put a v with
      | none => exact ⟨hg, rfl, fun _ _ => rfl, fun h => (nomatch h), fun _ => ⟨rfl, .inr rfl⟩⟩
      | some r =>
        have := hx r e
        subst this
        refine ⟨fun x u hu => ?_, rfl, fun x hx => by simp [hx], fun _ => by simp, fun h => nomatch h⟩
        simp only at hu ⊢
        split at hu
        · rename_i hxa; rw [if_pos hxa]; exact keep_inj hu
        · rename_i hxa; rw [if_neg hxa]; exact hg x u hu

theorem setAttr_tr {k th a v io} : (setAttr k th a v io).1.tr = th.tr := by
  rcases setAttr_cases k th a v io with ⟨_, e⟩ | e
  · rw [e]
  · rw [e]; unfold writeAttr; split
    · split <;> rfl
    · rfl

theorem Inv.put {ds ss w t th} (h : Inv ds ss w) (ht : ∀ r q x, th.tr r = some (q, x) → Answer ds ss r q x) : Inv ds ss (w.put t th) := by
  refine ⟨h.dm, h.sk, h.on, fun u y r q x hu hy => ?_⟩
  simp only [World.put] at hu
  split at hu
  · cases hu; exact ht _ _ _ hy
  · exact h.tr u y r q x hu hy

theorem Good.put {w t th} (h : Good w) (ht : GoodT th) : Good (w.put t th) := by
  intro u y hu
  simp only [World.put] at hu
  split at hu
  · cases hu; exact ht
  · exact h u y hu

theorem Good.map {w w' : World} (h : Good w)
    (hm : ∀ u, ∃ f : Thread → Req → Option (Bytes × Bytes), w'.thr u = (w.thr u).map fun y => { y with tr := f y }) : Good w' := by
  intro u y hu
  obtain ⟨f, hf⟩ := hm u
  rw [hf] at hu
  obtain ⟨z, hz, rfl⟩ := Option.map_eq_some_iff.mp hu
  exact h u z hz

theorem held_map {w w' : World}
    (hm : ∀ u, ∃ f : Thread → Req → Option (Bytes × Bytes), w'.thr u = (w.thr u).map fun y => { y with tr := f y }) (u : Nat) :
    held w' u = held w u := by
  obtain ⟨f, hf⟩ := hm u
  unfold held
  rw [hf]
  cases w.thr u <;> rfl

def EnvIn (ds : List Daemon) (ss : List Bool) : Op → Prop
  | .env d s => d ∈ ds ∧ s ∈ ss
  | _ => True

theorem step_inv {k ds ss w o} (h : Inv ds ss w) (ho : EnvIn ds ss o) : Inv ds ss (step k w o).1 := by
  cases o with
  | getRaw t a io => simp only [step]; split <;> exact h
  | get t a io =>
    simp only [step]
    cases e : w.thr t with
    | none => exact h
    | some th =>
      simp only
      split
      · exact h
      · exact (trans_spec h e).1
  | setRaw t a v io =>
    simp only [step]
    cases e : w.thr t with
    | none => exact h
    | some th =>
      simp only
      split
      · exact h
      · refine h.put fun r q x hr => ?_
        rw [setAttr_tr] at hr
        exact h.tr t th r q x e hr
  | set t a v io =>
    simp only [step]
    cases e : w.thr t with
    | none => exact h
    | some th =>
      simp only
      split
      · exact h
      · have hs := trans_spec (r := .toRaw) (v := v) h e
        cases e2 : w.trans t th .toRaw v with
        | mk w1 res =>
          rw [e2] at hs
          cases res with
          | val c =>
            simp only
            cases e3 : w1.thr t with
            | none => exact hs.1
            | some th1 =>
              simp only
              refine hs.1.put fun r q x hr => ?_
              rw [setAttr_tr] at hr
              exact hs.1.tr t th1 r q x e3 hr
          | ok => exact hs.1
          | fail => exact hs.1
          | none => exact hs.1
  | pidRaw t u a io =>
    simp only [step]
    split
    · split <;> exact h
    · exact h
    · exact h
  | trans t r s =>
    simp only [step]
    cases e : w.thr t with
    | none => exact h
    | some th => exact (trans_spec h e).1
  | clone t u =>
    simp only [step]
    split
    · exact h.put fun r q x hr => nomatch hr
    · exact h
  | fork t u p =>
    simp only [step]
    split
    · rename_i th e _
      refine ⟨h.dm, h.sk, fun q b hb => ?_, fun v y r q x hv hy => ?_⟩
      · simp only at hb
        split at hb
        · exact h.on _ _ hb
        · exact h.on _ _ hb
      · simp only [World.put] at hv
        split at hv
        · cases hv; exact h.tr t th r q x e hy
        · exact h.tr v y r q x hv hy
    · exact h
  | exec t c =>
    simp only [step]
    split
    · exact h
    · refine ⟨h.dm, h.sk, fun q b hb => ?_, fun v y r q x hv hy => ?_⟩
      · simp only at hb
        split at hb
        · cases hb
        · exact h.on _ _ hb
      · simp only at hv
        split at hv
        · cases hv; cases hy
        · split at hv
          · rename_i z hz
            split at hv
            · cases hv
            · cases hv; exact h.tr v y r q x hz hy
          · cases hv
  | exit t =>
    simp only [step]
    refine ⟨h.dm, h.sk, h.on, fun v y r q x hv hy => ?_⟩
    simp only at hv
    split at hv
    · cases hv
    · exact h.tr v y r q x hv hy
  | env d s => exact ⟨ho.1, ho.2, h.on, h.tr⟩
  | direct t a v =>
    simp only [step]
    cases e : w.thr t with
    | none => exact h
    | some th => exact h.put fun r q x hr => h.tr t th r q x e hr
  | reload f =>
    refine ⟨h.dm, h.sk, h.on, fun v y r q x hv hy => ?_⟩
    simp only [step] at hv
    obtain ⟨z, hz, rfl⟩ := Option.map_eq_some_iff.mp hv
    exact h.tr v z r q x hz hy

/-- What the raw context of a call `set*con` can be. -/
theorem set_exact {k ds ss t a v io s x} (hs : Steady k ds (.set t a v io)) (hv : v = some s) (hx : Answer ds ss .toRaw s x) :
    Exact k a (some x) := by
  rcases hx with ⟨d, hd, e⟩ | ⟨e, _⟩
  · exact hs.2 s d x hv hd e
  · rw [e, ← hv]; exact hs.1

theorem step_good {k ds ss w o} (h : Inv ds ss w) (hg : Good w) (ho : Steady k ds o) : Good (step k w o).1 := by
  cases o with
  | getRaw t a io => simp only [step]; split <;> exact hg
  | get t a io =>
    simp only [step]
    cases e : w.thr t with
    | none => exact hg
    | some th =>
      simp only
      split
      · exact hg
      · exact hg.map (trans_spec h e).2.1
  | setRaw t a v io =>
    simp only [step]
    cases e : w.thr t with
    | none => exact hg
    | some th =>
      simp only
      split
      · exact hg
      · exact hg.put (setAttr_good (hg t th e) ho).1
  | set t a v io =>
    simp only [step]
    cases e : w.thr t with
    | none => exact hg
    | some th =>
      simp only
      split
      · exact hg
      · have hs := trans_spec (r := .toRaw) (v := v) h e
        cases e2 : w.trans t th .toRaw v with
        | mk w1 res =>
          rw [e2] at hs
          have hg1 := hg.map hs.2.1
          cases res with
          | val c =>
            simp only
            cases e3 : w1.thr t with
            | none => exact hg1
            | some th1 =>
              simp only
              refine hg1.put (setAttr_good (hg1 t th1 e3) ?_).1
              cases v with
              | none =>
                have := hs.2.2
                simp at this
                subst this
                exact ho.1
              | some s =>
                rcases hs.2.2 with ⟨hr, _⟩ | ⟨x, hx, ha⟩
                · cases hr
                · cases hx
                  exact set_exact ho rfl ha
          | ok => exact hg1
          | fail => exact hg1
          | none => exact hg1
  | pidRaw t u a io =>
    simp only [step]
    split
    · split <;> exact hg
    · exact hg
    · exact hg
  | trans t r s =>
    simp only [step]
    cases e : w.thr t with
    | none => exact hg
    | some th => exact hg.map (trans_spec h e).2.1
  | clone t u =>
    simp only [step]
    split
    · exact hg.put fun a v hv => absurd hv.symm keep_ne_unset
    · exact hg
  | fork t u p =>
    simp only [step]
    split
    · rename_i th e _
      exact hg.put (th := { th with pid := p }) (hg t th e)
    · exact hg
  | exec t c =>
    simp only [step]
    split
    · exact hg
    · intro v y hv
      simp only at hv
      split at hv
      · cases hv; intro a v hv; exact absurd hv.symm keep_ne_unset
      · split at hv
        · rename_i z hz
          split at hv
          · cases hv
          · cases hv; exact hg v y hz
        · cases hv
  | exit t =>
    intro v y hv
    simp only [step] at hv
    split at hv
    · cases hv
    · exact hg v y hv
  | env d s => exact hg
  | direct t a v => exact ho.elim
  | reload f => exact ho.elim

theorem run_inv {k ds ss} : ∀ (ops : List Op) (w), Inv ds ss w → (∀ o ∈ ops, EnvIn ds ss o) → Inv ds ss (run k w ops)
  | [], _, h, _ => h
  | o :: l, w, h, ho => run_inv l _ (step_inv h (ho o (.head _))) fun p hp => ho p (.tail _ hp)

theorem run_good {k ds ss} : ∀ (ops : List Op) (w), Inv ds ss w → (∀ o ∈ ops, EnvIn ds ss o) → Good w → (∀ o ∈ ops, Steady k ds o) →
    Good (run k w ops)
  | [], _, _, _, h, _ => h
  | o :: l, w, h, ho, hg, hs =>
    run_good l _ (step_inv h (ho o (.head _))) (fun p hp => ho p (.tail _ hp)) (step_good h hg (hs o (.head _)))
      fun p hp => hs p (.tail _ hp)

theorem envIn_of (w : World) (ops : List Op) : ∀ o ∈ ops, EnvIn (daemons w ops) (sockets w ops) o := by
  intro o ho
  cases o with
  | env d s =>
    exact ⟨.tail _ (List.mem_filterMap.mpr ⟨_, ho, rfl⟩), .tail _ (List.mem_filterMap.mpr ⟨_, ho, rfl⟩)⟩
  | _ => trivial

theorem Fresh.inv {w} (h : Fresh w) (ops : List Op) : Inv (daemons w ops) (sockets w ops) w :=
  ⟨.head _, .head _, fun p b hb => (by rw [h.1 p] at hb; cases hb),
   fun t th r q x ht hr => by rw [(h.2 t th ht).2 r] at hr; cases hr⟩

theorem Fresh.good {w} (h : Fresh w) : Good w := fun t th ht a v hv => by
  rw [(h.2 t th ht).1 a] at hv
  exact absurd hv.symm keep_ne_unset

end Verif.Client
