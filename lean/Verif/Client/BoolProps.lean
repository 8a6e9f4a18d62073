import Verif.Client.Bool
import Verif.Context.Props

/-! # C108: setting a list of booleans; C109: substituted names -/

namespace Verif.Client
open Verif.Context (b)

/-! ## Specification -/

/-- The name of a file in a directory. -/
def FileName (n : Bytes) : Prop := n ≠ b "" ∧ n ≠ b "." ∧ n ≠ b ".." ∧ (∀ c ∈ n, c ≠ 47) ∧ n.length < 256

instance (n : Bytes) : Decidable (FileName n) := inferInstanceAs (Decidable (_ ∧ _))

/-- The boolean a name stands for: itself if there is one of that name, else the one of the substituted name. -/
def Denotes (e : BEnv) (st : St) (n f : Bytes) : Prop :=
  FileName n ∧ (st f).isSome ∧ (f = n ∨ (st n = none ∧ f = e.alt n ∧ FileName f))

/-- No change is pending. -/
def Clean (st : St) : Prop := ∀ f a p, st f = some (a, p) → p = a

/-- The value the list gives to a boolean: that of the last entry for it. -/
def LastSet (e : BEnv) (st : St) (l : List (Bytes × Int)) (f : Bytes) (v : Bool) : Prop :=
  ∃ pre x post, l = pre ++ x :: post ∧ Denotes e st x.1 f ∧ (∀ y ∈ post, ¬ Denotes e st y.1 f) ∧ (v = true ↔ x.2 ≠ 0)

/-! ## Lemmas -/

theorem fileName_iff (n : Bytes) : FileName n ↔ plain n = true := by
  unfold FileName plain
  rw [show b "" = [] from by decide +kernel, show b "." = [46] from by decide +kernel, show b ".." = [46, 46] from by decide +kernel]
  simp only [decide_eq_true_eq]
  constructor
  · rintro ⟨h1, h2, h3, h4, h5⟩
    exact ⟨h1, h2, h3, fun h => h4 _ h rfl, by omega⟩
  · rintro ⟨h1, h2, h3, h4, h5⟩
    exact ⟨h1, h2, h3, fun c hc e => h4 (e ▸ hc), by omega⟩

/-- The same booleans, whatever their values. -/
def Same (s t : St) : Prop := ∀ f, (s f).isSome = (t f).isSome

theorem Same.none {s t : St} (h : Same s t) (f : Bytes) : s f = none ↔ t f = none := by
  have := h f
  cases e1 : s f <;> cases e2 : t f <;> simp_all

theorem Denotes.same {e : BEnv} {s t : St} (h : Same s t) (n f : Bytes) : Denotes e s n f ↔ Denotes e t n f := by
  unfold Denotes
  rw [h f, h.none n]

theorem boolOpen_iff {e : BEnv} {may : Bytes → Bool} {st : St} {n f : Bytes} :
    boolOpen e may st n = some f ↔ Denotes e st n f ∧ may f = true := by
  unfold boolOpen Denotes
  rw [fileName_iff, fileName_iff]
  by_cases hp : plain n = true
  · simp only [hp, Bool.not_true, Bool.false_eq_true, if_false]
    by_cases hs : (st n).isSome
    · rw [if_pos hs]
      have hn : st n ≠ none := fun h => by simp [h] at hs
      constructor
      · intro h
        split at h
        · cases h; exact ⟨⟨trivial, hs, .inl rfl⟩, ‹_›⟩
        · cases h
      · rintro ⟨⟨_, h2, rfl | ⟨h, _⟩⟩, h3⟩
        · rw [if_pos h3]
        · exact absurd h hn
    · rw [if_neg hs]
      have hn : st n = none := by
        cases h : st n
        · rfl
        · exact absurd (by rw [h]; rfl) hs
      by_cases hq : plain (e.alt n) = true
      · simp only [hq, Bool.not_true, Bool.false_eq_true, if_false]
        constructor
        · intro h
          split at h
          · rename_i h'
            cases h; exact ⟨⟨trivial, h'.1, .inr ⟨hn, rfl, hq⟩⟩, h'.2⟩
          · cases h
        · rintro ⟨⟨_, h2, rfl | ⟨h, rfl, _⟩⟩, h3⟩
          · exact absurd h2 hs
          · rw [if_pos ⟨h2, h3⟩]
      · simp only [hq, Bool.not_false, if_true]
        constructor
        · intro h; cases h
        · rintro ⟨⟨_, h2, rfl | ⟨h, rfl, h4⟩⟩, h3⟩
          · exact absurd h2 hs
          · exact absurd h4 hq
  · simp [hp]

theorem Denotes.unique {e : BEnv} {st : St} {n f g : Bytes} (h : Denotes e st n f) (h' : Denotes e st n g) : f = g := by
  have h1 := (boolOpen_iff (may := fun _ => true)).mpr ⟨h, rfl⟩
  have h2 := (boolOpen_iff (may := fun _ => true)).mpr ⟨h', rfl⟩
  rw [h1] at h2; cases h2; rfl

theorem setPending_same (st : St) (f : Bytes) (v : Bool) : Same (setPending st f v) st := by
  intro g
  unfold setPending
  split
  · rename_i h; rw [h]; cases st f <;> rfl
  · rfl

theorem setBool_iff {e : BEnv} {st st' : St} {n : Bytes} {v : Int} :
    setBool e st n v = some st' ↔ (v = 0 ∨ v = 1) ∧ ∃ f, Denotes e st n f ∧ e.writable f = true ∧ st' = setPending st f (v = 1) := by
  unfold setBool
  by_cases hv : v < 0 ∨ 1 < v
  · rw [if_pos hv]
    constructor
    · intro h; cases h
    · rintro ⟨h, _⟩; omega
  · rw [if_neg hv]
    have hv' : v = 0 ∨ v = 1 := by omega
    cases h : boolOpen e e.writable st n with
    | none =>
      constructor
      · intro h'; cases h'
      · rintro ⟨_, f, h1, h2, _⟩
        rw [boolOpen_iff.mpr ⟨h1, h2⟩] at h; cases h
    | some f =>
      have := boolOpen_iff.mp h
      constructor
      · intro h'; cases h'; exact ⟨hv', f, this.1, this.2, rfl⟩
      · rintro ⟨_, g, h1, h2, rfl⟩
        rw [h1.unique this.1]

theorem norm_01 (v : Int) : norm v = 0 ∨ norm v = 1 := by unfold norm; split <;> simp

theorem norm_eq_one (v : Int) : norm v = 1 ↔ v ≠ 0 := by unfold norm; split <;> simp_all

/-- The pending values are those the entries done so far give. -/
def After (e : BEnv) (s0 : St) (done : List (Bytes × Int)) (s : St) : Prop :=
  ∀ f, match s0 f with
    | none => s f = none
    | some (a, p) => ∃ q, s f = some (a, q) ∧ (LastSet e s0 done f q ∨ ((∀ x ∈ done, ¬ Denotes e s0 x.1 f) ∧ q = p))

theorem After.same {e s0 done s} (h : After e s0 done s) : Same s s0 := by
  intro f
  have := h f
  cases h0 : s0 f with
  | none => rw [h0] at this; simp only at this; rw [this]
  | some x => rw [h0] at this; obtain ⟨q, hq, _⟩ := this; rw [hq]; rfl

theorem After.step {e s0 done s} (h : After e s0 done s) {x : Bytes × Int} {f : Bytes} (hd : Denotes e s0 x.1 f) :
    After e s0 (done ++ [x]) (setPending s f (norm x.2 = 1)) := by
  intro g
  have hg := h g
  cases h0 : s0 g with
  | none =>
    rw [h0] at hg
    simp only at hg ⊢
    unfold setPending
    split
    · subst_vars; rw [hg]; rfl
    · exact hg
  | some ap =>
    obtain ⟨a, p⟩ := ap
    rw [h0] at hg
    simp only at hg ⊢
    obtain ⟨q, hq, hl⟩ := hg
    by_cases hfg : g = f
    · subst hfg
      refine ⟨decide (norm x.2 = 1), by simp [setPending, hq], .inl ⟨done, x, [], rfl, hd, fun _ h => (nomatch h), ?_⟩⟩
      simp [norm_eq_one]
    · have hnd : ¬ Denotes e s0 x.1 g := fun h' => hfg (h'.unique hd)
      refine ⟨q, by simp [setPending, hfg, hq], ?_⟩
      rcases hl with ⟨pre, y, post, hl, h1, h2, h3⟩ | ⟨h1, h2⟩
      · refine .inl ⟨pre, y, post ++ [x], by simp [hl], h1, fun z hz => ?_, h3⟩
        rcases List.mem_append.mp hz with hz | hz
        · exact h2 z hz
        · rw [List.mem_singleton] at hz; subst hz; exact hnd
      · refine .inr ⟨fun z hz => ?_, h2⟩
        rcases List.mem_append.mp hz with hz | hz
        · exact h1 z hz
        · rw [List.mem_singleton] at hz; subst hz; exact hnd

theorem After.nil (e : BEnv) (s0 : St) : After e s0 [] s0 := by
  intro f
  cases h : s0 f with
  | none => rfl
  | some ap => exact ⟨ap.2, rfl, .inr ⟨fun _ h => (nomatch h), rfl⟩⟩

/-- What `rollback` does where it can read what it can write. -/
theorem rollback_spec {e : BEnv} (hr : ∀ f, e.writable f = true → e.readable f = true) :
    ∀ (l : List (Bytes × Int)) (s : St), (∀ x ∈ l, ∃ f, Denotes e s x.1 f ∧ e.writable f = true) →
      ∀ f, rollback e s l f = match s f with
        | none => none
        | some (a, p) => if l.any (fun x => boolOpen e (fun _ => true) s x.1 = some f) then some (a, a) else some (a, p)
  | [], s, _, f => by
    unfold rollback
    cases s f <;> rfl
  | x :: l, s, hl, f => by
    obtain ⟨g, hg, hw⟩ := hl x (.head _)
    have hopen : boolOpen e e.readable s x.1 = some g := boolOpen_iff.mpr ⟨hg, hr g hw⟩
    obtain ⟨ap, hap⟩ := Option.isSome_iff_exists.mp hg.2.1
    obtain ⟨a, p⟩ := ap
    have hact : getActive e s x.1 = if a then 1 else 0 := by unfold getActive; rw [hopen]; simp [hap]
    have hset : setBool e s x.1 (getActive e s x.1) = some (setPending s g a) := by
      refine setBool_iff.mpr ⟨?_, g, hg, hw, ?_⟩
      · rw [hact]; cases a <;> simp
      · rw [hact]; cases a <;> simp
    unfold rollback
    rw [hset]
    simp only [Option.getD_some]
    have hsame := setPending_same s g a
    rw [rollback_spec hr l (setPending s g a) fun y hy => by
      obtain ⟨f', h1, h2⟩ := hl y (.tail _ hy)
      exact ⟨f', (Denotes.same hsame _ _).mpr h1, h2⟩]
    have hany : (l.any fun y => boolOpen e (fun _ => true) (setPending s g a) y.1 = some f) =
        l.any fun y => boolOpen e (fun _ => true) s y.1 = some f := by
      congr 1
      funext y
      rw [decide_eq_decide, boolOpen_iff, boolOpen_iff, Denotes.same hsame]
    rw [hany]
    have hx : (decide (boolOpen e (fun _ => true) s x.1 = some f) = true) ↔ f = g := by
      rw [decide_eq_true_iff, boolOpen_iff]
      constructor
      · exact fun h => h.1.unique hg
      · rintro rfl; exact ⟨hg, rfl⟩
    unfold setPending
    rw [List.any_cons]
    by_cases hfg : f = g
    · subst hfg
      simp only [if_true, hap, Option.map_some, hx.mpr rfl, Bool.true_or, if_true]
      split <;> rfl
    · rw [if_neg hfg]
      have : decide (boolOpen e (fun _ => true) s x.1 = some f) = false := by
        rw [← Bool.not_eq_true, hx]; exact hfg
      rw [this, Bool.false_or]

theorem setLoop_spec {e : BEnv} {s0 : St} : ∀ (l done : List (Bytes × Int)) (s : St),
    After e s0 done s → (∀ x ∈ done, ∃ f, Denotes e s0 x.1 f ∧ e.writable f = true) →
    (∃ s', setLoop e s done l = (s', true) ∧ After e s0 (done ++ l) s' ∧ ∀ x ∈ l, ∃ f, Denotes e s0 x.1 f ∧ e.writable f = true) ∨
    (∃ s1 d1, setLoop e s done l = (rollback e s1 d1, false) ∧ After e s0 d1 s1 ∧ (∀ x ∈ d1, ∃ f, Denotes e s0 x.1 f ∧ e.writable f = true) ∧
      ∃ x ∈ l, ∀ f, Denotes e s0 x.1 f → e.writable f = false)
  | [], done, s, h, _ => .inl ⟨s, rfl, by rw [List.append_nil]; exact h, fun _ h => nomatch h⟩
  | x :: l, done, s, h, hd => by
    unfold setLoop
    cases hs : setBool e s x.1 (norm x.2) with
    | none =>
      refine .inr ⟨s, done, rfl, h, hd, x, .head _, fun f hf => ?_⟩
      by_contra hw
      rw [Bool.not_eq_false] at hw
      rw [setBool_iff.mpr ⟨norm_01 _, f, (Denotes.same h.same _ _).mpr hf, hw, rfl⟩] at hs
      cases hs
    | some s' =>
      obtain ⟨-, f, hf, hw, rfl⟩ := setBool_iff.mp hs
      have hf := (Denotes.same h.same _ _).mp hf
      simp only
      rcases setLoop_spec l (done ++ [x]) _ (h.step hf) (fun y hy => by
        rcases List.mem_append.mp hy with hy | hy
        · exact hd y hy
        · rw [List.mem_singleton] at hy; subst hy; exact ⟨f, hf, hw⟩) with ⟨s', h1, h2, h3⟩ | ⟨s1, d1, h1, h2, h3, y, hy, h4⟩
      · refine .inl ⟨s', h1, by rwa [List.append_assoc] at h2, fun y hy => ?_⟩
        rcases List.mem_cons.mp hy with rfl | hy
        · exact ⟨f, hf, hw⟩
        · exact h3 y hy
      · exact .inr ⟨s1, d1, h1, h2, h3, y, .tail _ hy, h4⟩

theorem rollback_after {e : BEnv} {s0 s1 : St} {d1} (hc : Clean s0) (hr : ∀ f, e.writable f = true → e.readable f = true)
    (h : After e s0 d1 s1) (hd : ∀ x ∈ d1, ∃ f, Denotes e s0 x.1 f ∧ e.writable f = true) : rollback e s1 d1 = s0 := by
  funext f
  rw [rollback_spec hr d1 s1 fun x hx => by
    obtain ⟨f, h1, h2⟩ := hd x hx
    exact ⟨f, (Denotes.same h.same _ _).mpr h1, h2⟩]
  have hf := h f
  cases h0 : s0 f with
  | none => rw [h0] at hf; simp only at hf; rw [hf]
  | some ap =>
    obtain ⟨a, p⟩ := ap
    have := hc f a p h0
    subst this
    rw [h0] at hf
    obtain ⟨q, hq, hl⟩ := hf
    rw [hq]
    simp only
    split
    · rfl
    · rename_i hany
      rcases hl with ⟨pre, x, post, hl, hx, _⟩ | ⟨_, rfl⟩
      · refine absurd ?_ hany
        rw [List.any_eq_true]
        refine ⟨x, by simp [hl], ?_⟩
        rw [decide_eq_true_iff, boolOpen_iff]
        exact ⟨(Denotes.same h.same _ _).mpr hx, rfl⟩
      · rfl

/-! ## C108 -/

section
variable {e : BEnv} {st st' : St} {l : List (Bytes × Int)}

/-- **C108**: when it returns 0 every name stands for a boolean, each boolean in the list is active with the value of its last entry, and all
others are as before but that what was pending is active. -/
theorem C108_success {p : Bool} (h : setList e st l p = (st', true)) :
    p = false ∧ e.commitOk = true ∧ (∀ x ∈ l, ∃ f, Denotes e st x.1 f ∧ e.writable f = true) ∧
    ∀ f, match st f with
      | none => st' f = none
      | some (_, q) => ∃ v, st' f = some (v, v) ∧ (LastSet e st l f v ∨ ((∀ x ∈ l, ¬ Denotes e st x.1 f) ∧ v = q)) := by
  unfold setList at h
  rcases setLoop_spec l [] st (After.nil e st) (fun _ h => nomatch h) with ⟨s', h1, h2, h3⟩ | ⟨s1, d1, h1, _⟩
  · rw [h1] at h
    simp only [List.nil_append] at h h2
    unfold commit at h
    cases hc : e.commitOk with
    | false => rw [hc] at h; simp at h
    | true =>
      rw [hc] at h
      simp only [if_true] at h
      cases p with
      | true => simp at h
      | false =>
        simp only [Bool.not_false, Prod.mk.injEq, and_true] at h
        subst h
        refine ⟨rfl, rfl, h3, fun f => ?_⟩
        have := h2 f
        cases h0 : st f with
        | none => rw [h0] at this; simp only at this ⊢; simp [commitAll, this]
        | some ap =>
          rw [h0] at this
          obtain ⟨q, hq, hl⟩ := this
          exact ⟨q, by simp [commitAll, hq], hl⟩
  · rw [h1] at h; simp at h

/-- **C108**: it succeeds when every name stands for a boolean that may be written and the commit works. -/
theorem C108_complete (hc : e.commitOk = true) (hl : ∀ x ∈ l, ∃ f, Denotes e st x.1 f ∧ e.writable f = true) :
    (setList e st l false).2 = true := by
  unfold setList
  rcases setLoop_spec l [] st (After.nil e st) (fun _ h => nomatch h) with ⟨s', h1, h2, h3⟩ | ⟨s1, d1, h1, _, _, x, hx, h4⟩
  · rw [h1]; simp [commit, hc]
  · obtain ⟨f, hf, hw⟩ := hl x hx
    rw [h4 f hf] at hw; cases hw

/-- **C108**: when it returns -1 nothing has changed, if nothing was pending, the commit does not fail and the flag is not set. -/
theorem C108_failure_partial (hcl : Clean st) (hr : ∀ f, e.writable f = true → e.readable f = true) (hc : e.commitOk = true)
    (h : setList e st l false = (st', false)) : st' = st := by
  unfold setList at h
  rcases setLoop_spec l [] st (After.nil e st) (fun _ h => nomatch h) with ⟨s', h1, h2, h3⟩ | ⟨s1, d1, h1, h2, h3, _⟩
  · rw [h1] at h; simp [commit, hc] at h
  · rw [h1] at h
    simp only [Prod.mk.injEq, and_true] at h
    rw [← h]
    exact rollback_after hcl hr h2 h3

theorem rollback_active {e : BEnv} : ∀ (l : List (Bytes × Int)) (s : St) (f : Bytes), (rollback e s l f).map (·.1) = (s f).map (·.1)
  | [], _, _ => rfl
  | x :: l, s, f => by
    unfold rollback
    rw [rollback_active l]
    cases h : setBool e s x.1 (getActive e s x.1) with
    | none => rfl
    | some s' =>
      obtain ⟨-, g, -, -, rfl⟩ := setBool_iff.mp h
      simp only [Option.getD_some, setPending]
      split
      · subst_vars; cases s g <;> rfl
      · rfl

/-- **C108**: when it returns -1 no boolean has another active value, whatever failed, unless the flag is set. -/
theorem C108_active (h : setList e st l false = (st', false)) (f : Bytes) : (st' f).map (·.1) = (st f).map (·.1) := by
  have hafter : ∀ {d s}, After e st d s → (s f).map (·.1) = (st f).map (·.1) := by
    intro d s ha
    have := ha f
    cases h0 : st f with
    | none => rw [h0] at this; simp only at this; rw [this]
    | some ap => rw [h0] at this; obtain ⟨q, hq, _⟩ := this; rw [hq]; rfl
  unfold setList at h
  rcases setLoop_spec l [] st (After.nil e st) (fun _ h => nomatch h) with ⟨s', h1, h2, h3⟩ | ⟨s1, d1, h1, h2, _⟩
  · rw [h1] at h
    simp only [commit] at h
    cases hc : e.commitOk with
    | true => rw [hc] at h; simp at h
    | false =>
      rw [hc] at h
      simp at h
      rw [← h]
      exact hafter h2
  · rw [h1] at h
    simp only [Prod.mk.injEq, and_true] at h
    rw [← h, rollback_active]
    exact hafter h2

/-- **C108**: the functions that read a value give what the boolean that the name stands for has, and -1 if there is none to read. -/
theorem C108_get (n : Bytes) :
    (∃ f a p, Denotes e st n f ∧ e.readable f = true ∧ st f = some (a, p) ∧
      getActive e st n = (if a then 1 else 0) ∧ getPending e st n = (if p then 1 else 0)) ∨
    ((∀ f, Denotes e st n f → e.readable f = false) ∧ getActive e st n = -1 ∧ getPending e st n = -1) := by
  unfold getActive getPending
  cases h : boolOpen e e.readable st n with
  | none =>
    refine .inr ⟨fun f hf => ?_, rfl, rfl⟩
    by_contra hr
    rw [Bool.not_eq_false] at hr
    rw [boolOpen_iff.mpr ⟨hf, hr⟩] at h; cases h
  | some f =>
    obtain ⟨h1, h2⟩ := boolOpen_iff.mp h
    obtain ⟨⟨a, p⟩, hap⟩ := Option.isSome_iff_exists.mp h1.2.1
    exact .inl ⟨f, a, p, h1, h2, hap, by simp [hap], by simp [hap]⟩

/-- **C108**: `security_set_boolean` changes the pending value of the boolean that the name stands for and nothing else. -/
theorem C108_set (n : Bytes) (v : Int) :
    (∃ f, Denotes e st n f ∧ e.writable f = true ∧ (v = 0 ∨ v = 1) ∧ ∃ st', setBool e st n v = some st' ∧
      ∀ g, st' g = if g = f then (st f).map (fun x => (x.1, decide (v = 1))) else st g) ∨
    (setBool e st n v = none ∧ ((∀ f, Denotes e st n f → e.writable f = false) ∨ v < 0 ∨ 1 < v)) := by
  cases h : setBool e st n v with
  | some st' =>
    obtain ⟨h1, f, h2, h3, rfl⟩ := setBool_iff.mp h
    exact .inl ⟨f, h2, h3, h1, _, rfl, fun g => rfl⟩
  | none =>
    refine .inr ⟨rfl, ?_⟩
    by_contra hn
    rw [not_or] at hn
    obtain ⟨h1, h2⟩ := hn
    refine h1 fun f hf => ?_
    by_contra hw
    rw [Bool.not_eq_false] at hw
    rw [setBool_iff.mpr ⟨by omega, f, hf, hw, rfl⟩] at h
    cases h

end

/-! ### Examples -/

/-- Two booleans, and a substitution for `old`. -/
def st1 : St := fun n => if n = b "x" then some (false, false) else if n = b "y" then some (true, true) else none

def env1 : BEnv := { readable := fun _ => true, writable := fun _ => true, commitOk := true, alt := fun n => if n = b "old" then b "y" else n }

/-- Both are set, one by its old name and twice. -/
example : (setList env1 st1 [(b "x", 7), (b "old", 1), (b "y", 0)] false).2 = true ∧
    (setList env1 st1 [(b "x", 7), (b "old", 1), (b "y", 0)] false).1 (b "x") = some (true, true) ∧
    (setList env1 st1 [(b "x", 7), (b "old", 1), (b "y", 0)] false).1 (b "y") = some (false, false) := by decide +kernel

theorem st1_clean : Clean st1 := by
  intro f a p h
  simp only [st1] at h
  split at h
  · cases h; rfl
  · split at h
    · cases h; rfl
    · cases h

/-- A name that is not there: the booleans before it are as they were. -/
example : (setList env1 st1 [(b "x", 1), (b "nope", 1)] false).1 = st1 := by
  have h : (setList env1 st1 [(b "x", 1), (b "nope", 1)] false).2 = false := by decide +kernel
  exact C108_failure_partial st1_clean (fun _ _ => rfl) rfl (Prod.ext rfl h)

/-- The conclusion of C108_success is about something: `y` is meant by two entries. -/
example : LastSet env1 st1 [(b "x", 7), (b "old", 1), (b "y", 0)] (b "y") false :=
  ⟨[(b "x", 7), (b "old", 1)], (b "y", 0), [], rfl, ⟨by decide +kernel, by decide +kernel, .inl rfl⟩, fun _ h => (nomatch h), by simp⟩

/-- With the flag set it returns -1 although all is active. -/
theorem C108_permanent_refuted :
    (setList env1 st1 [(b "x", 1)] true).2 = false ∧ (setList env1 st1 [(b "x", 1)] true).1 (b "x") = some (true, true) := by decide +kernel

/-- When the commit fails the values stay pending: the next commit of anybody makes them active. -/
theorem C108_commit_refuted :
    (setList { env1 with commitOk := false } st1 [(b "x", 1)] false).2 = false ∧
    (commit env1 (setList { env1 with commitOk := false } st1 [(b "x", 1)] false).1).bind (· (b "x")) = some (true, true) := by decide +kernel

/-- A value that was pending before is lost when the list fails. -/
theorem C108_pending_refuted :
    let s : St := fun n => if n = b "x" then some (false, true) else none
    (setList env1 s [(b "x", 1), (b "nope", 1)] false).2 = false ∧
    (setList env1 s [(b "x", 1), (b "nope", 1)] false).1 (b "x") = some (false, false) := by decide +kernel

/-- Where values may be written but not read, a list that fails leaves its values pending. -/
theorem C108_unreadable_refuted :
    let e : BEnv := { env1 with readable := fun _ => false }
    (setList e st1 [(b "x", 1), (b "nope", 1)] false).2 = false ∧
    (setList e st1 [(b "x", 1), (b "nope", 1)] false).1 (b "x") = some (false, true) := by decide +kernel

/-! ## C109 -/

/-- A line of the file of substitutions without its newline says that `n` is `d`: two words, the first no comment. -/
def Says (line n d : Bytes) : Prop :=
  ∃ s1 s2 rest, line = s1 ++ n ++ s2 ++ d ++ rest ∧ (∀ c ∈ s1, isSp c) ∧ (∀ c ∈ s2, isSp c) ∧ s2 ≠ [] ∧
    (∀ c ∈ n, !isSp c) ∧ n ≠ [] ∧ n.head? ≠ some 35 ∧ (∀ c ∈ d, !isSp c) ∧ d ≠ [] ∧ (rest = [] ∨ ∃ c r, rest = c :: r ∧ isSp c)

theorem skipSp_eq : ∀ (sp : Bytes) (c : UInt8) (r : Bytes), (∀ x ∈ sp, isSp x) → 0 ∉ sp → (c = 0 ∨ isSp c = false) →
    skipSp (sp ++ c :: r) = some (c :: r)
  | [], c, r, _, _, hc => by
    show skipSp (c :: r) = _
    unfold skipSp
    rw [if_neg]
    rintro ⟨h1, h2⟩
    rcases hc with h | h
    · exact h1 h
    · rw [h] at h2; cases h2
  | x :: sp, c, r, h, h0, hc => by
    show skipSp (x :: (sp ++ c :: r)) = _
    unfold skipSp
    rw [if_pos ⟨fun e => h0 (e ▸ .head _), h x (.head _)⟩]
    exact skipSp_eq sp c r (fun y hy => h y (.tail _ hy)) (fun h => h0 (.tail _ h)) hc

theorem word_eq : ∀ (w : Bytes) (c : UInt8) (r : Bytes), (∀ x ∈ w, !isSp x) → 0 ∉ w → (c = 0 ∨ isSp c = true) →
    word (w ++ c :: r) = some (w, c :: r)
  | [], c, r, _, _, hc => by
    show word (c :: r) = _
    unfold word
    rw [if_neg]
    rintro ⟨h1, h2⟩
    rcases hc with h | h
    · exact h1 h
    · rw [h] at h2; cases h2
  | x :: w, c, r, h, h0, hc => by
    show word (x :: (w ++ c :: r)) = _
    unfold word
    rw [if_pos ⟨fun e => h0 (e ▸ .head _), h x (.head _)⟩, word_eq w c r (fun y hy => h y (.tail _ hy)) (fun h => h0 (.tail _ h)) hc]
    rfl

/-- A list is a part of one kind and then the end or something of the other. -/
theorem split_sp (p : UInt8 → Bool) : ∀ l : Bytes, ∃ a r, l = a ++ r ∧ (∀ c ∈ a, p c = true) ∧ (r = [] ∨ ∃ c r', r = c :: r' ∧ p c = false)
  | [] => ⟨[], [], rfl, fun _ h => (nomatch h), .inl rfl⟩
  | c :: l => by
    cases h : p c with
    | false => exact ⟨[], c :: l, rfl, fun _ h => (nomatch h), .inr ⟨c, l, rfl, h⟩⟩
    | true =>
      obtain ⟨a, r, h1, h2, h3⟩ := split_sp p l
      refine ⟨c :: a, r, by rw [h1]; rfl, fun x hx => ?_, h3⟩
      rcases List.mem_cons.mp hx with rfl | hx
      · exact h
      · exact h2 x hx

/-- Such a split is unique. -/
theorem split_unique (p : UInt8 → Bool) : ∀ (a a' r r' : Bytes), a ++ r = a' ++ r' → (∀ c ∈ a, p c = true) → (∀ c ∈ a', p c = true) →
    (r = [] ∨ ∃ c x, r = c :: x ∧ p c = false) → (r' = [] ∨ ∃ c x, r' = c :: x ∧ p c = false) → a = a' ∧ r = r'
  | [], [], _, _, h, _, _, _, _ => ⟨rfl, h⟩
  | [], y :: a', r, r', h, _, h2, h3, _ => by
    rcases h3 with rfl | ⟨c, x, rfl, hc⟩
    · cases h
    · simp only [List.nil_append, List.cons_append, List.cons.injEq] at h
      rw [h.1, h2 y (.head _)] at hc; cases hc
  | y :: a, [], r, r', h, h1, _, _, h4 => by
    rcases h4 with rfl | ⟨c, x, rfl, hc⟩
    · cases h
    · simp only [List.nil_append, List.cons_append, List.cons.injEq] at h
      rw [← h.1, h1 y (.head _)] at hc; cases hc
  | y :: a, z :: a', r, r', h, h1, h2, h3, h4 => by
    simp only [List.cons_append, List.cons.injEq] at h
    obtain ⟨e1, e2⟩ := split_unique p a a' r r' h.2 (fun c hc => h1 c (.tail _ hc)) (fun c hc => h2 c (.tail _ hc)) h3 h4
    exact ⟨by rw [h.1, e1], e2⟩

theorem isSp_zero : isSp 0 = false := by decide

theorem isSp_nl : isSp 10 = true := by decide

/-- The words of a line that says something. -/
theorem Says.parts {line n d : Bytes} (h : Says line n d) {s1 w r : Bytes} (e : line = s1 ++ (w ++ r)) (h1 : ∀ c ∈ s1, isSp c)
    (h2 : ∀ c ∈ w, !isSp c) (h3 : w ++ r = [] ∨ ∃ c x, w ++ r = c :: x ∧ isSp c = false) (h4 : r = [] ∨ ∃ c x, r = c :: x ∧ isSp c = true) :
    w = n ∧ ∃ s2 rest, r = s2 ++ (d ++ rest) ∧ s2 ≠ [] ∧ (∀ c ∈ s2, isSp c) ∧ (∀ c ∈ d, !isSp c) ∧ d ≠ [] ∧
      (rest = [] ∨ ∃ c x, rest = c :: x ∧ isSp c = true) := by
  obtain ⟨t1, t2, rest, he, ht1, ht2, ht2n, hn, hnn, -, hd, hdn, hr⟩ := h
  have e1 : s1 ++ (w ++ r) = t1 ++ (n ++ (t2 ++ (d ++ rest))) := by rw [← e, he]; simp
  have hhead : n ++ (t2 ++ (d ++ rest)) = [] ∨ ∃ c x, n ++ (t2 ++ (d ++ rest)) = c :: x ∧ isSp c = false := by
    cases n with
    | nil => exact absurd rfl hnn
    | cons c x => exact .inr ⟨c, _, rfl, by simpa using hn c (.head _)⟩
  obtain ⟨rfl, e2⟩ := split_unique isSp _ _ _ _ e1 h1 ht1 h3 hhead
  have hneg : ∀ {q : Bytes}, (q = [] ∨ ∃ c x, q = c :: x ∧ isSp c = true) → (q = [] ∨ ∃ c x, q = c :: x ∧ (!isSp c) = false) := by
    rintro q (h | ⟨c, x, h, hc⟩)
    · exact .inl h
    · exact .inr ⟨c, x, h, by simp [hc]⟩
  have ht : t2 ++ (d ++ rest) = [] ∨ ∃ c x, t2 ++ (d ++ rest) = c :: x ∧ (!isSp c) = false := by
    cases t2 with
    | nil => exact absurd rfl ht2n
    | cons c x => exact .inr ⟨c, _, rfl, by simp [ht2 c (.head _)]⟩
  obtain ⟨rfl, e3⟩ := split_unique (fun c => !isSp c) _ _ _ _ e2 h2 hn (hneg h4) ht
  refine ⟨rfl, t2, rest, e3, ht2n, ht2, hd, hdn, ?_⟩
  rcases hr with h | ⟨c, x, h, hc⟩
  · exact .inl h
  · exact .inr ⟨c, x, h, hc⟩

/-- What the body of the loop does with a line that ends in a newline, whatever is behind it in the buffer. -/
theorem lineSub_spec (name l rest : Bytes) (h0 : 0 ∉ l) :
    (∃ d, Says l name d ∧ lineSub name (l ++ 10 :: 0 :: rest) = some (.found (if 47 ∈ d then name else d))) ∨
    ((∀ d, ¬ Says l name d) ∧ ∃ m, lineSub name (l ++ 10 :: 0 :: rest) = some (.next m)) := by
  obtain ⟨s1, r1, e1, h1, h1'⟩ := split_sp isSp l
  have hs1 : 0 ∉ s1 := fun h => h0 (e1 ▸ List.mem_append_left _ h)
  rcases h1' with hr | ⟨c, r', hr, hc⟩
  · -- nothing but space
    right
    rw [hr, List.append_nil] at e1
    refine ⟨fun d ⟨t1, t2, r, he, _, _, _, hn, hnn, _⟩ => ?_, l ++ 10 :: 0 :: rest, ?_⟩
    · cases name with
      | nil => exact hnn rfl
      | cons x n =>
        have hx : x ∈ l := by rw [he]; simp
        rw [e1] at hx
        have := hn x (.head _)
        rw [h1 x hx] at this
        cases this
    · have : skipSp (l ++ 10 :: 0 :: rest) = some (0 :: rest) := by
        have := skipSp_eq (l ++ [10]) 0 rest (fun x hx => by
          rcases List.mem_append.mp hx with hx | hx
          · rw [e1] at hx; exact h1 x hx
          · rw [List.mem_singleton] at hx; subst hx; exact isSp_nl) (by simp [h0]) (.inl rfl)
        simpa using this
      unfold lineSub
      rw [this]
      exact if_pos (.inl rfl)
  · have hsk : skipSp (l ++ 10 :: 0 :: rest) = some (r1 ++ 10 :: 0 :: rest) := by
      have := skipSp_eq s1 c (r' ++ 10 :: 0 :: rest) h1 hs1 (.inr hc)
      rw [e1, hr]
      simpa using this
    have hc0 : c ≠ 0 := fun h => h0 (by rw [e1, hr, h]; simp)
    by_cases hcm : c = 35
    · right
      refine ⟨fun d hd => ?_, l ++ 10 :: 0 :: rest, ?_⟩
      · obtain ⟨w, r2, e2, h2, h2'⟩ := split_sp (fun c => !isSp c) r1
        have := hd.parts (s1 := s1) (w := w) (r := r2) (by rw [e1, e2]) h1 h2 (by rw [← e2, hr]; exact .inr ⟨c, r', rfl, hc⟩) (by
          rcases h2' with h | ⟨x, y, h, hx⟩
          · exact .inl h
          · exact .inr ⟨x, y, h, by simpa using hx⟩)
        obtain ⟨_, _, _, _, _, _, _, _, hnn, hh, _⟩ := hd
        rw [← this.1] at hh hnn
        cases w with
        | nil => exact hnn rfl
        | cons x w =>
          rw [hr] at e2
          simp only [List.cons_append, List.cons.injEq] at e2
          exact hh (by simp [← e2.1, hcm])
      · unfold lineSub
        rw [hsk]
        simp only
        rw [hr, if_pos (.inr (by simp [hcm]))]
    · obtain ⟨w, r2, e2, h2, h2'⟩ := split_sp (fun c => !isSp c) r1
      have h2'' : r2 = [] ∨ ∃ x y, r2 = x :: y ∧ isSp x = true := by
        rcases h2' with h | ⟨x, y, h, hx⟩
        · exact .inl h
        · exact .inr ⟨x, y, h, by simpa using hx⟩
      have hw0 : 0 ∉ w := fun h => h0 (by rw [e1, e2]; simp [h])
      have hr20 : 0 ∉ r2 := fun h => h0 (by rw [e1, e2]; simp [h])
      have hwne : w ≠ [] := by
        rintro rfl
        rw [List.nil_append] at e2
        rcases h2'' with h | ⟨x, y, h, hx⟩
        · rw [hr, h] at e2; cases e2
        · rw [hr, h] at e2; cases e2; rw [hc] at hx; cases hx
      have hwd : word (r1 ++ 10 :: 0 :: rest) = some (w, r2 ++ 10 :: 0 :: rest) := by
        rw [e2, List.append_assoc]
        rcases h2'' with h | ⟨x, y, h, hx⟩
        · rw [h]; exact word_eq w 10 _ h2 hw0 (.inr isSp_nl)
        · rw [h]; exact word_eq w x _ h2 hw0 (.inr hx)
      have hpre : ¬((r1 ++ 10 :: 0 :: rest).head? = some 0 ∨ (r1 ++ 10 :: 0 :: rest).head? = some 35) := by
        rw [hr]; simp [hc0, hcm]
      unfold lineSub
      rw [hsk]
      simp only
      rw [if_neg hpre, hwd]
      simp only
      by_cases hwn : w = name
      · rw [if_neg (not_not_intro hwn)]
        -- the rest of the line after one space
        rcases h2'' with h | ⟨x, y, h, hx⟩
        · right
          have hno : ∀ d, ¬ Says l name d := by
            intro d hd
            obtain ⟨-, s2, q, he, hs2, _⟩ := hd.parts (s1 := s1) (w := w) (r := r2) (by rw [e1, e2]) h1 h2
              (by rw [← e2, hr]; exact .inr ⟨c, r', rfl, hc⟩) (.inl h)
            rw [h] at he
            cases s2 with
            | nil => exact hs2 rfl
            | cons _ _ => cases he
          refine ⟨hno, ?_⟩
          have : skipSp ((r2 ++ 10 :: 0 :: rest).tail) = some (0 :: rest) := by
            rw [h]
            exact skipSp_eq [] 0 rest (fun _ h => (nomatch h)) (by simp) (.inl rfl)
          rw [this]
          exact ⟨_, if_pos rfl⟩
        · obtain ⟨s3, r3, e3, h3, h3'⟩ := split_sp isSp y
          have hs30 : 0 ∉ s3 := fun hz => hr20 (by rw [h, e3]; simp [hz])
          have htail : (r2 ++ 10 :: 0 :: rest).tail = y ++ 10 :: 0 :: rest := by rw [h]; rfl
          rw [htail]
          rcases h3' with h3e | ⟨c3, r3', h3e, hc3⟩
          · right
            have hno : ∀ d, ¬ Says l name d := by
              intro d hd
              obtain ⟨-, s2, q, he, hs2, hsp, hd1, hd2, _⟩ := hd.parts (s1 := s1) (w := w) (r := r2) (by rw [e1, e2]) h1 h2
                (by rw [← e2, hr]; exact .inr ⟨c, r', rfl, hc⟩) (.inr ⟨x, y, h, hx⟩)
              cases d with
              | nil => exact hd2 rfl
              | cons z d =>
                have hz : z ∈ r2 := by rw [he]; simp
                have : isSp z = true := by
                  rw [h] at hz
                  rcases List.mem_cons.mp hz with rfl | hz
                  · exact hx
                  · rw [e3, h3e, List.append_nil] at hz; exact h3 z hz
                have := hd1 z (.head _)
                simp_all
            refine ⟨hno, ?_⟩
            have : skipSp (y ++ 10 :: 0 :: rest) = some (0 :: rest) := by
              have := skipSp_eq (y ++ [10]) 0 rest (fun z hz => by
                rcases List.mem_append.mp hz with hz | hz
                · rw [e3, h3e, List.append_nil] at hz; exact h3 z hz
                · rw [List.mem_singleton] at hz; subst hz; exact isSp_nl) (by
                  rw [e3, h3e]; simp [hs30]) (.inl rfl)
              simpa using this
            rw [this]
            exact ⟨_, if_pos rfl⟩
          · left
            obtain ⟨d, r4, e4, h4, h4'⟩ := split_sp (fun c => !isSp c) r3
            have h4'' : r4 = [] ∨ ∃ x y, r4 = x :: y ∧ isSp x = true := by
              rcases h4' with h | ⟨x, y, h, hx⟩
              · exact .inl h
              · exact .inr ⟨x, y, h, by simpa using hx⟩
            have hd0 : 0 ∉ d := fun hz => hr20 (by rw [h, e3, e4]; simp [hz])
            have hdne : d ≠ [] := by
              rintro rfl
              rw [List.nil_append] at e4
              rcases h4'' with h | ⟨x, y, h, hx⟩
              · rw [h3e, h] at e4; cases e4
              · rw [h3e, h] at e4; cases e4; rw [hc3] at hx; cases hx
            refine ⟨d, ⟨s1, x :: s3, r4, ?_, h1, ?_, by simp, hwn ▸ h2, hwn ▸ hwne, ?_, h4, hdne, h4''⟩, ?_⟩
            · rw [e1, e2, h, e3, e4, hwn]; simp
            · intro z hz
              rcases List.mem_cons.mp hz with rfl | hz
              · exact hx
              · exact h3 z hz
            · rw [← hwn]
              cases w with
              | nil => exact absurd rfl hwne
              | cons z w =>
                rw [hr] at e2
                simp only [List.cons_append, List.cons.injEq] at e2
                simp [← e2.1, hcm]
            · have hc30 : c3 ≠ 0 := fun hz => hr20 (by rw [h, e3, h3e, hz]; simp)
              have hsk3 : skipSp (y ++ 10 :: 0 :: rest) = some (r3 ++ 10 :: 0 :: rest) := by
                have := skipSp_eq s3 c3 (r3' ++ 10 :: 0 :: rest) h3 hs30 (.inr hc3)
                rw [e3, h3e]
                simpa using this
              have hwd3 : word (r3 ++ 10 :: 0 :: rest) = some (d, r4 ++ 10 :: 0 :: rest) := by
                rw [e4, List.append_assoc]
                rcases h4'' with h | ⟨x, y, h, hx⟩
                · rw [h]; exact word_eq d 10 _ h4 hd0 (.inr isSp_nl)
                · rw [h]; exact word_eq d x _ h4 hd0 (.inr hx)
              have hh : ¬ (r3 ++ 10 :: 0 :: rest).head? = some 0 := by rw [h3e]; simp [hc30]
              rw [hsk3]
              simp only
              rw [if_neg hh, hwd3]
      · rw [if_pos hwn]
        right
        refine ⟨fun d hd => hwn ?_, _, rfl⟩
        exact (hd.parts (s1 := s1) (w := w) (r := r2) (by rw [e1, e2]) h1 h2 (by rw [← e2, hr]; exact .inr ⟨c, r', rfl, hc⟩) h2'').1

theorem fileLines_line : ∀ (l f : Bytes), 10 ∉ l → fileLines (l ++ 10 :: f) = (l ++ [10]) :: fileLines f
  | [], f, _ => by
    show fileLines (10 :: f) = _
    rw [fileLines]; rfl
  | c :: l, f, h => by
    show fileLines (c :: (l ++ 10 :: f)) = _
    have hc : c ≠ 10 := fun e => h (by rw [e]; exact .head _)
    rw [fileLines, if_neg hc, fileLines_line l f (fun hx => h (.tail _ hx))]
    rfl

theorem fileLines_text : ∀ ls : List Bytes, (∀ l ∈ ls, 10 ∉ l) → fileLines (ls.flatMap (· ++ [10])) = ls.map (· ++ [10])
  | [], _ => rfl
  | l :: ls, h => by
    rw [List.flatMap_cons, List.append_assoc, List.singleton_append, fileLines_line l _ (h l (.head _)),
      fileLines_text ls fun x hx => h x (.tail _ hx)]
    rfl

/-- **C109**: for a file of lines that each end in a newline, `selinux_boolean_sub` gives what the first line about the name says, or the name
itself if there is none or what it says is no name of a file. -/
theorem C109_sub_partial (ls : List Bytes) (hl : ∀ l ∈ ls, 10 ∉ l ∧ 0 ∉ l) (name : Bytes) :
    (∃ pre l post d, ls = pre ++ l :: post ∧ Says l name d ∧ (∀ x ∈ pre, ∀ d', ¬ Says x name d') ∧
      booleanSub (some (ls.flatMap (· ++ [10]))) name = some (if 47 ∈ d then name else d)) ∨
    ((∀ x ∈ ls, ∀ d, ¬ Says x name d) ∧ booleanSub (some (ls.flatMap (· ++ [10]))) name = some name) := by
  have key : ∀ (ls : List Bytes) (mem : Bytes), (∀ l ∈ ls, 0 ∉ l) →
      (∃ pre l post d, ls = pre ++ l :: post ∧ Says l name d ∧ (∀ x ∈ pre, ∀ d', ¬ Says x name d') ∧
        subLoop name mem (ls.map (· ++ [10])) = some (if 47 ∈ d then name else d)) ∨
      ((∀ x ∈ ls, ∀ d, ¬ Says x name d) ∧ subLoop name mem (ls.map (· ++ [10])) = some name) := by
    intro ls
    induction ls with
    | nil => exact fun mem _ => .inr ⟨fun _ h => (nomatch h), rfl⟩
    | cons l ls ih =>
      intro mem h0
      rw [List.map_cons, subLoop]
      have hg : getline mem (l ++ [10]) = l ++ 10 :: 0 :: mem.drop ((l ++ [10]).length + 1) := by simp [getline]
      rw [hg]
      rcases lineSub_spec name l (mem.drop ((l ++ [10]).length + 1)) (h0 l (.head _)) with ⟨d, hd, e⟩ | ⟨hn, m, e⟩
      · rw [e]
        exact .inl ⟨[], l, ls, d, rfl, hd, fun _ h => (nomatch h), rfl⟩
      · rw [e]
        simp only
        rcases ih m (fun x hx => h0 x (.tail _ hx)) with ⟨pre, x, post, d, h1, h2, h3, h4⟩ | ⟨h1, h2⟩
        · refine .inl ⟨l :: pre, x, post, d, by rw [h1]; rfl, h2, fun y hy => ?_, h4⟩
          rcases List.mem_cons.mp hy with rfl | hy
          · exact hn
          · exact h3 y hy
        · refine .inr ⟨fun y hy => ?_, h2⟩
          rcases List.mem_cons.mp hy with rfl | hy
          · exact hn
          · exact h1 y hy
  have := key ls [] fun l h => (hl l h).2
  rw [← fileLines_text ls fun l h => (hl l h).1] at this
  exact this

theorem C109_no_file (name : Bytes) : booleanSub none name = some name := rfl

/-- A comment, a line about another, one with a name only, and one that says something. -/
example : booleanSub (some (b "# old new\nx y\n old\n\told  new rest\nold other\n")) (b "old") = some (b "new") := by decide +kernel

example : Says (b "\told  new rest") (b "old") (b "new") :=
  ⟨b "\t", b "  ", b " rest", by decide +kernel, by decide +kernel, by decide +kernel, by decide +kernel, by decide +kernel, by decide +kernel,
    by decide +kernel, by decide +kernel, by decide +kernel, .inr ⟨32, b "rest", by decide +kernel, by decide +kernel⟩⟩

/-- A name with a slash is not used. -/
example : booleanSub (some (b "old ../new\n")) (b "old") = some (b "old") := by decide +kernel

/-- If the last line has only a name and no newline, what is behind it in the buffer is taken for the second word: here, a part of a comment. -/
theorem C109_stale_refuted : booleanSub (some (b "# x yyyy\nold")) (b "old") = some (b "yyyy") := by decide +kernel

/-- If nothing was there yet, memory is read that was never written. -/
theorem C109_unwritten_refuted : booleanSub (some (b "old")) (b "old") = none := by decide +kernel

end Verif.Client
