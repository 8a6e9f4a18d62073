import Verif.CilBin.Lemmas2
import Verif.Services.AvLemmas

/-!
# Lemmas on the compilation of rules
-/

namespace Verif.CilBin
open Ebitmap (Ebitmap)
open CilDeny (CP MP)
open Avtab (Avtab Key Datum Node Rel Answers)

abbrev Pred := Option Branch → Key → Nat → Prop

/-- What `f` adds to the access vector rules. -/
def Step (f : State → Option State) (N : Pred) : Prop :=
  ∀ st G T, Inv st G T → ∀ st', f st = some st' → Inv st' (fun c k b => G c k b ∨ N c k b) T

/-- `f` does not fail. -/
def Total (f : State → Option State) : Prop := ∀ st G T, Inv st G T → ∃ st', f st = some st'

theorem Step.congr {f : State → Option State} {N N' : Pred} (h : Step f N)
    (hn : ∀ c k b, AvK k.specified → b < 32 → (N c k b ↔ N' c k b)) : Step f N' := by
  intro st G T hi st' he
  exact (h st G T hi st' he).congr (fun c k b hk hb => or_congr_right (hn c k b hk hb)) fun _ _ _ _ => Iff.rfl

theorem step_skip : Step (fun st => some st) (fun _ _ _ => False) := by
  intro st G T hi st' he
  cases he
  exact hi.congr (fun c k b _ _ => by simp) fun _ _ _ _ => Iff.rfl

theorem step_none {f : State → Option State} {N : Pred} (h : ∀ st, f st = none) : Step f N := by
  intro st G T hi st' he
  rw [h] at he; cases he

theorem step_seq {f g : State → Option State} {N M : Pred} (hf : Step f N) (hg : Step g M) :
    Step (fun st => match f st with | none => none | some st => g st) (fun c k b => N c k b ∨ M c k b) := by
  intro st G T hi st' he
  simp only at he
  cases h1 : f st with
  | none => rw [h1] at he; cases he
  | some st1 =>
    rw [h1] at he
    exact (hg st1 _ T (hf st G T hi st1 h1) st' he).congr (fun c k b _ _ => or_assoc) fun _ _ _ _ => Iff.rfl

theorem step_forM {α : Type} {f : α → State → Option State} {N : α → Pred} {l : List α} (h : ∀ x ∈ l, Step (f x) (N x)) :
    Step (forM f l) (fun c k b => ∃ x ∈ l, N x c k b) := by
  induction l with
  | nil => exact (step_skip.congr fun c k b _ _ => by simp)
  | cons x l ih =>
    have := step_seq (h x (by simp)) (ih fun y hy => h y (List.mem_cons_of_mem _ hy))
    exact this.congr fun c k b _ _ => by simp

theorem total_seq {f g : State → Option State} {N : Pred} (hf : Step f N) (h1 : Total f) (h2 : Total g) :
    Total (fun st => match f st with | none => none | some st => g st) := by
  intro st G T hi
  obtain ⟨st1, e1⟩ := h1 st G T hi
  obtain ⟨st2, e2⟩ := h2 st1 _ _ (hf st G T hi st1 e1)
  exact ⟨st2, by simp only [e1, e2]⟩

theorem total_forM {α : Type} {f : α → State → Option State} {N : α → Pred} {l : List α} (h : ∀ x ∈ l, Step (f x) (N x))
    (ht : ∀ x ∈ l, Total (f x)) : Total (forM f l) := by
  induction l with
  | nil => exact fun st G T _ => ⟨st, rfl⟩
  | cons x l ih =>
    exact total_seq (h x (by simp)) (ht x (by simp)) (ih (fun y hy => h y (List.mem_cons_of_mem _ hy)) fun y hy => ht y (List.mem_cons_of_mem _ hy))

/-! ### Access vector rules -/

theorem permToDatum_bit {db : Db} (ok : DbOk db) {c p : Nat} {d d' : BitVec 32} (h : permToDatum db c p d = some d') {b : Nat} (hb : b < 32) :
    d'.getLsbD b = true ↔ d.getLsbD b = true ∨ db.permVal c p = some (b + 1) := by
  unfold permToDatum at h
  split at h
  · cases h
  · rename_i v hv
    cases h
    have := ok.perm c p v hv
    rw [hv, Option.some.injEq]
    simp only [BitVec.getLsbD_or, BitVec.getLsbD_shiftLeft, BitVec.getLsbD_one, Bool.or_eq_true, Bool.and_eq_true, decide_eq_true_eq,
      Bool.not_eq_true', decide_eq_false_iff_not]
    constructor
    · rintro (h | ⟨h1, h2⟩)
      · exact Or.inl h
      · exact Or.inr (by omega)
    · rintro (h | h)
      · exact Or.inl h
      · exact Or.inr ⟨⟨hb, by omega⟩, by omega, by omega⟩

theorem permsToDatum_bit {db : Db} (ok : DbOk db) {c : Nat} {ps : List Nat} {d d' : BitVec 32} (h : permsToDatum db c ps d = some d')
    {b : Nat} (hb : b < 32) : d'.getLsbD b = true ↔ d.getLsbD b = true ∨ ∃ p ∈ ps, db.permVal c p = some (b + 1) := by
  induction ps generalizing d with
  | nil => cases h; simp
  | cons p ps ih =>
    unfold permsToDatum at h
    split at h
    · cases h
    · rename_i d1 e1
      rw [ih h, permToDatum_bit ok e1 hb]
      simp [or_assoc]

theorem permsToDatum_total {db : Db} {c : Nat} {ps : List Nat} (d : BitVec 32) (h : ∀ p ∈ ps, ∃ v, db.permVal c p = some v) :
    ∃ d', permsToDatum db c ps d = some d' := by
  induction ps generalizing d with
  | nil => exact ⟨d, rfl⟩
  | cons p ps ih =>
    obtain ⟨v, hv⟩ := h p (by simp)
    unfold permsToDatum permToDatum
    simp only [hv]
    exact ih _ fun q hq => h q (List.mem_cons_of_mem _ hq)

/-- What the rule adds for two symbols and a list of permissions. -/
def Adds (db : Db) (tab : List Sym) (kind : Kind) (x y : Sym) (cond : Option Branch) (l : List (Nat × Nat)) : Pred :=
  fun c k b => c = cond ∧ kind.spec = some k.specified ∧
    ∃ sv tv cls cv p, (cls, p) ∈ l ∧ typeDatum tab x = some sv ∧ typeDatum tab y = some tv ∧ db.classVal cls = some cv ∧
      db.permVal cls p = some (b + 1) ∧ k = key sv tv cv k.specified

theorem helper_step {db : Db} (ok : DbOk db) (tab : List Sym) (kind : Kind) (x y : Sym) (cond : Option Branch) (cls : Nat) (ps : List Nat) :
    Step (expandHelper db tab kind x y cond cls ps) (Adds db tab kind x y cond (ps.map fun p => (cls, p))) := by
  intro st G T hi st' he
  have hmem : ∀ cls' p, (cls', p) ∈ ps.map (fun p => (cls, p)) ↔ cls' = cls ∧ p ∈ ps := by
    intro cls' p
    simp only [List.mem_map, Prod.mk.injEq]
    constructor
    · rintro ⟨q, h1, rfl, rfl⟩; exact ⟨rfl, h1⟩
    · rintro ⟨rfl, h1⟩; exact ⟨p, h1, rfl, rfl⟩
  unfold expandHelper at he
  split at he
  · cases he
  rename_i cv hcv
  split at he
  · cases he
  rename_i data hdata
  have hbit : ∀ b, b < 32 → (data.getLsbD b = true ↔ ∃ p ∈ ps, db.permVal cls p = some (b + 1)) := by
    intro b hb
    rw [permsToDatum_bit ok hdata hb]; simp
  split at he
  · rename_i hz
    cases he
    refine hi.congr (fun c k b _ hb => ?_) fun _ _ _ _ => Iff.rfl
    constructor
    · exact Or.inl
    · rintro (h | ⟨-, -, sv, tv, cls', cv', p, h1, -, -, -, h5, -⟩)
      · exact h
      · obtain ⟨rfl, hp⟩ := (hmem cls' p).1 h1
        have := (hbit b hb).2 ⟨p, hp, h5⟩
        rw [hz] at this
        simp at this
  · simp only at he
    split at he
    · rename_i sv tv hsv htv
      cases hsp : kind.spec with
      | none => unfold insertAvrule at he; rw [hsp] at he; cases he
      | some sp =>
        obtain ⟨st2, e2, h2⟩ := insertAvrule_ok hi hsp sv tv cv (if kind = .dontaudit then ~~~ data else data) cond
        rw [e2] at he
        cases he
        refine h2.congr (fun c k b hk hb => ?_) fun _ _ _ _ => Iff.rfl
        apply or_congr_right
        have hval : (if kind = .dontaudit then ~~~ data else data).getLsbD b = pol sp ↔ data.getLsbD b = true := by
          cases kind <;> simp only [Kind.spec, Option.some.injEq] at hsp
          · subst hsp; simp [pol, Avtab.ALLOWED, Avtab.AUDITDENY]
          · subst hsp; simp [pol, Avtab.AUDITALLOW, Avtab.AUDITDENY]
          · subst hsp; simp [pol, BitVec.getLsbD_not, hb]
          · cases hsp
        rw [hval, hbit b hb]
        unfold Adds
        rw [hsp, Option.some.injEq]
        constructor
        · rintro ⟨rfl, hkk, p, hp, hv⟩
          have hke : k.specified = sp := by rw [hkk]; rfl
          exact ⟨rfl, hke.symm, sv, tv, cls, cv, p, (hmem _ _).2 ⟨rfl, hp⟩, hsv, htv, hcv, hv, by rw [hke]; exact hkk⟩
        · rintro ⟨rfl, hke, sv', tv', cls', cv', p, h1, h2, h3, h4, h5, h6⟩
          obtain ⟨rfl, hp⟩ := (hmem cls' p).1 h1
          rw [hsv] at h2; cases h2
          rw [htv] at h3; cases h3
          rw [hcv] at h4; cases h4
          exact ⟨rfl, by rw [hke]; exact h6, p, hp, h5⟩
    · cases he

theorem adds_append {db : Db} {tab : List Sym} {kind : Kind} {x y : Sym} {cond : Option Branch} {l l' : List (Nat × Nat)} (c : Option Branch)
    (k : Key) (b : Nat) : Adds db tab kind x y cond (l ++ l') c k b ↔ Adds db tab kind x y cond l c k b ∨ Adds db tab kind x y cond l' c k b := by
  unfold Adds
  simp only [List.mem_append]
  constructor
  · rintro ⟨h1, h2, sv, tv, cls, cv, p, h3 | h3, h4⟩
    · exact Or.inl ⟨h1, h2, sv, tv, cls, cv, p, h3, h4⟩
    · exact Or.inr ⟨h1, h2, sv, tv, cls, cv, p, h3, h4⟩
  · rintro (⟨h1, h2, sv, tv, cls, cv, p, h3, h4⟩ | ⟨h1, h2, sv, tv, cls, cv, p, h3, h4⟩)
    · exact ⟨h1, h2, sv, tv, cls, cv, p, Or.inl h3, h4⟩
    · exact ⟨h1, h2, sv, tv, cls, cv, p, Or.inr h3, h4⟩

theorem adds_nil {db : Db} {tab : List Sym} {kind : Kind} {x y : Sym} {cond : Option Branch} (c : Option Branch)
    (k : Key) (b : Nat) : ¬ Adds db tab kind x y cond [] c k b := by
  rintro ⟨-, -, sv, tv, cls, cv, p, h, -⟩
  simp at h

mutual
theorem expand_step {db : Db} (ok : DbOk db) (tab : List Sym) (kind : Kind) (x y : Sym) (cond : Option Branch) :
    ∀ l : List CP, Step (expand db tab kind x y cond l) (Adds db tab kind x y cond (CilDeny.flat l))
  | [] => by
    have : expand db tab kind x y cond [] = fun st => some st := by funext st; rw [expand]
    rw [this]
    exact step_skip.congr fun c k b _ _ => by simp [CilDeny.flat, adds_nil]
  | z :: l => by
    have : expand db tab kind x y cond (z :: l) = fun st =>
        match expandItem db tab kind x y cond z st with | none => none | some st => expand db tab kind x y cond l st := by
      funext st; rw [expand]; cases expandItem db tab kind x y cond z st <;> rfl
    rw [this]
    refine (step_seq (item_step ok tab kind x y cond z) (expand_step ok tab kind x y cond l)).congr fun c k b _ _ => ?_
    rw [CilDeny.flat, adds_append]
theorem item_step {db : Db} (ok : DbOk db) (tab : List Sym) (kind : Kind) (x y : Sym) (cond : Option Branch) :
    ∀ z : CP, Step (expandItem db tab kind x y cond z) (Adds db tab kind x y cond (CilDeny.flatItem z))
  | .cls c ps => by
    have : expandItem db tab kind x y cond (.cls c ps) = expandHelper db tab kind x y cond c ps := by funext st; rw [expandItem]
    rw [this, CilDeny.flatItem]
    exact helper_step ok tab kind x y cond c ps
  | .map n ms => by
    have : expandItem db tab kind x y cond (.map n ms) = expandMap db tab kind x y cond ms := by funext st; rw [expandItem]
    rw [this, CilDeny.flatItem]
    exact map_step ok tab kind x y cond ms
  | .set n l => by
    have : expandItem db tab kind x y cond (.set n l) = expand db tab kind x y cond l := by funext st; rw [expandItem]
    rw [this, CilDeny.flatItem]
    exact expand_step ok tab kind x y cond l
theorem map_step {db : Db} (ok : DbOk db) (tab : List Sym) (kind : Kind) (x y : Sym) (cond : Option Branch) :
    ∀ l : List MP, Step (expandMap db tab kind x y cond l) (Adds db tab kind x y cond (CilDeny.flatMap l))
  | [] => by
    have : expandMap db tab kind x y cond [] = fun st => some st := by funext st; rw [expandMap]
    rw [this]
    exact step_skip.congr fun c k b _ _ => by simp [CilDeny.flatMap, adds_nil]
  | .mk n l :: ms => by
    have : expandMap db tab kind x y cond (.mk n l :: ms) = fun st =>
        match expand db tab kind x y cond l st with | none => none | some st => expandMap db tab kind x y cond ms st := by
      funext st; rw [expandMap]; cases expand db tab kind x y cond l st <;> rfl
    rw [this]
    refine (step_seq (expand_step ok tab kind x y cond l) (map_step ok tab kind x y cond ms)).congr fun c k b _ _ => ?_
    rw [CilDeny.flatMap, adds_append]
end

/-- The pairs of symbols for which a rule is compiled. -/
def Emits (db : Db) (src : Sym) (tgt : Target) (x y : Sym) : Prop :=
  match tgt with
  | .self => ∃ s, src.Mem db s ∧ x = .type s ∧ y = .type s
  | .notself => ∃ s t, src.Mem db s ∧ t < db.numTypes ∧ s ≠ t ∧ x = .type s ∧ y = .type t
  | .other => ∃ s t, src.Mem db s ∧ src.Mem db t ∧ s ≠ t ∧ x = .type s ∧ y = .type t
  | .sym z =>
    (if shouldExpand db src then ∃ s, src.Mem db s ∧ x = .type s else x = src) ∧
    (if shouldExpand db z then ∃ t, z.Mem db t ∧ y = .type t else y = z)

theorem emits_iff {db : Db} {src : Sym} {tgt : Target} {s t : Nat} :
    Covers db src tgt s t ↔ ∃ x y, Emits db src tgt x y ∧ x.Mem db s ∧ y.Mem db t := by
  cases tgt with
  | self =>
    constructor
    · rintro ⟨h1, rfl⟩; exact ⟨_, _, ⟨_, h1, rfl, rfl⟩, rfl, rfl⟩
    · rintro ⟨x, y, ⟨s', h1, rfl, rfl⟩, rfl, rfl⟩; exact ⟨h1, rfl⟩
  | notself =>
    constructor
    · rintro ⟨h1, h2, h3⟩; exact ⟨_, _, ⟨s, t, h1, h2, h3.symm, rfl, rfl⟩, rfl, rfl⟩
    · rintro ⟨x, y, ⟨s', t', h1, h2, h3, rfl, rfl⟩, rfl, rfl⟩; exact ⟨h1, h2, h3.symm⟩
  | other =>
    constructor
    · rintro ⟨h1, h2, h3⟩; exact ⟨_, _, ⟨s, t, h1, h2, h3.symm, rfl, rfl⟩, rfl, rfl⟩
    · rintro ⟨x, y, ⟨s', t', h1, h2, h3, rfl, rfl⟩, rfl, rfl⟩; exact ⟨h1, h2, h3.symm⟩
  | sym z =>
    have key : ∀ (w : Sym) (u : Nat), w.Mem db u ↔
        ∃ x, (if shouldExpand db w then ∃ s, w.Mem db s ∧ x = .type s else x = w) ∧ x.Mem db u := by
      intro w u
      split
      · constructor
        · exact fun h => ⟨.type u, ⟨u, h, rfl⟩, rfl⟩
        · rintro ⟨x, ⟨s, h, rfl⟩, rfl⟩; exact h
      · constructor
        · exact fun h => ⟨w, rfl, h⟩
        · rintro ⟨x, rfl, h⟩; exact h
    constructor
    · rintro ⟨h1, h2⟩
      obtain ⟨x, h3, h4⟩ := (key _ _).1 h1
      obtain ⟨y, h5, h6⟩ := (key _ _).1 h2
      exact ⟨x, y, ⟨h3, h5⟩, h4, h6⟩
    · rintro ⟨x, y, ⟨h3, h5⟩, h4, h6⟩
      exact ⟨(key _ _).2 ⟨x, h3, h4⟩, (key _ _).2 ⟨y, h5, h6⟩⟩

/-- What the rule adds. -/
def RuleAdds (db : Db) (tab : List Sym) (r : AvRule) : Pred :=
  fun c k b => ¬ (r.kind = .dontaudit ∧ db.disableDontaudit = true) ∧
    ∃ x y, Emits db r.src r.tgt x y ∧ Adds db tab r.kind x y r.cond (CilDeny.flat r.perms) c k b

theorem avrule_step {db : Db} (ok : DbOk db) (tab : List Sym) (r : AvRule) (hs : r.src.Ok db) (ht : ∀ y, r.tgt = .sym y → y.Ok db) :
    Step (avruleToAvtab db tab r) (RuleAdds db tab r) := by
  by_cases hd : r.kind = .dontaudit ∧ db.disableDontaudit = true
  · have : avruleToAvtab db tab r = fun st => some st := by funext st; simp only [avruleToAvtab, if_pos hd]
    rw [this]
    exact step_skip.congr fun c k b _ _ => by simp [RuleAdds, hd]
  · obtain ⟨ss, hss, hms⟩ := expandType_ok ok hs
    have hgo := fun x y => expand_step ok tab r.kind x y r.cond r.perms
    have hne : ∀ s t, Step (fun st => if s ≠ t then expand db tab r.kind (.type s) (.type t) r.cond r.perms st else some st)
        (fun c k b => s ≠ t ∧ Adds db tab r.kind (.type s) (.type t) r.cond (CilDeny.flat r.perms) c k b) := by
      intro s t
      by_cases h : s ≠ t
      · simp only [if_pos h]
        exact (hgo _ _).congr fun c k b _ _ => by simp [h]
      · simp only [if_neg h]
        exact step_skip.congr fun c k b _ _ => by simp [h]
    cases htg : r.tgt with
    | self =>
      have : avruleToAvtab db tab r = forM (fun s => expand db tab r.kind (.type s) (.type s) r.cond r.perms) ss := by
        funext st; simp only [avruleToAvtab, if_neg hd, htg, hss, Option.bind_some]
      rw [this]
      refine (step_forM (N := fun s => Adds db tab r.kind (.type s) (.type s) r.cond (CilDeny.flat r.perms))
        fun s _ => hgo _ _).congr fun c k b _ _ => ?_
      simp only [RuleAdds, hd, htg, Emits, hms, not_false_eq_true, true_and]
      constructor
      · rintro ⟨s, h1, h2⟩; exact ⟨_, _, ⟨s, h1, rfl, rfl⟩, h2⟩
      · rintro ⟨_, _, ⟨s, h1, rfl, rfl⟩, h2⟩; exact ⟨s, h1, h2⟩
    | notself =>
      have : avruleToAvtab db tab r = forM (fun s => forM (fun t st =>
          if s ≠ t then expand db tab r.kind (.type s) (.type t) r.cond r.perms st else some st) (List.range db.numTypes)) ss := by
        funext st; simp only [avruleToAvtab, if_neg hd, htg, hss, Option.bind_some]
      rw [this]
      refine (step_forM (N := fun s c k b => ∃ t ∈ List.range db.numTypes,
        s ≠ t ∧ Adds db tab r.kind (.type s) (.type t) r.cond (CilDeny.flat r.perms) c k b)
        fun s _ => step_forM fun t _ => hne s t).congr fun c k b _ _ => ?_
      simp only [RuleAdds, hd, htg, Emits, hms, not_false_eq_true, true_and, List.mem_range]
      constructor
      · rintro ⟨s, h1, t, h2, h3, h4⟩; exact ⟨_, _, ⟨s, t, h1, h2, h3, rfl, rfl⟩, h4⟩
      · rintro ⟨_, _, ⟨s, t, h1, h2, h3, rfl, rfl⟩, h4⟩; exact ⟨s, h1, t, h2, h3, h4⟩
    | other =>
      have : avruleToAvtab db tab r = forM (fun s => forM (fun t st =>
          if s ≠ t then expand db tab r.kind (.type s) (.type t) r.cond r.perms st else some st) ss) ss := by
        funext st; simp only [avruleToAvtab, if_neg hd, htg, hss, Option.bind_some]
      rw [this]
      refine (step_forM (N := fun s c k b => ∃ t ∈ ss,
        s ≠ t ∧ Adds db tab r.kind (.type s) (.type t) r.cond (CilDeny.flat r.perms) c k b)
        fun s _ => step_forM fun t _ => hne s t).congr fun c k b _ _ => ?_
      simp only [RuleAdds, hd, htg, Emits, hms, not_false_eq_true, true_and]
      constructor
      · rintro ⟨s, h1, t, h2, h3, h4⟩; exact ⟨_, _, ⟨s, t, h1, h2, h3, rfl, rfl⟩, h4⟩
      · rintro ⟨_, _, ⟨s, t, h1, h2, h3, rfl, rfl⟩, h4⟩; exact ⟨s, h1, t, h2, h3, h4⟩
    | sym z =>
      obtain ⟨ts, hts, hmt⟩ := expandType_ok ok (ht z htg)
      cases he1 : shouldExpand db r.src <;> cases he2 : shouldExpand db z
      · have : avruleToAvtab db tab r = expand db tab r.kind r.src z r.cond r.perms := by
          funext st; simp only [avruleToAvtab, if_neg hd, htg, he1, he2]
        rw [this]
        refine (hgo _ _).congr fun c k b _ _ => ?_
        simp only [RuleAdds, hd, htg, Emits, he1, he2, not_false_eq_true, true_and, Bool.false_eq_true, if_false]
        constructor
        · exact fun h => ⟨_, _, ⟨rfl, rfl⟩, h⟩
        · rintro ⟨_, _, ⟨rfl, rfl⟩, h⟩; exact h
      · have : avruleToAvtab db tab r = forM (fun t => expand db tab r.kind r.src (.type t) r.cond r.perms) ts := by
          funext st; simp only [avruleToAvtab, if_neg hd, htg, he1, he2, hts, Option.bind_some]
        rw [this]
        refine (step_forM (N := fun t => Adds db tab r.kind r.src (.type t) r.cond (CilDeny.flat r.perms))
          fun s _ => hgo _ _).congr fun c k b _ _ => ?_
        simp only [RuleAdds, hd, htg, Emits, he1, he2, hmt, not_false_eq_true, true_and, if_true, Bool.false_eq_true, if_false]
        constructor
        · rintro ⟨t, h1, h2⟩; exact ⟨_, _, ⟨rfl, t, h1, rfl⟩, h2⟩
        · rintro ⟨_, _, ⟨rfl, t, h1, rfl⟩, h2⟩; exact ⟨t, h1, h2⟩
      · have : avruleToAvtab db tab r = forM (fun s => expand db tab r.kind (.type s) z r.cond r.perms) ss := by
          funext st; simp only [avruleToAvtab, if_neg hd, htg, he1, he2, hss, Option.bind_some]
        rw [this]
        refine (step_forM (N := fun s => Adds db tab r.kind (.type s) z r.cond (CilDeny.flat r.perms))
          fun s _ => hgo _ _).congr fun c k b _ _ => ?_
        simp only [RuleAdds, hd, htg, Emits, he1, he2, hms, not_false_eq_true, true_and, if_true, Bool.false_eq_true, if_false]
        constructor
        · rintro ⟨s, h1, h2⟩; exact ⟨_, _, ⟨⟨s, h1, rfl⟩, rfl⟩, h2⟩
        · rintro ⟨_, _, ⟨⟨s, h1, rfl⟩, rfl⟩, h2⟩; exact ⟨s, h1, h2⟩
      · have : avruleToAvtab db tab r =
            forM (fun s => forM (fun t => expand db tab r.kind (.type s) (.type t) r.cond r.perms) ts) ss := by
          funext st; simp only [avruleToAvtab, if_neg hd, htg, he1, he2, hss, hts, Option.bind_some]
        rw [this]
        refine (step_forM (N := fun s c k b => ∃ t ∈ ts, Adds db tab r.kind (.type s) (.type t) r.cond (CilDeny.flat r.perms) c k b)
          fun s _ => step_forM fun t _ => hgo _ _).congr fun c k b _ _ => ?_
        simp only [RuleAdds, hd, htg, Emits, he1, he2, hms, hmt, not_false_eq_true, true_and, if_true]
        constructor
        · rintro ⟨s, h1, t, h2, h3⟩; exact ⟨_, _, ⟨⟨s, h1, rfl⟩, t, h2, rfl⟩, h3⟩
        · rintro ⟨_, _, ⟨⟨s, h1, rfl⟩, t, h2, rfl⟩, h3⟩; exact ⟨s, h1, t, h2, h3⟩

/-! ### Type rules -/

/-- A type rule for a key: the access vector rules stay. -/
theorem insertTypeRule_inv {st st' : State} {G : Pred} {T : Option Branch → Key → BitVec 32 → Prop} (h : Inv st G T) {kind : TKind}
    {src tgt obj res : Nat} {cond : Option Branch} (he : insertTypeRule st kind src tgt obj res cond = some st') :
    st' = st ∨ Inv st' G (fun c k d => T c k d ∨ (c = cond ∧ k = key src tgt obj kind.spec ∧ d = BitVec.ofNat 32 res)) := by
  obtain ⟨log, clog, hsh, hav, hty⟩ := h
  have hk : TyK (key src tgt obj kind.spec).specified := by
    cases kind
    · exact Or.inl rfl
    · exact Or.inr (Or.inl rfl)
    · exact Or.inr (Or.inr rfl)
  have hcond : ∀ b, condInsertRule st (key src tgt obj kind.spec) ⟨BitVec.ofNat 32 res, none⟩ b = some st' →
      Inv st' G (fun c k d => T c k d ∨ (c = some b ∧ k = key src tgt obj kind.spec ∧ d = BitVec.ofNat 32 res)) := by
    intro b hb
    obtain ⟨st2, h1, h2, h3⟩ := condInsert_shape hsh (d := BitVec.ofNat 32 res) b (Or.inr hk)
    rw [h1] at hb
    cases hb
    refine ⟨log, _, h2, ?_, ?_⟩
    · intro c k b' hk' hb'
      rw [← hav c k b' hk' hb']
      simp only [h3]
      constructor
      · rintro ⟨n, h4 | ⟨-, rfl⟩, h5, h6⟩
        · exact ⟨n, h4, h5, h6⟩
        · subst h5; exact absurd hk (avK_not_tyK hk')
      · rintro ⟨n, h4, h5⟩; exact ⟨n, Or.inl h4, h5⟩
    · intro c k d hk'
      simp only [← hty c k d hk', h3, Node.mk.injEq, Datum.mk.injEq, and_true]
  unfold insertTypeRule at he
  simp only at he
  rcases search_te hsh (Or.inr hk) with ⟨h1, h2⟩ | ⟨d, h1, h2⟩
  · simp only [h1] at he
    cases cond with
    | none =>
      obtain ⟨te, h3, h4⟩ := insert_shape hsh (d := BitVec.ofNat 32 res) (Or.inr hk) h2
      simp only [h3, Option.some.injEq] at he
      subst he
      refine Or.inr ⟨_, _, h4, ?_, ?_⟩
      · intro c k b hk' hb
        simp only [← hav c k b hk' hb]
        cases c with
        | none =>
          simp only [Entry, List.mem_cons]
          constructor
          · rintro ⟨n, rfl | h5, h6, h7⟩
            · subst h6; exact absurd hk (avK_not_tyK hk')
            · exact ⟨n, h5, h6, h7⟩
          · rintro ⟨n, h5, h6⟩; exact ⟨n, Or.inr h5, h6⟩
        | some b' => simp [Entry]
      · intro c k d hk'
        simp only [← hty c k d hk']
        cases c with
        | none =>
          simp only [Entry, List.mem_cons, Node.mk.injEq, Datum.mk.injEq, and_true, true_and]
          exact or_comm
        | some b' => simp [Entry]
    | some b =>
      simp only at he
      split at he
      · exact Or.inr (hcond b he)
      · split at he
        · exact Or.inr (hcond b he)
        · split at he
          · cases he
          · split at he
            · cases he; exact Or.inl rfl
            · exact Or.inr (hcond b he)
  · simp only [h1] at he
    split at he
    · cases he
    · cases he; exact Or.inl rfl

/-- `f` leaves the access vector rules as they are. -/
def Keeps (f : State → Option State) : Prop := ∀ st G T, Inv st G T → ∀ st', f st = some st' → ∃ T', Inv st' G T'

theorem keeps_forM {α : Type} {f : α → State → Option State} {l : List α} (h : ∀ x ∈ l, Keeps (f x)) : Keeps (forM f l) := by
  induction l with
  | nil => intro st G T hi st' he; cases he; exact ⟨T, hi⟩
  | cons x l ih =>
    intro st G T hi st' he
    unfold forM at he
    split at he
    · cases he
    · rename_i st1 e1
      obtain ⟨T1, h1⟩ := h x (by simp) st G T hi st1 e1
      exact ih (fun y hy => h y (List.mem_cons_of_mem _ hy)) st1 G T1 h1 st' he

theorem keeps_bind {α : Type} {o : Option α} {f : α → State → Option State} (h : ∀ x, Keeps (f x)) :
    Keeps (fun st => o.bind fun x => f x st) := by
  intro st G T hi st' he
  cases o with
  | none => cases he
  | some x => exact h x st G T hi st' he

theorem typeHelper_keeps (db : Db) (kind : TKind) (sv tv rv : Nat) (cond : Option Branch) (classes : List Nat) :
    Keeps (typeRuleHelper db kind sv tv rv cond classes) := by
  apply keeps_forM
  intro c _
  apply keeps_bind
  intro cv st G T hi st' he
  rcases insertTypeRule_inv hi he with rfl | h
  · exact ⟨T, hi⟩
  · exact ⟨_, h⟩

theorem typeRule_keeps (db : Db) (tab : List Sym) (r : TypeRule) : Keeps (typeRuleToAvtab db tab r) := by
  unfold typeRuleToAvtab
  apply keeps_bind
  intro ss
  apply keeps_bind
  intro rv
  cases r.tgt with
  | none =>
    apply keeps_forM
    intro s _
    apply keeps_bind
    intro sv
    exact typeHelper_keeps _ _ _ _ _ _ _
  | some tgt =>
    apply keeps_bind
    intro ts
    apply keeps_forM
    intro s _
    apply keeps_bind
    intro sv
    apply keeps_forM
    intro t _
    apply keeps_bind
    intro tv
    exact typeHelper_keeps _ _ _ _ _ _ _

/-! ### All rules -/

/-- What all access vector rules add. -/
def AllAdds (db : Db) (tab : List Sym) (rules : List Rule) : Pred :=
  fun c k b => ∃ r, Rule.av r ∈ rules ∧ RuleAdds db tab r c k b

theorem neverallow_adds {db : Db} {tab : List Sym} {r : AvRule} (h : r.kind = .neverallow) (c : Option Branch) (k : Key) (b : Nat) :
    ¬ RuleAdds db tab r c k b := by
  rintro ⟨-, x, y, -, -, h2, -⟩
  rw [h] at h2
  cases h2

theorem rules_inv {db : Db} (ok : DbOk db) (tab : List Sym) {decls : List Sym} (hd : ∀ x ∈ decls, x.Ok db) {rules : List Rule}
    (hr : ∀ r ∈ rules, Rule.Ok decls r) {st st' : State} {G : Pred}
    {T : Option Branch → Key → BitVec 32 → Prop} (h : Inv st G T) (he : forM (ruleToPolicydb db tab) rules st = some st') :
    ∃ T', Inv st' (fun c k b => G c k b ∨ AllAdds db tab rules c k b) T' := by
  induction rules generalizing st G T with
  | nil =>
    cases he
    exact ⟨T, h.congr (fun c k b _ _ => by simp [AllAdds]) fun _ _ _ _ => Iff.rfl⟩
  | cons r rules ih =>
    unfold forM at he
    split at he
    · cases he
    rename_i st1 e1
    have hr' : ∀ r ∈ rules, Rule.Ok decls r := fun r hx => hr r (List.mem_cons_of_mem _ hx)
    cases r with
    | av r =>
      have hok := hr (.av r) (by simp)
      have h1 : Inv st1 (fun c k b => G c k b ∨ RuleAdds db tab r c k b) T := by
        unfold ruleToPolicydb at e1
        simp only at e1
        split at e1
        · rename_i hn
          cases e1
          exact h.congr (fun c k b _ _ => by simp [neverallow_adds hn.1]) fun _ _ _ _ => Iff.rfl
        · exact avrule_step ok tab r (hd _ hok.1) (fun y hy => hd y (hok.2 y hy)) st G T h st1 e1
      obtain ⟨T', h2⟩ := ih hr' h1 he
      refine ⟨T', h2.congr (fun c k b _ _ => ?_) fun _ _ _ _ => Iff.rfl⟩
      unfold AllAdds
      simp only [List.mem_cons, Rule.av.injEq]
      constructor
      · rintro ((h | h) | ⟨r', h, h'⟩)
        · exact Or.inl h
        · exact Or.inr ⟨r, Or.inl rfl, h⟩
        · exact Or.inr ⟨r', Or.inr h, h'⟩
      · rintro (h | ⟨r', rfl | h, h'⟩)
        · exact Or.inl (Or.inl h)
        · exact Or.inl (Or.inr h')
        · exact Or.inr ⟨r', h, h'⟩
    | type r =>
      obtain ⟨T1, h1⟩ := typeRule_keeps db tab r st G T h st1 e1
      obtain ⟨T', h2⟩ := ih hr' h1 he
      refine ⟨T', h2.congr (fun c k b _ _ => ?_) fun _ _ _ _ => Iff.rfl⟩
      simp [AllAdds]

theorem compile_inv {db : Db} (ok : DbOk db) {decls : List Sym} {rules : List Rule} (hk : Complete db decls rules) {P : Policy}
    (hc : compile db decls rules = some P) :
    declare db decls [] = some P.tab ∧ attrMap db P.tab decls (mapInit P.tab.length) = some P.map ∧
      ∃ T, Inv P.rules (AllAdds db P.tab rules) T := by
  unfold compile at hc
  obtain ⟨tab, h1, hc⟩ := Option.bind_eq_some_iff.1 hc
  obtain ⟨map, h2, hc⟩ := Option.bind_eq_some_iff.1 hc
  obtain ⟨st, h3, hc⟩ := Option.bind_eq_some_iff.1 hc
  obtain ⟨st', h4, hc⟩ := Option.bind_eq_some_iff.1 hc
  cases hc
  refine ⟨h1, h2, ?_⟩
  obtain ⟨T1, i1⟩ := rules_inv ok tab hk.syms (fun r hx => hk.rules r (List.mem_filter.1 hx).1) start_inv h3
  obtain ⟨T2, i2⟩ := rules_inv ok tab hk.syms (fun r hx => hk.rules r (List.mem_filter.1 hx).1) i1 h4
  refine ⟨T2, i2.congr (fun c k b _ _ => ?_) fun _ _ _ _ => Iff.rfl⟩
  simp only [AllAdds, List.mem_filter, Rule.second]
  simp

end Verif.CilBin
