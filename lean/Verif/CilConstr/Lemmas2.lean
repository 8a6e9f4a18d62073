import Verif.CilConstr.Lemmas

/-! Lemmas: names and the expressions of the policy. -/

namespace Verif.CilConstr
open Ebitmap (Ebitmap)
open CilCond (Tree)
open CilDeny (BOk)
open Policy
open Services (Field Who Levels Rel CExpr Postfix Denotes Atom CtxOk)

/-! ### Names -/

theorem setNames_ok {val : Nat → Option Nat} (hv : ∀ i v, val i = some v → 1 ≤ v ∧ v < 2 ^ 31) : ∀ (l : List Nat) {e : Ebitmap} {S : Nat → Prop},
    BOk e S → (∀ i ∈ l, ∃ v, val i = some v) →
    ∃ e', setNames val l e = some e' ∧ BOk e' fun n => S n ∨ ∃ i ∈ l, val i = some (n + 1)
  | [], e, S, he, _ => ⟨e, rfl, he.congr fun n => by simp⟩
  | i :: l, e, S, he, h => by
    obtain ⟨v, h1⟩ := h i (by simp)
    obtain ⟨v1, v2⟩ := hv i v h1
    obtain ⟨e1, h2, h3⟩ := CilBin.setTrue_ok he (v := v - 1) (by omega)
    obtain ⟨e', h4, h5⟩ := setNames_ok hv l h3 fun j hj => h j (List.mem_cons_of_mem _ hj)
    refine ⟨e', by rw [setNames, h1, Option.bind_some, h2, Option.bind_some, h4], h5.congr fun n => ?_⟩
    simp only [List.mem_cons, exists_eq_or_imp, h1, Option.some.injEq, or_assoc]
    have : n = v - 1 ↔ v = n + 1 := by omega
    rw [this]

theorem setNames_known {val : Nat → Option Nat} : ∀ {l : List Nat} {e e' : Ebitmap}, setNames val l e = some e' →
    ∀ i ∈ l, ∃ v, val i = some v
  | [], _, _, _, i, hi => by cases hi
  | j :: l, e, e', h, i, hi => by
    rw [setNames] at h
    cases hj : val j with
    | none => rw [hj] at h; cases h
    | some v =>
      rw [hj, Option.bind_some] at h
      cases h1 : Ebitmap.setBit e (v - 1) true with
      | none => rw [h1] at h; cases h
      | some e1 =>
        rw [h1, Option.bind_some] at h
        rcases List.mem_cons.1 hi with rfl | hi
        · exact ⟨v, hj⟩
        · exact setNames_known h i hi

theorem expandDatum_ok {d : Datum} (hd : d.Ok) : ∃ l, (expandDatum d).bind CilBin.bits = some l ∧ ∀ i, i ∈ l ↔ d.Mem i := by
  cases d with
  | one j =>
    obtain ⟨e, h1, h2⟩ := CilBin.setTrue_ok CilDeny.init_ok (v := j) hd
    obtain ⟨l, h3, h4⟩ := CilBin.bits_ok h2
    exact ⟨l, by rw [expandDatum, h1, Option.bind_some, h3], fun i => by rw [h4]; simp [Datum.Mem]⟩
  | attr m k v =>
    have : BOk (Ebitmap.cpy m) (Datum.attr m k v).Mem := by
      rw [Ebitmap.cpy_eq]; exact ⟨hd.1, fun _ => Iff.rfl⟩
    obtain ⟨l, h3, h4⟩ := CilBin.bits_ok this
    exact ⟨l, by rw [expandDatum, Option.bind_some, h3], h4⟩

/-- The symbol itself has value `v` as a type or attribute of the policy. -/
def Datum.IsType (db : Db) : Datum → Nat → Prop
  | .one i, v => db.type i = some v
  | .attr _ _ a, v => a = some v

theorem setTypeName_ok {db : Db} (hv : ∀ i v, db.type i = some v → 1 ≤ v ∧ v < 2 ^ 31) {d : Datum} (hd : d.Ok)
    (h1 : ∀ i, d.Mem i → ∃ v, db.type i = some v) (h2 : ∀ m, d ≠ .attr m true none) {ts : Services.TypeSet} {S : Nat → Prop}
    (hs : BOk ts.types S) :
    ∃ ts', setTypeName db d ts = some ts' ∧ ts'.negset = ts.negset ∧ ts'.flags = ts.flags ∧
      BOk ts'.types fun n => S n ∨ db.withNames = true ∧ d.IsType db (n + 1) := by
  unfold setTypeName
  by_cases hw : db.withNames = true
  · simp only [hw, Bool.not_true, Bool.false_eq_true, if_false, true_and]
    have set : ∀ v, 1 ≤ v ∧ v < 2 ^ 31 → ∃ ts', (Ebitmap.setBit ts.types (v - 1) true).map (fun e => { ts with types := e }) = some ts' ∧
        ts'.negset = ts.negset ∧ ts'.flags = ts.flags ∧ BOk ts'.types fun n => S n ∨ v = n + 1 := by
      intro v h
      obtain ⟨e, e1, e2⟩ := CilBin.setTrue_ok hs (v := v - 1) (by omega)
      refine ⟨{ ts with types := e }, by rw [e1]; rfl, rfl, rfl, e2.congr fun n => ?_⟩
      have : n = v - 1 ↔ v = n + 1 := by omega
      rw [this]
    cases d with
    | one i =>
      obtain ⟨v, h3⟩ := h1 i rfl
      obtain ⟨ts', t1, t2, t3, t4⟩ := set v (hv i v h3)
      exact ⟨ts', by simp only [h3, Option.bind_some, t1], t2, t3, t4.congr fun n => by simp [Datum.IsType, h3]⟩
    | attr m k a =>
      cases a with
      | none =>
        cases k with
        | true => exact absurd rfl (h2 m)
        | false => exact ⟨ts, rfl, rfl, rfl, hs.congr fun n => by simp [Datum.IsType]⟩
      | some v =>
        obtain ⟨ts', t1, t2, t3, t4⟩ := set v (hd.2.2 v rfl)
        exact ⟨ts', t1, t2, t3, t4.congr fun n => by simp [Datum.IsType]⟩
  · simp only [hw, Bool.not_false, if_true, false_and, or_false]
    exact ⟨ts, rfl, rfl, rfl, hs.congr fun n => by simp⟩

/-- A symbol can be looked up. -/
def Datum.Known (db : Db) (f : Field) (d : Datum) : Prop :=
  (∀ i, d.Mem i → ∃ v, db.value (fieldFlavor f) i = some v) ∧ ∀ m, d = .attr m true none → f = .type → db.withNames = false

/-- The node has the names that `S` says and the types `T`. -/
structure HasNames (e : CExpr) (S T : Nat → Prop) : Prop where
  names : BOk e.names S
  types : BOk e.typeNames.types T
  negset : e.typeNames.negset = Ebitmap.init
  flags : e.typeNames.flags = 0

theorem datumToSepol_ok {db : Db} (hv : ∀ f i v, db.value f i = some v → 1 ≤ v ∧ v < 2 ^ 31) {f : Field} {d : Datum} (hd : d.Ok)
    (hk : d.Known db f) {e : CExpr} {S T : Nat → Prop} (he : HasNames e S T) :
    ∃ e', datumToSepol db (fieldFlavor f) d e = some e' ∧ e'.attr = e.attr ∧ e'.op = e.op ∧ e'.exprType = e.exprType ∧
      HasNames e' (fun n => S n ∨ ∃ i, d.Mem i ∧ db.value (fieldFlavor f) i = some (n + 1))
        (fun n => T n ∨ f = .type ∧ db.withNames = true ∧ d.IsType db (n + 1)) := by
  obtain ⟨l, h1, h2⟩ := expandDatum_ok hd
  obtain ⟨ns, h3, h4⟩ := setNames_ok (hv (fieldFlavor f)) l he.names fun i hi => hk.1 i ((h2 i).1 hi)
  have h4 : BOk ns (fun n => S n ∨ ∃ i, d.Mem i ∧ db.value (fieldFlavor f) i = some (n + 1)) :=
    h4.congr fun n => by simp only [h2]
  unfold datumToSepol
  cases f with
  | user =>
    refine ⟨{ e with names := ns }, by simp only [fieldFlavor] at h3 ⊢; simp only [h1, Option.bind_some, h3, Option.map_some], rfl, rfl, rfl,
      h4, he.types.congr fun n => by simp, he.negset, he.flags⟩
  | role =>
    refine ⟨{ e with names := ns }, by simp only [fieldFlavor] at h3 ⊢; simp only [h1, Option.bind_some, h3, Option.map_some], rfl, rfl, rfl,
      h4, he.types.congr fun n => by simp, he.negset, he.flags⟩
  | type =>
    have hts : ∃ ts', setTypeName db d e.typeNames = some ts' ∧ ts'.negset = e.typeNames.negset ∧ ts'.flags = e.typeNames.flags ∧
        BOk ts'.types fun n => T n ∨ db.withNames = true ∧ d.IsType db (n + 1) := by
      by_cases hw : db.withNames = true
      · exact setTypeName_ok (hv .type) hd hk.1 (fun m hm => by have := hk.2 m hm rfl; rw [hw] at this; cases this) he.types
      · unfold setTypeName
        simp only [hw, Bool.not_false, if_true]
        exact ⟨_, rfl, rfl, rfl, he.types.congr fun n => by simp⟩
    obtain ⟨ts', t1, t2, t3, t4⟩ := hts
    refine ⟨{ e with names := ns, typeNames := ts' }, ?_, rfl, rfl, rfl, h4, t4.congr fun n => by simp, t2.trans he.negset, t3.trans he.flags⟩
    simp only [fieldFlavor] at h3 ⊢
    simp only [t1, h1, Option.bind_some, h3, Option.map_some]

theorem datumToSepol_known {db : Db} {f : Field} {d : Datum} (hd : d.Ok) {e e' : CExpr}
    (h : datumToSepol db (fieldFlavor f) d e = some e') : d.Known db f := by
  obtain ⟨l, h1, h2⟩ := expandDatum_ok hd
  unfold datumToSepol at h
  have key : ∀ {n n'}, setNames (db.value (fieldFlavor f)) l n = some n' → ∀ i, d.Mem i → ∃ v, db.value (fieldFlavor f) i = some v :=
    fun hs i hi => setNames_known hs i ((h2 i).2 hi)
  cases f with
  | user =>
    simp only [fieldFlavor, h1, Option.bind_some] at h
    cases hs : setNames (db.value .user) l e.names with
    | none => rw [hs] at h; cases h
    | some n => exact ⟨key hs, fun _ _ hf => by cases hf⟩
  | role =>
    simp only [fieldFlavor, h1, Option.bind_some] at h
    cases hs : setNames (db.value .role) l e.names with
    | none => rw [hs] at h; cases h
    | some n => exact ⟨key hs, fun _ _ hf => by cases hf⟩
  | type =>
    simp only [fieldFlavor] at h
    cases ht : setTypeName db d e.typeNames with
    | none => rw [ht] at h; cases h
    | some ts =>
      rw [ht, Option.bind_some, h1, Option.bind_some] at h
      cases hs : setNames (db.value .type) l e.names with
      | none => rw [hs] at h; cases h
      | some n =>
        refine ⟨key hs, ?_⟩
        rintro m rfl -
        by_cases hw : db.withNames = true
        · simp [setTypeName, hw] at ht
        · simpa using hw

theorem datumsToSepol_ok {db : Db} (hv : ∀ f i v, db.value f i = some v → 1 ≤ v ∧ v < 2 ^ 31) {f : Field} : ∀ (ds : List Datum),
    (∀ d ∈ ds, d.Ok) → (∀ d ∈ ds, d.Known db f) → ∀ {e : CExpr} {S T : Nat → Prop}, HasNames e S T →
    ∃ e', datumsToSepol db (fieldFlavor f) ds e = some e' ∧ e'.attr = e.attr ∧ e'.op = e.op ∧ e'.exprType = e.exprType ∧
      HasNames e' (fun n => S n ∨ ∃ d ∈ ds, ∃ i, d.Mem i ∧ db.value (fieldFlavor f) i = some (n + 1))
        (fun n => T n ∨ f = .type ∧ db.withNames = true ∧ ∃ d ∈ ds, d.IsType db (n + 1))
  | [], _, _, e, S, T, he => ⟨e, rfl, rfl, rfl, rfl, he.names.congr fun n => by simp, he.types.congr fun n => by simp, he.negset, he.flags⟩
  | d :: ds, hd, hk, e, S, T, he => by
    obtain ⟨e1, a1, a2, a3, a4, a5⟩ := datumToSepol_ok hv (hd d (by simp)) (hk d (by simp)) he
    obtain ⟨e2, b1, b2, b3, b4, b5⟩ := datumsToSepol_ok hv ds (fun x hx => hd x (List.mem_cons_of_mem _ hx))
      (fun x hx => hk x (List.mem_cons_of_mem _ hx)) a5
    refine ⟨e2, by rw [datumsToSepol, a1, Option.bind_some, b1], b2.trans a2, b3.trans a3, b4.trans a4,
      b5.names.congr fun n => ?_, b5.types.congr fun n => ?_, b5.negset, b5.flags⟩
    · simp only [List.mem_cons, exists_eq_or_imp, or_assoc]
    · simp only [List.mem_cons, exists_eq_or_imp]
      tauto

theorem datumsToSepol_known {db : Db} {f : Field} : ∀ {ds : List Datum} {e e' : CExpr}, (∀ d ∈ ds, d.Ok) →
    datumsToSepol db (fieldFlavor f) ds e = some e' → ∀ d ∈ ds, d.Known db f
  | [], _, _, _, _, d, hd => by cases hd
  | x :: ds, e, e', hok, h, d, hd => by
    rw [datumsToSepol] at h
    cases h1 : datumToSepol db (fieldFlavor f) x e with
    | none => rw [h1] at h; cases h
    | some e1 =>
      rw [h1, Option.bind_some] at h
      rcases List.mem_cons.1 hd with rfl | hd
      · exact datumToSepol_known (hok d (by simp)) h1
      · exact datumsToSepol_known (fun y hy => hok y (List.mem_cons_of_mem _ hy)) h d hd

/-! ### Looking up names -/

theorem resolveNames_iff {look : String → Option Datum} : ∀ {l : List String} {ds : List Datum},
    resolveNames look l = some ds ↔ l.map look = ds.map some
  | [], ds => by
    rw [resolveNames]
    cases ds <;> simp
  | s :: l, ds => by
    rw [resolveNames]
    cases hs : look s with
    | none => cases ds <;> simp [hs]
    | some d =>
      rw [Option.bind_some]
      cases ds with
      | nil =>
        cases hr : resolveNames look l <;> simp
      | cons d' ds =>
        rw [List.map_cons, List.map_cons, List.cons.injEq, hs, ← resolveNames_iff]
        cases hr : resolveNames look l <;> simp

theorem resolveNames_mem {look : String → Option Datum} {l : List String} {ds : List Datum} (h : resolveNames look l = some ds) (d : Datum) :
    d ∈ ds ↔ ∃ s ∈ l, look s = some d := by
  rw [resolveNames_iff] at h
  have : some d ∈ l.map look ↔ some d ∈ ds.map some := by rw [h]
  simp only [List.mem_map, Option.some.injEq, exists_eq_right] at this
  exact this.symm

theorem resolveNames_total {look : String → Option Datum} {l : List String} (h : ∀ s ∈ l, ∃ d, look s = some d) :
    ∃ ds, resolveNames look l = some ds := by
  induction l with
  | nil => exact ⟨[], rfl⟩
  | cons s l ih =>
    obtain ⟨d, h1⟩ := h s (by simp)
    obtain ⟨ds, h2⟩ := ih fun x hx => h x (List.mem_cons_of_mem _ hx)
    exact ⟨d :: ds, by rw [resolveNames, h1, Option.bind_some, h2, Option.map_some]⟩

theorem resolveNames_found {look : String → Option Datum} {l : List String} {ds : List Datum} (h : resolveNames look l = some ds)
    {s : String} (hs : s ∈ l) : ∃ d ∈ ds, look s = some d := by
  rw [resolveNames_iff] at h
  have : look s ∈ l.map look := List.mem_map_of_mem hs
  rw [h, List.mem_map] at this
  obtain ⟨d, h1, h2⟩ := this
  exact ⟨d, h1, h2.symm⟩

end Verif.CilConstr
