import Verif.CilConstr.Lemmas3

/-! Lemmas: the lists of constraints. -/

namespace Verif.CilConstr
open CilCond (Tree)
open CilDeny (CP MP flat flatItem flatMap Perms perms_iff)
open Services (CExpr Constraint)

/-- What compiling the class permissions with an expression does. -/
structure Added (db : Db) (expr : Cons Datum) (ps : List (Nat × Nat)) (st st' : State) : Prop where
  vt : st'.vt = st.vt
  old : ∀ v k, k ∈ st.cons v → k ∈ st'.cons v
  new : ∀ v k, k ∈ st'.cons v → k ∈ st.cons v ∨ toSepol db expr = some k.expr ∧ validate k.expr (-1) = true ∧
    (∃ c p, (c, p) ∈ ps ∧ db.bin.classVal c = some v) ∧ ∀ b < 32, k.perms.getLsbD b = true → ∃ c p, (c, p) ∈ ps ∧ db.bin.classVal c = some v ∧ db.bin.permVal c p = some (b + 1)
  cover : ∀ c p, (c, p) ∈ ps → ∃ v b, db.bin.classVal c = some v ∧ db.bin.permVal c p = some (b + 1) ∧
    ∃ k ∈ st'.cons v, toSepol db expr = some k.expr ∧ validate k.expr (-1) = true ∧ k.perms.getLsbD b = true

theorem Added.refl {db : Db} {expr : Cons Datum} (st : State) : Added db expr [] st st :=
  ⟨rfl, fun _ _ h => h, fun _ _ h => .inl h, fun _ _ h => by cases h⟩

theorem Added.trans {db : Db} {expr : Cons Datum} {p1 p2 : List (Nat × Nat)} {s1 s2 s3 : State} (h1 : Added db expr p1 s1 s2)
    (h2 : Added db expr p2 s2 s3) : Added db expr (p1 ++ p2) s1 s3 where
  vt := h2.vt.trans h1.vt
  old := fun v k h => h2.old v k (h1.old v k h)
  new := by
    intro v k h
    rcases h2.new v k h with h | ⟨a, b, ⟨d, q, hd, hq⟩, c⟩
    · rcases h1.new v k h with h | ⟨a, b, ⟨d, q, hd, hq⟩, c⟩
      · exact .inl h
      · refine .inr ⟨a, b, ⟨d, q, List.mem_append_left _ hd, hq⟩, fun n hn hb => ?_⟩
        obtain ⟨x, y, h3, h4⟩ := c n hn hb
        exact ⟨x, y, List.mem_append_left _ h3, h4⟩
    · refine .inr ⟨a, b, ⟨d, q, List.mem_append_right _ hd, hq⟩, fun n hn hb => ?_⟩
      obtain ⟨x, y, h3, h4⟩ := c n hn hb
      exact ⟨x, y, List.mem_append_right _ h3, h4⟩
  cover := by
    intro c p h
    rcases List.mem_append.1 h with h | h
    · obtain ⟨v, b, a1, a2, k, a3, a4⟩ := h1.cover c p h
      exact ⟨v, b, a1, a2, k, h2.old v k a3, a4⟩
    · exact h2.cover c p h

theorem permsToDatum_known {db : CilBin.Db} {c : Nat} : ∀ {ps : List Nat} {d d' : BitVec 32}, CilBin.permsToDatum db c ps d = some d' →
    ∀ p ∈ ps, ∃ v, db.permVal c p = some v
  | [], _, _, _, p, hp => by cases hp
  | q :: ps, d, d', h, p, hp => by
    rw [CilBin.permsToDatum] at h
    cases hq : CilBin.permToDatum db c q d with
    | none => rw [hq] at h; cases h
    | some d1 =>
      rw [hq] at h
      rcases List.mem_cons.1 hp with rfl | hp
      · unfold CilBin.permToDatum at hq
        cases hv : db.permVal c p with
        | none => rw [hv] at hq; cases hq
        | some v => exact ⟨v, rfl⟩
      · exact permsToDatum_known h p hp

theorem constrainHelper_added {db : Db} (ok : CilBin.DbOk db.bin) {c : Nat} {ps : List Nat} {expr : Cons Datum} {st st' : State}
    (h : constrainHelper db c ps expr st = some st') : Added db expr (ps.map fun p => (c, p)) st st' := by
  unfold constrainHelper at h
  cases hc : db.bin.classVal c with
  | none => rw [hc] at h; cases h
  | some cv =>
    cases hp : CilBin.permsToDatum db.bin c ps 0#32 with
    | none => rw [hc, hp] at h; cases h
    | some perms =>
      simp only [hc, hp] at h
      have hbit : ∀ b < 32, perms.getLsbD b = true ↔ ∃ p ∈ ps, db.bin.permVal c p = some (b + 1) := by
        intro b hb
        rw [CilBin.permsToDatum_bit ok hp hb]
        simp
      have hval : ∀ p ∈ ps, ∃ b < 32, db.bin.permVal c p = some (b + 1) := by
        intro p hpm
        obtain ⟨v, hv⟩ := permsToDatum_known hp p hpm
        have := ok.perm c p v hv
        exact ⟨v - 1, by omega, by rw [hv, Nat.sub_add_cancel this.1]⟩
      split at h
      · rename_i hz
        cases h
        refine ⟨rfl, fun _ _ h => h, fun _ _ h => .inl h, fun c' p hm => ?_⟩
        obtain ⟨p', hp', he⟩ := List.mem_map.1 hm
        cases he
        obtain ⟨b, hb, hv⟩ := hval p hp'
        have := (hbit b hb).2 ⟨p, hp', hv⟩
        rw [hz] at this
        simp at this
      · rename_i hz
        have hne : ∃ p, p ∈ ps := by
          cases ps with
          | nil => rw [CilBin.permsToDatum] at hp; cases hp; exact absurd rfl hz
          | cons p l => exact ⟨p, List.mem_cons_self⟩
        obtain ⟨p0, hp0⟩ := hne
        cases hs : toSepol db expr with
        | none => rw [hs] at h; cases h
        | some l =>
          simp only [hs] at h
          split at h
          · cases h
          · rename_i hval'
            simp only [Bool.not_eq_true', Bool.not_eq_false] at hval'
            cases h
            refine ⟨rfl, ?_, ?_, ?_⟩
            · intro v k hk
              simp only
              split
              · exact List.mem_cons_of_mem _ hk
              · exact hk
            · intro v k hk
              simp only at hk
              split at hk
              · rename_i hvc
                subst hvc
                rcases List.mem_cons.1 hk with rfl | hk
                · refine .inr ⟨hs, hval', ⟨c, p0, List.mem_map.2 ⟨p0, hp0, rfl⟩, hc⟩, fun b hb hbb => ?_⟩
                  obtain ⟨p, h1, h2⟩ := (hbit b hb).1 hbb
                  exact ⟨c, p, List.mem_map.2 ⟨p, h1, rfl⟩, hc, h2⟩
                · exact .inl hk
              · exact .inl hk
            · intro c' p hm
              obtain ⟨p', hp', he⟩ := List.mem_map.1 hm
              cases he
              obtain ⟨b, hb, hv⟩ := hval p hp'
              refine ⟨cv, b, hc, hv, ⟨perms, l⟩, by simp, hs, hval', (hbit b hb).2 ⟨p, hp', hv⟩⟩

mutual
theorem constrainExpand_added {db : Db} (ok : CilBin.DbOk db.bin) {expr : Cons Datum} : ∀ (l : List CP) {st st' : State},
    constrainExpand db expr l st = some st' → Added db expr (flat l) st st'
  | [], st, st', h => by
    rw [constrainExpand] at h
    cases h
    rw [flat]
    exact .refl _
  | x :: xs, st, st', h => by
    rw [constrainExpand] at h
    cases h1 : constrainItem db expr x st with
    | none => rw [h1] at h; cases h
    | some s1 =>
      rw [h1, Option.bind_some] at h
      rw [flat]
      exact (constrainItem_added ok x h1).trans (constrainExpand_added ok xs h)
theorem constrainItem_added {db : Db} (ok : CilBin.DbOk db.bin) {expr : Cons Datum} : ∀ (x : CP) {st st' : State},
    constrainItem db expr x st = some st' → Added db expr (flatItem x) st st'
  | .cls c ps, st, st', h => by
    rw [constrainItem] at h
    rw [flatItem]
    exact constrainHelper_added ok h
  | .map _ ms, st, st', h => by
    rw [constrainItem] at h
    rw [flatItem]
    exact constrainMap_added ok ms h
  | .set _ l, st, st', h => by
    rw [constrainItem] at h
    rw [flatItem]
    exact constrainExpand_added ok l h
theorem constrainMap_added {db : Db} (ok : CilBin.DbOk db.bin) {expr : Cons Datum} : ∀ (ms : List MP) {st st' : State},
    constrainMap db expr ms st = some st' → Added db expr (flatMap ms) st st'
  | [], st, st', h => by
    rw [constrainMap] at h
    cases h
    rw [flatMap]
    exact .refl _
  | .mk _ l :: ms, st, st', h => by
    rw [constrainMap] at h
    cases h1 : constrainExpand db expr l st with
    | none => rw [h1] at h; cases h
    | some s1 =>
      rw [h1, Option.bind_some] at h
      rw [flatMap]
      exact (constrainExpand_added ok l h1).trans (constrainMap_added ok ms h)
end

/-! ### Classes of class maps -/

mutual
theorem mem_classesOf {c : Nat} : ∀ (l : List CP), c ∈ classesOf l ↔ ∃ x ∈ l, ListsClass c x
  | [] => by rw [classesOf]; simp
  | x :: xs => by rw [classesOf, List.mem_append, mem_classesOfItem x, mem_classesOf xs]; simp
theorem mem_classesOfItem {c : Nat} : ∀ (x : CP), c ∈ classesOfItem x ↔ ListsClass c x
  | .cls d ps => by
    rw [classesOfItem, List.mem_singleton]
    constructor
    · rintro rfl; exact .cls
    · intro h; cases h; rfl
  | .map m ms => by
    rw [classesOfItem, mem_classesOfMap ms]
    constructor
    · rintro ⟨n, l, h1, x, h2, h3⟩; exact .map h1 h2 h3
    · intro h; cases h with | map h1 h2 h3 => exact ⟨_, _, h1, _, h2, h3⟩
  | .set n l => by
    rw [classesOfItem, mem_classesOf l]
    constructor
    · rintro ⟨x, h1, h2⟩; exact .set h1 h2
    · intro h; cases h with | set h1 h2 => exact ⟨_, h1, h2⟩
theorem mem_classesOfMap {c : Nat} : ∀ (ms : List MP), c ∈ classesOfMap ms ↔ ∃ n l, .mk n l ∈ ms ∧ ∃ x ∈ l, ListsClass c x
  | [] => by rw [classesOfMap]; simp
  | .mk n l :: ms => by
    rw [classesOfMap, List.mem_append, mem_classesOf l, mem_classesOfMap ms]
    constructor
    · rintro (h | ⟨n', l', h1, h2⟩)
      · exact ⟨n, l, by simp, h⟩
      · exact ⟨n', l', List.mem_cons_of_mem _ h1, h2⟩
    · rintro ⟨n', l', h1, h2⟩
      rcases List.mem_cons.1 h1 with h1 | h1
      · cases h1; exact .inl h2
      · exact .inr ⟨n', l', h1, h2⟩
end

theorem mem_expandClass {r : ClassRef} {c : Nat} : c ∈ expandClass r ↔ r.Mem c := by
  cases r with
  | cls d => simp [expandClass, ClassRef.Mem]
  | map ms => exact mem_classesOfMap ms

/-- What compiling a `validatetrans` for a list of classes does. -/
structure AddedVt (db : Db) (expr : Cons Datum) (cs : List Nat) (st st' : State) : Prop where
  cons : st'.cons = st.cons
  old : ∀ v k, k ∈ st.vt v → k ∈ st'.vt v
  new : ∀ v k, k ∈ st'.vt v → k ∈ st.vt v ∨ toSepol db expr = some k.expr ∧ ∃ c ∈ cs, db.bin.classVal c = some v
  cover : ∀ c ∈ cs, ∃ v, db.bin.classVal c = some v ∧ ∃ k ∈ st'.vt v, toSepol db expr = some k.expr

theorem validatetransLoop_added {db : Db} {expr : Cons Datum} : ∀ (cs : List Nat) {st st' : State},
    validatetransLoop db expr cs st = some st' → AddedVt db expr cs st st'
  | [], st, st', h => by
    rw [validatetransLoop] at h
    cases h
    exact ⟨rfl, fun _ _ h => h, fun _ _ h => .inl h, fun _ h => by cases h⟩
  | c :: cs, st, st', h => by
    rw [validatetransLoop] at h
    cases hc : db.bin.classVal c with
    | none => rw [hc] at h; cases h
    | some cv =>
      cases he : toSepol db expr with
      | none => rw [hc, he] at h; cases h
      | some e =>
        simp only [hc, he] at h
        have ih := validatetransLoop_added cs h
        have hold : ∀ v k, k ∈ st.vt v → k ∈ (if v = cv then ⟨0#32, e⟩ :: st.vt v else st.vt v) := by
          intro v k hk
          split
          · exact List.mem_cons_of_mem _ hk
          · exact hk
        refine ⟨ih.cons, fun v k hk => ih.old v k (hold v k hk), fun v k hk => ?_, fun d hd => ?_⟩
        · rcases ih.new v k hk with hk' | ⟨h1, d, hd, h2⟩
          · simp only at hk'
            split at hk'
            · rename_i hv
              subst hv
              rcases List.mem_cons.1 hk' with rfl | hk'
              · exact .inr ⟨he, c, by simp, hc⟩
              · exact .inl hk'
            · exact .inl hk'
          · exact .inr ⟨h1, d, List.mem_cons_of_mem _ hd, h2⟩
        · rcases List.mem_cons.1 hd with rfl | hd
          · exact ⟨cv, hc, ⟨0#32, e⟩, ih.old cv _ (by simp), he⟩
          · exact ih.cover d hd

/-! ### All statements -/

/-- The expression of the policy for an expression as written. -/
def Comp (db : Db) (look : Flavor → String → Option Datum) (vt : Bool) (t : Tree) (l : List CExpr) : Prop :=
  ∃ x c, fill vt t = some x ∧ resolve look x = some c ∧ toSepol db c = some l

/-- The lists of constraints say what the statements say. -/
structure Inv (db : Db) (look : Flavor → String → Option Datum) (done : List Stmt) (st : State) : Prop where
  new : ∀ v k, k ∈ st.cons v → ∃ cp t, Stmt.constrain cp t ∈ done ∧ Comp db look false t k.expr ∧ validate k.expr (-1) = true ∧
    (∃ c p, Perms cp c p ∧ db.bin.classVal c = some v) ∧ ∀ b < 32, k.perms.getLsbD b = true → ∃ c p, Perms cp c p ∧ db.bin.classVal c = some v ∧ db.bin.permVal c p = some (b + 1)
  cover : ∀ cp t, Stmt.constrain cp t ∈ done → ∀ c p, Perms cp c p → ∃ v b, db.bin.classVal c = some v ∧
    db.bin.permVal c p = some (b + 1) ∧ ∃ k ∈ st.cons v, Comp db look false t k.expr ∧ validate k.expr (-1) = true ∧ k.perms.getLsbD b = true
  newVt : ∀ v k, k ∈ st.vt v → ∃ r t, Stmt.validatetrans r t ∈ done ∧ Comp db look true t k.expr ∧ ∃ c, r.Mem c ∧ db.bin.classVal c = some v
  coverVt : ∀ r t, Stmt.validatetrans r t ∈ done → ∀ c, r.Mem c → ∃ v, db.bin.classVal c = some v ∧ ∃ k ∈ st.vt v, Comp db look true t k.expr
  read : ∀ cp t, Stmt.constrain cp t ∈ done → ∃ x c, fill false t = some x ∧ resolve look x = some c
  readVt : ∀ r t, Stmt.validatetrans r t ∈ done → ∃ x c, fill true t = some x ∧ resolve look x = some c

theorem stmt_inv {db : Db} {look : Flavor → String → Option Datum} (ok : CilBin.DbOk db.bin) {done : List Stmt} {st st' : State} {s : Stmt}
    (hi : Inv db look done st) (h : stmt db look s st = some st') : Inv db look (done ++ [s]) st' := by
  cases s with
  | constrain cp t =>
    rw [stmt] at h
    cases hf : fill false t with
    | none => rw [hf] at h; cases h
    | some x =>
      cases hr : resolve look x with
      | none => rw [hf, Option.bind_some, hr] at h; cases h
      | some c =>
        rw [hf, Option.bind_some, hr, Option.bind_some] at h
        have ha := constrainExpand_added ok cp h
        have hcomp : ∀ l, toSepol db c = some l → Comp db look false t l := fun l hl => ⟨x, c, hf, hr, hl⟩
        refine ⟨?_, ?_, ?_, ?_, ?_, ?_⟩
        · intro v k hk
          rcases ha.new v k hk with hk | ⟨h1, h2, ⟨d, q, hd, hq⟩, h3⟩
          · obtain ⟨cp', t', a1, a2⟩ := hi.new v k hk
            exact ⟨cp', t', List.mem_append_left _ a1, a2⟩
          · refine ⟨cp, t, by simp, hcomp _ h1, h2, ⟨d, q, perms_iff.2 hd, hq⟩, fun b hb hbb => ?_⟩
            obtain ⟨c', p', b1, b2⟩ := h3 b hb hbb
            exact ⟨c', p', perms_iff.2 b1, b2⟩
        · intro cp' t' hm c' p' hp
          rcases List.mem_append.1 hm with hm | hm
          · obtain ⟨v, b, a1, a2, k, a3, a4⟩ := hi.cover cp' t' hm c' p' hp
            exact ⟨v, b, a1, a2, k, ha.old v k a3, a4⟩
          · cases List.mem_singleton.1 hm
            obtain ⟨v, b, a1, a2, k, a3, a4, a5⟩ := ha.cover c' p' (perms_iff.1 hp)
            exact ⟨v, b, a1, a2, k, a3, hcomp _ a4, a5⟩
        · intro v k hk
          rw [ha.vt] at hk
          obtain ⟨r, t', a1, a2⟩ := hi.newVt v k hk
          exact ⟨r, t', List.mem_append_left _ a1, a2⟩
        · intro r t' hm c' hc'
          rcases List.mem_append.1 hm with hm | hm
          · rw [ha.vt]; exact hi.coverVt r t' hm c' hc'
          · cases List.mem_singleton.1 hm
        · intro cp' t' hm
          rcases List.mem_append.1 hm with hm | hm
          · exact hi.read cp' t' hm
          · cases List.mem_singleton.1 hm; exact ⟨x, c, hf, hr⟩
        · intro r t' hm
          rcases List.mem_append.1 hm with hm | hm
          · exact hi.readVt r t' hm
          · cases List.mem_singleton.1 hm
  | validatetrans r t =>
    rw [stmt] at h
    cases hf : fill true t with
    | none => rw [hf] at h; cases h
    | some x =>
      cases hr : resolve look x with
      | none => rw [hf, Option.bind_some, hr] at h; cases h
      | some c =>
        rw [hf, Option.bind_some, hr, Option.bind_some] at h
        have ha := validatetransLoop_added _ h
        have hcomp : ∀ l, toSepol db c = some l → Comp db look true t l := fun l hl => ⟨x, c, hf, hr, hl⟩
        refine ⟨?_, ?_, ?_, ?_, ?_, ?_⟩
        · intro v k hk
          rw [ha.cons] at hk
          obtain ⟨cp, t', a1, a2⟩ := hi.new v k hk
          exact ⟨cp, t', List.mem_append_left _ a1, a2⟩
        · intro cp t' hm c' p' hp
          rcases List.mem_append.1 hm with hm | hm
          · rw [ha.cons]; exact hi.cover cp t' hm c' p' hp
          · cases List.mem_singleton.1 hm
        · intro v k hk
          rcases ha.new v k hk with hk | ⟨h1, c', h2, h3⟩
          · obtain ⟨r', t', a1, a2⟩ := hi.newVt v k hk
            exact ⟨r', t', List.mem_append_left _ a1, a2⟩
          · exact ⟨r, t, by simp, hcomp _ h1, c', mem_expandClass.1 h2, h3⟩
        · intro r' t' hm c' hc'
          rcases List.mem_append.1 hm with hm | hm
          · obtain ⟨v, a1, k, a2, a3⟩ := hi.coverVt r' t' hm c' hc'
            exact ⟨v, a1, k, ha.old v k a2, a3⟩
          · cases List.mem_singleton.1 hm
            obtain ⟨v, a1, k, a2, a3⟩ := ha.cover c' (mem_expandClass.2 hc')
            exact ⟨v, a1, k, a2, hcomp _ a3⟩
        · intro cp t' hm
          rcases List.mem_append.1 hm with hm | hm
          · exact hi.read cp t' hm
          · cases List.mem_singleton.1 hm
        · intro r' t' hm
          rcases List.mem_append.1 hm with hm | hm
          · exact hi.readVt r' t' hm
          · cases List.mem_singleton.1 hm; exact ⟨x, c, hf, hr⟩

theorem stmts_inv {db : Db} {look : Flavor → String → Option Datum} (ok : CilBin.DbOk db.bin) : ∀ (l done : List Stmt) {st st' : State},
    Inv db look done st → stmts db look l st = some st' → Inv db look (done ++ l) st'
  | [], done, st, st', hi, h => by
    rw [stmts] at h
    cases h
    rwa [List.append_nil]
  | s :: l, done, st, st', hi, h => by
    rw [stmts] at h
    cases h1 : stmt db look s st with
    | none => rw [h1] at h; cases h
    | some s1 =>
      rw [h1, Option.bind_some] at h
      have := stmts_inv ok l (done ++ [s]) (stmt_inv ok hi h1) h
      rwa [List.append_assoc] at this

theorem compile_inv {db : Db} {look : Flavor → String → Option Datum} (ok : CilBin.DbOk db.bin) {l : List Stmt} {st : State}
    (h : compile db look l = some st) : Inv db look l st := by
  have h0 : Inv db look [] ⟨fun _ => [], fun _ => []⟩ :=
    ⟨fun _ _ h => by simp at h, fun _ _ h => by simp at h, fun _ _ h => by simp at h, fun _ _ h => by simp at h,
      fun _ _ h => by simp at h, fun _ _ h => by simp at h⟩
  exact stmts_inv ok l [] h0 h

/-! ### Success -/

/-- A step that succeeds whatever the lists are. -/
def Total (f : State → Option State) : Prop := ∀ st, ∃ st', f st = some st'

theorem constrainHelper_total {db : Db} {c : Nat} {ps : List Nat} {expr : Cons Datum} {l : List CExpr} (hl : toSepol db expr = some l)
    (hv : validate l (-1) = true) (hc : ∃ v, db.bin.classVal c = some v) (hp : ∀ p ∈ ps, ∃ v, db.bin.permVal c p = some v) :
    Total (constrainHelper db c ps expr) := by
  intro st
  obtain ⟨v, hc⟩ := hc
  obtain ⟨d, hd⟩ := CilBin.permsToDatum_total 0#32 hp
  unfold constrainHelper
  simp only [hc, hd, hl, hv, Bool.not_true, Bool.false_eq_true, if_false]
  split
  · exact ⟨st, rfl⟩
  · exact ⟨_, rfl⟩

theorem total_bind {f g : State → Option State} (hf : Total f) (hg : Total g) : Total fun st => (f st).bind g := by
  intro st
  obtain ⟨s1, h1⟩ := hf st
  obtain ⟨s2, h2⟩ := hg s1
  exact ⟨s2, by simp only [h1, Option.bind_some, h2]⟩

mutual
theorem constrainExpand_total {db : Db} {expr : Cons Datum} {l : List CExpr} (hl : toSepol db expr = some l)
    (hv : validate l (-1) = true) : ∀ (cp : List CP), CilBin.Known db.bin cp → Total (constrainExpand db expr cp)
  | [], _ => fun st => ⟨st, by rw [constrainExpand]⟩
  | x :: xs, hk => by
    have := total_bind (constrainItem_total hl hv x (hk x (by simp)))
      (constrainExpand_total hl hv xs fun y hy => hk y (List.mem_cons_of_mem _ hy))
    intro st
    obtain ⟨st', h⟩ := this st
    exact ⟨st', by rw [constrainExpand]; exact h⟩
theorem constrainItem_total {db : Db} {expr : Cons Datum} {l : List CExpr} (hl : toSepol db expr = some l)
    (hv : validate l (-1) = true) : ∀ (x : CP), (∀ c ps, CilBin.Lists c ps x → (∃ v, db.bin.classVal c = some v) ∧
      ∀ p ∈ ps, ∃ v, db.bin.permVal c p = some v) → Total (constrainItem db expr x)
  | .cls c ps, hk => by
    obtain ⟨h1, h2⟩ := hk c ps .cls
    intro st
    rw [constrainItem]
    exact constrainHelper_total hl hv h1 h2 st
  | .map m ms, hk => by
    intro st
    rw [constrainItem]
    exact constrainMap_total hl hv ms (fun n l' h1 x h2 c ps h3 => hk c ps (.map h1 h2 h3)) st
  | .set n l', hk => by
    intro st
    rw [constrainItem]
    exact constrainExpand_total hl hv l' (fun x h2 c ps h3 => hk c ps (.set h2 h3)) st
theorem constrainMap_total {db : Db} {expr : Cons Datum} {l : List CExpr} (hl : toSepol db expr = some l)
    (hv : validate l (-1) = true) : ∀ (ms : List MP), (∀ n l', MP.mk n l' ∈ ms → CilBin.Known db.bin l') → Total (constrainMap db expr ms)
  | [], _ => fun st => ⟨st, by rw [constrainMap]⟩
  | .mk n l' :: ms, hk => by
    have := total_bind (constrainExpand_total hl hv l' (hk n l' (by simp)))
      (constrainMap_total hl hv ms fun n' l'' h => hk n' l'' (List.mem_cons_of_mem _ h))
    intro st
    obtain ⟨st', h⟩ := this st
    exact ⟨st', by rw [constrainMap]; exact h⟩
end

theorem validatetransLoop_total {db : Db} {expr : Cons Datum} {l : List CExpr} (hl : toSepol db expr = some l) : ∀ (cs : List Nat),
    (∀ c ∈ cs, ∃ v, db.bin.classVal c = some v) → Total (validatetransLoop db expr cs)
  | [], _ => fun st => ⟨st, rfl⟩
  | c :: cs, h => by
    intro st
    obtain ⟨v, hc⟩ := h c (by simp)
    rw [validatetransLoop]
    simp only [hc, hl]
    exact validatetransLoop_total hl cs (fun d hd => h d (List.mem_cons_of_mem _ hd)) _

theorem stmts_total {db : Db} {look : Flavor → String → Option Datum} : ∀ (l : List Stmt), (∀ s ∈ l, Total (stmt db look s)) →
    Total (stmts db look l)
  | [], _ => fun st => ⟨st, rfl⟩
  | s :: l, h => by
    intro st
    obtain ⟨s1, h1⟩ := h s (by simp) st
    obtain ⟨s2, h2⟩ := stmts_total l (fun x hx => h x (List.mem_cons_of_mem _ hx)) s1
    exact ⟨s2, by rw [stmts, h1, Option.bind_some, h2]⟩

end Verif.CilConstr
