import Verif.ObjStmt.Lemmas

namespace Verif.ObjStmt
open Verif.Policy Verif.Mls Verif.Services

/-! ## What each statement does when it is accepted -/

theorem done_ok {α : Type} {db db' : Db} {set : List α → Db} {o : Option (List α)} :
    done db set o = .ok db' ↔ ∃ l, o = some l ∧ db' = set l := by
  cases o with
  | none => simp [done]
  | some l => simp [done, eq_comm]

variable {cfg : Cfg} {db db' : Db}

theorem fs_ok {a b : Nat} {c0 c1 : Option Context} : defineFs cfg a b c0 c1 db = .ok db' ↔
    cfg.xen = false ∧ (hex2 a ++ ':' :: hex2 b).length + 1 ≤ 6 ∧ ∃ c d, c0 = some c ∧ c1 = some d ∧
      (∀ e ∈ db.ob.fs, e.key ≠ hex2 a ++ ':' :: hex2 b) ∧
      db' = { db with ob := { db.ob with fs := entry (hex2 a ++ ':' :: hex2 b) c d :: db.ob.fs } } := by
  unfold defineFs
  cases cfg.xen
  · dsimp only
    simp only [Bool.false_eq_true, if_false, true_and]
    split
    · constructor
      · intro h; cases h
      · rintro ⟨h, _⟩; omega
    · rename_i hl
      rcases c0 with _ | c <;> rcases c1 with _ | d <;> simp only [reduceCtorEq, false_and, and_false, exists_false,
        done_ok, addFirst_some, Option.some.injEq, exists_and_left, exists_eq_left', exists_eq_left, beq_eq_false_iff_ne]
      rw [show (hex2 a ++ ':' :: hex2 b).length + 1 ≤ 6 ↔ True by simp only [iff_true]; omega, true_and]
      constructor
      · rintro ⟨l, ⟨rfl, h⟩, rfl⟩
        exact ⟨fun e he hk => h e he ((strcmp_zero _ _).mpr hk.symm), rfl⟩
      · rintro ⟨h, rfl⟩
        exact ⟨_, ⟨rfl, fun e he hk => h e he ((strcmp_zero _ _).mp hk).symm⟩, rfl⟩
  · simp

theorem netif_ok {n : Str} {c0 c1 : Option Context} : defineNetif cfg n c0 c1 db = .ok db' ↔
    cfg.xen = false ∧ ∃ c d, c0 = some c ∧ c1 = some d ∧ (∀ e ∈ db.ob.netif, e.key ≠ n) ∧
      db' = { db with ob := { db.ob with netif := entry n c d :: db.ob.netif } } := by
  unfold defineNetif
  cases cfg.xen
  · simp only [Bool.false_eq_true, if_false, true_and]
    rcases c0 with _ | c <;> rcases c1 with _ | d <;> simp only [reduceCtorEq, false_and, and_false, exists_false,
        done_ok, addFirst_some, Option.some.injEq, exists_and_left, exists_eq_left', exists_eq_left, beq_eq_false_iff_ne]
    constructor
    · rintro ⟨l, ⟨rfl, h⟩, rfl⟩
      exact ⟨fun e he hk => h e he ((strcmp_zero _ _).mpr hk.symm), rfl⟩
    · rintro ⟨h, rfl⟩
      exact ⟨_, ⟨rfl, fun e he hk => h e he ((strcmp_zero _ _).mp hk).symm⟩, rfl⟩
  · simp

theorem fsUse_ok {b : Nat} {f : Str} {c0 : Option Context} : defineFsUse cfg b f c0 db = .ok db' ↔
    cfg.xen = false ∧ ∃ c, c0 = some c ∧ (∀ e ∈ db.ob.fsuse, e.key.1 ≠ f) ∧
      db' = { db with ob := { db.ob with fsuse := entry (f, b) c :: db.ob.fsuse } } := by
  unfold defineFsUse
  cases cfg.xen
  · simp only [Bool.false_eq_true, if_false, true_and]
    rcases c0 with _ | c <;> simp only [reduceCtorEq, false_and, exists_false,
        done_ok, addFirst_some, Option.some.injEq, exists_eq_left', beq_eq_false_iff_ne]
    constructor
    · rintro ⟨l, ⟨rfl, h⟩, rfl⟩
      exact ⟨fun e he hk => h e he ((strcmp_zero _ _).mpr hk.symm), rfl⟩
    · rintro ⟨h, rfl⟩
      exact ⟨_, ⟨rfl, fun e he hk => h e he ((strcmp_zero _ _).mp hk).symm⟩, rfl⟩
  · simp

theorem port_ok {id : Str} {low high : Nat} {c0 : Option Context} : definePort cfg id low high c0 db = .ok db' ↔
    cfg.xen = false ∧ ∃ p c, protocol id = some p ∧ low ≤ high ∧ c0 = some c ∧
      (∀ e ∈ db.ob.port, ¬ (e.key.protocol = p ∧ e.key.low ≤ low ∧ high ≤ e.key.high)) ∧
      db' = { db with ob := { db.ob with port := db.ob.port ++ [entry ⟨p, low % 2 ^ 16, high % 2 ^ 16⟩ c] } } := by
  unfold definePort
  cases cfg.xen
  · simp only [Bool.false_eq_true, if_false, true_and]
    cases protocol id with
    | none => simp
    | some p =>
      dsimp only
      by_cases hlh : low ≤ high
      · rw [if_neg (by omega)]
        rcases c0 with _ | c
        · simp
        · simp only [done_ok, addLast_some, Option.some.injEq, exists_and_left, exists_eq_left', hlh, true_and]
          have key : ∀ e : Ocon PortKey, (if p ≠ e.key.protocol then false
                else if low = e.key.low ∧ high = e.key.high then true
                else decide (e.key.low ≤ low) && decide (e.key.high ≥ high)) = false ↔
              ¬ (e.key.protocol = p ∧ e.key.low ≤ low ∧ high ≤ e.key.high) := by
            intro e
            by_cases hp : e.key.protocol = p
            · rw [if_neg (by simp [hp])]
              split
              · rename_i h; simp only [Bool.true_eq_false, hp, true_and, false_iff, not_not]; omega
              · simp only [Bool.and_eq_false_iff, decide_eq_false_iff_not, hp, true_and]; omega
            · rw [if_pos (fun h => hp h.symm)]; simp [hp]
          constructor
          · rintro ⟨l, ⟨rfl, h⟩, rfl⟩
            exact ⟨fun e he => (key e).mp (h e he), rfl⟩
          · rintro ⟨h, rfl⟩
            exact ⟨_, ⟨rfl, fun e he => (key e).mpr (h e he)⟩, rfl⟩
      · rw [if_pos (by omega)]; simp [hlh]
  · simp

theorem ibpkey_ok {w : Option Words} {low high : Nat} {c0 : Option Context} : defineIbpkey cfg w low high c0 db = .ok db' ↔
    cfg.xen = false ∧ ∃ v c, w = some v ∧ v.w2 = 0 ∧ v.w3 = 0 ∧ high < 2 ^ 16 ∧ low ≤ high ∧ c0 = some c ∧
      (∀ e ∈ db.ob.ibpkey, ¬ (e.key.subnet = subnetOf v ∧ e.key.low ≤ low ∧ high ≤ e.key.high)) ∧
      db' = { db with ob := { db.ob with ibpkey := db.ob.ibpkey ++ [entry ⟨subnetOf v, low, high⟩ c] } } := by
  unfold defineIbpkey
  cases cfg.xen
  · simp only [Bool.false_eq_true, if_false, true_and]
    cases w with
    | none => simp
    | some v =>
      dsimp only
      simp only [Option.some.injEq, exists_and_left, exists_eq_left']
      by_cases h2 : v.w2 = 0
      · by_cases h3 : v.w3 = 0
        · rw [if_neg (by simp [h2, h3])]
          by_cases hlh : low ≤ high ∧ high < 2 ^ 16
          · rw [if_neg (by omega), if_neg (by omega)]
            rcases c0 with _ | c
            · simp
            · simp only [done_ok, addLast_some, Option.some.injEq, exists_eq_left', hlh, h2, h3, true_and]
              have key : ∀ e : Ocon PkeyKey, (if low = e.key.low ∧ high = e.key.high ∧ e.key.subnet = subnetOf v then true
                  else decide (e.key.low ≤ low) && decide (e.key.high ≥ high) && (e.key.subnet == subnetOf v)) = false ↔
                  ¬ (e.key.subnet = subnetOf v ∧ e.key.low ≤ low ∧ high ≤ e.key.high) := by
                intro e
                split
                · rename_i h
                  obtain ⟨a, b, c⟩ := h
                  simp only [Bool.true_eq_false, false_iff, not_not]
                  exact ⟨c, by omega, by omega⟩
                · simp only [Bool.and_eq_false_iff, decide_eq_false_iff_not, beq_eq_false_iff_ne]
                  by_cases hs : e.key.subnet = subnetOf v
                  · simp only [hs, true_and]; simp; omega
                  · simp [hs]
              constructor
              · rintro ⟨l, ⟨rfl, h⟩, rfl⟩
                exact ⟨fun e he => (key e).mp (h e he), rfl⟩
              · rintro ⟨h, rfl⟩
                exact ⟨_, ⟨rfl, fun e he => (key e).mpr (h e he)⟩, rfl⟩
          · by_cases hx : low > 0xffff ∨ high > 0xffff
            · rw [if_pos hx]
              simp only [reduceCtorEq, false_iff]
              rintro ⟨_, _, a, b, _⟩; omega
            · rw [if_neg hx, if_pos (by omega)]
              simp only [reduceCtorEq, false_iff]
              rintro ⟨_, _, a, b, _⟩; omega
        · rw [if_pos (.inr h3)]
          simp only [reduceCtorEq, false_iff]
          rintro ⟨_, h, _⟩; exact h3 h
      · rw [if_pos (.inl h2)]
        simp only [reduceCtorEq, false_iff]
        rintro ⟨h, _⟩; exact h2 h
  · simp

theorem ibendport_ok {d : Str} {n : Nat} {c0 : Option Context} : defineIbendport cfg d n c0 db = .ok db' ↔
    cfg.xen = false ∧ 0 < n ∧ n < 2 ^ 8 ∧ d.length < 64 ∧ ∃ c, c0 = some c ∧ (∀ e ∈ db.ob.ibendport, e.key ≠ (d, n)) ∧
      db' = { db with ob := { db.ob with ibendport := db.ob.ibendport ++ [entry (d, n) c] } } := by
  unfold defineIbendport
  cases cfg.xen
  · simp only [Bool.false_eq_true, if_false, true_and]
    by_cases h1 : 0 < n ∧ n < 2 ^ 8
    · rw [if_neg (by omega)]
      by_cases h2 : d.length < 64
      · rw [if_neg (by omega)]
        rcases c0 with _ | c
        · simp
        · simp only [done_ok, addLast_some, Option.some.injEq, exists_eq_left', h1, h2, true_and]
          have key : ∀ e : Ocon (Str × Nat), ((n == e.key.2) && (strcmp e.key.1 d == 0)) = false ↔ e.key ≠ (d, n) := by
            intro e
            simp only [Bool.and_eq_false_iff, beq_eq_false_iff_ne, ne_eq, strcmp_zero, Prod.ext_iff]
            constructor
            · rintro (h | h) ⟨a, b⟩
              · exact h b.symm
              · exact h a
            · intro h
              by_cases hn : n = e.key.2
              · exact .inr fun a => h ⟨a, hn.symm⟩
              · exact .inl hn
          constructor
          · rintro ⟨l, ⟨rfl, h⟩, rfl⟩
            exact ⟨fun e he => (key e).mp (h e he), rfl⟩
          · rintro ⟨h, rfl⟩
            exact ⟨_, ⟨rfl, fun e he => (key e).mpr (h e he)⟩, rfl⟩
      · rw [if_pos (by omega)]; simp [h2]
    · rw [if_pos (by omega)]
      simp only [reduceCtorEq, false_iff]
      rintro ⟨a, b, _⟩; exact h1 ⟨a, b⟩
  · simp

theorem pirq_ok {n : Nat} {c0 : Option Context} : definePirq cfg n c0 db = .ok db' ↔
    cfg.xen = true ∧ ∃ c, c0 = some c ∧ (∀ e ∈ db.pirq, e.key ≠ n) ∧
      db' = { db with pirq := db.pirq ++ [entry (n % 2 ^ 16) c] } := by
  unfold definePirq
  cases cfg.xen
  · simp
  · simp only [Bool.not_true, Bool.false_eq_true, if_false, true_and]
    rcases c0 with _ | c
    · simp
    · simp only [done_ok, addLast_some, Option.some.injEq, exists_eq_left', beq_eq_false_iff_ne]
      constructor
      · rintro ⟨l, ⟨rfl, h⟩, rfl⟩
        exact ⟨fun e he hk => h e he hk.symm, rfl⟩
      · rintro ⟨h, rfl⟩
        exact ⟨_, ⟨rfl, fun e he hk => h e he hk.symm⟩, rfl⟩

theorem pcidevice_ok {n : Nat} {c0 : Option Context} : definePcidevice cfg n c0 db = .ok db' ↔
    cfg.xen = true ∧ ∃ c, c0 = some c ∧ (∀ e ∈ db.pcidevice, e.key ≠ n) ∧
      db' = { db with pcidevice := db.pcidevice ++ [entry n c] } := by
  unfold definePcidevice
  cases cfg.xen
  · simp
  · simp only [Bool.not_true, Bool.false_eq_true, if_false, true_and]
    rcases c0 with _ | c
    · simp
    · simp only [done_ok, addLast_some, Option.some.injEq, exists_eq_left', beq_eq_false_iff_ne]
      constructor
      · rintro ⟨l, ⟨rfl, h⟩, rfl⟩
        exact ⟨fun e he hk => h e he hk.symm, rfl⟩
      · rintro ⟨h, rfl⟩
        exact ⟨_, ⟨rfl, fun e he hk => h e he hk.symm⟩, rfl⟩

theorem devicetree_ok {p : Str} {c0 : Option Context} : defineDevicetree cfg p c0 db = .ok db' ↔
    cfg.xen = true ∧ ∃ c, c0 = some c ∧ (∀ e ∈ db.devicetree, e.key ≠ p) ∧
      db' = { db with devicetree := db.devicetree ++ [entry p c] } := by
  unfold defineDevicetree
  cases cfg.xen
  · simp
  · simp only [Bool.not_true, Bool.false_eq_true, if_false, true_and]
    rcases c0 with _ | c
    · simp
    · simp only [done_ok, addLast_some, Option.some.injEq, exists_eq_left', beq_eq_false_iff_ne]
      constructor
      · rintro ⟨l, ⟨rfl, h⟩, rfl⟩
        exact ⟨fun e he hk => h e he ((strcmp_zero _ _).mpr hk.symm), rfl⟩
      · rintro ⟨h, rfl⟩
        exact ⟨_, ⟨rfl, fun e he hk => h e he ((strcmp_zero _ _).mp hk).symm⟩, rfl⟩

theorem iomem_ok {low high : Nat} {c0 : Option Context} : defineIomem cfg low high c0 db = .ok db' ↔
    cfg.xen = true ∧ low ≤ high ∧ ∃ c, c0 = some c ∧ (∀ e ∈ db.iomem, ¬ (low ≤ e.key.2 ∧ e.key.1 ≤ high)) ∧
      db' = { db with iomem := db.iomem ++ [entry (low, high) c] } := by
  unfold defineIomem
  cases cfg.xen
  · simp
  · simp only [Bool.not_true, Bool.false_eq_true, if_false, true_and]
    by_cases hlh : low ≤ high
    · rw [if_neg (by omega)]
      rcases c0 with _ | c
      · simp
      · simp only [done_ok, addLast_some, Option.some.injEq, exists_eq_left', hlh, true_and]
        have key : ∀ e : Ocon (Nat × Nat), (decide (low ≤ e.key.2) && decide (e.key.1 ≤ high)) = false ↔
            ¬ (low ≤ e.key.2 ∧ e.key.1 ≤ high) := by
          intro e; simp only [Bool.and_eq_false_iff, decide_eq_false_iff_not]; omega
        constructor
        · rintro ⟨l, ⟨rfl, h⟩, rfl⟩
          exact ⟨fun e he => (key e).mp (h e he), rfl⟩
        · rintro ⟨h, rfl⟩
          exact ⟨_, ⟨rfl, fun e he => (key e).mpr (h e he)⟩, rfl⟩
    · rw [if_pos (by omega)]; simp [hlh]

theorem ioport_ok {low high : Nat} {c0 : Option Context} : defineIoport cfg low high c0 db = .ok db' ↔
    cfg.xen = true ∧ low ≤ high ∧ ∃ c, c0 = some c ∧ (∀ e ∈ db.ioport, ¬ (low ≤ e.key.2 ∧ e.key.1 ≤ high)) ∧
      db' = { db with ioport := db.ioport ++ [entry (low, high) c] } := by
  unfold defineIoport
  cases cfg.xen
  · simp
  · simp only [Bool.not_true, Bool.false_eq_true, if_false, true_and]
    by_cases hlh : low ≤ high
    · rw [if_neg (by omega)]
      rcases c0 with _ | c
      · simp
      · simp only [done_ok, addLast_some, Option.some.injEq, exists_eq_left', hlh, true_and]
        have key : ∀ e : Ocon (Nat × Nat), (decide (low ≤ e.key.2) && decide (e.key.1 ≤ high)) = false ↔
            ¬ (low ≤ e.key.2 ∧ e.key.1 ≤ high) := by
          intro e; simp only [Bool.and_eq_false_iff, decide_eq_false_iff_not]; omega
        constructor
        · rintro ⟨l, ⟨rfl, h⟩, rfl⟩
          exact ⟨fun e he => (key e).mp (h e he), rfl⟩
        · rintro ⟨h, rfl⟩
          exact ⟨_, ⟨rfl, fun e he => (key e).mpr (h e he)⟩, rfl⟩
    · rw [if_pos (by omega)]; simp [hlh]

/-! ## Networks -/

/-- Network, mask and context of an IPv4 `nodecon`. -/
def net4 : Stmt → Option ((BitVec 32 × BitVec 32) × Context)
  | .node (some a) (some m) (some c) => some ((a, m), c)
  | .nodeCidr (some a) k (some c) => some ((a &&& mask4 k, mask4 k), c)
  | _ => none

def net6 : Stmt → Option ((Words × Words) × Context)
  | .node6 (some a) (some m) (some c) => some ((a, m), c)
  | .node6Cidr (some a) k (some c) => some ((applyMask a (mask6 k), mask6 k), c)
  | _ => none

def ent4 (cfg : Cfg) (x : (BitVec 32 × BitVec 32) × Context) : Ocon (BitVec 32 × BitVec 32) :=
  entry (stored cfg x.1.1, stored cfg x.1.2) x.2

def ent6 (cfg : Cfg) (x : (Words × Words) × Context) : Ocon (Words × Words) :=
  entry (stored6 cfg x.1.1, stored6 cfg x.1.2) x.2

def ins4 (cfg : Cfg) (x : (BitVec 32 × BitVec 32) × Context) (db : Db) : Res :=
  insertIpv4 (stored cfg x.1.1) (stored cfg x.1.2) x.2 db

def ins6 (cfg : Cfg) (x : (Words × Words) × Context) (db : Db) : Res :=
  insertIpv6 cfg (stored6 cfg x.1.1) (stored6 cfg x.1.2) x.2 db

/-- The list is sorted by what the insertion compares. -/
def Sorted4 (l : List (Ocon (BitVec 32 × BitVec 32))) : Prop := l.Pairwise (fun a b => b.key.2.toNat ≤ a.key.2.toNat)

def Sorted6 (cfg : Cfg) (l : List (Ocon (Words × Words))) : Prop :=
  l.Pairwise (fun a b => val6 cfg b.key.2 ≤ val6 cfg a.key.2)

theorem ins4_spec (x : (BitVec 32 × BitVec 32) × Context) (hs : Sorted4 db.ob.node) :
    ((∃ db', ins4 cfg x db = .ok db') ↔ ∀ e ∈ db.ob.node, e.key ≠ (ent4 cfg x).key) ∧
    ∀ db', ins4 cfg x db = .ok db' → ∃ l, db' = { db with ob := { db.ob with node := l } } ∧ Sorted4 l ∧
      l.Perm (ent4 cfg x :: db.ob.node) := by
  obtain ⟨⟨a, m⟩, c⟩ := x
  have h := insertNode_spec (fun e : Ocon (BitVec 32 × BitVec 32) => e.key.2.toNat)
    (same := fun c : Ocon (BitVec 32 × BitVec 32) => (stored cfg m == c.key.2) && (stored cfg a == c.key.1))
    (larger := fun c => decide (stored cfg m > c.key.2)) (n := ent4 cfg ((a, m), c))
    (by intro e he; simp only [Bool.and_eq_true, beq_iff_eq] at he; rw [← he.1]; rfl)
    (by intro e; simp only [decide_eq_true_eq, gt_iff_lt, BitVec.lt_def]; rfl) db.ob.node hs
  have key : ∀ e : Ocon (BitVec 32 × BitVec 32), ((stored cfg m == e.key.2) && (stored cfg a == e.key.1)) = false ↔
      e.key ≠ (stored cfg a, stored cfg m) := by
    intro e
    rw [← Bool.not_eq_true, ne_eq, not_iff_not]
    simp only [Bool.and_eq_true, beq_iff_eq, Prod.ext_iff]
    exact ⟨fun ⟨p, q⟩ => ⟨q.symm, p.symm⟩, fun ⟨p, q⟩ => ⟨q.symm, p.symm⟩⟩
  unfold ins4 insertIpv4
  simp only [done_ok]
  refine ⟨?_, ?_⟩
  · rw [show (∀ e ∈ db.ob.node, e.key ≠ (ent4 cfg ((a, m), c)).key) ↔ ∀ e ∈ db.ob.node,
      ((stored cfg m == e.key.2) && (stored cfg a == e.key.1)) = false from forall_congr' fun e => imp_congr_right fun _ => (key e).symm,
      ← h.1]
    constructor
    · rintro ⟨_, l, hl, _⟩; exact ⟨l, hl⟩
    · rintro ⟨l, hl⟩; exact ⟨_, l, hl, rfl⟩
  · rintro db' ⟨l, hl, rfl⟩
    exact ⟨l, rfl, h.2 l hl⟩

theorem ins6_spec (x : (Words × Words) × Context) (hs : Sorted6 cfg db.ob.node6) :
    ((∃ db', ins6 cfg x db = .ok db') ↔ ∀ e ∈ db.ob.node6, e.key ≠ (ent6 cfg x).key) ∧
    ∀ db', ins6 cfg x db = .ok db' → ∃ l, db' = { db with ob := { db.ob with node6 := l } } ∧ Sorted6 cfg l ∧
      l.Perm (ent6 cfg x :: db.ob.node6) := by
  obtain ⟨⟨a, m⟩, c⟩ := x
  have h := insertNode_spec (fun e : Ocon (Words × Words) => val6 cfg e.key.2)
    (same := fun c : Ocon (Words × Words) => (memcmp6 cfg (stored6 cfg m) c.key.2 == 0) && (memcmp6 cfg (stored6 cfg a) c.key.1 == 0))
    (larger := fun c => decide (memcmp6 cfg (stored6 cfg m) c.key.2 > 0)) (n := ent6 cfg ((a, m), c))
    (by intro e he
        simp only [Bool.and_eq_true, beq_iff_eq, (memcmp6_spec cfg _ _).1] at he
        rw [← he.1]; rfl)
    (by intro e; rw [decide_eq_true_eq, (memcmp6_spec cfg _ _).2]; rfl) db.ob.node6 hs
  have key : ∀ e : Ocon (Words × Words),
      ((memcmp6 cfg (stored6 cfg m) e.key.2 == 0) && (memcmp6 cfg (stored6 cfg a) e.key.1 == 0)) = false ↔
      e.key ≠ (stored6 cfg a, stored6 cfg m) := by
    intro e
    rw [← Bool.not_eq_true, ne_eq, not_iff_not]
    simp only [Bool.and_eq_true, beq_iff_eq, Prod.ext_iff, (memcmp6_spec cfg _ _).1]
    exact ⟨fun ⟨p, q⟩ => ⟨q.symm, p.symm⟩, fun ⟨p, q⟩ => ⟨q.symm, p.symm⟩⟩
  unfold ins6 insertIpv6
  simp only [done_ok]
  refine ⟨?_, ?_⟩
  · rw [show (∀ e ∈ db.ob.node6, e.key ≠ (ent6 cfg ((a, m), c)).key) ↔ ∀ e ∈ db.ob.node6,
      ((memcmp6 cfg (stored6 cfg m) e.key.2 == 0) && (memcmp6 cfg (stored6 cfg a) e.key.1 == 0)) = false from
        forall_congr' fun e => imp_congr_right fun _ => (key e).symm, ← h.1]
    constructor
    · rintro ⟨_, l, hl, _⟩; exact ⟨l, hl⟩
    · rintro ⟨l, hl⟩; exact ⟨_, l, hl, rfl⟩
  · rintro db' ⟨l, hl, rfl⟩
    exact ⟨l, rfl, h.2 l hl⟩

theorem node_ok {a m : Option (BitVec 32)} {c : Option Context} : defineNode cfg a m c db = .ok db' ↔
    Legal cfg (.node a m c) ∧ ∃ x, net4 (.node a m c) = some x ∧ ins4 cfg x db = .ok db' := by
  unfold defineNode Legal
  rcases a with _ | a <;> rcases m with _ | m <;> rcases c with _ | c <;> cases cfg.xen <;> simp [net4, ins4]

theorem nodeCidr_ok {a : Option (BitVec 32)} {k : Nat} {c : Option Context} : defineNodeCidr cfg a k c db = .ok db' ↔
    Legal cfg (.nodeCidr a k c) ∧ ∃ x, net4 (.nodeCidr a k c) = some x ∧ ins4 cfg x db = .ok db' := by
  unfold defineNodeCidr Legal
  rcases a with _ | a
  · cases cfg.xen <;> simp
  · by_cases hk : k ≤ 32
    · rcases c with _ | c
      · cases cfg.xen <;> simp
      · have hk' : ¬ k > 32 := by omega
        cases cfg.xen
        · simp only [Bool.false_eq_true, if_false, hk', mask4_stored]
          simp [net4, ins4, stored_and, hk]
        · simp
    · have hk' : k > 32 := by omega
      cases cfg.xen <;> simp [hk, hk']

theorem node6_ok {a m : Option Words} {c : Option Context} : defineNode6 cfg a m c db = .ok db' ↔
    Legal cfg (.node6 a m c) ∧ ∃ x, net6 (.node6 a m c) = some x ∧ ins6 cfg x db = .ok db' := by
  unfold defineNode6 Legal
  rcases a with _ | a <;> rcases m with _ | m <;> rcases c with _ | c <;> cases cfg.xen <;> simp [net6, ins6]

theorem node6Cidr_ok {a : Option Words} {k : Nat} {c : Option Context} : defineNode6Cidr cfg a k c db = .ok db' ↔
    Legal cfg (.node6Cidr a k c) ∧ ∃ x, net6 (.node6Cidr a k c) = some x ∧ ins6 cfg x db = .ok db' := by
  unfold defineNode6Cidr Legal
  rcases a with _ | a
  · cases cfg.xen <;> simp
  · by_cases hk : k ≤ 128
    · rcases c with _ | c
      · cases cfg.xen <;> simp
      · have hk' : ¬ k > 128 := by omega
        cases cfg.xen
        · simp only [Bool.false_eq_true, if_false, hk', maskWords_eq]
          simp [net6, ins6, stored6_and, hk]
        · simp
    · have hk' : k > 128 := by omega
      cases cfg.xen <;> simp [hk, hk']

end Verif.ObjStmt
