import Verif.ObjStmt.Lemmas8

/-!
# C100: object labelling statements of a policy source

Which sequences of statements are accepted, and how the security server answers, for every object, with the policy made
of them.  `ask (history ⟨st, db.ob⟩ qs)` is the server (`Verif.Services`) loaded with the policy, with any reachable SID
table and after any earlier questions.
-/

namespace Verif.ObjStmt
open Verif.Policy Verif.Mls Verif.Services

/-- C100: a list of statements is accepted exactly if every statement is right by itself and none clashes with an
earlier one.  What is missing is that the numbers need not fit: see `C100_fs_refuted`, `C100_port_refuted` and
`C100_pirq_refuted`. -/
theorem C100_accepted_partial {cfg : Cfg} (hc : cfg.WF) (d : Nat) (ss : List Stmt) (hf : ∀ s ∈ ss, s.Fits) :
    (∃ db, run cfg ss (start d) = .ok db) ↔ (∀ s ∈ ss, Legal cfg s) ∧ ss.Pairwise (fun s t => ¬ Clash s t) := by
  have := accept_run hc ss [] (start d) (built_start cfg d) (by simp) (by simpa using hf)
  simpa using this

section
variable {cfg : Cfg} {d : Nat} {ss : List Stmt} {db : Db} (hrun : run cfg ss (start d) = .ok db) (hw : ∀ s ∈ ss, s.WF)
  {st : Sidtab.Sidtab} (hr : Sidtab.Reach st) {qs : List Query} (hq : ∀ q ∈ qs, q.Ok)
include hrun hw hr hq

/-- C100: a port gets the label of the first `portcon` for it.  What is missing: numbers that do not fit, see
`C100_port_refuted`. -/
theorem C100_port_partial (hfit : ∀ s ∈ ss, s.Fits) (p n : Nat) {s' : OState} {r : Reply}
    (h : ask (history ⟨st, db.ob⟩ qs) (.port p n) = (s', r)) :
    Answers ss (ForPort p n) (FirstStmt ss (ForPort p n)) (.sids [9]) s' r := by
  have hB := built_of_run hrun
  have hL := C25_port (fresh_of_built hB hw) hr hq p n h
  rw [hB.port] at hL
  refine answers_first hL (fun s hs => ?_) (fun s e he => by obtain ⟨k, c, rfl, h⟩ := portE_ctx s e he; exact h)
  have hl := legal_of_run hrun s hs
  have hf := hfit s hs
  cases s <;> simp only [portE, ForPort, reduceCtorEq, false_and, exists_false]
  case port id low high c =>
    obtain ⟨_, ⟨p', hp'⟩, _, hc⟩ := hl
    obtain ⟨c, rfl⟩ := ne_none.mp hc
    obtain ⟨f1, f2⟩ := hf
    rw [← protocol_iff] at hp' ⊢
    simp only [hp', Option.map_some, Option.some.injEq, exists_eq_left', entry, Nat.mod_eq_of_lt f1, Nat.mod_eq_of_lt f2]

/-- C100: an Infiniband partition key gets the label of the first `ibpkeycon` for it. -/
theorem C100_ibpkey (w0 w1 : BitVec 32) (n : Nat) {s' : OState} {r : Reply}
    (h : ask (history ⟨st, db.ob⟩ qs) (.ibpkey (w0.toNat * 2 ^ 32 + w1.toNat) n) = (s', r)) :
    Answers ss (ForPkey w0 w1 n) (FirstStmt ss (ForPkey w0 w1 n)) (.sids [3]) s' r := by
  have hB := built_of_run hrun
  have hL := C25_ibpkey (fresh_of_built hB hw) hr hq _ n h
  rw [hB.ibpkey] at hL
  refine answers_first hL (fun s hs => ?_) (fun s e he => by obtain ⟨k, c, rfl, h⟩ := pkeyE_ctx s e he; exact h)
  have hl := legal_of_run hrun s hs
  cases s <;> simp only [pkeyE, ForPkey, reduceCtorEq, false_and, exists_false]
  case ibpkey w low high c =>
    obtain ⟨_, ⟨v, rfl, h2, h3⟩, _, _, hc⟩ := hl
    obtain ⟨c, rfl⟩ := ne_none.mp hc
    simp only [Option.some.injEq, exists_eq_left', entry, subnetOf]
    have : v.w0.toNat * 2 ^ 32 + v.w1.toNat = w0.toNat * 2 ^ 32 + w1.toNat ↔ v.w0 = w0 ∧ v.w1 = w1 := by
      rw [BitVec.toNat_eq, BitVec.toNat_eq]
      have := v.w1.isLt; have := w1.isLt
      omega
    rw [this, and_assoc]

/-- C100: a port of an Infiniband device gets the label of the `ibendportcon` for it. -/
theorem C100_ibendport (dev : Str) (n : Nat) {s' : OState} {r : Reply}
    (h : ask (history ⟨st, db.ob⟩ qs) (.ibendport dev n) = (s', r)) :
    Answers ss (ForEndport dev n) (FirstStmt ss (ForEndport dev n)) (.sids [3]) s' r := by
  have hB := built_of_run hrun
  have hL := C25_ibendport (fresh_of_built hB hw) hr hq dev n h
  rw [hB.ibendport] at hL
  refine answers_first hL (fun s hs => ?_) (fun s e he => by obtain ⟨k, c, rfl, h⟩ := endportE_ctx s e he; exact h)
  have hl := legal_of_run hrun s hs
  cases s <;> simp only [endportE, ForEndport, reduceCtorEq, false_and, exists_false]
  case ibendport d' n' c =>
    obtain ⟨_, _, _, _, hc⟩ := hl
    obtain ⟨c, rfl⟩ := ne_none.mp hc
    simp only [Option.some.injEq, exists_eq_left', entry, Prod.mk.injEq]

/-- C100: a network interface gets the two labels of the `netifcon` with its name. -/
theorem C100_netif (name : Str) {s' : OState} {r : Reply} (h : ask (history ⟨st, db.ob⟩ qs) (.netif name) = (s', r)) :
    Answers2 ss (ForNetif name) (.sids [10, 11]) s' r := by
  have hB := built_of_run hrun
  have hL := C25_netif (fresh_of_built hB hw) hr hq name h
  refine answers_two hB.netif hL (fun s hs => ?_) (fun s e he => by obtain ⟨k, c, d, rfl, h⟩ := netifE_ctx s e he; exact h)
  have hl := legal_of_run hrun s hs
  cases s <;> simp only [netifE, ForNetif, reduceCtorEq, false_and, exists_false]
  case netif n c e =>
    obtain ⟨_, hc, he⟩ := hl
    obtain ⟨c, rfl⟩ := ne_none.mp hc
    obtain ⟨e, rfl⟩ := ne_none.mp he
    simp only [Option.some.injEq, exists_eq_left', entry]

/-- C100: a device with two-digit numbers gets the two labels of the `fscon` for it.  What is missing: larger numbers,
see `C100_fs_refuted`. -/
theorem C100_fs_partial (hfit : ∀ s ∈ ss, s.Fits) (major minor : Nat) (h1 : major < 2 ^ 8) (h2 : minor < 2 ^ 8) {s' : OState}
    {r : Reply} (h : ask (history ⟨st, db.ob⟩ qs) (.fs (twoHex major ++ ':' :: twoHex minor)) = (s', r)) :
    Answers2 ss (ForDevice major minor) (.sids [4, 5]) s' r := by
  have hB := built_of_run hrun
  have hL := C25_fs (fresh_of_built hB hw) hr hq _ h
  refine answers_two hB.fs hL (fun s hs => ?_) (fun s e he => by obtain ⟨k, c, d, rfl, h⟩ := fsE_ctx s e he; exact h)
  have hl := legal_of_run hrun s hs
  have hf := hfit s hs
  cases s <;> simp only [fsE, ForDevice, reduceCtorEq, false_and, exists_false]
  case fs a b c e =>
    obtain ⟨_, hc, he⟩ := hl
    obtain ⟨c, rfl⟩ := ne_none.mp hc
    obtain ⟨e, rfl⟩ := ne_none.mp he
    obtain ⟨f1, f2⟩ := hf
    simp only [Option.some.injEq, exists_eq_left', entry]
    rw [← (hex2_all ⟨major, h1⟩).2.2, ← (hex2_all ⟨minor, h2⟩).2.2]
    exact fsName_inj f1 f2 h1 h2

/-- C100: an IPv4 address gets the label of a `nodecon` for it; no other `nodecon` for it looks at more of its bits. -/
theorem C100_node (a : BitVec 32) {s' : OState} {r : Reply}
    (h : ask (history ⟨st, db.ob⟩ qs) (.node (.inet (stored cfg a))) = (s', r)) :
    Answers ss (For4 a) (BestStmt ss (For4 a) (More Looks4)) (.sids [12]) s' r := by
  have hB := built_of_run hrun
  have hl := legal_of_run hrun
  exact answers_best hB.node.2 (C25_node (fresh_of_built hB hw) hr hq _ h) (fun s hs => match4 (hl s hs) a)
    (fun s e he => by obtain ⟨k, c, rfl, h⟩ := node4E_ctx cfg s e he; exact h) (v := fun k => k.2.toNat) hB.node.1
    (fun s hs t ht hm e f he hf => more4 (hl s hs) (hl t ht) hm he hf)

/-- C100: the same for IPv6. -/
theorem C100_node6 (a : Words) {s' : OState} {r : Reply}
    (h : ask (history ⟨st, db.ob⟩ qs) (.node (.inet6 (stored6 cfg a))) = (s', r)) :
    Answers ss (For6 a) (BestStmt ss (For6 a) (More Looks6)) (.sids [12]) s' r := by
  have hB := built_of_run hrun
  have hl := legal_of_run hrun
  exact answers_best hB.node6.2 ((C25_node6 (fresh_of_built hB hw) hr hq).1 _ h) (fun s hs => match6 (hl s hs) a)
    (fun s e he => by obtain ⟨k, c, rfl, h⟩ := node6E_ctx cfg s e he; exact h) (v := fun k => val6 cfg k.2) hB.node6.1
    (fun s hs t ht hm e f he hf => more6 (hl s hs) (hl t ht) hm he hf)

/-- C100: a file gets the label of the `genfscon` with the longest path among those for it. -/
theorem C100_genfs (hc : cfg.WF) (fs path : Str) (cls : Nat) {s' : OState} {r : Reply}
    (h : ask (history ⟨st, db.ob⟩ qs) (.genfs fs path cls) = (s', r)) :
    Answers ss (ForFile cfg fs path cls) (BestStmt ss (ForFile cfg fs path cls) (fun t s => s.pathLength < t.pathLength))
      (.notFound 3) s' r := by
  have hB := built_of_run hrun
  have hl := legal_of_run hrun
  rcases C25_genfs (fresh_of_built hB hw) hr hq (read_fileOf hB.genfs) fs path cls h with ⟨e, x, h1, h2, h3⟩ | ⟨h1, h2⟩ | ⟨⟨e, h1⟩, h2⟩
  · obtain ⟨s, hs, hs'⟩ := best_stmt hc hB hl h1
    exact .inl ⟨s, e.ctx, x, hs, hs', h2, h3⟩
  · exact .inr (.inl ⟨no_stmt hc hB hl h1, h2⟩)
  · obtain ⟨s, hs, hs'⟩ := best_stmt hc hB hl h1
    exact .inr (.inr ⟨⟨s, hs.1, hs.2.1⟩, h2⟩)

/-- C100: a file system gets behavior and label of the `fs_use` statement for it; without one the label that
`genfscon` gives to its root directory (behavior 4), or none at all (behavior 5). -/
theorem C100_fs_use (hc : cfg.WF) (fs : Str) {s' : OState} {r : Reply}
    (h : ask (history ⟨st, db.ob⟩ qs) (.fsUse fs) = (s', r)) :
    (∃ b c x, .fsUse b fs (some c) ∈ ss ∧ r = .use b (some x) ∧ StandsFor s' x c) ∨
    ((∃ s ∈ ss, ForFs fs s) ∧ r = .noSid ∧ Full s') ∨
    ((∀ s ∈ ss, ¬ ForFs fs s) ∧
      ((∃ s c x, BestStmt ss (ForFile cfg fs ['/'] d) (fun t s => s.pathLength < t.pathLength) s ∧ s.label = some c ∧
          r = .use 4 (some x) ∧ StandsFor s' x c) ∨
       ((∀ s ∈ ss, ¬ ForFile cfg fs ['/'] d s) ∧ r = .use 5 (some 3)) ∨
       ((∃ s ∈ ss, ForFile cfg fs ['/'] d s) ∧ r = .use 5 none ∧ Full s'))) := by
  have hB := built_of_run hrun
  have hl := legal_of_run hrun
  have get : ∀ o, o ∈ db.ob.fsuse → ∃ b f c, o = entry (f, b) c ∧ .fsUse b f (some c) ∈ ss := by
    intro o ho
    rw [hB.fsuse, List.mem_reverse, List.mem_filterMap] at ho
    obtain ⟨s, hs, he⟩ := ho
    unfold fsuseE at he
    split at he
    · cases he; exact ⟨_, _, _, rfl, hs⟩
    · cases he
  have hu := C25_fs_use_partial (fresh_of_built hB hw) hr hq (read_fileOf hB.genfs) fs h
  rw [hB.dir] at hu
  rcases hu with ⟨o, x, ⟨pre, post, e1, e2, _⟩, h2, h3⟩ | ⟨⟨o, ⟨pre, post, e1, e2, _⟩⟩, h2⟩ | ⟨h1, h2⟩
  · obtain ⟨b, f, c, rfl, hs⟩ := get o (by rw [e1]; simp)
    obtain rfl : f = fs := e2
    exact .inl ⟨b, c, x, hs, h2, h3⟩
  · obtain ⟨b, f, c, rfl, hs⟩ := get o (by rw [e1]; simp)
    obtain rfl : f = fs := e2
    exact .inr (.inl ⟨⟨_, hs, rfl⟩, h2⟩)
  · refine .inr (.inr ⟨fun s hs hfs => ?_, ?_⟩)
    · cases s <;> simp only [ForFs] at hfs
      case fsUse b f c =>
        subst hfs
        obtain ⟨c, rfl⟩ := ne_none.mp (hl _ hs).2
        refine h1 (entry (f, b) c) ?_ rfl
        rw [hB.fsuse, List.mem_reverse, List.mem_filterMap]
        exact ⟨_, hs, rfl⟩
    · rcases h2 with ⟨e, x, h1, h2, h3⟩ | ⟨h1, h2⟩ | ⟨⟨e, h1⟩, h2⟩
      · obtain ⟨s, hs, hs'⟩ := best_stmt hc hB hl h1
        exact .inl ⟨s, e.ctx, x, hs, hs', h2, h3⟩
      · exact .inr (.inl ⟨no_stmt hc hB hl h1, h2⟩)
      · obtain ⟨s, hs, hs'⟩ := best_stmt hc hB hl h1
        exact .inr (.inr ⟨⟨s, hs.1, hs.2.1⟩, h2⟩)

end

/-! ## There is only one statement to choose -/

theorem pair_of {R : Stmt → Stmt → Prop} (hsym : ∀ s t, R s t → R t s) {l : List Stmt} (h : l.Pairwise (fun s t => ¬ R s t))
    {s t : Stmt} (hs : s ∈ l) (ht : t ∈ l) (hr : R s t) : s = t := by
  induction l with
  | nil => cases hs
  | cons x l ih =>
    rw [List.pairwise_cons] at h
    rcases List.mem_cons.mp hs with hs' | hs' <;> rcases List.mem_cons.mp ht with ht' | ht'
    · exact hs'.trans ht'.symm
    · exact absurd (hs' ▸ hr) (h.1 t ht')
    · exact absurd (hsym _ _ (ht' ▸ hr)) (h.1 s hs')
    · exact ih h.2 hs' ht'

/-- The statement looks at the first `k` bits. -/
def Prefix4 (s : Stmt) (k : Nat) : Prop := k ≤ 32 ∧ ∀ i < 32, Looks4 s i ↔ i < k

/-- C100: with masks that are prefixes, the statement chosen for an IPv4 address has the longest prefix, and it is the
only one with this prefix length. -/
theorem C100_longest_prefix {cfg : Cfg} (hc : cfg.WF) {d : Nat} {ss : List Stmt} {db : Db} (hf : ∀ s ∈ ss, s.Fits)
    (hrun : run cfg ss (start d) = .ok db) (a : BitVec 32) {s : Stmt} (hs : BestStmt ss (For4 a) (More Looks4) s) {k : Nat}
    (hk : Prefix4 s k) : ∀ t ∈ ss, For4 a t → ∀ j, Prefix4 t j → j ≤ k ∧ (j = k → t = s) := by
  intro t ht hta j hj
  have hl := legal_of_run hrun
  have hpw := ((C100_accepted_partial hc d ss hf).mp ⟨db, hrun⟩).2
  obtain ⟨hs1, hs2, hs3⟩ := hs
  obtain ⟨x, hx⟩ := for4_net (hl s hs1) hs2
  obtain ⟨y, hy⟩ := for4_net (hl t ht) hta
  have bx := net4_bits (hl s hs1) hx
  have bY := net4_bits (hl t ht) hy
  have big : ∀ (u : Stmt) (z : (BitVec 32 × BitVec 32) × Context), (∀ i, Looks4 u i ↔ z.1.2.getMsbD i = true) →
      ∀ i, Looks4 u i → i < 32 := by
    intro u z h i hi
    by_contra hlt
    rw [h, BitVec.getMsbD_of_ge _ _ (by omega)] at hi
    cases hi
  constructor
  · by_contra hlt
    refine hs3 t ht hta ⟨fun i hi => ?_, k, ?_, ?_⟩
    · have h32 := big s x bx.1 i hi
      exact (hj.2 i h32).mpr (by have := (hk.2 i h32).mp hi; omega)
    · have := hj.1; exact (hj.2 k (by omega)).mpr (by omega)
    · have := hj.1; intro hi; have := (hk.2 k (by omega)).mp hi; omega
  · intro hjk
    subst hjk
    have is : ∀ u ∈ ss, For4 a u → u.is4 = true := fun u hu h => (net4_is (hl u hu)).mp (for4_net (hl u hu) h)
    have looks : ∀ i, Looks4 s i ↔ Looks4 t i := by
      intro i
      by_cases hi : i < 32
      · rw [hk.2 i hi, hj.2 i hi]
      · exact ⟨fun h => absurd (big s x bx.1 i h) hi, fun h => absurd (big t y bY.1 i h) hi⟩
    have nets : ∀ i, Net4 s i = Net4 t i := by
      intro i
      rw [bx.2.1, bY.2.1, (for4_iff (hl s hs1) hx a).mp hs2, (for4_iff (hl t ht) hy a).mp hta, BitVec.getMsbD_and, BitVec.getMsbD_and]
      have := looks i
      rw [bx.1, bY.1] at this
      rw [Bool.eq_iff_iff.mpr this]
    have sym : ∀ s t : Stmt, (Clash s t ∧ s.is4 = true ∧ t.is4 = true) → (Clash t s ∧ t.is4 = true ∧ s.is4 = true) := by
      rintro s t ⟨h1, h2, h3⟩
      refine ⟨?_, h3, h2⟩
      rw [clash4 h3] at h1
      rw [clash4 h2]
      exact ⟨h3, fun i => (h1.2.1 i).symm, fun i => (h1.2.2 i).symm⟩
    refine (pair_of sym (hpw.imp fun h h' => h h'.1) hs1 ht ⟨?_, is s hs1 hs2, is t ht hta⟩).symm
    rw [clash4 (is t ht hta)]
    exact ⟨is s hs1 hs2, looks, nets⟩

/-- The statement looks at the first `k` bits of an IPv6 address. -/
def Prefix6 (s : Stmt) (k : Nat) : Prop := k ≤ 128 ∧ ∀ i < 128, Looks6 s i ↔ i < k

/-- C100: the same for IPv6. -/
theorem C100_longest_prefix6 {cfg : Cfg} (hc : cfg.WF) {d : Nat} {ss : List Stmt} {db : Db} (hf : ∀ s ∈ ss, s.Fits)
    (hrun : run cfg ss (start d) = .ok db) (a : Words) {s : Stmt} (hs : BestStmt ss (For6 a) (More Looks6) s) {k : Nat}
    (hk : Prefix6 s k) : ∀ t ∈ ss, For6 a t → ∀ j, Prefix6 t j → j ≤ k ∧ (j = k → t = s) := by
  intro t ht hta j hj
  have hl := legal_of_run hrun
  have hpw := ((C100_accepted_partial hc d ss hf).mp ⟨db, hrun⟩).2
  obtain ⟨hs1, hs2, hs3⟩ := hs
  obtain ⟨x, hx⟩ := for6_net (hl s hs1) hs2
  obtain ⟨y, hy⟩ := for6_net (hl t ht) hta
  have bx := net6_bits (hl s hs1) hx
  have bY := net6_bits (hl t ht) hy
  constructor
  · by_contra hlt
    refine hs3 t ht hta ⟨fun i hi => ?_, k, ?_, ?_⟩
    · have h32 := ((bx.1 i).mp hi).1
      exact (hj.2 i h32).mpr (by have := (hk.2 i h32).mp hi; omega)
    · have := hj.1; exact (hj.2 k (by omega)).mpr (by omega)
    · have := hj.1; intro hi; have := (hk.2 k (by omega)).mp hi; omega
  · intro hjk
    subst hjk
    have is : ∀ u ∈ ss, For6 a u → u.is6 = true := fun u hu h => (net6_is (hl u hu)).mp (for6_net (hl u hu) h)
    have looks : ∀ i, Looks6 s i ↔ Looks6 t i := by
      intro i
      by_cases hi : i < 128
      · rw [hk.2 i hi, hj.2 i hi]
      · exact ⟨fun h => absurd ((bx.1 i).mp h).1 hi, fun h => absurd ((bY.1 i).mp h).1 hi⟩
    have nets : ∀ i < 128, Net6 s i = Net6 t i := by
      intro i hi
      rw [bx.2.1 i hi, bY.2.1 i hi, (for6_iff (hl s hs1) hx a).mp hs2, (for6_iff (hl t ht) hy a).mp hta, bit6_apply, bit6_apply]
      have := looks i
      rw [bx.1, bY.1] at this
      simp only [hi, true_and] at this
      rw [Bool.eq_iff_iff.mpr this]
    have sym : ∀ s t : Stmt, (Clash s t ∧ s.is6 = true ∧ t.is6 = true) → (Clash t s ∧ t.is6 = true ∧ s.is6 = true) := by
      rintro s t ⟨h1, h2, h3⟩
      refine ⟨?_, h3, h2⟩
      rw [clash6 h3] at h1
      rw [clash6 h2]
      exact ⟨h3, fun i => (h1.2.1 i).symm, fun i hi => (h1.2.2 i hi).symm⟩
    refine (pair_of sym (hpw.imp fun h h' => h h'.1) hs1 ht ⟨?_, is s hs1 hs2, is t ht hta⟩).symm
    rw [clash6 (is t ht hta)]
    exact ⟨is s hs1 hs2, looks, nets⟩

/-- C100: there is at most one `genfscon` to choose. -/
theorem C100_genfs_unique {cfg : Cfg} (hc : cfg.WF) {d : Nat} {ss : List Stmt} {db : Db} (hf : ∀ s ∈ ss, s.Fits)
    (hrun : run cfg ss (start d) = .ok db) (fs path : Str) (cls : Nat) {s t : Stmt}
    (hs : BestStmt ss (ForFile cfg fs path cls) (fun t s => s.pathLength < t.pathLength) s)
    (ht : BestStmt ss (ForFile cfg fs path cls) (fun t s => s.pathLength < t.pathLength) t) : s = t := by
  have hpw := ((C100_accepted_partial hc d ss hf).mp ⟨db, hrun⟩).2
  obtain ⟨hs1, hs2, hs3⟩ := hs
  obtain ⟨ht1, ht2, ht3⟩ := ht
  have l1 := hs3 t ht1 ht2
  have l2 := ht3 s hs1 hs2
  cases s <;> simp only [ForFile] at hs2
  cases t <;> simp only [ForFile] at ht2
  rename_i f p ty c f' p' ty' c'
  obtain ⟨rfl, a2, a3⟩ := hs2
  obtain ⟨rfl, b2, b3⟩ := ht2
  simp only [Stmt.pathLength] at l1 l2
  have hp : p = p' := by
    rw [List.prefix_iff_eq_take] at a2 b2
    rw [a2, b2, show p.length = p'.length by omega]
  let R : Stmt → Stmt → Prop := fun s t => match s, t with
    | .genfs f p t _, .genfs f' p' t' _ => f = f' ∧ p = p' ∧ (t = none ∨ t' = none ∨ t = t')
    | _, _ => False
  have hpw' : ss.Pairwise (fun s t => ¬ R s t) := by
    refine hpw.imp ?_
    intro s t h h'
    apply h
    cases s <;> cases t <;> simp only [R] at h'
    exact h'
  refine pair_of (R := R) ?_ hpw' hs1 ht1 ⟨rfl, hp, ?_⟩
  · intro s t h
    cases s <;> cases t <;> simp only [R] at h ⊢
    exact ⟨h.1.symm, h.2.1.symm, by rcases h.2.2 with h | h | h <;> simp [h]⟩
  · rcases a3 with a3 | ⟨t1, n1, a3, a4, a5⟩
    · exact .inl a3
    · rcases b3 with b3 | ⟨t2, n2, b3, b4, b5⟩
      · exact .inr (.inl b3)
      · obtain rfl := hc.inj _ _ _ a5 b5
        right; right
        rw [a3, b3, typeClass_inj a4 b4]

/-! ## Xen -/

theorem fm_congr {β : Type} {f g : Stmt → Option β} : ∀ {l : List Stmt}, (∀ s ∈ l, f s = g s) → l.filterMap f = l.filterMap g := by
  intro l
  induction l with
  | nil => intro _; rfl
  | cons s l ih => intro h; rw [List.filterMap_cons, List.filterMap_cons, h s (by simp), ih fun t ht => h t (by simp [ht])]

/-- C100: the lists of a Xen policy are those of the statements, in their order, and ranges never overlap.  What is missing:
interrupts that do not fit, see `C100_pirq_refuted`. -/
theorem C100_xen_partial {cfg : Cfg} (hc : cfg.WF) {d : Nat} {ss : List Stmt} {db : Db} (hf : ∀ s ∈ ss, s.Fits)
    (hrun : run cfg ss (start d) = .ok db) :
    db.pirq.map (fun o => (o.key, o.ctx0)) = ss.filterMap (fun s => match s with | .pirq n c => c.map (n, ·) | _ => none) ∧
    db.iomem.map (fun o => (o.key, o.ctx0)) = ss.filterMap (fun s => match s with | .iomem a b c => c.map ((a, b), ·) | _ => none) ∧
    db.ioport.map (fun o => (o.key, o.ctx0)) = ss.filterMap (fun s => match s with | .ioport a b c => c.map ((a, b), ·) | _ => none) ∧
    db.pcidevice.map (fun o => (o.key, o.ctx0)) = ss.filterMap (fun s => match s with | .pcidevice n c => c.map (n, ·) | _ => none) ∧
    db.devicetree.map (fun o => (o.key, o.ctx0)) = ss.filterMap (fun s => match s with | .devicetree n c => c.map (n, ·) | _ => none) ∧
    db.pirq.Pairwise (fun o o' => o.key ≠ o'.key) ∧ db.pcidevice.Pairwise (fun o o' => o.key ≠ o'.key) ∧
    db.devicetree.Pairwise (fun o o' => o.key ≠ o'.key) ∧
    db.iomem.Pairwise (fun o o' => ∀ x, ¬ (o.key.1 ≤ x ∧ x ≤ o.key.2 ∧ o'.key.1 ≤ x ∧ x ≤ o'.key.2)) ∧
    db.ioport.Pairwise (fun o o' => ∀ x, ¬ (o.key.1 ≤ x ∧ x ≤ o.key.2 ∧ o'.key.1 ≤ x ∧ x ≤ o'.key.2)) := by
  have hB := built_of_run hrun
  have hpw := ((C100_accepted_partial hc d ss hf).mp ⟨db, hrun⟩).2
  rw [hB.pirq, hB.iomem, hB.ioport, hB.pci, hB.tree]
  have two : ∀ {β γ : Type} (f : Stmt → Option β) (g : β → γ) (h : Stmt → Option γ), (∀ s ∈ ss, (f s).map g = h s) →
      (ss.filterMap f).map g = ss.filterMap h := by
    intro β γ f g h he
    rw [List.map_filterMap]
    exact fm_congr he
  have pw : ∀ {β : Type} (f : Stmt → Option β) (R : β → β → Prop),
      (∀ s ∈ ss, ∀ t ∈ ss, ¬ Clash s t → ∀ x, f s = some x → ∀ y, f t = some y → R x y) → (ss.filterMap f).Pairwise R := by
    intro β f R h
    rw [List.pairwise_filterMap]
    exact List.Pairwise.imp_of_mem (fun hs ht hn x hx y hy => h _ hs _ ht hn x hx y hy) hpw
  refine ⟨two _ _ _ ?_, two _ _ _ ?_, two _ _ _ ?_, two _ _ _ ?_, two _ _ _ ?_, pw _ _ ?_, pw _ _ ?_, pw _ _ ?_, pw _ _ ?_, pw _ _ ?_⟩
  · intro s hs
    have := hf s hs
    cases s <;> try rfl
    rename_i n c
    cases c <;> simp [pirqE, entry, Nat.mod_eq_of_lt this]
  all_goals try (intro s hs; cases s <;> try rfl)
  · rename_i c; cases c <;> rfl
  · rename_i c; cases c <;> rfl
  · rename_i c; cases c <;> rfl
  · rename_i c; cases c <;> rfl
  all_goals
    intro t ht hn x hx y hy
    try cases hx
  all_goals
    rename_i c
    cases c
    · cases hx
    · cases t <;> try cases hy
      rename_i c'
      cases c'
      · cases hy
      · cases hx; cases hy
        simp only [Clash] at hn
        first
          | exact hn
          | (have h1 := hf _ hs; have h2 := hf _ ht
             simp only [Stmt.Fits] at h1 h2
             simpa [entry, Nat.mod_eq_of_lt h1, Nat.mod_eq_of_lt h2] using hn)
          | (intro z hz; exact hn ⟨z, hz⟩)

/-! ## What the code does not do -/

theorem hex_length {n : Nat} (h : 16 ≤ n) : 2 ≤ (hex n).length := by
  rw [hex, if_neg (by omega), List.length_append]
  have : 1 ≤ (hex (n / 16)).length := by
    rw [hex]; split <;> simp
  simp; omega

theorem hex2_length (n : Nat) : 2 ≤ (hex2 n).length ∧ (256 ≤ n → 3 ≤ (hex2 n).length) := by
  unfold hex2
  split
  · exact ⟨by simp, fun h => by omega⟩
  · refine ⟨hex_length (by omega), fun h => ?_⟩
    rw [hex, if_neg (by omega), List.length_append]
    have := hex_length (n := n / 16) (by omega)
    simp; omega

/-- Every `fscon` with a number of more than two hexadecimal digits makes the compiler write beyond the buffer for its
name. -/
theorem C100_fs_refuted {cfg : Cfg} (hx : cfg.xen = false) (a b : Nat) (c d : Option Context) (h : 256 ≤ a ∨ 256 ≤ b) (db : Db) :
    define cfg (.fs a b c d) db = .overflow := by
  have ha := hex2_length a
  have hb := hex2_length b
  simp only [define, defineFs, hx, Bool.false_eq_true, if_false]
  rw [if_pos]
  simp only [List.length_append, List.length_cons]
  rcases h with h | h
  · have := ha.2 h; omega
  · have := hb.2 h; omega

def exC (n : Nat) : Context := ⟨n, n, n, emptyRange⟩

theorem exC_wf (n : Nat) : WFRange (exC n).range := wf_empty

/-- Classes `file`, `dir` and `blk_file`. -/
def exCfg : Cfg := ⟨false, true, fun n => if n = "file".toList then some 6 else if n = "dir".toList then some 7
  else if n = "blk_file".toList then some 11 else none⟩

theorem exCfg_wf : exCfg.WF where
  pos := by
    intro n v h
    simp only [exCfg] at h
    split at h
    · cases h; decide
    · split at h
      · cases h; decide
      · split at h <;> cases h; decide
  inj := by
    intro n n' v h h'
    simp only [exCfg] at h h'
    split at h
    · cases h
      split at h'
      · simp_all
      · split at h'
        · cases h'
        · split at h' <;> cases h'
    · split at h
      · cases h
        split at h'
        · cases h'
        · split at h'
          · simp_all
          · split at h' <;> cases h'
      · split at h
        · cases h
          split at h'
          · cases h'
          · split at h'
            · cases h'
            · split at h'
              · simp_all
              · cases h'
        · cases h

/-- `portcon tcp 65536` is accepted and labels port 0, which no statement is for. -/
theorem C100_port_refuted : ∃ (ss : List Stmt) (db : Db), run exCfg ss (start 7) = .ok db ∧ (∀ s ∈ ss, ¬ ForPort 6 0 s) ∧
    ∃ x, (ask ⟨Sidtab.init, db.ob⟩ (.port 6 0)).2 = .sids [x] ∧ StandsFor (ask ⟨Sidtab.init, db.ob⟩ (.port 6 0)).1 x (exC 1) := by
  let ob : Objects := { (start 7).ob with port := [entry ⟨6, 0, 0⟩ (exC 1)] }
  have hrun : run exCfg [.port "tcp".toList 65536 65536 (some (exC 1))] (start 7) = .ok { start 7 with ob := ob } := rfl
  refine ⟨_, _, hrun, by simp [ForPort], ?_⟩
  have hB := built_of_run hrun
  have hL := C25_port (fresh_of_built hB (by simp [Stmt.WF, Stmt.label, Stmt.label2, exC_wf])) Sidtab.Reach.init (qs := [])
    (by simp) 6 0 (s' := (ask ⟨Sidtab.init, ob⟩ (.port 6 0)).1) (r := (ask ⟨Sidtab.init, ob⟩ (.port 6 0)).2) rfl
  rcases hL with ⟨o, x, ⟨pre, post, h0, _⟩, h2, h3⟩ | ⟨h1, _⟩ | ⟨_, h1, _⟩
  · have : o = entry ⟨6, 0, 0⟩ (exC 1) := by
      cases pre with
      | nil => exact (List.cons.inj h0).1.symm
      | cons y l => have := (List.cons.inj h0).2; cases l <;> cases this
    subst this
    exact ⟨x, h2, h3⟩
  · exact absurd ⟨rfl, Nat.le_refl _, Nat.le_refl _⟩ (h1 (entry ⟨6, 0, 0⟩ (exC 1)) (List.mem_singleton.mpr rfl))
  · have : (ask ⟨Sidtab.init, ob⟩ (.port 6 0)).2 ≠ .noSid := by decide +kernel
    exact absurd h1 this

/-- Two `pirqcon`s for the same interrupt are accepted if its number does not fit. -/
theorem C100_pirq_refuted : ∃ (ss : List Stmt) (db : Db), run { exCfg with xen := true } ss (start 7) = .ok db ∧
    ¬ ss.Pairwise (fun s t => ¬ Clash s t) :=
  ⟨[.pirq 65536 (some (exC 1)), .pirq 65536 (some (exC 2))], _, rfl, by simp [Clash]⟩

/-- A refused `genfscon` for a new file system type leaves the type in the list although its name was freed. -/
theorem C100_genfs_refuted : ∃ (s : Stmt) (db : Db) (fs : Str), define exCfg s (start 7) = .error db (some fs) ∧
    ∃ l, (fs, l) ∈ db.ob.genfs :=
  ⟨.genfs "proc".toList ['/'] (some ['x']) (some (exC 1)), _, "proc".toList, rfl, [], by simp [place, start]⟩

/-- A `nodecon` with a bit outside its mask (10.1.2.3 255.0.0.0) is accepted, and no address gets its label. -/
theorem C100_node_refuted : ∃ (s : Stmt) (db : Db), run exCfg [s] (start 7) = .ok db ∧ s.is4 = true ∧ ∀ a, ¬ For4 a s := by
  refine ⟨.node (some 0x0a010203#32) (some 0xff000000#32) (some (exC 1)), _, rfl, rfl, fun a h => ?_⟩
  have := h 15 (by decide)
  rw [show (0xff000000#32).getMsbD 15 = false by decide, Bool.and_false] at this
  exact absurd this (by decide)

/-! ## Examples -/

def exStmts : List Stmt :=
  [.port "tcp".toList 22 22 (some (exC 1)), .port "tcp".toList 1 1023 (some (exC 2)), .port "udp".toList 22 22 (some (exC 3)),
   .nodeCidr (some 0x0a000000#32) 8 (some (exC 4)), .node (some 0x0a010000#32) (some 0xffff0000#32) (some (exC 5)),
   .node6Cidr (some ⟨0xfe800000#32, 0, 0, 0⟩) 10 (some (exC 6)), .netif "eth0".toList (some (exC 7)) (some (exC 8)),
   .fs 8 17 (some (exC 9)) (some (exC 10)), .fsUse 1 "ext4".toList (some (exC 11)),
   .genfs "proc".toList "/".toList none (some (exC 12)), .genfs "proc".toList "/sys".toList (some ['d']) (some (exC 13)),
   .ibpkey (some ⟨0xfe800000#32, 0, 0, 0⟩) 1 5 (some (exC 14)), .ibendport "mlx4_0".toList 1 (some (exC 15))]

theorem exStmts_wf : ∀ s ∈ exStmts, s.WF := by
  have h2 : ∀ m n c, exC m = c ∨ exC n = c → WFRange c.range := by rintro m n c (rfl | rfl) <;> exact exC_wf _
  simp [exStmts, Stmt.WF, Stmt.label, Stmt.label2, exC_wf]
  exact ⟨h2 7 8, h2 9 10⟩
theorem exStmts_fit : ∀ s ∈ exStmts, s.Fits := by simp [exStmts, Stmt.Fits]

def Res.isOk : Res → Bool
  | .ok _ => true
  | _ => false

theorem exStmts_ok : ∃ db, run exCfg exStmts (start 7) = .ok db := by
  have : (run exCfg exStmts (start 7)).isOk = true := by decide +kernel
  cases h : run exCfg exStmts (start 7) with
  | ok db => exact ⟨db, rfl⟩
  | error _ _ => rw [h] at this; cases this
  | overflow => rw [h] at this; cases this

def answer (r : Res) (q : Query) : Option Reply :=
  match r with
  | .ok db => some (ask ⟨Sidtab.init, db.ob⟩ q).2
  | _ => none

/-- Every question about the example is answered by its statement; the address 10.1.2.3 by the longer prefix. -/
example : answer (run exCfg exStmts (start 7)) (.node (.inet (stored exCfg 0x0a010203#32))) ≠ some (.sids [12]) ∧
    answer (run exCfg exStmts (start 7)) (.node (.inet (stored exCfg 0x0b010203#32))) = some (.sids [12]) ∧
    answer (run exCfg exStmts (start 7)) (.genfs "proc".toList "/sys/net".toList 6) ≠ some (.notFound 3) ∧
    answer (run exCfg exStmts (start 7)) (.genfs "sysfs".toList "/".toList 6) = some (.notFound 3) ∧
    answer (run exCfg exStmts (start 7)) (.fsUse "ext4".toList) = some (.use 1 (some 1)) ∧
    answer (run exCfg exStmts (start 7)) (.fsUse "proc".toList) = some (.use 4 (some 1)) ∧
    answer (run exCfg exStmts (start 7)) (.fs "08:11".toList) ≠ some (.sids [4, 5]) ∧
    answer (run exCfg exStmts (start 7)) (.netif "eth0".toList) ≠ some (.sids [10, 11]) :=
  ⟨by decide +kernel, by decide +kernel, by decide +kernel, by decide +kernel, by decide +kernel, by decide +kernel, by decide +kernel, by decide +kernel⟩

/-- The address 10.1.2.3: two statements are for it, the second one looks at more. -/
example : For4 0x0a010203#32 (.nodeCidr (some 0x0a000000#32) 8 (some (exC 4))) ∧
    For4 0x0a010203#32 (.node (some 0x0a010000#32) (some 0xffff0000#32) (some (exC 5))) ∧
    More Looks4 (.node (some 0x0a010000#32) (some 0xffff0000#32) (some (exC 5))) (.nodeCidr (some 0x0a000000#32) 8 (some (exC 4))) := by
  refine ⟨?_, ?_, ?_, 8, ?_, ?_⟩
  · simp only [For4]; decide
  · simp only [For4]; decide
  · intro i hi
    have hi : i < 8 := hi
    have : ∀ i < 8, (0xffff0000#32).getMsbD i = true := by decide
    exact this i hi
  · show (0xffff0000#32).getMsbD 8 = true; decide
  · simp [Looks4]

/-- The second of two statements is refused: a range within an earlier one of the same protocol, however written. -/
example : Clash (.port "tcp".toList 1 1023 none) (.port "TCP".toList 22 22 none) ∧
    ¬ Clash (.port "tcp".toList 22 22 none) (.port "TCP".toList 1 1023 none) ∧
    (run exCfg [.port "tcp".toList 1 1023 (some (exC 1)), .port "TCP".toList 22 22 (some (exC 1))] (start 7)).isOk = false ∧
    (run exCfg [.port "tcp".toList 22 22 (some (exC 1)), .port "TCP".toList 1 1023 (some (exC 1))] (start 7)).isOk = true :=
  ⟨⟨⟨6, by simp [ProtoName], by simp [ProtoName]⟩, by decide, by decide⟩, by simp [Clash], by decide +kernel, by decide +kernel⟩

/-- A Xen policy. -/
example : ∃ db, run { exCfg with xen := true } [.pirq 33 (some (exC 1)), .iomem 0xfe000 0xfe0ff (some (exC 2)),
    .iomem 0xfe100 0xfe200 (some (exC 3)), .ioport 0xecc0 0xecdf (some (exC 4)), .pcidevice 0xc800 (some (exC 5)),
    .devicetree "/a".toList (some (exC 6))] (start 7) = .ok db ∧ db.iomem.length = 2 := ⟨_, rfl, rfl⟩

end Verif.ObjStmt
