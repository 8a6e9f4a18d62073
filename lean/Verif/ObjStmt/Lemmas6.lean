import Verif.ObjStmt.Lemmas5

namespace Verif.ObjStmt
open Verif.Policy Verif.Mls Verif.Services

theorem ne_none {α : Type} {o : Option α} : o ≠ none ↔ ∃ x, o = some x := by cases o <;> simp

theorem ok_iff {cfg : Cfg} {s : Stmt} {db : Db} {L : Prop} {P : Prop} {pre : List Stmt}
    (h1 : (∃ db', define cfg s db = .ok db') ↔ L ∧ P) (h2 : L ↔ Legal cfg s) (h3 : Legal cfg s → (P ↔ ∀ p ∈ pre, ¬ Clash p s)) :
    (∃ db', define cfg s db = .ok db') ↔ Legal cfg s ∧ ∀ p ∈ pre, ¬ Clash p s := by
  rw [h1, h2]
  exact ⟨fun ⟨a, b⟩ => ⟨a, (h3 a).mp b⟩, fun ⟨a, b⟩ => ⟨a, (h3 a).mpr b⟩⟩

/-- A statement is accepted exactly if it is legal and clashes with none of the earlier ones. -/
theorem accept_step {cfg : Cfg} (hc : cfg.WF) {d : Nat} {pre : List Stmt} {s : Stmt} {db : Db} (hB : Built cfg d pre db)
    (hpre : ∀ p ∈ pre, Legal cfg p ∧ p.Fits) (hs : s.Fits) :
    (∃ db', define cfg s db = .ok db') ↔ Legal cfg s ∧ ∀ p ∈ pre, ¬ Clash p s := by
  cases s <;> simp only [define]
  case fs a b c e =>
    refine ok_iff (L := Legal cfg (.fs a b c e)) (P := ∀ x ∈ db.ob.fs, x.key ≠ fsName a b) ?_ Iff.rfl (fun hl => ?_)
    · simp only [define, fs_ok, Legal, ne_none]
      have := fsName_length hs.1 hs.2
      constructor
      · rintro ⟨db', h1, _, x, y, rfl, rfl, h2, _⟩; exact ⟨⟨h1, ⟨x, rfl⟩, y, rfl⟩, h2⟩
      · rintro ⟨⟨h1, ⟨x, rfl⟩, y, rfl⟩, h2⟩; exact ⟨_, h1, this, x, y, rfl, rfl, h2, rfl⟩
    · rw [hB.fs]
      refine all_fm_rev fun p hp => ?_
      obtain ⟨hpl, hpf⟩ := hpre p hp
      cases p <;> try (simp [fsE, Clash, Stmt.is4, Stmt.is6]; done)
      case fs a' b' c' e' =>
        obtain ⟨_, h1, h2⟩ := hpl
        rcases c' with _ | c'
        · exact absurd rfl h1
        · rcases e' with _ | e'
          · exact absurd rfl h2
          · simp only [fsE, Option.some.injEq, forall_eq', Clash, entry, ne_eq]
            rw [fsName_inj hpf.1 hpf.2 hs.1 hs.2]
  case netif n c e =>
    refine ok_iff (L := Legal cfg (.netif n c e)) (P := ∀ x ∈ db.ob.netif, x.key ≠ n) ?_ Iff.rfl (fun hl => ?_)
    · simp only [define, netif_ok, Legal, ne_none]
      constructor
      · rintro ⟨db', h1, x, y, rfl, rfl, h2, _⟩; exact ⟨⟨h1, ⟨x, rfl⟩, y, rfl⟩, h2⟩
      · rintro ⟨⟨h1, ⟨x, rfl⟩, y, rfl⟩, h2⟩; exact ⟨_, h1, x, y, rfl, rfl, h2, rfl⟩
    · rw [hB.netif]
      refine all_fm_rev fun p hp => ?_
      obtain ⟨hpl, hpf⟩ := hpre p hp
      cases p <;> try (simp [netifE, Clash, Stmt.is4, Stmt.is6]; done)
      case netif n' c' e' =>
        obtain ⟨_, h1, h2⟩ := hpl
        rcases c' with _ | c'
        · exact absurd rfl h1
        · rcases e' with _ | e'
          · exact absurd rfl h2
          · simp only [netifE, Option.some.injEq, forall_eq', Clash, entry, ne_eq]
  case fsUse b f c =>
    refine ok_iff (L := Legal cfg (.fsUse b f c)) (P := ∀ x ∈ db.ob.fsuse, x.key.1 ≠ f) ?_ Iff.rfl (fun hl => ?_)
    · simp only [define, fsUse_ok, Legal, ne_none]
      constructor
      · rintro ⟨db', h1, x, rfl, h2, _⟩; exact ⟨⟨h1, x, rfl⟩, h2⟩
      · rintro ⟨⟨h1, x, rfl⟩, h2⟩; exact ⟨_, h1, x, rfl, h2, rfl⟩
    · rw [hB.fsuse]
      refine all_fm_rev fun p hp => ?_
      obtain ⟨hpl, hpf⟩ := hpre p hp
      cases p <;> try (simp [fsuseE, Clash, Stmt.is4, Stmt.is6]; done)
      case fsUse b' f' c' =>
        obtain ⟨_, h1⟩ := hpl
        rcases c' with _ | c'
        · exact absurd rfl h1
        · simp only [fsuseE, Option.some.injEq, forall_eq', Clash, entry, ne_eq]
  case port id low high c =>
    refine ok_iff (L := Legal cfg (.port id low high c)) (P := ∀ p, protocol id = some p → ∀ x ∈ db.ob.port,
      ¬ (x.key.protocol = p ∧ x.key.low ≤ low ∧ high ≤ x.key.high)) ?_ Iff.rfl (fun hl => ?_)
    · simp only [define, port_ok, Legal, ne_none, ← protocol_iff]
      constructor
      · rintro ⟨db', h1, p, x, h2, h3, rfl, h4, _⟩
        exact ⟨⟨h1, ⟨p, h2⟩, h3, x, rfl⟩, fun q hq => by rw [h2] at hq; cases hq; exact h4⟩
      · rintro ⟨⟨h1, ⟨p, h2⟩, h3, x, rfl⟩, h4⟩; exact ⟨_, h1, p, x, h2, h3, rfl, h4 p h2, rfl⟩
    · obtain ⟨_, ⟨q, hq⟩, h3, h4⟩ := hl
      rw [← protocol_iff] at hq
      rw [show (∀ p, protocol id = some p → ∀ x ∈ db.ob.port,
        ¬ (x.key.protocol = p ∧ x.key.low ≤ low ∧ high ≤ x.key.high)) ↔
        ∀ x ∈ db.ob.port, ¬ (x.key.protocol = q ∧ x.key.low ≤ low ∧ high ≤ x.key.high) by simp [hq]]
      rw [hB.port]
      refine all_fm fun p hp => ?_
      obtain ⟨hpl, hpf⟩ := hpre p hp
      cases p <;> try (simp [portE, Clash, Stmt.is4, Stmt.is6]; done)
      case port id' low' high' c' =>
        obtain ⟨_, ⟨q', hq'⟩, _, h1⟩ := hpl
        rw [← protocol_iff] at hq'
        obtain ⟨f1, f2⟩ := hpf
        rcases c' with _ | c'
        · exact absurd rfl h1
        · simp only [portE, hq', Option.map_some, Option.some.injEq, forall_eq', Clash, entry, ← protocol_iff,
            Nat.mod_eq_of_lt f1, Nat.mod_eq_of_lt f2, hq]
          rw [not_iff_not, show (∃ p, q' = p ∧ q = p) ↔ q' = q from
            ⟨fun ⟨p, a, b⟩ => a.trans b.symm, fun h => ⟨q, h, rfl⟩⟩]
  case ibpkey w low high c =>
    refine ok_iff (L := Legal cfg (.ibpkey w low high c)) (P := ∀ v, w = some v → ∀ x ∈ db.ob.ibpkey,
      ¬ (x.key.subnet = subnetOf v ∧ x.key.low ≤ low ∧ high ≤ x.key.high)) ?_ Iff.rfl (fun hl => ?_)
    · simp only [define, ibpkey_ok, Legal, ne_none]
      constructor
      · rintro ⟨db', h1, v, x, rfl, h2, h3, h4, h5, rfl, h6, _⟩
        exact ⟨⟨h1, ⟨v, rfl, h2, h3⟩, h5, h4, x, rfl⟩, fun q hq => by cases hq; exact h6⟩
      · rintro ⟨⟨h1, ⟨v, rfl, h2, h3⟩, h5, h4, x, rfl⟩, h6⟩
        exact ⟨_, h1, v, x, rfl, h2, h3, h4, h5, rfl, h6 v rfl, rfl⟩
    · obtain ⟨_, ⟨v, rfl, k2, k3⟩, h3, h4, h5⟩ := hl
      rw [show (∀ v', some v = some v' → ∀ x ∈ db.ob.ibpkey,
        ¬ (x.key.subnet = subnetOf v' ∧ x.key.low ≤ low ∧ high ≤ x.key.high)) ↔
        ∀ x ∈ db.ob.ibpkey, ¬ (x.key.subnet = subnetOf v ∧ x.key.low ≤ low ∧ high ≤ x.key.high) by simp]
      rw [hB.ibpkey]
      refine all_fm fun p hp => ?_
      obtain ⟨hpl, hpf⟩ := hpre p hp
      cases p <;> try (simp [pkeyE, Clash, Stmt.is4, Stmt.is6]; done)
      case ibpkey w' low' high' c' =>
        obtain ⟨_, ⟨v', rfl, l2, l3⟩, _, _, h1⟩ := hpl
        rcases c' with _ | c'
        · exact absurd rfl h1
        · simp only [pkeyE, Option.some.injEq, forall_eq', Clash, entry]
          rw [not_iff_not, subnet_inj l2 l3 k2 k3]
  case ibendport w n c =>
    refine ok_iff (L := Legal cfg (.ibendport w n c)) (P := ∀ x ∈ db.ob.ibendport, x.key ≠ (w, n)) ?_ Iff.rfl (fun hl => ?_)
    · simp only [define, ibendport_ok, Legal, ne_none]
      constructor
      · rintro ⟨db', h1, h2, h3, h4, x, rfl, h5, _⟩; exact ⟨⟨h1, h4, h2, h3, x, rfl⟩, h5⟩
      · rintro ⟨⟨h1, h4, h2, h3, x, rfl⟩, h5⟩; exact ⟨_, h1, h2, h3, h4, x, rfl, h5, rfl⟩
    · rw [hB.ibendport]
      refine all_fm fun p hp => ?_
      obtain ⟨hpl, hpf⟩ := hpre p hp
      cases p <;> try (simp [endportE, Clash, Stmt.is4, Stmt.is6]; done)
      case ibendport w' n' c' =>
        obtain ⟨_, _, _, _, h1⟩ := hpl
        rcases c' with _ | c'
        · exact absurd rfl h1
        · simp only [endportE, Option.some.injEq, forall_eq', Clash, entry, ne_eq, Prod.mk.injEq]
  case node a m c =>
    refine ok_iff (L := Legal cfg (.node a m c)) (P := ∀ x, net4 (.node a m c) = some x →
      ∀ e ∈ db.ob.node, e.key ≠ (ent4 cfg x).key) ?_ Iff.rfl (fun hl => ?_)
    · simp only [define, node_ok]
      constructor
      · rintro ⟨db', h1, x, hx, h2⟩
        exact ⟨h1, fun y hy => by rw [hx] at hy; cases hy; exact (ins4_spec x hB.node.1).1.mp ⟨_, h2⟩⟩
      · rintro ⟨h1, h2⟩
        obtain ⟨x, hx⟩ := (net4_is h1).mpr rfl
        obtain ⟨db', h3⟩ := (ins4_spec x hB.node.1).1.mpr (h2 x hx)
        exact ⟨db', h1, x, hx, h3⟩
    · obtain ⟨x, hx⟩ := (net4_is hl).mpr rfl
      have hall : ∀ P : Ocon (BitVec 32 × BitVec 32) → Prop, (∀ e ∈ db.ob.node, P e) ↔ ∀ e ∈ pre.filterMap (node4E cfg), P e :=
        fun P => ⟨fun h e he => h e (hB.node.2.mem_iff.mpr he), fun h e he => h e (hB.node.2.mem_iff.mp he)⟩
      rw [show (∀ y, net4 (.node a m c) = some y → ∀ e ∈ db.ob.node, e.key ≠ (ent4 cfg y).key) ↔
        ∀ e ∈ db.ob.node, e.key ≠ (ent4 cfg x).key by simp [hx], hall]
      exact all_fm fun p hp => node_apart (hpre p hp).1 hl hx
  case nodeCidr a k c =>
    refine ok_iff (L := Legal cfg (.nodeCidr a k c)) (P := ∀ x, net4 (.nodeCidr a k c) = some x →
      ∀ e ∈ db.ob.node, e.key ≠ (ent4 cfg x).key) ?_ Iff.rfl (fun hl => ?_)
    · simp only [define, nodeCidr_ok]
      constructor
      · rintro ⟨db', h1, x, hx, h2⟩
        exact ⟨h1, fun y hy => by rw [hx] at hy; cases hy; exact (ins4_spec x hB.node.1).1.mp ⟨_, h2⟩⟩
      · rintro ⟨h1, h2⟩
        obtain ⟨x, hx⟩ := (net4_is h1).mpr rfl
        obtain ⟨db', h3⟩ := (ins4_spec x hB.node.1).1.mpr (h2 x hx)
        exact ⟨db', h1, x, hx, h3⟩
    · obtain ⟨x, hx⟩ := (net4_is hl).mpr rfl
      have hall : ∀ P : Ocon (BitVec 32 × BitVec 32) → Prop, (∀ e ∈ db.ob.node, P e) ↔ ∀ e ∈ pre.filterMap (node4E cfg), P e :=
        fun P => ⟨fun h e he => h e (hB.node.2.mem_iff.mpr he), fun h e he => h e (hB.node.2.mem_iff.mp he)⟩
      rw [show (∀ y, net4 (.nodeCidr a k c) = some y → ∀ e ∈ db.ob.node, e.key ≠ (ent4 cfg y).key) ↔
        ∀ e ∈ db.ob.node, e.key ≠ (ent4 cfg x).key by simp [hx], hall]
      exact all_fm fun p hp => node_apart (hpre p hp).1 hl hx
  case node6 a m c =>
    refine ok_iff (L := Legal cfg (.node6 a m c)) (P := ∀ x, net6 (.node6 a m c) = some x →
      ∀ e ∈ db.ob.node6, e.key ≠ (ent6 cfg x).key) ?_ Iff.rfl (fun hl => ?_)
    · simp only [define, node6_ok]
      constructor
      · rintro ⟨db', h1, x, hx, h2⟩
        exact ⟨h1, fun y hy => by rw [hx] at hy; cases hy; exact (ins6_spec x hB.node6.1).1.mp ⟨_, h2⟩⟩
      · rintro ⟨h1, h2⟩
        obtain ⟨x, hx⟩ := (net6_is h1).mpr rfl
        obtain ⟨db', h3⟩ := (ins6_spec x hB.node6.1).1.mpr (h2 x hx)
        exact ⟨db', h1, x, hx, h3⟩
    · obtain ⟨x, hx⟩ := (net6_is hl).mpr rfl
      have hall : ∀ P : Ocon (Words × Words) → Prop, (∀ e ∈ db.ob.node6, P e) ↔ ∀ e ∈ pre.filterMap (node6E cfg), P e :=
        fun P => ⟨fun h e he => h e (hB.node6.2.mem_iff.mpr he), fun h e he => h e (hB.node6.2.mem_iff.mp he)⟩
      rw [show (∀ y, net6 (.node6 a m c) = some y → ∀ e ∈ db.ob.node6, e.key ≠ (ent6 cfg y).key) ↔
        ∀ e ∈ db.ob.node6, e.key ≠ (ent6 cfg x).key by simp [hx], hall]
      exact all_fm fun p hp => node6_apart (hpre p hp).1 hl hx
  case node6Cidr a k c =>
    refine ok_iff (L := Legal cfg (.node6Cidr a k c)) (P := ∀ x, net6 (.node6Cidr a k c) = some x →
      ∀ e ∈ db.ob.node6, e.key ≠ (ent6 cfg x).key) ?_ Iff.rfl (fun hl => ?_)
    · simp only [define, node6Cidr_ok]
      constructor
      · rintro ⟨db', h1, x, hx, h2⟩
        exact ⟨h1, fun y hy => by rw [hx] at hy; cases hy; exact (ins6_spec x hB.node6.1).1.mp ⟨_, h2⟩⟩
      · rintro ⟨h1, h2⟩
        obtain ⟨x, hx⟩ := (net6_is h1).mpr rfl
        obtain ⟨db', h3⟩ := (ins6_spec x hB.node6.1).1.mpr (h2 x hx)
        exact ⟨db', h1, x, hx, h3⟩
    · obtain ⟨x, hx⟩ := (net6_is hl).mpr rfl
      have hall : ∀ P : Ocon (Words × Words) → Prop, (∀ e ∈ db.ob.node6, P e) ↔ ∀ e ∈ pre.filterMap (node6E cfg), P e :=
        fun P => ⟨fun h e he => h e (hB.node6.2.mem_iff.mpr he), fun h e he => h e (hB.node6.2.mem_iff.mp he)⟩
      rw [show (∀ y, net6 (.node6Cidr a k c) = some y → ∀ e ∈ db.ob.node6, e.key ≠ (ent6 cfg y).key) ↔
        ∀ e ∈ db.ob.node6, e.key ≠ (ent6 cfg x).key by simp [hx], hall]
      exact all_fm fun p hp => node6_apart (hpre p hp).1 hl hx
  case genfs f n t c =>
    refine ok_iff (L := Legal cfg (.genfs f n t c)) (P := ∀ v x, classValue cfg t = some v → c = some x →
      ∀ e ∈ pre.filterMap (genE cfg f), Apart (mkEntry ⟨n, v, x⟩) (mkEntry e)) ?_ Iff.rfl (fun hl => ?_)
    · have hleg : (∀ t', t = some t' → ∃ n v, TypeClass t' n ∧ cfg.classOf n = some v) ↔ ∃ v, classValue cfg t = some v := by
        simp only [classValue_some]
        rcases t with _ | t'
        · simp
        · simp only [Option.some.injEq, forall_eq', reduceCtorEq, false_and, false_or, exists_and_left, exists_eq_left']
          constructor
          · rintro ⟨n, h1, v, h2⟩; exact ⟨v, n, h1, h2⟩
          · rintro ⟨v, n, h1, h2⟩; exact ⟨n, h1, v, h2⟩
      simp only [define, genfs_ok, Legal, ne_none, hleg]
      constructor
      · rintro ⟨db', h1, v, x, g, h2, rfl, h3, _⟩
        refine ⟨⟨h1, ⟨v, h2⟩, x, rfl⟩, fun v' x' hv' hx' => ?_⟩
        rw [h2] at hv'; cases hv'; cases hx'
        exact (gen_insert hB.genfs f ⟨n, v, x⟩).1.mp ⟨g, h3⟩
      · rintro ⟨⟨h1, ⟨v, h2⟩, x, rfl⟩, h3⟩
        obtain ⟨g, hg⟩ := (gen_insert hB.genfs f ⟨n, v, x⟩).1.mpr (h3 v x h2 rfl)
        exact ⟨_, h1, v, x, g, h2, rfl, hg, rfl⟩
    · obtain ⟨_, h1, h2⟩ := hl
      obtain ⟨x, rfl⟩ := ne_none.mp h2
      have : ∃ v, classValue cfg t = some v := by
        rcases t with _ | t'
        · exact ⟨0, rfl⟩
        · obtain ⟨n, v, h1, h2⟩ := h1 t' rfl
          exact ⟨v, (classValue_some _ _ _).mpr (.inr ⟨t', n, rfl, h1, h2⟩)⟩
      obtain ⟨v, hv⟩ := this
      rw [show (∀ v x', classValue cfg t = some v → some x = some x' →
        ∀ e ∈ pre.filterMap (genE cfg f), Apart (mkEntry ⟨n, v, x'⟩) (mkEntry e)) ↔
        ∀ e ∈ pre.filterMap (genE cfg f), Apart (mkEntry ⟨n, v, x⟩) (mkEntry e) by simp [hv]]
      exact all_fm fun p hp => gen_apart hc (hpre p hp).1 hv
  case pirq n c =>
    refine ok_iff (L := Legal cfg (.pirq n c)) (P := ∀ x ∈ db.pirq, x.key ≠ n) ?_ Iff.rfl (fun hl => ?_)
    · simp only [define, pirq_ok, Legal, ne_none]
      constructor
      · rintro ⟨db', h1, x, rfl, h2, _⟩; exact ⟨⟨h1, x, rfl⟩, h2⟩
      · rintro ⟨⟨h1, x, rfl⟩, h2⟩; exact ⟨_, h1, x, rfl, h2, rfl⟩
    · rw [hB.pirq]
      refine all_fm fun p hp => ?_
      obtain ⟨hpl, hpf⟩ := hpre p hp
      cases p <;> try (simp [pirqE, Clash, Stmt.is4, Stmt.is6]; done)
      case pirq n' c' =>
        obtain ⟨_, h1⟩ := hpl
        have hpf' : n' < 2 ^ 16 := hpf
        rcases c' with _ | c'
        · exact absurd rfl h1
        · simp only [pirqE, Option.some.injEq, forall_eq', Clash, entry, ne_eq, Nat.mod_eq_of_lt hpf']
  case pcidevice n c =>
    refine ok_iff (L := Legal cfg (.pcidevice n c)) (P := ∀ x ∈ db.pcidevice, x.key ≠ n) ?_ Iff.rfl (fun hl => ?_)
    · simp only [define, pcidevice_ok, Legal, ne_none]
      constructor
      · rintro ⟨db', h1, x, rfl, h2, _⟩; exact ⟨⟨h1, x, rfl⟩, h2⟩
      · rintro ⟨⟨h1, x, rfl⟩, h2⟩; exact ⟨_, h1, x, rfl, h2, rfl⟩
    · rw [hB.pci]
      refine all_fm fun p hp => ?_
      obtain ⟨hpl, hpf⟩ := hpre p hp
      cases p <;> try (simp [pciE, Clash, Stmt.is4, Stmt.is6]; done)
      case pcidevice n' c' =>
        obtain ⟨_, h1⟩ := hpl
        rcases c' with _ | c'
        · exact absurd rfl h1
        · simp only [pciE, Option.some.injEq, forall_eq', Clash, entry, ne_eq]
  case devicetree n c =>
    refine ok_iff (L := Legal cfg (.devicetree n c)) (P := ∀ x ∈ db.devicetree, x.key ≠ n) ?_ Iff.rfl (fun hl => ?_)
    · simp only [define, devicetree_ok, Legal, ne_none]
      constructor
      · rintro ⟨db', h1, x, rfl, h2, _⟩; exact ⟨⟨h1, x, rfl⟩, h2⟩
      · rintro ⟨⟨h1, x, rfl⟩, h2⟩; exact ⟨_, h1, x, rfl, h2, rfl⟩
    · rw [hB.tree]
      refine all_fm fun p hp => ?_
      obtain ⟨hpl, hpf⟩ := hpre p hp
      cases p <;> try (simp [treeE, Clash, Stmt.is4, Stmt.is6]; done)
      case devicetree n' c' =>
        obtain ⟨_, h1⟩ := hpl
        rcases c' with _ | c'
        · exact absurd rfl h1
        · simp only [treeE, Option.some.injEq, forall_eq', Clash, entry, ne_eq]
  case iomem low high c =>
    refine ok_iff (L := Legal cfg (.iomem low high c)) (P := ∀ x ∈ db.iomem, ¬ (low ≤ x.key.2 ∧ x.key.1 ≤ high)) ?_ Iff.rfl
      (fun hl => ?_)
    · simp only [define, iomem_ok, Legal, ne_none]
      constructor
      · rintro ⟨db', h1, h2, x, rfl, h3, _⟩; exact ⟨⟨h1, h2, x, rfl⟩, h3⟩
      · rintro ⟨⟨h1, h2, x, rfl⟩, h3⟩; exact ⟨_, h1, h2, x, rfl, h3, rfl⟩
    · rw [hB.iomem]
      refine all_fm fun p hp => ?_
      obtain ⟨hpl, hpf⟩ := hpre p hp
      cases p <;> try (simp [iomemE, Clash, Stmt.is4, Stmt.is6]; done)
      case iomem low' high' c' =>
        obtain ⟨_, hle, h1⟩ := hpl
        obtain ⟨_, hle', _⟩ := hl
        rcases c' with _ | c'
        · exact absurd rfl h1
        · simp only [iomemE, Option.some.injEq, forall_eq', Clash, entry]
          rw [not_iff_not]
          constructor
          · rintro ⟨a, b⟩; exact ⟨max low low', by omega, by omega, by omega, by omega⟩
          · rintro ⟨x, a, b, c, d⟩; omega
  case ioport low high c =>
    refine ok_iff (L := Legal cfg (.ioport low high c)) (P := ∀ x ∈ db.ioport, ¬ (low ≤ x.key.2 ∧ x.key.1 ≤ high)) ?_ Iff.rfl
      (fun hl => ?_)
    · simp only [define, ioport_ok, Legal, ne_none]
      constructor
      · rintro ⟨db', h1, h2, x, rfl, h3, _⟩; exact ⟨⟨h1, h2, x, rfl⟩, h3⟩
      · rintro ⟨⟨h1, h2, x, rfl⟩, h3⟩; exact ⟨_, h1, h2, x, rfl, h3, rfl⟩
    · rw [hB.ioport]
      refine all_fm fun p hp => ?_
      obtain ⟨hpl, hpf⟩ := hpre p hp
      cases p <;> try (simp [ioportE, Clash, Stmt.is4, Stmt.is6]; done)
      case ioport low' high' c' =>
        obtain ⟨_, hle, h1⟩ := hpl
        obtain ⟨_, hle', _⟩ := hl
        rcases c' with _ | c'
        · exact absurd rfl h1
        · simp only [ioportE, Option.some.injEq, forall_eq', Clash, entry]
          rw [not_iff_not]
          constructor
          · rintro ⟨a, b⟩; exact ⟨max low low', by omega, by omega, by omega, by omega⟩
          · rintro ⟨x, a, b, c, d⟩; omega

theorem accept_run {cfg : Cfg} (hc : cfg.WF) {d : Nat} : ∀ (l pre : List Stmt) (db : Db), Built cfg d pre db →
    (∀ p ∈ pre, Legal cfg p ∧ p.Fits) → (∀ s ∈ l, s.Fits) →
    ((∃ db', run cfg l db = .ok db') ↔ (∀ s ∈ l, Legal cfg s) ∧ l.Pairwise (fun a b => ¬ Clash a b) ∧
      ∀ p ∈ pre, ∀ s ∈ l, ¬ Clash p s) := by
  intro l
  induction l with
  | nil => intro pre db _ _ _; simp [run]
  | cons s l ih =>
    intro pre db hB hpre hl
    have hacc := accept_step hc hB hpre (hl s (by simp))
    constructor
    · rintro ⟨db', h⟩
      obtain ⟨db1, h1, h2⟩ := run_cons.mp h
      obtain ⟨hs, hcl⟩ := hacc.mp ⟨db1, h1⟩
      have hpre' : ∀ p ∈ pre ++ [s], Legal cfg p ∧ p.Fits := by
        intro p hp
        rcases List.mem_append.mp hp with hp | hp
        · exact hpre p hp
        · rw [List.mem_singleton] at hp; subst hp; exact ⟨hs, hl _ (by simp)⟩
      obtain ⟨i1, i2, i3⟩ := (ih (pre ++ [s]) db1 (built_step hB h1) hpre' (fun x hx => hl x (by simp [hx]))).mp ⟨db', h2⟩
      refine ⟨?_, List.pairwise_cons.mpr ⟨fun x hx => i3 s (by simp) x hx, i2⟩, ?_⟩
      · intro x hx
        rcases List.mem_cons.mp hx with rfl | hx
        · exact hs
        · exact i1 x hx
      · intro p hp x hx
        rcases List.mem_cons.mp hx with rfl | hx
        · exact hcl p hp
        · exact i3 p (by simp [hp]) x hx
    · rintro ⟨h1, h2, h3⟩
      obtain ⟨p1, p2⟩ := List.pairwise_cons.mp h2
      obtain ⟨db1, hd⟩ := hacc.mpr ⟨h1 s (by simp), fun p hp => h3 p hp s (by simp)⟩
      have hpre' : ∀ p ∈ pre ++ [s], Legal cfg p ∧ p.Fits := by
        intro p hp
        rcases List.mem_append.mp hp with hp | hp
        · exact hpre p hp
        · rw [List.mem_singleton] at hp; subst hp; exact ⟨h1 _ (by simp), hl _ (by simp)⟩
      obtain ⟨db', hr⟩ := (ih (pre ++ [s]) db1 (built_step hB hd) hpre' (fun x hx => hl x (by simp [hx]))).mpr
        ⟨fun x hx => h1 x (by simp [hx]), p2, fun p hp x hx => by
          rcases List.mem_append.mp hp with hp | hp
          · exact h3 p hp x (by simp [hx])
          · rw [List.mem_singleton] at hp; subst hp; exact p1 x hx⟩
      exact ⟨db', run_cons.mpr ⟨db1, hd, hr⟩⟩

/-- Legality of the accepted statements does not depend on how large numbers are. -/
theorem legal_of_ok {cfg : Cfg} {s : Stmt} {db db' : Db} (h : define cfg s db = .ok db') : Legal cfg s := by
  cases s <;> simp only [define] at h
  case fs => obtain ⟨h1, _, c, d, rfl, rfl, _⟩ := fs_ok.mp h; exact ⟨h1, by simp, by simp⟩
  case port => obtain ⟨h1, p, c, h2, h3, rfl, _⟩ := port_ok.mp h; exact ⟨h1, ⟨p, (protocol_iff _ _).mp h2⟩, h3, by simp⟩
  case ibpkey => obtain ⟨h1, v, c, rfl, h2, h3, h4, h5, rfl, _⟩ := ibpkey_ok.mp h; exact ⟨h1, ⟨v, rfl, h2, h3⟩, h5, h4, by simp⟩
  case ibendport => obtain ⟨h1, h2, h3, h4, c, rfl, _⟩ := ibendport_ok.mp h; exact ⟨h1, h4, h2, h3, by simp⟩
  case netif => obtain ⟨h1, c, d, rfl, rfl, _⟩ := netif_ok.mp h; exact ⟨h1, by simp, by simp⟩
  case node => exact (node_ok.mp h).1
  case nodeCidr => exact (nodeCidr_ok.mp h).1
  case node6 => exact (node6_ok.mp h).1
  case node6Cidr => exact (node6Cidr_ok.mp h).1
  case fsUse => obtain ⟨h1, c, rfl, _⟩ := fsUse_ok.mp h; exact ⟨h1, by simp⟩
  case genfs f n t c =>
    obtain ⟨h1, v, c, g, h2, rfl, _⟩ := genfs_ok.mp h
    refine ⟨h1, fun t' ht => ?_, by simp⟩
    rw [classValue_some] at h2
    rcases h2 with ⟨h2, _⟩ | ⟨t'', n, h2, h3, h4⟩
    · rw [h2] at ht; cases ht
    · rw [h2] at ht; cases ht; exact ⟨n, v, h3, h4⟩
  case pirq => obtain ⟨h1, c, rfl, _⟩ := pirq_ok.mp h; exact ⟨h1, by simp⟩
  case iomem => obtain ⟨h1, h2, c, rfl, _⟩ := iomem_ok.mp h; exact ⟨h1, h2, by simp⟩
  case ioport => obtain ⟨h1, h2, c, rfl, _⟩ := ioport_ok.mp h; exact ⟨h1, h2, by simp⟩
  case pcidevice => obtain ⟨h1, c, rfl, _⟩ := pcidevice_ok.mp h; exact ⟨h1, by simp⟩
  case devicetree => obtain ⟨h1, c, rfl, _⟩ := devicetree_ok.mp h; exact ⟨h1, by simp⟩

theorem legal_of_run {cfg : Cfg} : ∀ {l : List Stmt} {db db' : Db}, run cfg l db = .ok db' → ∀ s ∈ l, Legal cfg s := by
  intro l
  induction l with
  | nil => intro _ _ _ s hs; cases hs
  | cons x l ih =>
    intro db db' h s hs
    obtain ⟨db1, h1, h2⟩ := run_cons.mp h
    rcases List.mem_cons.mp hs with rfl | hs
    · exact legal_of_ok h1
    · exact ih h2 s hs

end Verif.ObjStmt
