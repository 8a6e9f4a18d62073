import Verif.ObjStmt.Lemmas3

namespace Verif.ObjStmt
open Verif.Policy Verif.Mls Verif.Services

/-! ## The entries that the statements make -/

def fsName (a b : Nat) : Str := hex2 a ++ ':' :: hex2 b

def fsE : Stmt → Option (Ocon Str)
  | .fs a b (some c) (some d) => some (entry (fsName a b) c d)
  | _ => none

def netifE : Stmt → Option (Ocon Str)
  | .netif n (some c) (some d) => some (entry n c d)
  | _ => none

def fsuseE : Stmt → Option (Ocon (Str × Nat))
  | .fsUse b f (some c) => some (entry (f, b) c)
  | _ => none

def portE : Stmt → Option (Ocon PortKey)
  | .port id low high (some c) => (protocol id).map fun p => entry ⟨p, low % 2 ^ 16, high % 2 ^ 16⟩ c
  | _ => none

def pkeyE : Stmt → Option (Ocon PkeyKey)
  | .ibpkey (some v) low high (some c) => some (entry ⟨subnetOf v, low, high⟩ c)
  | _ => none

def endportE : Stmt → Option (Ocon (Str × Nat))
  | .ibendport d n (some c) => some (entry (d, n) c)
  | _ => none

def pirqE : Stmt → Option (Ocon Nat)
  | .pirq n (some c) => some (entry (n % 2 ^ 16) c)
  | _ => none

def iomemE : Stmt → Option (Ocon (Nat × Nat))
  | .iomem a b (some c) => some (entry (a, b) c)
  | _ => none

def ioportE : Stmt → Option (Ocon (Nat × Nat))
  | .ioport a b (some c) => some (entry (a, b) c)
  | _ => none

def pciE : Stmt → Option (Ocon Nat)
  | .pcidevice n (some c) => some (entry n c)
  | _ => none

def treeE : Stmt → Option (Ocon Str)
  | .devicetree n (some c) => some (entry n c)
  | _ => none

def node4E (cfg : Cfg) (s : Stmt) : Option (Ocon (BitVec 32 × BitVec 32)) := (net4 s).map (ent4 cfg)
def node6E (cfg : Cfg) (s : Stmt) : Option (Ocon (Words × Words)) := (net6 s).map (ent6 cfg)

/-- The lists after the statements `ss`. -/
structure Built (cfg : Cfg) (d : Nat) (ss : List Stmt) (db : Db) : Prop where
  dir : db.ob.dirClass = d
  fs : db.ob.fs = (ss.filterMap fsE).reverse
  netif : db.ob.netif = (ss.filterMap netifE).reverse
  fsuse : db.ob.fsuse = (ss.filterMap fsuseE).reverse
  port : db.ob.port = ss.filterMap portE
  ibpkey : db.ob.ibpkey = ss.filterMap pkeyE
  ibendport : db.ob.ibendport = ss.filterMap endportE
  node : Sorted4 db.ob.node ∧ db.ob.node.Perm (ss.filterMap (node4E cfg))
  node6 : Sorted6 cfg db.ob.node6 ∧ db.ob.node6.Perm (ss.filterMap (node6E cfg))
  genfs : GenB (fun f => ss.filterMap (genE cfg f)) db.ob.genfs
  pirq : db.pirq = ss.filterMap pirqE
  iomem : db.iomem = ss.filterMap iomemE
  ioport : db.ioport = ss.filterMap ioportE
  pci : db.pcidevice = ss.filterMap pciE
  tree : db.devicetree = ss.filterMap treeE

theorem built_start (cfg : Cfg) (d : Nat) : Built cfg d [] (start d) :=
  ⟨rfl, rfl, rfl, rfl, rfl, rfl, rfl, ⟨.nil, .refl _⟩, ⟨.nil, .refl _⟩, ⟨.nil, by simp [start], by simp⟩, rfl, rfl, rfl, rfl, rfl⟩

theorem fm_snoc {β : Type} (f : Stmt → Option β) (pre : List Stmt) (s : Stmt) :
    (pre ++ [s]).filterMap f = pre.filterMap f ++ (f s).toList := by
  rw [List.filterMap_append]
  cases h : f s <;> simp [h]

theorem fm_none {β : Type} {f : Stmt → Option β} {pre : List Stmt} {s : Stmt} (h : f s = none) :
    (pre ++ [s]).filterMap f = pre.filterMap f := by rw [fm_snoc, h]; simp

theorem fm_some {β : Type} {f : Stmt → Option β} {pre : List Stmt} {s : Stmt} {x : β} (h : f s = some x) :
    (pre ++ [s]).filterMap f = pre.filterMap f ++ [x] := by rw [fm_snoc, h]; rfl

theorem genB_same {cfg : Cfg} {pre : List Stmt} {s : Stmt} {g : Genfs} (h : GenB (fun f => pre.filterMap (genE cfg f)) g)
    (hn : ∀ f, genE cfg f s = none) : GenB (fun f => (pre ++ [s]).filterMap (genE cfg f)) g := by
  have : (fun f => (pre ++ [s]).filterMap (genE cfg f)) = fun f => pre.filterMap (genE cfg f) :=
    funext fun f => fm_none (hn f)
  rw [this]; exact h

/-- Every accepted statement adds its entry to its list. -/
theorem built_step {cfg : Cfg} {d : Nat} {pre : List Stmt} {s : Stmt} {db db' : Db} (h : Built cfg d pre db)
    (hd : define cfg s db = .ok db') : Built cfg d (pre ++ [s]) db' := by
  obtain ⟨b0, b1, b2, b3, b4, b5, b6, b7, b8, b9, b10, b11, b12, b13, b14⟩ := h
  cases s <;> simp only [define] at hd
  case fs a b c e =>
    obtain ⟨_, _, c', e', rfl, rfl, _, rfl⟩ := fs_ok.mp hd
    refine ⟨b0, ?_, ?_, ?_, ?_, ?_, ?_, ?_, ?_, genB_same b9 fun _ => rfl, ?_, ?_, ?_, ?_, ?_⟩
    all_goals first
      | (rw [fm_none rfl]; assumption)
      | (rw [fm_snoc]; simp [b1, fsE, fsName])
  case port id low high c =>
    obtain ⟨_, p, c', hp, _, rfl, _, rfl⟩ := port_ok.mp hd
    refine ⟨b0, ?_, ?_, ?_, ?_, ?_, ?_, ?_, ?_, genB_same b9 fun _ => rfl, ?_, ?_, ?_, ?_, ?_⟩
    case refine_4 => rw [fm_some (x := entry ⟨p, low % 2 ^ 16, high % 2 ^ 16⟩ c') (by simp [portE, hp])]; simp [b4]
    all_goals (rw [fm_none rfl]; assumption)
  case ibpkey w low high c =>
    obtain ⟨_, v, c', rfl, _, _, _, _, rfl, _, rfl⟩ := ibpkey_ok.mp hd
    refine ⟨b0, ?_, ?_, ?_, ?_, ?_, ?_, ?_, ?_, genB_same b9 fun _ => rfl, ?_, ?_, ?_, ?_, ?_⟩
    all_goals first
      | (rw [fm_none rfl]; assumption)
      | (rw [fm_snoc]; simp [b5, pkeyE])
  case ibendport w n c =>
    obtain ⟨_, _, _, _, c', rfl, _, rfl⟩ := ibendport_ok.mp hd
    refine ⟨b0, ?_, ?_, ?_, ?_, ?_, ?_, ?_, ?_, genB_same b9 fun _ => rfl, ?_, ?_, ?_, ?_, ?_⟩
    all_goals first
      | (rw [fm_none rfl]; assumption)
      | (rw [fm_snoc]; simp [b6, endportE])
  case netif n c e =>
    obtain ⟨_, c', e', rfl, rfl, _, rfl⟩ := netif_ok.mp hd
    refine ⟨b0, ?_, ?_, ?_, ?_, ?_, ?_, ?_, ?_, genB_same b9 fun _ => rfl, ?_, ?_, ?_, ?_, ?_⟩
    all_goals first
      | (rw [fm_none rfl]; assumption)
      | (rw [fm_snoc]; simp [b2, netifE])
  case node a m c =>
    obtain ⟨_, x, hx, hi⟩ := node_ok.mp hd
    obtain ⟨l, rfl, hs, hp⟩ := (ins4_spec x b7.1).2 _ hi
    refine ⟨b0, ?_, ?_, ?_, ?_, ?_, ?_, ⟨hs, ?_⟩, ?_, genB_same b9 fun _ => rfl, ?_, ?_, ?_, ?_, ?_⟩
    case refine_7 =>
      rw [fm_some (f := node4E cfg) (x := ent4 cfg x) (by rw [node4E, hx]; rfl)]
      exact (hp.trans (b7.2.cons _)).trans (List.perm_append_comm (l₁ := [ent4 cfg x]))
    all_goals (rw [fm_none rfl]; assumption)
  case nodeCidr a m c =>
    obtain ⟨_, x, hx, hi⟩ := nodeCidr_ok.mp hd
    obtain ⟨l, rfl, hs, hp⟩ := (ins4_spec x b7.1).2 _ hi
    refine ⟨b0, ?_, ?_, ?_, ?_, ?_, ?_, ⟨hs, ?_⟩, ?_, genB_same b9 fun _ => rfl, ?_, ?_, ?_, ?_, ?_⟩
    case refine_7 =>
      rw [fm_some (f := node4E cfg) (x := ent4 cfg x) (by rw [node4E, hx]; rfl)]
      exact (hp.trans (b7.2.cons _)).trans (List.perm_append_comm (l₁ := [ent4 cfg x]))
    all_goals (rw [fm_none rfl]; assumption)
  case node6 a m c =>
    obtain ⟨_, x, hx, hi⟩ := node6_ok.mp hd
    obtain ⟨l, rfl, hs, hp⟩ := (ins6_spec x b8.1).2 _ hi
    refine ⟨b0, ?_, ?_, ?_, ?_, ?_, ?_, ?_, ⟨hs, ?_⟩, genB_same b9 fun _ => rfl, ?_, ?_, ?_, ?_, ?_⟩
    case refine_8 =>
      rw [fm_some (f := node6E cfg) (x := ent6 cfg x) (by rw [node6E, hx]; rfl)]
      exact (hp.trans (b8.2.cons _)).trans (List.perm_append_comm (l₁ := [ent6 cfg x]))
    all_goals (rw [fm_none rfl]; assumption)
  case node6Cidr a m c =>
    obtain ⟨_, x, hx, hi⟩ := node6Cidr_ok.mp hd
    obtain ⟨l, rfl, hs, hp⟩ := (ins6_spec x b8.1).2 _ hi
    refine ⟨b0, ?_, ?_, ?_, ?_, ?_, ?_, ?_, ⟨hs, ?_⟩, genB_same b9 fun _ => rfl, ?_, ?_, ?_, ?_, ?_⟩
    case refine_8 =>
      rw [fm_some (f := node6E cfg) (x := ent6 cfg x) (by rw [node6E, hx]; rfl)]
      exact (hp.trans (b8.2.cons _)).trans (List.perm_append_comm (l₁ := [ent6 cfg x]))
    all_goals (rw [fm_none rfl]; assumption)
  case fsUse b f c =>
    obtain ⟨_, c', rfl, _, rfl⟩ := fsUse_ok.mp hd
    refine ⟨b0, ?_, ?_, ?_, ?_, ?_, ?_, ?_, ?_, genB_same b9 fun _ => rfl, ?_, ?_, ?_, ?_, ?_⟩
    all_goals first
      | (rw [fm_none rfl]; assumption)
      | (rw [fm_snoc]; simp [b3, fsuseE])
  case genfs f p t c =>
    obtain ⟨_, v, c', g, hv, rfl, hg, rfl⟩ := genfs_ok.mp hd
    refine ⟨b0, ?_, ?_, ?_, ?_, ?_, ?_, ?_, ?_, ?_, ?_, ?_, ?_, ?_, ?_⟩
    case refine_9 =>
      have := (gen_insert b9 f ⟨p, v, c'⟩).2 g hg
      have he : (fun f' => (pre ++ [Stmt.genfs f p t (some c')]).filterMap (genE cfg f')) =
          addE (fun f => pre.filterMap (genE cfg f)) f ⟨p, v, c'⟩ := by
        funext f'
        unfold addE
        by_cases hf : f' = f
        · subst hf
          rw [if_pos rfl, fm_some (x := ⟨p, v, c'⟩) (by simp [genE, hv])]
        · rw [if_neg hf, fm_none (by simp [genE, Ne.symm hf])]
      rw [he]; exact this
    all_goals (rw [fm_none rfl]; assumption)
  case pirq n c =>
    obtain ⟨_, c', rfl, _, rfl⟩ := pirq_ok.mp hd
    refine ⟨b0, ?_, ?_, ?_, ?_, ?_, ?_, ?_, ?_, genB_same b9 fun _ => rfl, ?_, ?_, ?_, ?_, ?_⟩
    all_goals first
      | (rw [fm_none rfl]; assumption)
      | (rw [fm_snoc]; simp [b10, pirqE])
  case iomem n m c =>
    obtain ⟨_, _, c', rfl, _, rfl⟩ := iomem_ok.mp hd
    refine ⟨b0, ?_, ?_, ?_, ?_, ?_, ?_, ?_, ?_, genB_same b9 fun _ => rfl, ?_, ?_, ?_, ?_, ?_⟩
    all_goals first
      | (rw [fm_none rfl]; assumption)
      | (rw [fm_snoc]; simp [b11, iomemE])
  case ioport n m c =>
    obtain ⟨_, _, c', rfl, _, rfl⟩ := ioport_ok.mp hd
    refine ⟨b0, ?_, ?_, ?_, ?_, ?_, ?_, ?_, ?_, genB_same b9 fun _ => rfl, ?_, ?_, ?_, ?_, ?_⟩
    all_goals first
      | (rw [fm_none rfl]; assumption)
      | (rw [fm_snoc]; simp [b12, ioportE])
  case pcidevice n c =>
    obtain ⟨_, c', rfl, _, rfl⟩ := pcidevice_ok.mp hd
    refine ⟨b0, ?_, ?_, ?_, ?_, ?_, ?_, ?_, ?_, genB_same b9 fun _ => rfl, ?_, ?_, ?_, ?_, ?_⟩
    all_goals first
      | (rw [fm_none rfl]; assumption)
      | (rw [fm_snoc]; simp [b13, pciE])
  case devicetree n c =>
    obtain ⟨_, c', rfl, _, rfl⟩ := devicetree_ok.mp hd
    refine ⟨b0, ?_, ?_, ?_, ?_, ?_, ?_, ?_, ?_, genB_same b9 fun _ => rfl, ?_, ?_, ?_, ?_, ?_⟩
    all_goals first
      | (rw [fm_none rfl]; assumption)
      | (rw [fm_snoc]; simp [b14, treeE])

theorem run_cons {cfg : Cfg} {s : Stmt} {l : List Stmt} {db db' : Db} :
    run cfg (s :: l) db = .ok db' ↔ ∃ db1, define cfg s db = .ok db1 ∧ run cfg l db1 = .ok db' := by
  conv => lhs; unfold run
  cases hd : define cfg s db with
  | ok x => simp
  | error x y => simp
  | overflow => simp

theorem built_run {cfg : Cfg} {d : Nat} : ∀ {l pre : List Stmt} {db db' : Db}, Built cfg d pre db → run cfg l db = .ok db' →
    Built cfg d (pre ++ l) db' := by
  intro l
  induction l with
  | nil => intro pre db db' h hr; simp only [run, Res.ok.injEq] at hr; subst hr; simpa using h
  | cons s l ih =>
    intro pre db db' h hr
    obtain ⟨db1, h1, h2⟩ := run_cons.mp hr
    have := ih (built_step h h1) h2
    rwa [List.append_assoc] at this

theorem built_of_run {cfg : Cfg} {d : Nat} {ss : List Stmt} {db : Db} (h : run cfg ss (start d) = .ok db) :
    Built cfg d ss db := by simpa using built_run (built_start cfg d) h

end Verif.ObjStmt
