import Verif.Services.GenfsLemmas
import Verif.Services.LabelProps

/-!
# C25: labels of kernel objects

Every theorem quantifies over all configurations, all reachable SID tables and all histories of earlier
calls (which fill the SID caches of the entries).
-/

namespace Verif.Services
open Verif.Policy Verif.Mls

section
variable {ob : Objects} (hf : FreshObjects ob) {st : Sidtab.Sidtab} (hr : Sidtab.Reach st) {qs : List Query}
  (hq : ∀ q ∈ qs, q.Ok)
include hf hr hq

theorem reached : OInv ob (history ⟨st, ob⟩ qs) := (history_spec (oinv_fresh hf (Sidtab.reach_inv hr)) hq).1

/-- C25: `sepol_fs_sid` returns the file system and file labels of the first entry with that name. -/
theorem C25_fs (name : Str) {s' : OState} {r : Reply} (h : ask (history ⟨st, ob⟩ qs) (.fs name) = (s', r)) :
    Labels2 ob.fs (fun k => k = name) 4 5 s' r := by
  have hi := reached hf hr hq
  obtain ⟨_, _, _, f4, f5, f6⟩ := find_spec get01_ok (fun k => strcmp k name == 0) hi.inv hi.fs
  have e := Prod.mk.inj h
  rw [← e.1, ← e.2]
  exact labels2_of (fun k => by rw [beq_iff_eq, strcmp_zero]) (fun h => (f4 h).1) f5 f6

/-- C25: `sepol_netif_sid` returns the interface and message labels of the first entry with that name. -/
theorem C25_netif (name : Str) {s' : OState} {r : Reply} (h : ask (history ⟨st, ob⟩ qs) (.netif name) = (s', r)) :
    Labels2 ob.netif (fun k => k = name) 10 11 s' r := by
  have hi := reached hf hr hq
  obtain ⟨_, _, _, f4, f5, f6⟩ := find_spec get01_ok (fun k => strcmp name k == 0) hi.inv hi.netif
  have e := Prod.mk.inj h
  rw [← e.1, ← e.2]
  exact labels2_of (fun k => by rw [beq_iff_eq, strcmp_zero]; exact eq_comm) (fun h => (f4 h).1) f5 f6

/-- C25: `sepol_port_sid` returns the label of the first entry with that protocol whose range contains the port. -/
theorem C25_port (protocol port : Nat) {s' : OState} {r : Reply}
    (h : ask (history ⟨st, ob⟩ qs) (.port protocol port) = (s', r)) :
    Labels1 ob.port (fun k => k.protocol = protocol ∧ k.low ≤ port ∧ port ≤ k.high) 9 s' r := by
  have hi := reached hf hr hq
  obtain ⟨_, _, _, f4, f5, f6⟩ := find_spec get0_ok
    (fun k : PortKey => (k.protocol == protocol) && decide (k.low ≤ port) && decide (k.high ≥ port)) hi.inv hi.port
  have e := Prod.mk.inj h
  rw [← e.1, ← e.2]
  exact labels1_of (fun k => by simp [and_assoc]) (fun h => (f4 h).1) f5 f6

/-- C25: `sepol_ibpkey_sid` returns the label of the first entry with that subnet whose range contains the key. -/
theorem C25_ibpkey (subnet pkey : Nat) {s' : OState} {r : Reply}
    (h : ask (history ⟨st, ob⟩ qs) (.ibpkey subnet pkey) = (s', r)) :
    Labels1 ob.ibpkey (fun k => k.subnet = subnet ∧ k.low ≤ pkey ∧ pkey ≤ k.high) 3 s' r := by
  have hi := reached hf hr hq
  obtain ⟨_, _, _, f4, f5, f6⟩ := find_spec get0_ok
    (fun k : PkeyKey => decide (k.low ≤ pkey) && decide (k.high ≥ pkey) && (subnet == k.subnet)) hi.inv hi.ibpkey
  have e := Prod.mk.inj h
  rw [← e.1, ← e.2]
  exact labels1_of (fun k => by
    simp only [Bool.and_eq_true, decide_eq_true_eq, beq_iff_eq, ge_iff_le]
    exact ⟨fun ⟨⟨a, b⟩, c⟩ => ⟨c.symm, a, b⟩, fun ⟨a, b, c⟩ => ⟨⟨b, c⟩, a.symm⟩⟩) (fun h => (f4 h).1) f5 f6

/-- C25: `sepol_ibendport_sid` returns the label of the first entry with that device and port. -/
theorem C25_ibendport (dev : Str) (port : Nat) {s' : OState} {r : Reply}
    (h : ask (history ⟨st, ob⟩ qs) (.ibendport dev port) = (s', r)) :
    Labels1 ob.ibendport (fun k => k = (dev, port)) 3 s' r := by
  have hi := reached hf hr hq
  obtain ⟨_, _, _, f4, f5, f6⟩ := find_spec get0_ok (fun k : Str × Nat => (k.2 == port) && (strcmp dev k.1 == 0)) hi.inv hi.ibendport
  have e := Prod.mk.inj h
  rw [← e.1, ← e.2]
  exact labels1_of (fun k => by
    simp only [Bool.and_eq_true, beq_iff_eq, strcmp_zero]
    constructor
    · rintro ⟨a, b⟩; rw [← a, b]
    · rintro rfl; exact ⟨rfl, rfl⟩) (fun h => (f4 h).1) f5 f6

/-- C25: `sepol_node_sid` for an IPv4 address returns the label of the first entry whose masked bits agree with
the entry's address (and whose address has no bits outside the mask). -/
theorem C25_node (a : BitVec 32) {s' : OState} {r : Reply} (h : ask (history ⟨st, ob⟩ qs) (.node (.inet a)) = (s', r)) :
    Labels1 ob.node (fun k => ∀ i < 32, k.1.getLsbD i = (a.getLsbD i && k.2.getLsbD i)) 12 s' r := by
  have hi := reached hf hr hq
  obtain ⟨_, _, _, f4, f5, f6⟩ := find_spec get0_ok (fun k : BitVec 32 × BitVec 32 => k.1 == a &&& k.2) hi.inv hi.node
  have e := Prod.mk.inj h
  rw [← e.1, ← e.2]
  refine labels1_of (fun k => ?_) (fun h => (f4 h).1) f5 f6
  rw [beq_iff_eq]
  constructor
  · intro h i _; rw [h, BitVec.getLsbD_and]
  · intro h
    apply BitVec.eq_of_getLsbD_eq
    intro i hi
    rw [h i hi, BitVec.getLsbD_and]

/-- C25: the same for IPv6, word by word; a wrong length is refused, other families get the default label. -/
theorem C25_node6 {s' : OState} {r : Reply} :
    (∀ a : Words, ask (history ⟨st, ob⟩ qs) (.node (.inet6 a)) = (s', r) →
      Labels1 ob.node6 (fun k => k.1 = ⟨a.w0 &&& k.2.w0, a.w1 &&& k.2.w1, a.w2 &&& k.2.w2, a.w3 &&& k.2.w3⟩) 12 s' r) ∧
    (ask (history ⟨st, ob⟩ qs) (.node .badLength) = (s', r) → r = .invalid) ∧
    (ask (history ⟨st, ob⟩ qs) (.node .other) = (s', r) → r = .sids [12]) := by
  have hi := reached hf hr hq
  refine ⟨fun a h => ?_, fun h => (Prod.mk.inj h).2.symm, fun h => (Prod.mk.inj h).2.symm⟩
  obtain ⟨_, _, _, f4, f5, f6⟩ := find_spec get0_ok (fun k : Words × Words => matchIpv6 a k.1 k.2) hi.inv hi.node6
  have e := Prod.mk.inj h
  rw [← e.1, ← e.2]
  refine labels1_of (fun k => ?_) (fun h => (f4 h).1) f5 f6
  obtain ⟨⟨a0, a1, a2, a3⟩, m⟩ := k
  simp only [matchIpv6, Bool.and_eq_true, beq_iff_eq, Words.mk.injEq, and_assoc]

/-- C25: `sepol_genfs_sid` returns the label of the entry with the longest name that is a prefix of the path,
among the entries of the file system that apply to the class; -ENOENT and the unlabeled SID exactly if there
is none.  The order of the records in the policy file does not matter. -/
theorem C25_genfs {file : List (Str × List GenEntry)} (hfile : genfsRead file [] = some ob.genfs) (fs path : Str) (cls : Nat)
    {s' : OState} {r : Reply} (h : ask (history ⟨st, ob⟩ qs) (.genfs fs path cls) = (s', r)) :
    (∃ e x, BestEntry file fs path cls e ∧ r = .sids [x] ∧ StandsFor s' x e.ctx) ∨
    (NoEntry file fs path cls ∧ r = .notFound 3) ∨
    ((∃ e, BestEntry file fs path cls e) ∧ r = .noSid ∧ Full s') := by
  have hi := reached hf hr hq
  have hg := genfsRead_ok hfile
  obtain ⟨_, _, g3⟩ := genfs_spec hi fs path cls
  have e := Prod.mk.inj h
  change (genfsSid fs path cls (history ⟨st, ob⟩ qs)).1 = s' ∧ (genfsSid fs path cls (history ⟨st, ob⟩ qs)).2 = r at e
  rw [e.1, e.2] at g3
  rcases g3 with ⟨hno, hr⟩ | ⟨l, hl, h1 | h1⟩
  · refine .inr (.inl ⟨fun es e' hes he hp hc => ?_, hr⟩)
    obtain ⟨l, a, b⟩ := hg.all fs es hes
    have := hno l ((fsEntries_iff hg.sorted fs l).mpr a) (mkEntry e') (b.mem_iff.mpr (List.mem_map_of_mem he))
    exact this ((genMatch_iff _ _ _).mpr ⟨hc, hp⟩)
  · obtain ⟨o, x, ho, hr, hx⟩ := h1
    obtain ⟨e', rfl, he⟩ := best_of_first hg ((fsEntries_iff hg.sorted fs l).mp hl) ho
    exact .inl ⟨e', x, he, hr, hx⟩
  · obtain ⟨⟨o, ho⟩, hr, hx⟩ := h1
    obtain ⟨e', _, he⟩ := best_of_first hg ((fsEntries_iff hg.sorted fs l).mp hl) ho
    exact .inr (.inr ⟨⟨e', he⟩, hr, hx⟩)

/-- C25: `sepol_fs_use` returns behavior and label of the first entry for the file system type; without an entry the
label of the root directory according to genfs, or behavior NONE and the unlabeled SID if there is none.  (When
no SID is left, it either fails or, in the genfs case, reports success without a SID: see
`C25_fs_use_refuted`.) -/
theorem C25_fs_use_partial {file : List (Str × List GenEntry)} (hfile : genfsRead file [] = some ob.genfs) (fs : Str)
    {s' : OState} {r : Reply} (h : ask (history ⟨st, ob⟩ qs) (.fsUse fs) = (s', r)) :
    (∃ o x, FirstMatch ob.fsuse (fun k => k.1 = fs) o ∧ r = .use o.key.2 (some x) ∧ StandsFor s' x o.ctx0) ∨
    ((∃ o, FirstMatch ob.fsuse (fun k => k.1 = fs) o) ∧ r = .noSid ∧ Full s') ∨
    (NoMatch ob.fsuse (fun k => k.1 = fs) ∧
      ((∃ e x, BestEntry file fs ['/'] ob.dirClass e ∧ r = .use 4 (some x) ∧ StandsFor s' x e.ctx) ∨
       (NoEntry file fs ['/'] ob.dirClass ∧ r = .use 5 (some 3)) ∨
       ((∃ e, BestEntry file fs ['/'] ob.dirClass e) ∧ r = .use 5 none ∧ Full s'))) := by
  have hi := reached hf hr hq
  obtain ⟨_, _, _, f4, f5, f6⟩ := find_spec get0_ok (fun k : Str × Nat => strcmp fs k.1 == 0) hi.inv hi.fsuse
  have e0 : (fun k : Str × Nat => (strcmp fs k.1 == 0) = true) = fun k => k.1 = fs := by
    funext k; rw [beq_iff_eq, strcmp_zero]; exact propext eq_comm
  rw [e0] at f4 f5 f6
  have hgen := @C25_genfs ob hf st hr qs hq file hfile fs ['/'] ob.dirClass
  change fsUse fs (history ⟨st, ob⟩ qs) = (s', r) at h
  unfold fsUse at h
  dsimp only at h
  revert h f4 f5 f6
  rw [hi.dir]
  generalize find get0 (fun k : Str × Nat => strcmp fs k.1 == 0) (history ⟨st, ob⟩ qs).st (history ⟨st, ob⟩ qs).ob.fsuse = fr
  obtain ⟨st1, l1, res⟩ := fr
  dsimp only
  intro f4 f5 f6 h
  cases res with
  | entry o =>
    obtain ⟨rfl, rfl⟩ := Prod.mk.inj h
    obtain ⟨k1, k2, k3⟩ := f6 o rfl
    exact .inl ⟨strip o, o.sid0, k1, rfl, k2.c0 k3⟩
  | failed =>
    obtain ⟨rfl, rfl⟩ := Prod.mk.inj h
    exact .inr (.inl ⟨(f5 rfl).1, rfl, (f5 rfl).2⟩)
  | absent =>
    obtain ⟨rfl, rfl⟩ := Prod.mk.inj h
    refine .inr (.inr ⟨(f4 rfl).1, ?_⟩)
    rcases hgen (s' := (genfsSid fs ['/'] ob.dirClass (history ⟨st, ob⟩ qs)).1)
      (r := (genfsSid fs ['/'] ob.dirClass (history ⟨st, ob⟩ qs)).2) rfl with ⟨e, x, h1, h2, h3⟩ | ⟨h1, h2⟩ | ⟨h1, h2, h3⟩
    · rw [h2]; exact .inl ⟨e, x, h1, rfl, h3⟩
    · rw [h2]; exact .inr (.inl ⟨h1, rfl⟩)
    · rw [h2]; exact .inr (.inr ⟨h1, rfl, h3⟩)

end

theorem apart_of {l : List (Ocon (Str × Nat))} (h : l.Pairwise Apart) {a b} (ha : a ∈ l) (hb : b ∈ l) (hne : a ≠ b) :
    Apart a b := by
  induction l with
  | nil => cases ha
  | cons x l ih =>
    rw [List.pairwise_cons] at h
    rcases List.mem_cons.mp ha with ha' | ha' <;> rcases List.mem_cons.mp hb with hb' | hb'
    · exact absurd (ha'.trans hb'.symm) hne
    · rw [ha']; exact h.1 _ hb'
    · rw [hb']; exact (h.1 _ ha').symm
    · exact ih h.2 ha' hb'

/-- C25: the entry described in `C25_genfs` is unique. -/
theorem C25_genfs_unique {file : List (Str × List GenEntry)} {g} (hfile : genfsRead file [] = some g) {fs path : Str} {cls : Nat}
    {e e' : GenEntry} (h : BestEntry file fs path cls e) (h' : BestEntry file fs path cls e') : e = e' := by
  have hg := genfsRead_ok hfile
  obtain ⟨⟨es, a1, a2⟩, a3, a4, a5⟩ := h
  obtain ⟨⟨es', b1, b2⟩, b3, b4, b5⟩ := h'
  have l1 := a5 es' e' b1 b2 b3 b4
  have l2 := b5 es e a1 a2 a3 a4
  have hname : e.name = e'.name := by
    rw [List.prefix_iff_eq_take] at a3 b3
    rw [a3, b3, show e.name.length = e'.name.length by omega]
  obtain ⟨l, c1, c2⟩ := hg.all fs es a1
  obtain ⟨l', d1, d2⟩ := hg.all fs es' b1
  have : l = l' := by
    have x := (fsEntries_iff hg.sorted fs _).mpr c1
    have y := (fsEntries_iff hg.sorted fs _).mpr d1
    rw [x] at y; cases y; rfl
  subst this
  obtain ⟨_, _, ok, _⟩ := hg.entries fs l c1
  have m1 : mkEntry e ∈ l := c2.mem_iff.mpr (List.mem_map_of_mem a2)
  have m2 : mkEntry e' ∈ l := d2.mem_iff.mpr (List.mem_map_of_mem b2)
  have heq : mkEntry e = mkEntry e' := by
    by_contra hne
    have := apart_of ok.2 m1 m2 hne
    exact this ⟨hname, by
      show e.sclass = 0 ∨ e'.sclass = 0 ∨ e.sclass = e'.sclass
      rcases a4 with a4 | a4 <;> rcases b4 with b4 | b4 <;> simp [a4, b4]⟩
  cases e; cases e'
  simp only [mkEntry, Ocon.mk.injEq, Prod.mk.injEq] at heq
  obtain ⟨⟨rfl, rfl⟩, rfl, _⟩ := heq
  rfl


/-! ## Stability -/

theorem glater_split (m : Str → Bool) {g g' : Genfs} (h : GLater g g') :
    (splitFirst (fun x : Str × List (Ocon (Str × Nat)) => m x.1) g = none →
      splitFirst (fun x : Str × List (Ocon (Str × Nat)) => m x.1) g' = none) ∧
    (∀ pre x post, splitFirst (fun x : Str × List (Ocon (Str × Nat)) => m x.1) g = some (pre, x, post) →
      ∃ pre' b post', splitFirst (fun x : Str × List (Ocon (Str × Nat)) => m x.1) g' = some (pre', (x.1, b), post') ∧
        Later Done0 x.2 b) := by
  induction h with
  | nil => exact ⟨fun _ => rfl, fun _ _ _ h => by cases h⟩
  | @cons f a b l l' hl _ ih =>
    unfold splitFirst
    dsimp only
    by_cases hm : m f = true
    · rw [if_pos hm, if_pos hm]
      refine ⟨fun h => (by cases h), fun pre x post h => ?_⟩
      simp only [Option.some.injEq, Prod.mk.injEq] at h
      obtain ⟨rfl, rfl, rfl⟩ := h
      exact ⟨[], b, l', rfl, hl⟩
    · rw [if_neg hm, if_neg hm]
      constructor
      · intro h
        rw [ih.1 (by simpa using h)]; rfl
      · intro pre x post h
        rw [Option.map_eq_some_iff] at h
        obtain ⟨⟨p, y, q⟩, h1, h2⟩ := h
        simp only [Prod.mk.injEq] at h2
        obtain ⟨rfl, rfl, rfl⟩ := h2
        obtain ⟨p', b', q', h3, h4⟩ := ih.2 p y q h1
        exact ⟨(f, b) :: p', b', q', by rw [h3]; rfl, h4⟩

theorem genfs_stable {ob0 : Objects} {s : OState} (h : OInv ob0 s) (fs path : Str) (cls : Nat)
    (hn : (genfsSid fs path cls s).2 ≠ .noSid) {s' : OState} (hl : OLater (genfsSid fs path cls s).1 s') :
    (genfsSid fs path cls s').2 = (genfsSid fs path cls s).2 := by
  have sp := splitFirst_spec (fun x : Str × List (Ocon (Str × Nat)) => decide (strcmp fs x.1 ≤ 0)) s.ob.genfs
  have hgl := hl.genfs
  unfold genfsSid at hn hgl ⊢
  cases hs : splitFirst (fun x : Str × List (Ocon (Str × Nat)) => decide (strcmp fs x.1 ≤ 0)) s.ob.genfs with
  | none =>
    rw [hs] at hgl
    dsimp only at hgl
    rw [(glater_split (fun x => decide (strcmp fs x ≤ 0)) hgl).1 hs]
  | some q =>
    obtain ⟨pre, g, post⟩ := q
    rw [hs] at hgl hn
    dsimp only at hgl hn ⊢
    by_cases hc : strcmp fs g.1 ≠ 0
    · rw [if_pos hc] at hgl
      obtain ⟨pre', b, post', h1, h2⟩ := (glater_split (fun x => decide (strcmp fs x ≤ 0)) hgl).2 _ _ _ hs
      rw [h1, if_pos hc]
      dsimp only
      rw [if_pos hc]
    · rw [if_neg hc] at hgl hn
      rw [if_neg hc]
      dsimp only at hgl hn ⊢
      obtain ⟨e1, e2, e3⟩ := sp.2 _ _ _ hs
      have hs' := splitFirst_append (fun x : Str × List (Ocon (Str × Nat)) => decide (strcmp fs x.1 ≤ 0)) pre post
        (g.1, (find get0 (fun k => ((k.2 == 0) || (cls == k.2)) && (strncmp k.1.length k.1 path == 0)) s.st g.2).2.1) e2 e3
      obtain ⟨pre', b, post', h1, h2⟩ := (glater_split (fun x => decide (strcmp fs x ≤ 0)) hgl).2 _ _ _ hs'
      rw [h1]
      dsimp only at h2 ⊢
      rw [if_neg hc]
      dsimp only
      obtain ⟨t1, t2⟩ := find_stable get0_ok (fun k : Str × Nat => ((k.2 == 0) || (cls == k.2)) && (strncmp k.1.length k.1 path == 0))
        h.inv (l := g.2) (l0 := g.2.map strip) ⟨rfl, h.genfs.2 g (by rw [e1]; simp)⟩ h2 s'.st
      revert hn t1 t2
      cases (find get0 (fun k : Str × Nat => ((k.2 == 0) || (cls == k.2)) && (strncmp k.1.length k.1 path == 0)) s.st g.2).2.2 with
      | absent => intro _ t1 _; rw [t1 rfl]
      | failed => intro hn; exact absurd rfl hn
      | entry o => intro _ _ t2; rw [t2 o rfl]

theorem stable1 {κ : Type} {get : Sidtab.Sidtab → Ocon κ → Sidtab.Sidtab × Ocon κ × Bool} {done : Ocon κ → Prop}
    (hg : GetOk get done) (m : κ → Bool) {st : Sidtab.Sidtab} (hi : Sidtab.Inv st) {l0 l : List (Ocon κ)} (hr : CRel st l0 l)
    {l' : List (Ocon κ)} (hl : Later done (find get m st l).2.1 l') (st' : Sidtab.Sidtab) (rep : Found κ → Reply)
    (hrep : rep .failed = .noSid) (hn : rep (find get m st l).2.2 ≠ .noSid) :
    rep (find get m st' l').2.2 = rep (find get m st l).2.2 := by
  obtain ⟨t1, t2⟩ := find_stable hg m hi hr hl st'
  revert hn t1 t2
  cases (find get m st l).2.2 with
  | absent => intro _ t1 _; rw [t1 rfl]
  | failed => intro hn; exact absurd hrep hn
  | entry o => intro _ _ t2; rw [t2 o rfl]

theorem ask_stable {ob : Objects} {s : OState} (hi : OInv ob s) {q : Query} (hq0 : ∀ c, q ≠ .convert c)
    (hr1 : (ask s q).2 ≠ .noSid) (hr2 : ∀ b, (ask s q).2 ≠ .use b none) {t : OState} (hl : OLater (ask s q).1 t) :
    (ask t q).2 = (ask s q).2 := by
  cases q with
  | fs n => exact stable1 get01_ok _ hi.inv hi.fs hl.fs t.st (reply2 _ _) rfl hr1
  | netif n => exact stable1 get01_ok _ hi.inv hi.netif hl.netif t.st (reply2 _ _) rfl hr1
  | ibpkey a b => exact stable1 get0_ok _ hi.inv hi.ibpkey hl.ibpkey t.st (reply1 _) rfl hr1
  | ibendport a b => exact stable1 get0_ok _ hi.inv hi.ibendport hl.ibendport t.st (reply1 _) rfl hr1
  | port a b => exact stable1 get0_ok _ hi.inv hi.port hl.port t.st (reply1 _) rfl hr1
  | node a =>
    cases a with
    | inet a => exact stable1 get0_ok _ hi.inv hi.node hl.node t.st (reply1 _) rfl hr1
    | inet6 a => exact stable1 get0_ok _ hi.inv hi.node6 hl.node6 t.st (reply1 _) rfl hr1
    | badLength => rfl
    | other => rfl
  | genfs a b c => exact genfs_stable hi a b c hr1 hl
  | convert c => exact absurd rfl (hq0 c)
  | fsUse a =>
    change OLater (fsUse a s).1 t at hl
    change (fsUse a s).2 ≠ _ at hr1
    change ∀ b, (fsUse a s).2 ≠ _ at hr2
    show (fsUse a t).2 = (fsUse a s).2
    obtain ⟨_, _, f3, f4, _⟩ := find_spec get0_ok (fun k : Str × Nat => strcmp a k.1 == 0) hi.inv hi.fsuse
    obtain ⟨g1, g2, _⟩ := genfs_spec hi a ['/'] s.ob.dirClass
    have hlf := hl.fsuse
    have hdir := hl.dir
    have gs := @genfs_stable ob s hi a ['/'] s.ob.dirClass
    unfold fsUse at hlf hdir hr1 hr2 hl ⊢
    dsimp only at *
    obtain ⟨_, t2⟩ := @find_stable _ _ _ get0_ok (fun k : Str × Nat => strcmp a k.1 == 0) s.st hi.inv ob.fsuse s.ob.fsuse hi.fsuse
      t.ob.fsuse
      (by
        revert hlf
        cases hx : (find get0 (fun k : Str × Nat => strcmp a k.1 == 0) s.st s.ob.fsuse).2.2 with
        | absent =>
          intro hlf
          have : (find get0 (fun k : Str × Nat => strcmp a k.1 == 0) s.st s.ob.fsuse).2.1 = s.ob.fsuse := by
            revert hx
            unfold find
            cases splitFirst (fun o : Ocon (Str × Nat) => strcmp a o.key.1 == 0) s.ob.fsuse with
            | none => intro _; rfl
            | some r =>
              dsimp only
              split <;> intro h <;> cases h
          rw [this]
          exact g2.fsuse.trans hlf
        | failed => exact id
        | entry o => exact id) t.st
    obtain ⟨t1, _⟩ := @find_stable _ _ _ get0_ok (fun k : Str × Nat => strcmp a k.1 == 0) s.st hi.inv ob.fsuse s.ob.fsuse hi.fsuse
      t.ob.fsuse
      (by
        revert hlf
        cases hx : (find get0 (fun k : Str × Nat => strcmp a k.1 == 0) s.st s.ob.fsuse).2.2 with
        | absent =>
          intro hlf
          have : (find get0 (fun k : Str × Nat => strcmp a k.1 == 0) s.st s.ob.fsuse).2.1 = s.ob.fsuse := by
            revert hx
            unfold find
            cases splitFirst (fun o : Ocon (Str × Nat) => strcmp a o.key.1 == 0) s.ob.fsuse with
            | none => intro _; rfl
            | some r =>
              dsimp only
              split <;> intro h <;> cases h
          rw [this]
          exact g2.fsuse.trans hlf
        | failed => exact id
        | entry o => exact id) t.st
    revert hr1 hr2 t1 t2 hl hdir
    cases (find get0 (fun k : Str × Nat => strcmp a k.1 == 0) s.st s.ob.fsuse).2.2 with
    | entry o => intro _ _ _ _ t2 _; rw [t2 o rfl]
    | failed => intro _ hr1; exact absurd rfl hr1
    | absent =>
      intro hl hr1 hr2 hdir _ t1
      dsimp only at *
      rw [t1 rfl]
      dsimp only
      rw [hdir, g2.dir]
      by_cases hno : (genfsSid a ['/'] s.ob.dirClass s).2 = .noSid
      · rw [hno] at hr2; exact absurd rfl (hr2 _)
      · rw [gs hno hl]

/-- C25: an answer is stable: whatever is asked in between, asking again gives the same answer, also when the SID
table has become full. -/
theorem C25_stable {ob : Objects} (hf : FreshObjects ob) {st : Sidtab.Sidtab} (hr : Sidtab.Reach st) {qs : List Query}
    (hq : ∀ q ∈ qs, q.Ok) {q : Query} (hq0 : ∀ c, q ≠ .convert c) {s : OState} {r : Reply}
    (h : ask (history ⟨st, ob⟩ qs) q = (s, r)) (hr1 : r ≠ .noSid) (hr2 : ∀ b, r ≠ .use b none)
    {qs' : List Query} (hq' : ∀ q ∈ qs', q.Ok) : (ask (history s qs') q).2 = r := by
  have hi := reached hf hr hq
  have hok : q.Ok := by cases q <;> first | trivial | exact absurd rfl (hq0 _)
  obtain ⟨i1, _⟩ := ask_spec hi hok
  obtain ⟨rfl, rfl⟩ := Prod.mk.inj h
  exact ask_stable hi hq0 hr1 hr2 (history_spec i1 hq').2

/-! ## A success without a SID -/

def exCtx : Context := ⟨1, 1, 1, ⟨⟨1, demoSet⟩, ⟨1, demoSet⟩⟩⟩
def exCtx2 : Context := { exCtx with type := 2 }
def exCtx3 : Context := { exCtx with type := 3 }

def exFile : List (Str × List GenEntry) :=
  [("sysfs".toList, [⟨"/".toList, 0, exCtx⟩, ⟨"/devices".toList, 7, exCtx2⟩, ⟨"/devices".toList, 8, exCtx3⟩]),
   ("proc".toList, [⟨"/".toList, 0, exCtx2⟩])]

def exObjects : Objects where
  fs := []
  netif := [⟨"eth0".toList, exCtx, exCtx2, 0, 0⟩]
  fsuse := [⟨("ext4".toList, 1), exCtx, exCtx, 0, 0⟩]
  port := [⟨⟨6, 80, 80⟩, exCtx2, exCtx, 0, 0⟩, ⟨⟨6, 1, 1023⟩, exCtx3, exCtx, 0, 0⟩]
  ibpkey := []
  ibendport := []
  node := [⟨(0x0a000000#32, 0xff000000#32), exCtx2, exCtx, 0, 0⟩]
  node6 := []
  genfs := (genfsRead exFile []).getD []
  dirClass := 7

theorem exCtx_wf : WFRange exCtx.range ∧ WFRange exCtx2.range ∧ WFRange exCtx3.range :=
  ⟨⟨demoSet_wf, demoSet_wf⟩, ⟨demoSet_wf, demoSet_wf⟩, ⟨demoSet_wf, demoSet_wf⟩⟩

theorem exObjects_fresh : FreshObjects exObjects := by
  obtain ⟨w1, w2, w3⟩ := exCtx_wf
  constructor
  · intro o h; simp [exObjects] at h
  · intro o h; simp only [exObjects, List.mem_singleton] at h; subst h; exact ⟨rfl, rfl, w1, w2⟩
  · intro o h; simp only [exObjects, List.mem_singleton] at h; subst h; exact ⟨rfl, rfl, w1, w1⟩
  · intro o h; simp only [exObjects, List.mem_cons, List.not_mem_nil, or_false] at h
    rcases h with rfl | rfl <;> exact ⟨rfl, rfl, by assumption, w1⟩
  · intro o h; simp [exObjects] at h
  · intro o h; simp [exObjects] at h
  · intro o h; simp only [exObjects, List.mem_singleton] at h; subst h; exact ⟨rfl, rfl, w2, w1⟩
  · intro o h; simp [exObjects] at h
  · have e := wf_empty
    have hg : exObjects.genfs = [("proc".toList, [⟨("/".toList, 0), exCtx2, ⟨0, 0, 0, emptyRange⟩, 0, 0⟩]),
      ("sysfs".toList, [⟨("/devices".toList, 7), exCtx2, ⟨0, 0, 0, emptyRange⟩, 0, 0⟩,
        ⟨("/devices".toList, 8), exCtx3, ⟨0, 0, 0, emptyRange⟩, 0, 0⟩, ⟨("/".toList, 0), exCtx, ⟨0, 0, 0, emptyRange⟩, 0, 0⟩])] := rfl
    rw [hg]
    intro g h o ho
    simp only [List.mem_cons, List.not_mem_nil, or_false] at h
    rcases h with rfl | rfl <;> simp only [List.mem_cons, List.not_mem_nil, or_false] at ho
    · subst ho; exact ⟨rfl, rfl, w2, e⟩
    · rcases ho with rfl | rfl | rfl
      · exact ⟨rfl, rfl, w2, e⟩
      · exact ⟨rfl, rfl, w3, e⟩
      · exact ⟨rfl, rfl, w1, e⟩

/-- The hypotheses of the theorems above hold and the answers are not trivial: a history of calls; the longest prefix
for the class; the first port entry; defaults. -/
example : FreshObjects exObjects ∧ Sidtab.Reach exSids ∧ genfsRead exFile [] = some exObjects.genfs ∧
    (let s := history ⟨exSids, exObjects⟩ [.port 6 80, .genfs "sysfs".toList "/x".toList 1, .port 6 22]
     (ask s (.port 6 80)).2 = .sids [6] ∧ (ask s (.port 6 1000)).2 = .sids [8] ∧ (ask s (.port 17 80)).2 = .sids [9] ∧
     (ask s (.genfs "sysfs".toList "/devices/a".toList 7)).2 = .sids [6] ∧
     (ask s (.genfs "sysfs".toList "/devices/a".toList 6)).2 = .sids [7] ∧
     (ask s (.genfs "ext4".toList "/".toList 6)).2 = .notFound 3 ∧
     (ask s (.fsUse "ext4".toList)).2 = .use 1 (some 7) ∧ (ask s (.fsUse "proc".toList)).2 = .use 4 (some 6) ∧
     (ask s (.fsUse "nfs".toList)).2 = .use 5 (some 3) ∧
     (ask s (.node (.inet 0x0a010203#32))).2 = .sids [6] ∧ (ask s (.netif "eth0".toList)).2 = .sids [7, 6]) :=
  ⟨exObjects_fresh, exSids_reach, rfl, by decide +kernel⟩

/-- C25 fails in one case: when the SID table is full, `sepol_fs_use` for a file system without an entry but with a
genfs entry returns success with behavior NONE and leaves the SID unwritten (services.c:2329-2333 ignores the reason
of the failure). -/
theorem C25_fs_use_refuted : ∃ (ob : Objects) (file : List (Str × List GenEntry)) (st : Sidtab.Sidtab) (fs : Str),
    FreshObjects ob ∧ genfsRead file [] = some ob.genfs ∧ Sidtab.Reach st ∧
    (ask ⟨st, ob⟩ (.fsUse fs)).2 = .use 5 none := by
  refine ⟨exObjects, exFile, Sidtab.step Sidtab.init (.insert (2 ^ 32 - 2) { exCtx with type := 5 }), "proc".toList, exObjects_fresh,
    rfl, .call .init ⟨by decide, by decide, ⟨demoSet_wf, demoSet_wf⟩⟩, by decide +kernel⟩

end Verif.Services
