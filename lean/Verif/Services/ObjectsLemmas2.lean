import Verif.Services.ObjectsLemmas

namespace Verif.Services
open Verif.Policy Verif.Mls

abbrev Done0 {κ : Type} (o : Ocon κ) : Prop := o.sid0 ≠ 0
abbrev Done01 {κ : Type} (o : Ocon κ) : Prop := o.sid0 ≠ 0 ∧ o.sid1 ≠ 0

abbrev Genfs := List (Str × List (Ocon (Str × Nat)))

def GRel (st : Sidtab.Sidtab) (g0 g : Genfs) : Prop :=
  g.map (fun x => (x.1, x.2.map strip)) = g0 ∧ ∀ x ∈ g, ∀ o ∈ x.2, CachedOk st o

theorem GRel.mono {st st'} {g0 g : Genfs} (h : GRel st g0 g) (e : Ext st st') : GRel st' g0 g :=
  ⟨h.1, fun x hx o ho => (h.2 x hx o ho).mono e⟩

inductive GLater : Genfs → Genfs → Prop
  | nil : GLater [] []
  | cons {f a b l l'} : Later Done0 a b → GLater l l' → GLater ((f, a) :: l) ((f, b) :: l')

theorem GLater.refl (g : Genfs) : GLater g g := by
  induction g with
  | nil => exact .nil
  | cons a l ih => exact .cons (.refl _) ih

theorem GLater.trans {a b c : Genfs} (h1 : GLater a b) (h2 : GLater b c) : GLater a c := by
  induction h1 generalizing c with
  | nil => cases h2; exact .nil
  | cons hx _ ih => cases h2 with | cons hy h2 => exact .cons (hx.trans hy) (ih h2)

theorem GLater.append {a b a' b' : Genfs} (h1 : GLater a a') (h2 : GLater b b') : GLater (a ++ b) (a' ++ b') := by
  induction h1 with
  | nil => exact h2
  | cons hx _ ih => exact .cons hx ih

/-- The server's lists are the configured ones with correct cached SIDs. -/
structure OInv (ob0 : Objects) (s : OState) : Prop where
  inv : Sidtab.Inv s.st
  fs : CRel s.st ob0.fs s.ob.fs
  netif : CRel s.st ob0.netif s.ob.netif
  fsuse : CRel s.st ob0.fsuse s.ob.fsuse
  port : CRel s.st ob0.port s.ob.port
  ibpkey : CRel s.st ob0.ibpkey s.ob.ibpkey
  ibendport : CRel s.st ob0.ibendport s.ob.ibendport
  node : CRel s.st ob0.node s.ob.node
  node6 : CRel s.st ob0.node6 s.ob.node6
  genfs : GRel s.st ob0.genfs s.ob.genfs
  dir : s.ob.dirClass = ob0.dirClass

theorem OInv.mono {ob0 : Objects} {s : OState} (h : OInv ob0 s) {st : Sidtab.Sidtab} (e : Ext s.st st) : OInv ob0 ⟨st, s.ob⟩ :=
  ⟨e.1, h.fs.mono e, h.netif.mono e, h.fsuse.mono e, h.port.mono e, h.ibpkey.mono e, h.ibendport.mono e, h.node.mono e,
    h.node6.mono e, h.genfs.mono e, h.dir⟩

structure OLater (s s' : OState) : Prop where
  ext : Ext s.st s'.st
  fs : Later Done01 s.ob.fs s'.ob.fs
  netif : Later Done01 s.ob.netif s'.ob.netif
  fsuse : Later Done0 s.ob.fsuse s'.ob.fsuse
  port : Later Done0 s.ob.port s'.ob.port
  ibpkey : Later Done0 s.ob.ibpkey s'.ob.ibpkey
  ibendport : Later Done0 s.ob.ibendport s'.ob.ibendport
  node : Later Done0 s.ob.node s'.ob.node
  node6 : Later Done0 s.ob.node6 s'.ob.node6
  genfs : GLater s.ob.genfs s'.ob.genfs
  dir : s'.ob.dirClass = s.ob.dirClass

theorem OLater.refl {s : OState} (h : Sidtab.Inv s.st) : OLater s s :=
  ⟨.refl h, .refl _, .refl _, .refl _, .refl _, .refl _, .refl _, .refl _, .refl _, .refl _, rfl⟩

theorem OLater.trans {a b c : OState} (h1 : OLater a b) (h2 : OLater b c) : OLater a c :=
  ⟨h1.ext.trans h2.ext, h1.fs.trans h2.fs, h1.netif.trans h2.netif, h1.fsuse.trans h2.fsuse, h1.port.trans h2.port,
    h1.ibpkey.trans h2.ibpkey, h1.ibendport.trans h2.ibendport, h1.node.trans h2.node, h1.node6.trans h2.node6,
    h1.genfs.trans h2.genfs, h2.dir.trans h1.dir⟩

theorem fresh_strip {κ : Type} {l : List (Ocon κ)} (h : Fresh l) : l.map strip = l := by
  have : ∀ o ∈ l, strip o = id o := by
    intro o ho
    obtain ⟨a, b, _⟩ := h o ho
    cases o
    simp only [strip, id] at *
    subst a; subst b; rfl
  rw [List.map_congr_left this, List.map_id]

theorem rel_fresh {κ : Type} {st : Sidtab.Sidtab} {l : List (Ocon κ)} (h : Fresh l) : CRel st l l :=
  ⟨fresh_strip h, fun o ho => by
    obtain ⟨a, b, c, d⟩ := h o ho
    exact ⟨fun h => absurd a h, fun h => absurd b h, c, d⟩⟩

theorem oinv_fresh {ob : Objects} (h : FreshObjects ob) {st : Sidtab.Sidtab} (hi : Sidtab.Inv st) : OInv ob ⟨st, ob⟩ := by
  refine ⟨hi, rel_fresh h.fs, rel_fresh h.netif, rel_fresh h.fsuse, rel_fresh h.port, rel_fresh h.ibpkey, rel_fresh h.ibendport,
    rel_fresh h.node, rel_fresh h.node6, ⟨?_, fun x hx => (rel_fresh (h.genfs x hx)).2⟩, rfl⟩
  have : ∀ x ∈ ob.genfs, (x.1, x.2.map strip) = id x := by
    intro x hx
    rw [fresh_strip (h.genfs x hx)]; rfl
  rw [List.map_congr_left this, List.map_id]

/-- The entries `sepol_genfs_sid` walks over for a file system type. -/
def fsEntries (g0 : Genfs) (fstype : Str) : Option (List (Ocon (Str × Nat))) :=
  match splitFirst (fun g => decide (strcmp fstype g.1 ≤ 0)) g0 with
  | some (_, g, _) => if strcmp fstype g.1 = 0 then some g.2 else none
  | none => none

def genMatch (path : Str) (sclass : Nat) (k : Str × Nat) : Bool :=
  ((k.2 == 0) || (sclass == k.2)) && (strncmp k.1.length k.1 path == 0)

theorem splitFirst_map {α β : Type} (f : α → β) (m : β → Bool) : ∀ l : List α,
    splitFirst m (l.map f) = (splitFirst (fun a => m (f a)) l).map (fun r => (r.1.map f, f r.2.1, r.2.2.map f)) := by
  intro l
  induction l with
  | nil => rfl
  | cons a l ih =>
    rw [List.map_cons]
    unfold splitFirst
    by_cases h : m (f a) = true
    · rw [if_pos h, if_pos h]; rfl
    · rw [if_neg h, if_neg h, ih]
      cases splitFirst (fun a => m (f a)) l <;> rfl

/-- Search in the configured and in the current list of file system types. -/
theorem fsEntries_rel {st : Sidtab.Sidtab} {g0 g : Genfs} (h : GRel st g0 g) (fstype : Str) :
    splitFirst (fun x => decide (strcmp fstype x.1 ≤ 0)) g0 =
      (splitFirst (fun x => decide (strcmp fstype x.1 ≤ 0)) g).map (fun r =>
        (r.1.map (fun x => (x.1, x.2.map strip)), (r.2.1.1, r.2.1.2.map strip), r.2.2.map (fun x => (x.1, x.2.map strip)))) := by
  rw [← h.1, splitFirst_map]

/-- Description of the answer of `sepol_genfs_sid` in terms of the configured lists. -/
def GenReply (g0 : Genfs) (fstype path : Str) (sclass : Nat) (s' : OState) (r : Reply) : Prop :=
  ((∀ es, fsEntries g0 fstype = some es → NoMatch es (fun k => genMatch path sclass k = true)) ∧ r = .notFound 3) ∨
  (∃ es, fsEntries g0 fstype = some es ∧
    ((∃ o x, FirstMatch es (fun k => genMatch path sclass k = true) o ∧ r = .sids [x] ∧ StandsFor s' x o.ctx0) ∨
     ((∃ o, FirstMatch es (fun k => genMatch path sclass k = true) o) ∧ r = .noSid ∧ Full s')))

theorem genfs_spec {ob0 : Objects} {s : OState} (h : OInv ob0 s) (fstype path : Str) (sclass : Nat) :
    OInv ob0 (genfsSid fstype path sclass s).1 ∧ OLater s (genfsSid fstype path sclass s).1 ∧
    GenReply ob0.genfs fstype path sclass (genfsSid fstype path sclass s).1 (genfsSid fstype path sclass s).2 := by
  have hsp := fsEntries_rel h.genfs fstype
  have hsf := splitFirst_spec (fun x : Str × List (Ocon (Str × Nat)) => decide (strcmp fstype x.1 ≤ 0)) s.ob.genfs
  unfold genfsSid
  cases hs : splitFirst (fun x : Str × List (Ocon (Str × Nat)) => decide (strcmp fstype x.1 ≤ 0)) s.ob.genfs with
  | none =>
    rw [hs, Option.map_none] at hsp
    refine ⟨h, .refl h.inv, .inl ⟨fun es he => ?_, rfl⟩⟩
    unfold fsEntries at he; rw [hsp] at he; cases he
  | some r =>
    obtain ⟨pre, g, post⟩ := r
    rw [hs, Option.map_some] at hsp
    dsimp only at hsp ⊢
    by_cases hc : strcmp fstype g.1 ≠ 0
    · rw [if_pos hc]
      refine ⟨h, .refl h.inv, .inl ⟨fun es he => ?_, rfl⟩⟩
      unfold fsEntries at he; rw [hsp] at he
      dsimp only at he
      rw [if_neg hc] at he; cases he
    · rw [if_neg hc]
      have hc' : strcmp fstype g.1 = 0 := by omega
      have hfe : fsEntries ob0.genfs fstype = some (g.2.map strip) := by
        unfold fsEntries; rw [hsp]; dsimp only; rw [if_pos hc']
      obtain ⟨a1, a2, a3⟩ := hsf.2 _ _ _ hs
      have hrel : CRel s.st (g.2.map strip) g.2 := ⟨rfl, h.genfs.2 g (by rw [a1]; simp)⟩
      obtain ⟨f1, f2, f3, f4, f5, f6⟩ := find_spec get0_ok (genMatch path sclass) h.inv hrel
      change Ext s.st (find get0 (genMatch path sclass) s.st g.2).1 at f1
      have hm := h.mono f1
      have e0 : (fun k : Str × Nat => ((k.2 == 0) || (sclass == k.2)) && (strncmp k.1.length k.1 path == 0)) = genMatch path sclass := rfl
      rw [e0]
      generalize find get0 (genMatch path sclass) s.st g.2 = fr at f1 f2 f3 f4 f5 f6 hm ⊢
      obtain ⟨st', l', res⟩ := fr
      dsimp only at f1 f2 f3 f4 f5 f6 hm ⊢
      have hg' : GRel st' ob0.genfs (pre ++ (g.1, l') :: post) := by
        refine ⟨?_, ?_⟩
        · have := h.genfs.1
          rw [← this, a1]
          simp only [List.map_append, List.map_cons]
          rw [f2.1]
        · intro x hx
          rcases List.mem_append.mp hx with hx | hx
          · exact hm.genfs.2 x (by show x ∈ s.ob.genfs; rw [a1]; simp [hx])
          · rcases List.mem_cons.mp hx with rfl | hx
            · exact f2.2
            · exact hm.genfs.2 x (by show x ∈ s.ob.genfs; rw [a1]; simp [hx])
      refine ⟨⟨hm.inv, hm.fs, hm.netif, hm.fsuse, hm.port, hm.ibpkey, hm.ibendport, hm.node, hm.node6, hg', hm.dir⟩,
        ⟨f1, .refl _, .refl _, .refl _, .refl _, .refl _, .refl _, .refl _, .refl _, ?_, rfl⟩, ?_⟩
      · show GLater s.ob.genfs _
        rw [a1]
        exact (GLater.refl pre).append (.cons f3 (.refl post))
      · cases res with
        | absent =>
          refine .inl ⟨fun es he => ?_, rfl⟩
          rw [hfe] at he; cases he
          exact (f4 rfl).1
        | failed => exact .inr ⟨_, hfe, .inr ⟨(f5 rfl).1, rfl, (f5 rfl).2⟩⟩
        | entry o =>
          obtain ⟨k1, k2, k3⟩ := f6 o rfl
          exact .inr ⟨_, hfe, .inl ⟨strip o, o.sid0, k1, rfl, k2.c0 k3⟩⟩

theorem labels1_of {κ : Type} {l0 : List (Ocon κ)} {m : κ → Bool} {P : κ → Prop} (hP : ∀ k, m k = true ↔ P k) {s' : OState}
    {res : Found κ} {dflt : Nat} (f4 : res = .absent → NoMatch l0 (fun k => m k = true))
    (f5 : res = .failed → (∃ o, FirstMatch l0 (fun k => m k = true) o) ∧ FullT s'.st)
    (f6 : ∀ o, res = .entry o → FirstMatch l0 (fun k => m k = true) (strip o) ∧ CachedOk s'.st o ∧ Done0 o) :
    Labels1 l0 P dflt s' (reply1 dflt res) := by
  have e : (fun k => m k = true) = P := funext fun k => propext (hP k)
  rw [e] at f4 f5 f6
  cases res with
  | absent => exact .inr (.inl ⟨f4 rfl, rfl⟩)
  | failed => exact .inr (.inr ⟨(f5 rfl).1, rfl, (f5 rfl).2⟩)
  | entry o => obtain ⟨k1, k2, k3⟩ := f6 o rfl; exact .inl ⟨strip o, o.sid0, k1, rfl, k2.c0 k3⟩

theorem labels2_of {κ : Type} {l0 : List (Ocon κ)} {m : κ → Bool} {P : κ → Prop} (hP : ∀ k, m k = true ↔ P k) {s' : OState}
    {res : Found κ} {d0 d1 : Nat} (f4 : res = .absent → NoMatch l0 (fun k => m k = true))
    (f5 : res = .failed → (∃ o, FirstMatch l0 (fun k => m k = true) o) ∧ FullT s'.st)
    (f6 : ∀ o, res = .entry o → FirstMatch l0 (fun k => m k = true) (strip o) ∧ CachedOk s'.st o ∧ Done01 o) :
    Labels2 l0 P d0 d1 s' (reply2 d0 d1 res) := by
  have e : (fun k => m k = true) = P := funext fun k => propext (hP k)
  rw [e] at f4 f5 f6
  cases res with
  | absent => exact .inr (.inl ⟨f4 rfl, rfl⟩)
  | failed => exact .inr (.inr ⟨(f5 rfl).1, rfl, (f5 rfl).2⟩)
  | entry o => obtain ⟨k1, k2, k3⟩ := f6 o rfl; exact .inl ⟨strip o, o.sid0, o.sid1, k1, rfl, k2.c0 k3.1, k2.c1 k3.2⟩

/-- One call keeps the invariant and only extends the server's knowledge. -/
theorem ask_spec {ob0 : Objects} {s : OState} (h : OInv ob0 s) {q : Query} (hq : q.Ok) :
    OInv ob0 (ask s q).1 ∧ OLater s (ask s q).1 := by
  cases q with
  | fs n =>
    obtain ⟨f1, f2, f3, _⟩ := find_spec get01_ok (fun k => strcmp k n == 0) h.inv h.fs
    have hm := h.mono f1
    exact ⟨⟨hm.inv, f2, hm.netif, hm.fsuse, hm.port, hm.ibpkey, hm.ibendport, hm.node, hm.node6, hm.genfs, hm.dir⟩,
      ⟨f1, f3, .refl _, .refl _, .refl _, .refl _, .refl _, .refl _, .refl _, .refl _, rfl⟩⟩
  | netif n =>
    obtain ⟨f1, f2, f3, _⟩ := find_spec get01_ok (fun k => strcmp n k == 0) h.inv h.netif
    have hm := h.mono f1
    exact ⟨⟨hm.inv, hm.fs, f2, hm.fsuse, hm.port, hm.ibpkey, hm.ibendport, hm.node, hm.node6, hm.genfs, hm.dir⟩,
      ⟨f1, .refl _, f3, .refl _, .refl _, .refl _, .refl _, .refl _, .refl _, .refl _, rfl⟩⟩
  | ibpkey a b =>
    obtain ⟨f1, f2, f3, _⟩ := find_spec get0_ok
      (fun k : PkeyKey => decide (k.low ≤ b) && decide (k.high ≥ b) && (a == k.subnet)) h.inv h.ibpkey
    have hm := h.mono f1
    exact ⟨⟨hm.inv, hm.fs, hm.netif, hm.fsuse, hm.port, f2, hm.ibendport, hm.node, hm.node6, hm.genfs, hm.dir⟩,
      ⟨f1, .refl _, .refl _, .refl _, .refl _, f3, .refl _, .refl _, .refl _, .refl _, rfl⟩⟩
  | ibendport a b =>
    obtain ⟨f1, f2, f3, _⟩ := find_spec get0_ok (fun k : Str × Nat => (k.2 == b) && (strcmp a k.1 == 0)) h.inv h.ibendport
    have hm := h.mono f1
    exact ⟨⟨hm.inv, hm.fs, hm.netif, hm.fsuse, hm.port, hm.ibpkey, f2, hm.node, hm.node6, hm.genfs, hm.dir⟩,
      ⟨f1, .refl _, .refl _, .refl _, .refl _, .refl _, f3, .refl _, .refl _, .refl _, rfl⟩⟩
  | port a b =>
    obtain ⟨f1, f2, f3, _⟩ := find_spec get0_ok
      (fun k : PortKey => (k.protocol == a) && decide (k.low ≤ b) && decide (k.high ≥ b)) h.inv h.port
    have hm := h.mono f1
    exact ⟨⟨hm.inv, hm.fs, hm.netif, hm.fsuse, f2, hm.ibpkey, hm.ibendport, hm.node, hm.node6, hm.genfs, hm.dir⟩,
      ⟨f1, .refl _, .refl _, .refl _, f3, .refl _, .refl _, .refl _, .refl _, .refl _, rfl⟩⟩
  | node a =>
    cases a with
    | inet a =>
      obtain ⟨f1, f2, f3, _⟩ := find_spec get0_ok (fun k : BitVec 32 × BitVec 32 => k.1 == a &&& k.2) h.inv h.node
      have hm := h.mono f1
      exact ⟨⟨hm.inv, hm.fs, hm.netif, hm.fsuse, hm.port, hm.ibpkey, hm.ibendport, f2, hm.node6, hm.genfs, hm.dir⟩,
        ⟨f1, .refl _, .refl _, .refl _, .refl _, .refl _, .refl _, f3, .refl _, .refl _, rfl⟩⟩
    | inet6 a =>
      obtain ⟨f1, f2, f3, _⟩ := find_spec get0_ok (fun k : Words × Words => matchIpv6 a k.1 k.2) h.inv h.node6
      have hm := h.mono f1
      exact ⟨⟨hm.inv, hm.fs, hm.netif, hm.fsuse, hm.port, hm.ibpkey, hm.ibendport, hm.node, f2, hm.genfs, hm.dir⟩,
        ⟨f1, .refl _, .refl _, .refl _, .refl _, .refl _, .refl _, .refl _, f3, .refl _, rfl⟩⟩
    | badLength => exact ⟨h, .refl h.inv⟩
    | other => exact ⟨h, .refl h.inv⟩
  | genfs a b c => obtain ⟨g1, g2, _⟩ := genfs_spec h a b c; exact ⟨g1, g2⟩
  | fsUse a =>
    obtain ⟨f1, f2, f3, _⟩ := find_spec get0_ok (fun k : Str × Nat => strcmp a k.1 == 0) h.inv h.fsuse
    have hm := h.mono f1
    have base : OInv ob0 ⟨(find get0 (fun k : Str × Nat => strcmp a k.1 == 0) s.st s.ob.fsuse).1,
          { s.ob with fsuse := (find get0 (fun k : Str × Nat => strcmp a k.1 == 0) s.st s.ob.fsuse).2.1 }⟩ ∧
        OLater s ⟨(find get0 (fun k : Str × Nat => strcmp a k.1 == 0) s.st s.ob.fsuse).1,
          { s.ob with fsuse := (find get0 (fun k : Str × Nat => strcmp a k.1 == 0) s.st s.ob.fsuse).2.1 }⟩ :=
      ⟨⟨hm.inv, hm.fs, hm.netif, f2, hm.port, hm.ibpkey, hm.ibendport, hm.node, hm.node6, hm.genfs, hm.dir⟩,
        ⟨f1, .refl _, .refl _, f3, .refl _, .refl _, .refl _, .refl _, .refl _, .refl _, rfl⟩⟩
    show OInv ob0 (fsUse a s).1 ∧ OLater s (fsUse a s).1
    unfold fsUse
    dsimp only
    cases (find get0 (fun k : Str × Nat => strcmp a k.1 == 0) s.st s.ob.fsuse).2.2 with
    | entry o => exact base
    | failed => exact base
    | absent => obtain ⟨g1, g2, _⟩ := genfs_spec h a ['/'] s.ob.dirClass; exact ⟨g1, g2⟩
  | convert c =>
    show OInv ob0 (ask s (.convert c)).1 ∧ OLater s (ask s (.convert c)).1
    unfold ask
    dsimp only
    cases hc : Sidtab.contextToSid s.st c with
    | none => exact ⟨h, .refl h.inv⟩
    | some r =>
      obtain ⟨e1, _⟩ := convert_ext h.inv hq (st' := r.1) (sid := r.2) hc
      exact ⟨h.mono e1, ⟨e1, .refl _, .refl _, .refl _, .refl _, .refl _, .refl _, .refl _, .refl _, .refl _, rfl⟩⟩

theorem history_spec {ob0 : Objects} : ∀ {qs : List Query} {s : OState}, OInv ob0 s → (∀ q ∈ qs, q.Ok) →
    OInv ob0 (history s qs) ∧ OLater s (history s qs) := by
  intro qs
  induction qs with
  | nil => intro s h _; exact ⟨h, .refl h.inv⟩
  | cons q qs ih =>
    intro s h hq
    obtain ⟨a1, a2⟩ := ask_spec h (hq q (by simp))
    obtain ⟨b1, b2⟩ := ih a1 (fun q hq' => hq q (by simp [hq']))
    exact ⟨b1, a2.trans b2⟩

end Verif.Services
