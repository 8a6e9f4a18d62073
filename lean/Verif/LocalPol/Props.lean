import Verif.LocalPol.Lemmas2

/-!
# C101: local customisations of network objects take effect
-/

namespace Verif.LocalPol
open Verif.Policy Verif.Mls Verif.Services Verif.ObjStmt

section
variable {cfg : Cfg} {sort : List NodeRec → List NodeRec} {loc : Local} {ob ob' : Objects} {st : Sidtab.Sidtab} {qs : List Query}
  (hmerge : mergeObjects cfg sort loc ob = some ob') (hsort : Sorts (nodeCompare cfg) sort) (hf : FreshObjects ob) (hw : loc.WF)
  (hr : Sidtab.Reach st) (hq : ∀ q ∈ qs, q.Ok)
include hmerge hsort hf hw hr hq

/-- C101: a port that a local record covers gets the label of a local record, the last one if there are several; any other port is labelled
as the policy says.  Partial: for numbers of 16 bits (`C101_large_port_refuted`). -/
theorem C101_port_partial (hfit : ∀ r ∈ loc.ports, r.Fits) (ip n : Nat) {s' : OState} {r : Reply}
    (h : ask (history ⟨st, ob'⟩ qs) (.port ip n) = (s', r)) :
    Overrides loc.ports (PortRec.Covers ip n) (LastRec loc.ports (PortRec.Covers ip n)) PortRec.con
      (Labels1 ob.port (fun k => k.protocol = ip ∧ k.low ≤ n ∧ n ≤ k.high) 9 s' r) s' r := by
  have hL := C25_port (fresh_merge hmerge hsort hf hw) hr hq ip n h
  obtain ⟨h1, _, _, _, netif, _, rfl⟩ := merge_inv hmerge
  refine overrides_of hL (List.Perm.refl _) (fun s hs => ?_) (fun s e he => ?_) (fun s _ h => h)
  · have hf := hfit s hs
    have l := u16_fit ⟨hf.1, hf.2.1⟩
    have l' := u16_fit ⟨hf.2.2.1, hf.2.2.2⟩
    constructor
    · rintro ⟨e, he, hm⟩
      obtain ⟨p, c, hp, _, _, rfl⟩ := portEntry_some.mp he
      simp only [entry] at hm
      obtain ⟨rfl, h2, h3⟩ := hm
      exact ⟨hp, by omega, by omega⟩
    · rintro ⟨hp, h2, h3⟩
      obtain ⟨e, he⟩ := ne_none.mp (h1 s hs)
      refine ⟨e, he, ?_⟩
      obtain ⟨p, c, hp', _, _, rfl⟩ := portEntry_some.mp he
      rw [← ipproto_iff] at hp hp'
      rw [hp] at hp'; cases hp'
      exact ⟨rfl, by simp only [entry]; omega, by simp only [entry]; omega⟩
  · obtain ⟨p, c, _, _, hc, rfl⟩ := portEntry_some.mp he
    exact hc

/-- C101: the same for Infiniband partition keys. -/
theorem C101_ibpkey_partial (hfit : ∀ r ∈ loc.pkeys, r.Fits) (subnet n : Nat) {s' : OState} {r : Reply}
    (h : ask (history ⟨st, ob'⟩ qs) (.ibpkey subnet n) = (s', r)) :
    Overrides loc.pkeys (PkeyRec.Covers subnet n) (LastRec loc.pkeys (PkeyRec.Covers subnet n)) PkeyRec.con
      (Labels1 ob.ibpkey (fun k => k.subnet = subnet ∧ k.low ≤ n ∧ n ≤ k.high) 3 s' r) s' r := by
  have hL := C25_ibpkey (fresh_merge hmerge hsort hf hw) hr hq subnet n h
  obtain ⟨_, h1, _, _, netif, _, rfl⟩ := merge_inv hmerge
  refine overrides_of hL (List.Perm.refl _) (fun s hs => ?_) (fun s e he => ?_) (fun s _ h => h)
  · have hf := hfit s hs
    have l := u16_fit ⟨hf.1, hf.2.1⟩
    have l' := u16_fit ⟨hf.2.2.1, hf.2.2.2⟩
    constructor
    · rintro ⟨e, he, hm⟩
      obtain ⟨c, _, _, rfl⟩ := pkeyEntry_some.mp he
      simp only [entry] at hm
      obtain ⟨rfl, h2, h3⟩ := hm
      exact ⟨rfl, by omega, by omega⟩
    · rintro ⟨hp, h2, h3⟩
      obtain ⟨e, he⟩ := ne_none.mp (h1 s hs)
      refine ⟨e, he, ?_⟩
      obtain ⟨c, _, _, rfl⟩ := pkeyEntry_some.mp he
      exact ⟨hp, by simp only [entry]; omega, by simp only [entry]; omega⟩
  · obtain ⟨c, _, hc, rfl⟩ := pkeyEntry_some.mp he
    exact hc

/-- C101: the same for ports of Infiniband devices (numbers of 8 bits, names of up to 63 bytes). -/
theorem C101_ibendport_partial (hfit : ∀ r ∈ loc.endports, r.Fits) (dev : Str) (n : Nat) {s' : OState} {r : Reply}
    (h : ask (history ⟨st, ob'⟩ qs) (.ibendport dev n) = (s', r)) :
    Overrides loc.endports (EndportRec.Covers dev n) (LastRec loc.endports (EndportRec.Covers dev n)) EndportRec.con
      (Labels1 ob.ibendport (fun k => k = (dev, n)) 3 s' r) s' r := by
  have hL := C25_ibendport (fresh_merge hmerge hsort hf hw) hr hq dev n h
  obtain ⟨_, _, h1, _, netif, _, rfl⟩ := merge_inv hmerge
  refine overrides_of hL (List.Perm.refl _) (fun s hs => ?_) (fun s e he => ?_) (fun s _ h => h)
  · have hf := hfit s hs
    have l := u8_fit ⟨hf.1, hf.2.1⟩
    have t : s.dev.take 63 = s.dev := List.take_of_length_le (by have := hf.2.2; omega)
    constructor
    · rintro ⟨e, he, hm⟩
      obtain ⟨c, _, rfl⟩ := endportEntry_some.mp he
      simp only [entry, Prod.mk.injEq, t] at hm
      exact ⟨hm.1, by omega⟩
    · rintro ⟨h2, h3⟩
      obtain ⟨e, he⟩ := ne_none.mp (h1 s hs)
      refine ⟨e, he, ?_⟩
      obtain ⟨c, _, rfl⟩ := endportEntry_some.mp he
      simp only [entry, Prod.mk.injEq, t]
      exact ⟨h2, by omega⟩
  · obtain ⟨c, hc, rfl⟩ := endportEntry_some.mp he
    exact hc

/-- C101: an IPv4 address that a local record covers gets the label of a local record that looks at the most bits; any other address is
labelled as the policy says. -/
theorem C101_node (a : BitVec 32) {s' : OState} {r : Reply}
    (h : ask (history ⟨st, ob'⟩ qs) (.node (.inet (stored cfg a))) = (s', r)) :
    Overrides loc.nodes (NodeRec.Covers4 a) (fun s => ∀ t ∈ loc.nodes, t.Covers4 a → ¬ t.More s) NodeRec.con
      (Labels1 ob.node (fun k => ∀ i < 32, k.1.getLsbD i = ((stored cfg a).getLsbD i && k.2.getLsbD i)) 12 s' r) s' r := by
  have hL := C25_node (fresh_merge hmerge hsort hf hw) hr hq (stored cfg a) h
  obtain ⟨_, _, _, h1, netif, _, rfl⟩ := merge_inv hmerge
  obtain ⟨hp, ho⟩ := hsort loc.nodes
  refine overrides_of hL hp (fun s hs => covers4 (h1 s (hp.mem_iff.mpr hs)) a) (fun s e he => ?_) (fun s hs hl t ht hc => ?_)
  · rcases s with ⟨x, m, _ | c⟩ | ⟨x, m, _ | c⟩ <;> simp only [n4, Option.some.injEq, reduceCtorEq] at he
    subst he; rfl
  · by_cases e : t = s
    · subst e; rintro ⟨_, i, h2, h3⟩; exact h3 h2
    · have hsc : s.Covers4 a := by obtain ⟨_, _, _, h, _⟩ := hl; exact h
      exact node_order4 (last_best ho hl t (hp.mem_iff.mpr ht) hc e) hsc hc

/-- C101: the same for IPv6. -/
theorem C101_node6 (a : Words) {s' : OState} {r : Reply}
    (h : ask (history ⟨st, ob'⟩ qs) (.node (.inet6 (stored6 cfg a))) = (s', r)) :
    Overrides loc.nodes (NodeRec.Covers6 a) (fun s => ∀ t ∈ loc.nodes, t.Covers6 a → ¬ t.More s) NodeRec.con
      (Labels1 ob.node6 (fun k => k.1 = ⟨(stored6 cfg a).w0 &&& k.2.w0, (stored6 cfg a).w1 &&& k.2.w1, (stored6 cfg a).w2 &&& k.2.w2,
        (stored6 cfg a).w3 &&& k.2.w3⟩) 12 s' r) s' r := by
  have hL := (C25_node6 (fresh_merge hmerge hsort hf hw) hr hq).1 (stored6 cfg a) h
  obtain ⟨_, _, _, h1, netif, _, rfl⟩ := merge_inv hmerge
  obtain ⟨hp, ho⟩ := hsort loc.nodes
  refine overrides_of hL hp (fun s hs => covers6 (h1 s (hp.mem_iff.mpr hs)) a) (fun s e he => ?_) (fun s hs hl t ht hc => ?_)
  · rcases s with ⟨x, m, _ | c⟩ | ⟨x, m, _ | c⟩ <;> simp only [n6, Option.some.injEq, reduceCtorEq] at he
    subst he; rfl
  · by_cases e : t = s
    · subst e; rintro ⟨_, i, h2, h3⟩; exact h3 h2
    · have hsc : s.Covers6 a := by obtain ⟨_, _, _, h, _⟩ := hl; exact h
      exact node_order6 (last_best ho hl t (hp.mem_iff.mpr ht) hc e) hsc hc

/-- C101: an interface with a local record gets the two labels of the (last) record with its name, any other one those of the policy. -/
theorem C101_netif (name : Str) {s' : OState} {r : Reply} (h : ask (history ⟨st, ob'⟩ qs) (.netif name) = (s', r)) :
    (∃ i c d x y, LastRec loc.ifaces (fun i => i.name = name) i ∧ i.ifcon = some c ∧ i.msgcon = some d ∧ r = .sids [x, y] ∧
      StandsFor s' x c ∧ StandsFor s' y d) ∨
    ((∀ i ∈ loc.ifaces, i.name ≠ name) ∧ Labels2 ob.netif (fun k => k = name) 10 11 s' r) ∨
    ((∃ i ∈ loc.ifaces, i.name = name) ∧ r = .noSid ∧ Full s') := by
  have hL := C25_netif (fresh_merge hmerge hsort hf hw) hr hq name h
  obtain ⟨_, _, _, _, netif, hn, rfl⟩ := merge_inv hmerge
  dsimp only [Labels2] at hL ⊢
  simp only [named_first, named_none] at hL ⊢
  rcases load_iface hn name with ⟨i, e, hl, he, hx⟩ | ⟨h1, h2⟩
  · have hm : i ∈ loc.ifaces ∧ i.name = name := by obtain ⟨b, a, e, h, _⟩ := hl; exact ⟨by rw [e]; simp, h⟩
    rw [hx] at hL
    rcases hL with ⟨o, x, y, h1, h2, h3, h4⟩ | ⟨h1, h2⟩ | ⟨⟨o, h1⟩, h2, h3⟩
    · cases h1
      obtain ⟨c, d, e1, e2, rfl⟩ := ifaceEntry_some.mp he
      exact .inl ⟨i, c, d, x, y, hl, e1, e2, h2, h3, h4⟩
    · cases h1
    · exact .inr (.inr ⟨⟨i, hm⟩, h2, h3⟩)
  · rw [h2] at hL
    exact .inr (.inl ⟨h1, hL⟩)

end

/-- C101: the merge of local records fails only for unknown protocols, empty ranges (after the numbers have been cut to 16 bits) and contexts
that are not valid in the policy. -/
theorem C101_merge_iff {cfg : Cfg} {sort : List NodeRec → List NodeRec} (hsort : Sorts (nodeCompare cfg) sort) {loc : Local} {ob : Objects} :
    (∃ ob', mergeObjects cfg sort loc ob = some ob') ↔ Mergeable loc := by
  have hp : ∀ r : PortRec, portEntry r ≠ none ↔
      (∃ ip, IsProto r.proto ip) ∧ r.low % 2 ^ 16 ≤ r.high % 2 ^ 16 ∧ ∃ c, r.con = some c := by
    intro r
    have hu : u16 r.low ≤ u16 r.high ↔ r.low % 2 ^ 16 ≤ r.high % 2 ^ 16 := by unfold u16; omega
    rw [ne_none, ← hu]
    simp only [portEntry_some]
    exact ⟨fun ⟨_, ip, c, h1, h2, h3, _⟩ => ⟨⟨ip, h1⟩, h2, c, h3⟩, fun ⟨⟨ip, h1⟩, h2, c, h3⟩ => ⟨_, ip, c, h1, h2, h3, rfl⟩⟩
  have hk : ∀ r : PkeyRec, pkeyEntry r ≠ none ↔ r.low % 2 ^ 16 ≤ r.high % 2 ^ 16 ∧ ∃ c, r.con = some c := by
    intro r
    have hu : u16 r.low ≤ u16 r.high ↔ r.low % 2 ^ 16 ≤ r.high % 2 ^ 16 := by unfold u16; omega
    rw [ne_none, ← hu]
    simp only [pkeyEntry_some]
    exact ⟨fun ⟨_, c, h2, h3, _⟩ => ⟨h2, c, h3⟩, fun ⟨h2, c, h3⟩ => ⟨_, c, h2, h3, rfl⟩⟩
  have he : ∀ r : EndportRec, endportEntry r ≠ none ↔ ∃ c, r.con = some c := by
    intro r
    rw [ne_none]
    simp only [endportEntry_some]
    exact ⟨fun ⟨_, c, h, _⟩ => ⟨c, h⟩, fun ⟨c, h⟩ => ⟨_, c, h, rfl⟩⟩
  have hi : ∀ r : IfaceRec, ifaceEntry r ≠ none ↔ (∃ c, r.ifcon = some c) ∧ ∃ c, r.msgcon = some c := by
    intro r
    rw [ne_none]
    simp only [ifaceEntry_some]
    exact ⟨fun ⟨_, c, d, h, h', _⟩ => ⟨⟨c, h⟩, d, h'⟩, fun ⟨⟨c, h⟩, d, h'⟩ => ⟨_, c, d, h, h', rfl⟩⟩
  constructor
  · rintro ⟨ob', h⟩
    obtain ⟨h1, h2, h3, h4, netif, h5, _⟩ := merge_inv h
    have h5 : loadRecords ifaceModify loc.ifaces ob.netif ≠ none := by rw [h5]; simp
    rw [load_iface_ok] at h5
    exact ⟨fun r hr => (hp r).mp (h1 r hr), fun r hr => (hi r).mp (h5 r hr),
      fun r hr => h4 r ((hsort _).1.mem_iff.mpr hr), fun r hr => (hk r).mp (h2 r hr), fun r hr => (he r).mp (h3 r hr)⟩
  · intro h
    exact merge_ok (fun r hr => (hp r).mpr (h.port r hr)) (fun r hr => (hk r).mpr (h.pkey r hr))
      (fun r hr => (he r).mpr (h.endport r hr)) (fun r hr => h.node r ((hsort _).1.mem_iff.mp hr)) (fun r hr => (hi r).mpr (h.netif r hr))

/-- C101: local records are accepted exactly if no two of them have a port in common. -/
theorem C101_validate_ports {sort : List PortRec → List PortRec} (hsort : Sorts portCompare sort) {l : List PortRec}
    (hl : ∀ r ∈ l, r.low ≤ r.high) : portValidateLocal sort l = true ↔ l.Pairwise (fun a b => ¬ a.Overlaps b) := by
  have h1 : ∀ l' : List PortRec, l'.Pairwise (fun a b => a.low ≤ b.low) → l'.Perm l →
      (validatePorts l' = true ↔ l.Pairwise (fun a b => ¬ a.Overlaps b)) := by
    intro l' hs hp
    rw [validate_iff PortRec.proto PortRec.low PortRec.high (f := validatePorts) rfl (fun p rest => by
      rw [validatePorts]; generalize rest.find? (fun q => decide (p.proto = q.proto)) = o; cases o <;> rfl) l' (hs.imp (S := fun a b : PortRec => a.proto = b.proto → a.low ≤ b.low) fun h _ => h),
      ← hp.pairwise_iff (fun {a b} h h' => h ⟨h'.1.symm, by obtain ⟨_, n, x, y⟩ := h'; exact ⟨n, y, x⟩⟩)]
    have hl' : ∀ r ∈ l', r.low ≤ r.high := fun r hr => hl r (hp.mem_iff.mp hr)
    constructor
    · intro h
      refine h.imp ?_
      rintro a b hab ⟨e, n, ⟨_, x⟩, ⟨y, _⟩⟩
      have := hab e
      omega
    · intro h
      refine (List.Pairwise.and_mem.mp (h.and hs)).imp ?_
      rintro a b ⟨ha, hb, hno, hle⟩ e
      have := hl' a ha; have := hl' b hb
      by_contra hcon
      exact hno ⟨e, b.low, ⟨by omega, by omega⟩, by omega, by omega⟩
  unfold portValidateLocal
  split
  · exact h1 _ ((hsort l).2.imp ports_sorted) (hsort l).1
  · refine h1 _ ?_ (List.Perm.refl _)
    rcases l with _ | ⟨a, _ | ⟨b, l⟩⟩
    · simp
    · simp
    · simp at *

/-- C101: the same for partition keys. -/
theorem C101_validate_ibpkeys {sort : List PkeyRec → List PkeyRec} (hsort : Sorts pkeyCompare sort) {l : List PkeyRec}
    (hl : ∀ r ∈ l, r.low ≤ r.high) : pkeyValidateLocal sort l = true ↔ l.Pairwise (fun a b => ¬ a.Overlaps b) := by
  have h1 : ∀ l' : List PkeyRec, l'.Pairwise (fun a b => a.subnet = b.subnet → a.low ≤ b.low) → l'.Perm l →
      (validatePkeys l' = true ↔ l.Pairwise (fun a b => ¬ a.Overlaps b)) := by
    intro l' hs hp
    rw [validate_iff PkeyRec.subnet PkeyRec.low PkeyRec.high (f := validatePkeys) rfl (fun p rest => by
      rw [validatePkeys]; generalize rest.find? (fun q => decide (p.subnet = q.subnet)) = o; cases o <;> rfl) l' hs,
      ← hp.pairwise_iff (fun {a b} h h' => h ⟨h'.1.symm, by obtain ⟨_, n, x, y⟩ := h'; exact ⟨n, y, x⟩⟩)]
    have hl' : ∀ r ∈ l', r.low ≤ r.high := fun r hr => hl r (hp.mem_iff.mp hr)
    constructor
    · intro h
      refine h.imp ?_
      rintro a b hab ⟨e, n, ⟨_, x⟩, ⟨y, _⟩⟩
      have := hab e
      omega
    · intro h
      refine (List.Pairwise.and_mem.mp (h.and hs)).imp ?_
      rintro a b ⟨ha, hb, hno, hle⟩ e
      have := hl' a ha; have := hl' b hb; have := hle e
      by_contra hcon
      exact hno ⟨e, b.low, ⟨by omega, by omega⟩, by omega, by omega⟩
  unfold pkeyValidateLocal
  split
  · exact h1 _ ((hsort l).2.imp pkeys_sorted) (hsort l).1
  · refine h1 _ ?_ (List.Perm.refl _)
    rcases l with _ | ⟨a, _ | ⟨b, l⟩⟩
    · simp
    · simp
    · simp at *

/-- C101: with accepted records there is only one for a port: the order of the local database does not matter. -/
theorem C101_one_port_record {sort : List PortRec → List PortRec} (hsort : Sorts portCompare sort) {l : List PortRec}
    (hl : ∀ r ∈ l, r.low ≤ r.high) (hv : portValidateLocal sort l = true) {ip n : Nat} {r t : PortRec} (hr : r ∈ l) (ht : t ∈ l)
    (h : r.Covers ip n) (h' : t.Covers ip n) : r = t := by
  rw [C101_validate_ports hsort hl] at hv
  have hp : r.proto = t.proto := by obtain ⟨h, _⟩ := h; obtain ⟨h', _⟩ := h'; unfold IsProto at h h'; omega
  have key : r.Overlaps t ∧ t.Overlaps r := ⟨⟨hp, n, ⟨h.2.1, h.2.2⟩, h'.2.1, h'.2.2⟩, hp.symm, n, ⟨h'.2.1, h'.2.2⟩, h.2.1, h.2.2⟩
  clear h h' hp hl
  induction l with
  | nil => cases hr
  | cons a l ih =>
    rw [List.pairwise_cons] at hv
    rcases List.mem_cons.mp hr with hr' | hr' <;> rcases List.mem_cons.mp ht with ht' | ht'
    · exact hr'.trans ht'.symm
    · subst hr'; exact absurd key.1 (hv.1 t ht')
    · subst ht'; exact absurd key.2 (hv.1 r hr')
    · exact ih hv.2 hr' ht'

/-- C101: a port record that has been added is what a query for its range finds, whatever was there before. -/
theorem C101_port_query {r : PortRec} (hf : r.Fits) {l l' : List (Ocon PortKey)} (h : pushEntry portEntry l r = some l') :
    ∃ o, portQuery l' r.proto r.low r.high = some (some o) ∧ some o.ctx0 = r.con ∧ portExists l' r.proto r.low r.high = some true := by
  unfold pushEntry at h
  cases he : portEntry r with
  | none => rw [he] at h; cases h
  | some e =>
    rw [he] at h; cases h
    obtain ⟨ip, c, hp, _, hc, rfl⟩ := portEntry_some.mp he
    have l := u16_fit ⟨hf.1, hf.2.1⟩
    have l' := u16_fit ⟨hf.2.2.1, hf.2.2.2⟩
    rw [← ipproto_iff] at hp
    exact ⟨entry ⟨ip, u16 r.low, u16 r.high⟩ c, by simp [portQuery, hp, entry, l, l'], hc.symm, by simp [portExists, hp, entry, l, l']⟩

/-- C101: queries for other ranges find what they found before. -/
theorem C101_port_query_other {r : PortRec} (hf : r.Fits) {l l' : List (Ocon PortKey)} (h : pushEntry portEntry l r = some l') {p lo hi : Int}
    (hne : ¬ (p = r.proto ∧ lo = r.low ∧ hi = r.high)) : portQuery l' p lo hi = portQuery l p lo hi ∧
      portExists l' p lo hi = portExists l p lo hi := by
  unfold pushEntry at h
  cases he : portEntry r with
  | none => rw [he] at h; cases h
  | some e =>
    rw [he] at h; cases h
    obtain ⟨ip, c, hp, _, hc, rfl⟩ := portEntry_some.mp he
    have l := u16_fit ⟨hf.1, hf.2.1⟩
    have l' := u16_fit ⟨hf.2.2.1, hf.2.2.2⟩
    unfold portQuery portExists
    cases hq : ipproto p with
    | none => exact ⟨rfl, rfl⟩
    | some q =>
      rw [ipproto_iff] at hq
      have : ¬ (q = ip ∧ r.low = lo ∧ r.high = hi) := by
        rintro ⟨rfl, h1, h2⟩
        refine hne ⟨?_, h1.symm, h2.symm⟩
        unfold IsProto at hq hp; omega
      have hd : (decide (q = ip) && decide (r.low = lo) && decide (r.high = hi)) = false := by
        rw [Bool.eq_false_iff]; simpa [and_assoc] using this
      simp only [entry, List.find?_cons, List.any_cons, l, l', hd, Bool.false_or, and_self]

/-! ## Concrete cases -/

def ctxOf (n : Nat) : Context := ⟨1, 1, n, emptyRange⟩

def exOb : Objects := ⟨[], [entry "eth0".toList (ctxOf 1) (ctxOf 2)], [], [entry ⟨6, 1, 1023⟩ (ctxOf 3)], [], [], [], [], [], 0⟩

def exLocal : Local := ⟨[⟨1, 80, 80, some (ctxOf 4)⟩, ⟨1, 443, 444, some (ctxOf 5)⟩], [⟨"eth0".toList, some (ctxOf 6), some (ctxOf 7)⟩],
  [.v4 0x0a000000#32 0xff000000#32 (some (ctxOf 8)), .v4 0x0a010000#32 0xffff0000#32 (some (ctxOf 9))], [⟨1, 1, 2, some (ctxOf 1)⟩],
  [⟨"mlx".toList, 1, some (ctxOf 2)⟩]⟩

/-- A sort for the examples. -/
def insertBy {α : Type} (cmp : α → α → Int) (a : α) : List α → List α
  | [] => [a]
  | b :: l => if cmp a b ≤ 0 then a :: b :: l else b :: insertBy cmp a l

def isort {α : Type} (cmp : α → α → Int) : List α → List α
  | [] => []
  | a :: l => insertBy cmp a (isort cmp l)

theorem insertBy_perm {α : Type} (cmp : α → α → Int) (a : α) (l : List α) : (insertBy cmp a l).Perm (a :: l) := by
  induction l with
  | nil => exact .refl _
  | cons b l ih =>
    rw [insertBy]; split
    · exact .refl _
    · exact (ih.cons b).trans (List.Perm.swap a b l)

theorem isort_sorts {α : Type} {cmp : α → α → Int} (htot : ∀ a b, cmp a b ≤ 0 ∨ cmp b a ≤ 0)
    (htr : ∀ a b c, cmp a b ≤ 0 → cmp b c ≤ 0 → cmp a c ≤ 0) : Sorts cmp (isort cmp) := by
  intro l
  induction l with
  | nil => exact ⟨.refl _, .nil⟩
  | cons a l ih =>
    refine ⟨(insertBy_perm cmp a _).trans (ih.1.cons a), ?_⟩
    have key : ∀ l : List α, l.Pairwise (fun a b => cmp a b ≤ 0) → (insertBy cmp a l).Pairwise (fun a b => cmp a b ≤ 0) := by
      intro l
      induction l with
      | nil => intro _; simp [insertBy]
      | cons b l ih =>
        intro h
        rw [List.pairwise_cons] at h
        rw [insertBy]; split
        · rename_i hab
          rw [List.pairwise_cons, List.pairwise_cons]
          refine ⟨fun x hx => ?_, h⟩
          rcases List.mem_cons.mp hx with rfl | hx
          · exact hab
          · exact htr _ _ _ hab (h.1 x hx)
        · rename_i hab
          rw [List.pairwise_cons]
          refine ⟨fun x hx => ?_, ih h.2⟩
          rcases List.mem_cons.mp ((insertBy_perm cmp a l).mem_iff.mp hx) with rfl | hx
          · exact (htot b x).resolve_right hab
          · exact h.1 x hx
    exact key _ ih.2

theorem portCompare_total (a b : PortRec) : portCompare a b ≤ 0 ∨ portCompare b a ≤ 0 := by
  unfold portCompare; repeat' split
  all_goals omega

theorem portCompare_le (a b : PortRec) : portCompare a b ≤ 0 ↔
    a.low < b.low ∨ (a.low = b.low ∧ (a.high < b.high ∨ (a.high = b.high ∧ a.proto ≤ b.proto))) := by
  unfold portCompare; repeat' split
  all_goals omega

example : Sorts portCompare (isort portCompare) := isort_sorts portCompare_total (by
  intro a b c; simp only [portCompare_le]; omega)

theorem pkeyCompare_le (a b : PkeyRec) : pkeyCompare a b ≤ 0 ↔
    a.subnet < b.subnet ∨ (a.subnet = b.subnet ∧ (a.low < b.low ∨ (a.low = b.low ∧ a.high ≤ b.high))) := by
  unfold pkeyCompare; repeat' split
  all_goals omega

example : Sorts pkeyCompare (isort pkeyCompare) := isort_sorts
  (by intro a b; simp only [pkeyCompare_le]; omega) (by intro a b c; simp only [pkeyCompare_le]; omega)

/-- A number whose order is that of `nodeCompare`. -/
def nodeVal (cfg : Cfg) : NodeRec → Nat × Nat × Nat
  | .v4 a m _ => (0, m.toNat, a.toNat)
  | .v6 a m _ => (1, val6 cfg (stored6 cfg m), val6 cfg (stored6 cfg a))

theorem memcmp4_val (a b : BitVec 32) : (memcmp4 a b = 0 ↔ a.toNat = b.toNat) ∧ (memcmp4 a b > 0 ↔ b.toNat < a.toNat) := by
  unfold memcmp4; repeat' split
  all_goals omega

theorem memcmp6_val (cfg : Cfg) (a b : Words) : (memcmp6 cfg a b = 0 ↔ val6 cfg a = val6 cfg b) := by
  constructor
  · intro h; rw [(memcmp6_spec cfg a b).1.mp h]
  · intro h
    have h1 : ¬ memcmp6 cfg a b > 0 := by rw [(memcmp6_spec cfg a b).2]; omega
    rw [(memcmp6_spec cfg a b).1]
    obtain ⟨a0, a1, a2, a3⟩ := a
    obtain ⟨b0, b1, b2, b3⟩ := b
    have hb : ∀ x : BitVec 32, (stored cfg x).toNat < 2 ^ 32 := fun x => (stored cfg x).isLt
    have := hb a1; have := hb a2; have := hb a3; have := hb b1; have := hb b2; have := hb b3
    have he : ∀ x y : BitVec 32, (stored cfg x).toNat = (stored cfg y).toNat → x = y := fun x y e =>
      (stored_inj cfg).mp (BitVec.eq_of_toNat_eq e)
    simp only [val6] at h
    rw [Words.mk.injEq]
    exact ⟨he _ _ (by omega), he _ _ (by omega), he _ _ (by omega), he _ _ (by omega)⟩

theorem nodeCompare_le (cfg : Cfg) (s t : NodeRec) : nodeCompare cfg s t ≤ 0 ↔
    (nodeVal cfg s).1 < (nodeVal cfg t).1 ∨ ((nodeVal cfg s).1 = (nodeVal cfg t).1 ∧ ((nodeVal cfg s).2.1 < (nodeVal cfg t).2.1 ∨
      ((nodeVal cfg s).2.1 = (nodeVal cfg t).2.1 ∧ (nodeVal cfg s).2.2 ≤ (nodeVal cfg t).2.2))) := by
  rcases s with ⟨a, m, c⟩ | ⟨a, m, c⟩ <;> rcases t with ⟨a', m', c'⟩ | ⟨a', m', c'⟩
  · have h1 := memcmp4_val m m'; have h2 := memcmp4_val a a'
    simp only [nodeCompare, nodeVal]; split <;> (rename_i h0; simp only [Nat.lt_irrefl, true_and, false_or]; omega)
  · simp [nodeCompare, nodeVal]
  · simp [nodeCompare, nodeVal]
  · have h1 := memcmp6_val cfg (stored6 cfg m) (stored6 cfg m'); have h2 := memcmp6_val cfg (stored6 cfg a) (stored6 cfg a')
    have h3 := (memcmp6_spec cfg (stored6 cfg m) (stored6 cfg m')).2
    have h4 := (memcmp6_spec cfg (stored6 cfg a) (stored6 cfg a')).2
    simp only [nodeCompare, nodeVal]; split <;> (rename_i h0; simp only [Nat.lt_irrefl, true_and, false_or]; omega)

/-- C101: the order of local nodes is a total preorder, so that `qsort` can do what it promises. -/
theorem C101_node_order (cfg : Cfg) : Sorts (nodeCompare cfg) (isort (nodeCompare cfg)) := isort_sorts
  (by intro a b; simp only [nodeCompare_le]; omega) (by intro a b c; simp only [nodeCompare_le]; omega)

def exCfg : Cfg := ⟨false, true, fun _ => none⟩

example : Mergeable exLocal := by
  refine ⟨?_, ?_, ?_, ?_, ?_⟩ <;> simp [exLocal, IsProto, NodeRec.con]

example : (∀ r ∈ exLocal.ports, r.Fits) ∧ (∀ r ∈ exLocal.pkeys, r.Fits) ∧ (∀ r ∈ exLocal.endports, r.Fits) ∧
    portValidateLocal (isort portCompare) exLocal.ports = true ∧ portValidateLocal (isort portCompare) [⟨1, 5, 9, none⟩, ⟨0, 6, 6, none⟩,
      ⟨1, 9, 9, none⟩] = false := by
  refine ⟨?_, ?_, ?_, by decide, by decide⟩ <;> simp [exLocal, PortRec.Fits, PkeyRec.Fits, EndportRec.Fits]

example : ((mergeObjects exCfg (isort (nodeCompare exCfg)) exLocal exOb).map fun ob =>
    (ob.port.map (·.ctx0.type), ob.netif.map (·.ctx0.type), ob.node.map (·.ctx0.type))) = some ([5, 4, 3], [6], [9, 8]) := by decide +kernel

example : FreshObjects exOb ∧ exLocal.WF := by
  constructor
  · constructor <;> simp [exOb, Fresh, entry, ctxOf, wf_empty]
  · constructor
    case netif =>
      simp only [exLocal, List.mem_singleton, forall_eq, Option.some.injEq]
      rintro c (rfl | rfl) <;> exact wf_empty
    all_goals simp [exLocal, NodeRec.con, ctxOf, wf_empty]

/-! ## What does not hold -/

/-- C101: numbers of more than 16 bits are cut: a record for port 65616 is for port 80, and a query for it finds nothing. -/
theorem C101_large_port_refuted : ∃ (r : PortRec) (l : List (Ocon PortKey)), pushEntry portEntry [] r = some l ∧ r.low = 65616 ∧ r.high = 65616 ∧
    (∃ o ∈ l, o.key = ⟨6, 80, 80⟩) ∧ portExists l r.proto r.low r.high = some false ∧ portValidateLocal (isort portCompare) [r] = true :=
  ⟨⟨1, 65616, 65616, some (ctxOf 1)⟩, [entry ⟨6, 80, 80⟩ (ctxOf 1)], by decide, rfl, rfl, ⟨entry ⟨6, 80, 80⟩ (ctxOf 1), by simp, rfl⟩, by decide, by decide⟩

/-- C101: ports of Infiniband devices are cut to 8 bits and names to 63 bytes: a record for port 257 of a device with a name of 64 bytes is
for port 1 of another device. -/
theorem C101_large_endport_refuted : ∃ (r : EndportRec) (l : List (Ocon (Str × Nat))), pushEntry endportEntry [] r = some l ∧ r.port = 257 ∧
    r.dev = List.replicate 64 'x' ∧ l.map (·.key) = [(List.replicate 63 'x', 1)] :=
  ⟨⟨List.replicate 64 'x', 257, some (ctxOf 1)⟩, [entry (List.replicate 63 'x', 1) (ctxOf 1)], by decide, rfl, rfl, by decide⟩

/-- C101: a port that is modified is in the policy twice afterwards, so that listing the ports shows the old label too. -/
theorem C101_port_twice_refuted : ∃ (r : PortRec) (l l' : List (Ocon PortKey)), portExists l r.proto r.low r.high = some true ∧
    pushEntry portEntry l r = some l' ∧ l'.map (·.key) = [⟨6, 80, 80⟩, ⟨6, 80, 80⟩] ∧ l'.map (·.ctx0.type) = [2, 1] :=
  ⟨⟨1, 80, 80, some (ctxOf 2)⟩, [entry ⟨6, 80, 80⟩ (ctxOf 1)], [entry ⟨6, 80, 80⟩ (ctxOf 2), entry ⟨6, 80, 80⟩ (ctxOf 1)], by decide,
    by decide, by decide, by decide⟩

/-- C101: a node of the policy that looks at more bits of an address than any local record does not label it if a local record covers the
address: longest-prefix matching ends at the local records. -/
theorem C101_longest_prefix_refuted : ∃ (ob ob' : Objects) (loc : Local) (a : BitVec 32), FreshObjects ob ∧ loc.WF ∧
    mergeObjects exCfg (isort (nodeCompare exCfg)) loc ob = some ob' ∧
    ob.node = [entry (stored exCfg 0x0a010000#32, stored exCfg 0xffff0000#32) (ctxOf 1)] ∧
    loc.nodes = [.v4 0x0a000000#32 0xff000000#32 (some (ctxOf 2))] ∧ a = 0x0a010203#32 ∧
    ∃ o, FirstMatch ob'.node (fun k => k.1 = stored exCfg a &&& k.2) o ∧ o.ctx0 = ctxOf 2 := by
  refine ⟨⟨[], [], [], [], [], [], [entry (stored exCfg 0x0a010000#32, stored exCfg 0xffff0000#32) (ctxOf 1)], [], [], 0⟩, _,
    ⟨[], [], [.v4 0x0a000000#32 0xff000000#32 (some (ctxOf 2))], [], []⟩, _, ?_, ?_, rfl, rfl, rfl, rfl,
    entry (stored exCfg 0x0a000000#32, stored exCfg 0xff000000#32) (ctxOf 2), ⟨[], _, rfl, by decide, by simp⟩, rfl⟩
  · constructor <;> simp [Fresh, entry, ctxOf, wf_empty]
  · constructor <;> simp [NodeRec.con, ctxOf, wf_empty]

end Verif.LocalPol
