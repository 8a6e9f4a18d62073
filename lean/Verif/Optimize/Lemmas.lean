import Verif.Optimize.Spec
import Verif.Services.AvLemmas
import Verif.Cond.Lemmas

namespace Verif.Optimize
open Verif.Avtab Verif.Policy

/-! ## One pair of rules -/

/-- The `specified` member of a rule with the given kind. -/
def Stamp (kind s : BitVec 16) : Prop := s = kind ∨ s = kind ||| ENABLED

/-- The datum of an extended permission rule has a block of eight words. -/
def DatumOk (kind : BitVec 16) (d : Datum) : Prop := kind ∈ xKinds → ∃ x, d.xperms = some x ∧ x.perms.length = 8

theorem stamp_masks {kind s : BitVec 16} (hk : kind ∈ avKinds ++ xKinds ++ typeKinds) (hs : Stamp kind s) :
    ((s &&& AUDITDENY ≠ 0#16) ↔ kind = AUDITDENY) ∧ ((s &&& AV ≠ 0#16) ↔ kind ∈ avKinds) ∧
    ((s &&& XPERMS ≠ 0#16) ↔ kind ∈ xKinds) ∧ (s &&& (AV ||| XPERMS) = 0#16 ↔ kind ∈ typeKinds) := by
  simp only [avKinds, xKinds, typeKinds, List.cons_append, List.nil_append, List.mem_cons, List.not_mem_nil, or_false] at hk
  rcases hk with rfl | rfl | rfl | rfl | rfl | rfl | rfl | rfl | rfl <;> rcases hs with rfl | rfl <;> decide

theorem kinds_disjoint (kind : BitVec 16) : ¬ (kind ∈ avKinds ∧ kind ∈ xKinds) ∧ ¬ (kind ∈ xKinds ∧ kind ∈ typeKinds) ∧
    ¬ (kind ∈ avKinds ∧ kind ∈ typeKinds) := by
  simp only [avKinds, xKinds, typeKinds, List.mem_cons, List.not_mem_nil, or_false]
  refine ⟨?_, ?_, ?_⟩
  all_goals
    rintro ⟨rfl | rfl | rfl, h⟩ <;> revert h <;> decide

theorem zip_getD (f : BitVec 32 → BitVec 32 → BitVec 32) (h0 : f 0#32 0#32 = 0#32) : ∀ (a b : List (BitVec 32)), a.length = b.length →
    ∀ i, (List.zipWith f a b).getD i 0#32 = f (a.getD i 0#32) (b.getD i 0#32)
  | [], [], _, i => by simp [h0]
  | [], _ :: _, h, _ => by simp at h
  | _ :: _, [], h, _ => by simp at h
  | x :: a, y :: b, h, 0 => by simp
  | x :: a, y :: b, h, i + 1 => by
    have := zip_getD f h0 a b (by simpa using h) i
    simpa using this

theorem processXperms_spec {p1 p2 : List (BitVec 32)} (h : p1.length = p2.length) :
    (processXperms p1 p2).1.length = p1.length ∧
    (∀ n, xbit (processXperms p1 p2).1 n ↔ xbit p1 n ∧ ¬ xbit p2 n) ∧
    ((processXperms p1 p2).2 = true → ∀ n, xbit p1 n → xbit p2 n) := by
  have hb : ∀ n, xbit (processXperms p1 p2).1 n ↔ xbit p1 n ∧ ¬ xbit p2 n := by
    intro n
    unfold xbit processXperms
    dsimp only
    rw [zip_getD (fun a b => a &&& ~~~ b) (by decide) p1 p2 h, BitVec.getLsbD_and, BitVec.getLsbD_not]
    have : n % 32 < 32 := Nat.mod_lt _ (by decide)
    simp [this]
  refine ⟨by simp [processXperms, h], hb, ?_⟩
  intro ht n hn
  by_contra hc
  have hx := (hb n).mpr ⟨hn, hc⟩
  have hz : ∀ w ∈ (processXperms p1 p2).1, w = 0#32 := by
    unfold processXperms at ht ⊢
    dsimp only at ht ⊢
    rw [List.all_eq_true] at ht
    intro w hw
    simpa using ht w hw
  unfold xbit at hx
  rw [List.getD_eq_getElem?_getD] at hx
  cases hg : (processXperms p1 p2).1[n / 32]? with
  | none => rw [hg] at hx; simp at hx
  | some w =>
    rw [hg] at hx
    have := hz w (List.mem_of_getElem? hg)
    subst this
    simp at hx

/-- The three things needed of a covered rule. -/
structure Reduces (kind : BitVec 16) (d d2 d' : Datum) (res : Bool) : Prop where
  split : ∀ f, Grants kind d f → Grants kind d' f ∨ Grants kind d2 f
  less : ∀ f, Grants kind d' f → Grants kind d f
  all : res = true → ∀ f, Grants kind d f → Grants kind d2 f
  ok : DatumOk kind d'

theorem reduces_same {kind : BitVec 16} {d d2 : Datum} (h : DatumOk kind d) : Reduces kind d d2 d false :=
  ⟨fun _ h => .inl h, fun _ h => h, fun h => by (cases h), h⟩

theorem grants_av {kind : BitVec 16} {d : Datum} {f : Fact} (hk : kind ∈ avKinds) (h : Grants kind d f) :
    (∃ b, f = .allow b) ∨ (∃ b, f = .auditallow b) ∨ (∃ b, f = .dontaudit b) := by
  cases f with
  | allow b => exact .inl ⟨b, rfl⟩
  | auditallow b => exact .inr (.inl ⟨b, rfl⟩)
  | dontaudit b => exact .inr (.inr ⟨b, rfl⟩)
  | ioctl k a b => exact absurd ⟨hk, h.1 ▸ h.2.1⟩ (kinds_disjoint kind).1
  | nlmsg k a b => exact absurd ⟨hk, h.1 ▸ h.2.1⟩ (kinds_disjoint kind).1
  | ioctlFiltered k => exact absurd ⟨hk, h.1 ▸ h.2.1⟩ (kinds_disjoint kind).1
  | nlmsgFiltered k => exact absurd ⟨hk, h.1 ▸ h.2.1⟩ (kinds_disjoint kind).1

theorem reduces_deny (d d2 : Datum) :
    Reduces AUDITDENY d d2 { d with data := d.data ||| ~~~ d2.data } ((d.data ||| ~~~ d2.data) == BitVec.allOnes 32) := by
  have hk : AUDITDENY ∈ avKinds := by decide
  have split : ∀ f, Grants AUDITDENY d f → Grants AUDITDENY { d with data := d.data ||| ~~~ d2.data } f ∨ Grants AUDITDENY d2 f := by
    intro f hf
    rcases grants_av hk hf with ⟨b, rfl⟩ | ⟨b, rfl⟩ | ⟨b, rfl⟩
    · exact absurd hf.1 (by decide)
    · exact absurd hf.1 (by decide)
    · obtain ⟨-, h1, h2⟩ := hf
      cases hd : d2.data.getLsbD b with
      | false => exact .inr ⟨rfl, h1, hd⟩
      | true =>
        refine .inl ⟨rfl, h1, ?_⟩
        show (d.data ||| ~~~ d2.data).getLsbD b = false
        rw [BitVec.getLsbD_or, BitVec.getLsbD_not, h2, hd]; simp
  refine ⟨split, ?_, ?_, fun h => absurd ⟨hk, h⟩ (kinds_disjoint _).1⟩
  · intro f hf
    rcases grants_av hk hf with ⟨b, rfl⟩ | ⟨b, rfl⟩ | ⟨b, rfl⟩
    · exact absurd hf.1 (by decide)
    · exact absurd hf.1 (by decide)
    · obtain ⟨-, h1, h2⟩ := hf
      refine ⟨rfl, h1, ?_⟩
      change (d.data ||| ~~~ d2.data).getLsbD b = false at h2
      rw [BitVec.getLsbD_or] at h2
      simp only [Bool.or_eq_false_iff] at h2
      exact h2.1
  · intro hr f hf
    rcases split f hf with h | h
    · exfalso
      rcases grants_av hk h with ⟨b, rfl⟩ | ⟨b, rfl⟩ | ⟨b, rfl⟩
      · exact absurd h.1 (by decide)
      · exact absurd h.1 (by decide)
      · obtain ⟨-, h1, h2⟩ := h
        change (d.data ||| ~~~ d2.data).getLsbD b = false at h2
        rw [beq_iff_eq] at hr
        rw [hr, BitVec.getLsbD_allOnes] at h2
        simp [h1] at h2
    · exact h

theorem reduces_av {kind : BitVec 16} (hk : kind ∈ avKinds) (hd : kind ≠ AUDITDENY) (d d2 : Datum) :
    Reduces kind d d2 { d with data := d.data &&& ~~~ d2.data } ((d.data &&& ~~~ d2.data) == 0#32) := by
  have bit : ∀ b, b < 32 → ((d.data &&& ~~~ d2.data).getLsbD b = true ↔ d.data.getLsbD b = true ∧ d2.data.getLsbD b = false) := by
    intro b hb
    rw [BitVec.getLsbD_and, BitVec.getLsbD_not]
    simp [hb]
  have split : ∀ f, Grants kind d f → Grants kind { d with data := d.data &&& ~~~ d2.data } f ∨ Grants kind d2 f := by
    intro f hf
    rcases grants_av hk hf with ⟨b, rfl⟩ | ⟨b, rfl⟩ | ⟨b, rfl⟩
    · obtain ⟨h0, h1, h2⟩ := hf
      cases hd2 : d2.data.getLsbD b with
      | true => exact .inr ⟨h0, h1, hd2⟩
      | false => exact .inl ⟨h0, h1, (bit b h1).mpr ⟨h2, hd2⟩⟩
    · obtain ⟨h0, h1, h2⟩ := hf
      cases hd2 : d2.data.getLsbD b with
      | true => exact .inr ⟨h0, h1, hd2⟩
      | false => exact .inl ⟨h0, h1, (bit b h1).mpr ⟨h2, hd2⟩⟩
    · exact absurd hf.1 hd
  refine ⟨split, ?_, ?_, fun h => absurd ⟨hk, h⟩ (kinds_disjoint _).1⟩
  · intro f hf
    rcases grants_av hk hf with ⟨b, rfl⟩ | ⟨b, rfl⟩ | ⟨b, rfl⟩
    · exact ⟨hf.1, hf.2.1, ((bit b hf.2.1).mp hf.2.2).1⟩
    · exact ⟨hf.1, hf.2.1, ((bit b hf.2.1).mp hf.2.2).1⟩
    · exact absurd hf.1 hd
  · intro hr f hf
    rcases split f hf with h | h
    · exfalso
      rw [beq_iff_eq] at hr
      rcases grants_av hk h with ⟨b, rfl⟩ | ⟨b, rfl⟩ | ⟨b, rfl⟩
      · have := h.2.2
        change (d.data &&& ~~~ d2.data).getLsbD b = true at this
        rw [hr] at this; simp at this
      · have := h.2.2
        change (d.data &&& ~~~ d2.data).getLsbD b = true at this
        rw [hr] at this; simp at this
      · exact absurd h.1 hd
    · exact h

/-- What a block says. -/
def XSays (x : XPerms) : Fact → Prop
  | .ioctl _ dr fn => (x.specified = FUNCTION ∧ x.driver.toNat = dr ∧ xbit x.perms fn) ∨ (x.specified = DRIVER ∧ xbit x.perms dr)
  | .nlmsg _ dr fn => x.specified = NLMSG ∧ x.driver.toNat = dr ∧ xbit x.perms fn
  | .ioctlFiltered _ => x.specified = FUNCTION ∨ x.specified = DRIVER
  | .nlmsgFiltered _ => x.specified = NLMSG
  | _ => False

theorem fn_ne_dr : FUNCTION ≠ DRIVER := by decide
theorem fn_ne_nl : FUNCTION ≠ NLMSG := by decide
theorem dr_ne_nl : DRIVER ≠ NLMSG := by decide

theorem processX_spec {x1 x2 : XPerms} (h1 : x1.perms.length = 8) (h2 : x2.perms.length = 8) :
    (∀ f, XSays x1 f → XSays (processX x1 x2).1 f ∨ XSays x2 f) ∧ (∀ f, XSays (processX x1 x2).1 f → XSays x1 f) ∧
    ((processX x1 x2).2 = true → ∀ f, XSays x1 f → XSays x2 f) ∧ (processX x1 x2).1.perms.length = 8 := by
  have same : (∀ f, XSays x1 f → XSays x1 f ∨ XSays x2 f) ∧ (∀ f, XSays x1 f → XSays x1 f) ∧
      (false = true → ∀ f, XSays x1 f → XSays x2 f) ∧ x1.perms.length = 8 :=
    ⟨fun _ h => .inl h, fun _ h => h, fun h => by (cases h), h1⟩
  obtain ⟨pl, pb, pa⟩ := processXperms_spec (h1.trans h2.symm)
  have hcut : x1.specified = x2.specified → (x1.specified = FUNCTION → x1.driver = x2.driver) →
      (x1.specified = NLMSG → x1.driver = x2.driver) →
      (∀ f, XSays x1 f → XSays { x1 with perms := (processXperms x1.perms x2.perms).1 } f ∨ XSays x2 f) ∧
      (∀ f, XSays { x1 with perms := (processXperms x1.perms x2.perms).1 } f → XSays x1 f) ∧
      ((processXperms x1.perms x2.perms).2 = true → ∀ f, XSays x1 f → XSays x2 f) ∧
      (processXperms x1.perms x2.perms).1.length = 8 := by
    intro he hf hn
    have em : ∀ n, xbit x2.perms n ∨ ¬ xbit x2.perms n := fun n => Classical.em _
    refine ⟨?_, ?_, ?_, by rw [pl, h1]⟩
    · intro f h
      cases f with
      | ioctl k dr fn =>
        rcases h with ⟨a, b, c⟩ | ⟨a, c⟩
        · rcases em fn with e | e
          · exact .inr (.inl ⟨he ▸ a, hf a ▸ b, e⟩)
          · exact .inl (.inl ⟨a, b, (pb fn).mpr ⟨c, e⟩⟩)
        · rcases em dr with e | e
          · exact .inr (.inr ⟨he ▸ a, e⟩)
          · exact .inl (.inr ⟨a, (pb dr).mpr ⟨c, e⟩⟩)
      | nlmsg k dr fn =>
        obtain ⟨a, b, c⟩ := h
        rcases em fn with e | e
        · exact .inr ⟨he ▸ a, hn a ▸ b, e⟩
        · exact .inl ⟨a, b, (pb fn).mpr ⟨c, e⟩⟩
      | ioctlFiltered k => exact .inl h
      | nlmsgFiltered k => exact .inl h
      | allow b => exact .inl h
      | auditallow b => exact .inl h
      | dontaudit b => exact .inl h
    · intro f h
      cases f with
      | ioctl k dr fn =>
        rcases h with ⟨a, b, c⟩ | ⟨a, c⟩
        · exact .inl ⟨a, b, ((pb fn).mp c).1⟩
        · exact .inr ⟨a, ((pb dr).mp c).1⟩
      | nlmsg k dr fn =>
        obtain ⟨a, b, c⟩ := h
        exact ⟨a, b, ((pb fn).mp c).1⟩
      | ioctlFiltered k => exact h
      | nlmsgFiltered k => exact h
      | allow b => exact h
      | auditallow b => exact h
      | dontaudit b => exact h
    · intro hr f h
      have hp := pa hr
      cases f with
      | ioctl k dr fn =>
        rcases h with ⟨a, b, c⟩ | ⟨a, c⟩
        · exact .inl ⟨he ▸ a, hf a ▸ b, hp fn c⟩
        · exact .inr ⟨he ▸ a, hp dr c⟩
      | nlmsg k dr fn =>
        obtain ⟨a, b, c⟩ := h
        exact ⟨he ▸ a, hn a ▸ b, hp fn c⟩
      | ioctlFiltered k => change _ ∨ _ at h ⊢; rw [← he]; exact h
      | nlmsgFiltered k => change _ = _ at h ⊢; rw [← he]; exact h
      | allow b => exact h.elim
      | auditallow b => exact h.elim
      | dontaudit b => exact h.elim
  unfold processX
  by_cases e1 : x1.specified = FUNCTION
  · rw [if_pos e1]
    by_cases e2 : x2.specified = FUNCTION
    · rw [if_pos e2]
      by_cases e3 : x1.driver ≠ x2.driver
      · rw [if_pos e3]; exact same
      · rw [if_neg e3]
        have e3 := Classical.not_not.mp e3
        exact hcut (e1.trans e2.symm) (fun _ => e3) (fun _ => e3)
    · rw [if_neg e2]
      by_cases e3 : x2.specified = DRIVER
      · rw [if_pos e3]
        refine ⟨fun _ h => .inl h, fun _ h => h, fun hr f h => ?_, h1⟩
        cases f with
        | ioctl k dr fn =>
          rcases h with ⟨a, b, c⟩ | ⟨a, c⟩
          · exact .inr ⟨e3, by rw [← b]; exact hr⟩
          · rw [e1] at a; exact absurd a fn_ne_dr
        | nlmsg k dr fn => rw [h.1] at e1; exact absurd e1.symm fn_ne_nl
        | ioctlFiltered k => exact .inr e3
        | nlmsgFiltered k =>
          change x1.specified = NLMSG at h
          rw [h] at e1; exact absurd e1.symm fn_ne_nl
        | allow b => exact h.elim
        | auditallow b => exact h.elim
        | dontaudit b => exact h.elim
      · rw [if_neg e3]; exact same
  · rw [if_neg e1]
    by_cases e2 : x1.specified = DRIVER
    · rw [if_pos e2]
      by_cases e3 : x2.specified = FUNCTION
      · rw [if_pos e3]; exact same
      · rw [if_neg e3]
        by_cases e4 : x2.specified = DRIVER
        · rw [if_pos e4]
          exact hcut (e2.trans e4.symm) (fun h => absurd h e1) (fun h => absurd (e2.symm.trans h) dr_ne_nl)
        · rw [if_neg e4]; exact same
    · rw [if_neg e2]
      by_cases e3 : x1.specified = NLMSG ∧ x2.specified = NLMSG
      · rw [if_pos e3]
        by_cases e4 : x1.driver ≠ x2.driver
        · rw [if_pos e4]; exact same
        · rw [if_neg e4]
          have e4 := Classical.not_not.mp e4
          exact hcut (e3.1.trans e3.2.symm) (fun _ => e4) (fun _ => e4)
      · rw [if_neg e3]; exact same

theorem grants_x {kind : BitVec 16} (hk : kind ∈ xKinds) {d : Datum} {x : XPerms} (hx : d.xperms = some x) (f : Fact) :
    Grants kind d f ↔ XSays x f ∧ (match f with
      | .ioctl k dr fn => kind = k ∧ dr < 256 ∧ fn < 256
      | .nlmsg k dr fn => kind = k ∧ dr < 256 ∧ fn < 256
      | .ioctlFiltered k => kind = k
      | .nlmsgFiltered k => kind = k
      | _ => False) := by
  have hn := fun h => (kinds_disjoint kind).1 ⟨h, hk⟩
  cases f with
  | allow b =>
    simp only [Grants, and_false, iff_false]
    intro h; exact hn (by rw [h.1]; decide)
  | auditallow b =>
    simp only [Grants, and_false, iff_false]
    intro h; exact hn (by rw [h.1]; decide)
  | dontaudit b =>
    simp only [Grants, and_false, iff_false]
    intro h; exact hn (by rw [h.1]; decide)
  | ioctl k dr fn =>
    simp only [Grants, XSays, hx, Option.some.injEq, exists_eq_left']
    constructor
    · rintro ⟨a, b, c, d, e⟩; exact ⟨e, a, c, d⟩
    · rintro ⟨e, a, c, d⟩; exact ⟨a, a ▸ hk, c, d, e⟩
  | nlmsg k dr fn =>
    simp only [Grants, XSays, hx, Option.some.injEq, exists_eq_left']
    constructor
    · rintro ⟨a, b, c, d, e⟩; exact ⟨e, a, c, d⟩
    · rintro ⟨e, a, c, d⟩; exact ⟨a, a ▸ hk, c, d, e⟩
  | ioctlFiltered k =>
    simp only [Grants, XSays, hx, Option.some.injEq, exists_eq_left']
    constructor
    · rintro ⟨a, b, e⟩; exact ⟨e, a⟩
    · rintro ⟨e, a⟩; exact ⟨a, a ▸ hk, e⟩
  | nlmsgFiltered k =>
    simp only [Grants, XSays, hx, Option.some.injEq, exists_eq_left']
    constructor
    · rintro ⟨a, b, e⟩; exact ⟨e, a⟩
    · rintro ⟨e, a⟩; exact ⟨a, a ▸ hk, e⟩

/-- Covering one rule by another. -/
theorem processDatum_spec {kind s : BitVec 16} (hk : kind ∈ avKinds ++ xKinds ++ typeKinds) (hs : Stamp kind s) {d d2 : Datum}
    (h1 : DatumOk kind d) (h2 : DatumOk kind d2) :
    Reduces kind d d2 (processDatum s d d2).1 (processDatum s d d2).2 := by
  obtain ⟨m1, m2, m3, m4⟩ := stamp_masks hk hs
  unfold processDatum
  by_cases c1 : kind = AUDITDENY
  · rw [if_pos (m1.mpr c1)]
    subst c1
    exact reduces_deny d d2
  · rw [if_neg (fun h => c1 (m1.mp h))]
    by_cases c2 : kind ∈ avKinds
    · rw [if_pos (m2.mpr c2)]
      exact reduces_av c2 c1 d d2
    · rw [if_neg (fun h => c2 (m2.mp h))]
      by_cases c3 : kind ∈ xKinds
      · rw [if_pos (m3.mpr c3)]
        obtain ⟨x1, e1, l1⟩ := h1 c3
        obtain ⟨x2, e2, l2⟩ := h2 c3
        rw [e1, e2, Option.getD_some, Option.getD_some]
        obtain ⟨a, b, c, l⟩ := processX_spec l1 l2
        refine ⟨fun f hf => ?_, fun f hf => ?_, fun hr f hf => ?_, fun _ => ⟨_, rfl, l⟩⟩
        · rw [grants_x c3 e1] at hf
          rw [grants_x c3 (d := { d with xperms := some (processX x1 x2).1 }) rfl, grants_x c3 e2]
          rcases a f hf.1 with h | h
          · exact .inl ⟨h, hf.2⟩
          · exact .inr ⟨h, hf.2⟩
        · rw [grants_x c3 (d := { d with xperms := some (processX x1 x2).1 }) rfl] at hf
          rw [grants_x c3 e1]
          exact ⟨b f hf.1, hf.2⟩
        · rw [grants_x c3 e1] at hf
          rw [grants_x c3 e2]
          exact ⟨c hr f hf.1, hf.2⟩
      · rw [if_neg (fun h => c3 (m3.mp h))]
        exact reduces_same h1

end Verif.Optimize
