import Verif.Services.UserSids
import Verif.Services.ObjectsProps

/-!
# C52: contexts a user can enter
-/

namespace Verif.Services
open Verif.Policy Verif.Mls

/-! ## Specification -/

/-- `l` lies between `a` and `b`. -/
def Between (l a b : Level) : Prop := Dominates l a ∧ Dominates b l

open Classical in
/-- The range a user gets when coming from range `f`: the current level is the default level if `f` includes it, else
the lower end of `f` if it lies above the default level but within the user's clearance, else the user's lowest level if
the clearance of `f` lies between that and the default level; the clearance is the lower one of both. -/
def LoginRange (f : Range) (u : UserDatum) (r : Range) : Prop :=
  (if Between u.expDfltLevel f.low f.high then r.low = u.expDfltLevel
   else if Between f.low u.expDfltLevel u.expRange.high then r.low = f.low
   else Between f.high u.expRange.low u.expDfltLevel ∧ r.low = u.expRange.low) ∧
  (if Dominates u.expRange.high f.high then r.high = f.high else Dominates f.high u.expRange.high ∧ r.high = u.expRange.high)

/-- A context that can be entered: the user's; a role of the user; a type of the role, different from the current one; the
login range; and the policy grants the process transition. -/
structure Enterable (p : UPolicy) (R : Rules) (fromcon : Context) (name : Str) (ud : UserDatum) (c : Context) : Prop where
  user : c.user = ud.value
  role : 1 ≤ c.role ∧ Ebitmap.getBit (p.userRoles name) (c.role - 1) = true
  type : 1 ≤ c.type ∧ ∃ types, p.roleTypes (c.role - 1) = some types ∧ Ebitmap.getBit types (c.type - 1) = true
  other : c.type ≠ fromcon.type
  range : LoginRange fromcon.range ud c.range
  granted : ∃ b < 32, p.processTrans.getLsbD b = true ∧ Granted p.toSPolicy R p.processClass b fromcon c

/-- Properties of loaded policies: complete role array, properly built bitmaps, numbers in range. -/
structure UserPolicyOk (p : UPolicy) (R : Rules) (n : Nat) : Prop where
  ok : PolicyOk p.toSPolicy R
  types : TypesOk p.toSPolicy n
  small : n < 2 ^ 32
  process : 1 ≤ p.processClass ∧ p.processClass ≤ p.nClasses
  roles : ∀ name, Ebitmap.WF (p.userRoles name) ∧ ∀ i, Ebitmap.getBit (p.userRoles name) i = true →
    i < p.pol.nRoles ∧ i + 1 < 2 ^ 32 ∧ (∃ d, p.pol.roleStruct i = some d) ∧
    ∃ types, p.roleTypes i = some types ∧ Ebitmap.WF types ∧ ∀ j, Ebitmap.getBit types j = true → j < n
  users : ∀ name u, p.pol.users name = some u → 1 ≤ u.value ∧ u.value < 2 ^ 32 ∧ WFRange u.expRange ∧ WFLevel u.expDfltLevel

/-! ## Proofs -/

theorem between_iff {l a b : Level} (hl : WFLevel l) (ha : WFLevel a) (hb : WFLevel b) :
    levelBetween l a b = true ↔ Between l a b := by
  unfold levelBetween Between
  rw [Bool.and_eq_true, levelDom_iff hl ha, levelDom_iff hb hl]

theorem setupUserRange_iff {f : Range} {u : UserDatum} (hf : WFRange f) (hu : WFRange u.expRange) (hd : WFLevel u.expDfltLevel)
    (x r : Range) : setupUserRange f u x true = some r ↔ LoginRange f u r := by
  unfold setupUserRange LoginRange
  rw [if_pos rfl]
  dsimp only
  rw [← between_iff hd hf.1 hf.2, ← between_iff hf.1 hd hu.2, ← between_iff hf.2 hu.1 hd, ← levelDom_iff hu.2 hf.2,
    ← levelDom_iff hf.2 hu.2]
  obtain ⟨lo, hi⟩ := r
  dsimp only
  by_cases c1 : levelBetween u.expDfltLevel f.low f.high = true <;>
  by_cases c2 : levelBetween f.low u.expDfltLevel u.expRange.high = true <;>
  by_cases c3 : levelBetween f.high u.expRange.low u.expDfltLevel = true <;>
  by_cases c4 : levelDom u.expRange.high f.high = true <;>
  by_cases c5 : levelDom f.high u.expRange.high = true <;>
    simp [c1, c2, c3, c4, c5, eq_comm]

theorem login_wf {f : Range} {u : UserDatum} (hf : WFRange f) (hu : WFRange u.expRange) (hd : WFLevel u.expDfltLevel) {r : Range}
    (h : LoginRange f u r) : WFRange r := by
  obtain ⟨h1, h2⟩ := h
  constructor
  · split at h1
    · rw [h1]; exact hd
    · split at h1
      · rw [h1]; exact hf.1
      · rw [h1.2]; exact hu.1
  · split at h2
    · rw [h2]; exact hf.2
    · rw [h2.2]; exact hu.2

/-- All listed bits of a bitmap. -/
theorem each_bit {m : Ebitmap.Ebitmap} (hw : Ebitmap.WF m) :
    ∃ l, Ebitmap.forEachPositiveBit (m.highbit + 1) m = some l ∧ l.Nodup ∧ ∀ b, b ∈ l ↔ Ebitmap.getBit m b = true := by
  refine ⟨_, Ebitmap.C04_for_each_positive_bit hw (Nat.le_refl _), List.nodup_range.filter _, fun b => ?_⟩
  rw [List.mem_filter, List.mem_range]
  constructor
  · exact fun h => h.2
  · intro hb
    have hi := (Ebitmap.wf_iff_inv m).1 hw
    have h1 := Ebitmap.getBit_lt_high hi hb
    have h2 := hi.small
    exact ⟨by omega, hb⟩

section
variable {p : UPolicy} {R : Rules} {n : Nat} (hp : UserPolicyOk p R n) (hmls : p.pol.mls = true) {rank : Nat → Nat}
  (hrank : BoundsAcyclic p.toSPolicy rank) {fromcon : Context} (hfrom : CtxOk p.pol fromcon) (hft : fromcon.type ≤ n)
  {name : Str} {user : UserDatum} (huser : p.pol.users name = some user) {fuel : Nat} (hfuel : rank fromcon.type < fuel)

/-- State of the loops after the contexts `cs` have been found. -/
structure UGood (st0 : Sidtab.Sidtab) (cs : List Context) (u : UState) : Prop where
  inv : Sidtab.Inv u.st
  ext : Ext st0 u.st
  rc : u.rc = 0
  sids : u.sids.map (Sidtab.lookup u.st) = cs.map some

/-- The context with the given role and type numbers, if it can be entered. -/
def Hit (p : UPolicy) (R : Rules) (fromcon : Context) (name : Str) (user : UserDatum) (i j : Nat) (cs : List Context) : Prop :=
  (∃ c, cs = [c] ∧ Enterable p R fromcon name user c ∧ c.role = i + 1 ∧ c.type = j + 1) ∨
  (cs = [] ∧ ∀ c, Enterable p R fromcon name user c → c.role = i + 1 → c.type = j + 1 → False)

def Failed (st0 : Sidtab.Sidtab) (u : UState) : Prop := u.rc = -12 ∧ FullT u.st ∧ Ext st0 u.st

include hp hmls hrank hfrom hft huser hfuel

theorem tryType_spec {i j : Nat} (hi : Ebitmap.getBit (p.userRoles name) i = true) {types : Ebitmap.Ebitmap}
    (ht : p.roleTypes i = some types) (hj : Ebitmap.getBit types j = true) {st0 : Sidtab.Sidtab} {cs : List Context} {u : UState}
    (hu : UGood st0 cs u) :
    ∃ u' go, tryType fuel p fromcon user i j u = some (u', go) ∧
      (go = true → ∃ c1, Hit p R fromcon name user i j c1 ∧ UGood st0 (cs ++ c1) u') ∧ (go = false → Failed st0 u') := by
  obtain ⟨u1, u2, u3, u4⟩ := hp.users name user huser
  obtain ⟨r1, r2, r3, types', ht', _, tn⟩ := (hp.roles name).2 i hi
  rw [ht] at ht'; cases ht'
  have hjn := tn j hj
  have uniq : ∀ c : Context, LoginRange fromcon.range user c.range → ∀ r, LoginRange fromcon.range user r → c.range = r := by
    intro c h r h'
    have a := (setupUserRange_iff hfrom.range u3 u4 emptyRange _).mpr h
    have b := (setupUserRange_iff hfrom.range u3 u4 emptyRange _).mpr h'
    rw [a] at b; cases b; rfl
  have same : ∀ {u' : UState}, u'.st = u.st → u'.sids = u.sids → u'.rc = 0 → UGood st0 (cs ++ []) u' := by
    intro u' a b c
    rw [List.append_nil]
    exact ⟨by rw [a]; exact hu.inv, by rw [a]; exact hu.ext, c, by rw [a, b]; exact hu.sids⟩
  unfold tryType
  by_cases hty : j + 1 = fromcon.type
  · rw [if_pos hty]
    exact ⟨u, true, rfl, fun _ => ⟨[], .inr ⟨rfl, fun c hc _ h => hc.other (h.trans hty)⟩, same rfl rfl hu.rc⟩, fun h => by cases h⟩
  · rw [if_neg hty, hmls]
    cases hr : setupUserRange fromcon.range user emptyRange true with
    | none =>
      refine ⟨u, true, rfl, fun _ => ⟨[], .inr ⟨rfl, fun c hc _ _ => ?_⟩, same rfl rfl hu.rc⟩, fun h => by cases h⟩
      have := (setupUserRange_iff hfrom.range u3 u4 emptyRange _).mpr hc.range
      rw [hr] at this; cases this
    | some r =>
      dsimp only
      have hlr := (setupUserRange_iff hfrom.range u3 u4 emptyRange r).mp hr
      have hc : CtxOk p.pol ⟨user.value, i + 1, j + 1, r⟩ :=
        ⟨⟨u1, u2⟩, ⟨Nat.succ_pos _, by show j + 1 < _; have := hp.small; omega⟩, ⟨Nat.succ_pos _, by show i + 1 ≤ _; omega, r2⟩, r3,
          login_wf hfrom.range u3 u4 hlr⟩
      obtain ⟨res, e1, e2⟩ := C16_total hp.ok hp.types hrank hfrom hc hft (by show j + 1 ≤ n; omega) hfuel p.processClass p.processTrans
      rw [e1]
      cases res with
      | none =>
        have := e2.mp rfl
        have := hp.process
        omega
      | some a =>
        obtain ⟨avd, reason⟩ := a
        dsimp only
        have ha := C16_allowed hp.ok hfrom hc e1
        have hiff : avd.allowed &&& p.processTrans ≠ 0#32 ↔
            ∃ b < 32, p.processTrans.getLsbD b = true ∧ Granted p.toSPolicy R p.processClass b fromcon ⟨user.value, i + 1, j + 1, r⟩ := by
          constructor
          · intro h
            by_contra hno
            apply h
            apply BitVec.eq_of_getLsbD_eq
            intro b hb
            rw [BitVec.getLsbD_and, BitVec.getLsbD_zero]
            by_contra hx
            rw [Bool.not_eq_false, Bool.and_eq_true] at hx
            exact hno ⟨b, hb, hx.2, (ha b hb).mp hx.1⟩
          · rintro ⟨b, hb, h1, h2⟩ h0
            have := (ha b hb).mpr h2
            have h3 : (avd.allowed &&& p.processTrans).getLsbD b = true := by rw [BitVec.getLsbD_and, this, h1]; rfl
            rw [h0] at h3; simp at h3
        have eqc : ∀ c, Enterable p R fromcon name user c → c.role = i + 1 → c.type = j + 1 → c = ⟨user.value, i + 1, j + 1, r⟩ := by
          intro c hc h1 h2
          have h3 := hc.user
          have h4 := uniq c hc.range r hlr
          cases c
          dsimp only at h1 h2 h3 h4
          rw [h1, h2, h3, h4]
        by_cases hz : avd.allowed &&& p.processTrans = 0#32
        · rw [if_pos hz]
          refine ⟨_, true, rfl, fun _ => ⟨[], .inr ⟨rfl, fun c hc h1 h2 => ?_⟩, same rfl rfl rfl⟩, fun h => by cases h⟩
          have := eqc c hc h1 h2
          subst this
          exact (hiff.mpr hc.granted) hz
        · rw [if_neg hz, if_neg (by simp)]
          have hent : Enterable p R fromcon name user ⟨user.value, i + 1, j + 1, r⟩ :=
            ⟨rfl, ⟨Nat.succ_pos _, hi⟩, ⟨Nat.succ_pos _, types, ht, hj⟩, hty, hlr, hiff.mp hz⟩
          cases hcs : Sidtab.contextToSid u.st ⟨user.value, i + 1, j + 1, r⟩ with
          | none =>
            exact ⟨_, false, rfl, fun h => (by cases h), fun _ => ⟨rfl, ((Sidtab.contextToSid_spec hu.inv hc.range).1.mp hcs).2, hu.ext⟩⟩
          | some q =>
            obtain ⟨st', sid⟩ := q
            obtain ⟨x1, x2, x3⟩ := convert_ext hu.inv hc.range hcs
            refine ⟨_, true, rfl, fun _ => ⟨_, .inl ⟨_, rfl, hent, rfl, rfl⟩, ⟨x1.1, hu.ext.trans x1, rfl, ?_⟩⟩, fun h => (by cases h)⟩
            dsimp only
            rw [List.map_append, List.map_append]
            congr 1
            · rw [← hu.sids]
              apply List.map_congr_left
              intro y hy
              have hm : Sidtab.lookup u.st y ∈ cs.map some := by rw [← hu.sids]; exact List.mem_map_of_mem hy
              obtain ⟨d, _, hd⟩ := List.mem_map.mp hm
              rw [← hd, x1.2 y d hd.symm]
            · simp [x2]

theorem typeLoop_spec {i : Nat} (hi : Ebitmap.getBit (p.userRoles name) i = true) {types : Ebitmap.Ebitmap}
    (ht : p.roleTypes i = some types) : ∀ (js : List Nat), (∀ j ∈ js, Ebitmap.getBit types j = true) → js.Nodup →
    ∀ {st0 : Sidtab.Sidtab} {cs : List Context} {u : UState}, UGood st0 cs u →
    ∃ u' go, typeLoop fuel p fromcon user i js u = some (u', go) ∧
      (go = true → ∃ c1, c1.Nodup ∧ (∀ c, c ∈ c1 ↔ Enterable p R fromcon name user c ∧ c.role = i + 1 ∧ ∃ j ∈ js, c.type = j + 1) ∧
        UGood st0 (cs ++ c1) u') ∧ (go = false → Failed st0 u') := by
  intro js
  induction js with
  | nil =>
    intro _ _ st0 cs u hu
    exact ⟨u, true, rfl, fun _ => ⟨[], .nil, fun c => by simp, by rw [List.append_nil]; exact hu⟩, fun h => (by cases h)⟩
  | cons j js ih =>
    intro hjs hnd st0 cs u hu
    rw [List.nodup_cons] at hnd
    obtain ⟨u1, go1, e1, a1, b1⟩ := tryType_spec hp hmls hrank hfrom hft huser hfuel hi ht (hjs j (by simp)) hu
    unfold typeLoop
    rw [e1]
    cases go1 with
    | false => exact ⟨u1, false, rfl, fun h => (by cases h), fun _ => b1 rfl⟩
    | true =>
      obtain ⟨c1, hit, good⟩ := a1 rfl
      obtain ⟨u2, go2, e2, a2, b2⟩ := ih (fun j hj => hjs j (by simp [hj])) hnd.2 good
      refine ⟨u2, go2, by simpa using e2, fun hgo => ?_, b2⟩
      obtain ⟨c2, nd2, mem2, good2⟩ := a2 hgo
      refine ⟨c1 ++ c2, ?_, fun c => ?_, by rw [← List.append_assoc]; exact good2⟩
      · rcases hit with ⟨c, rfl, hc, h1, h2⟩ | ⟨rfl, _⟩
        · rw [List.singleton_append, List.nodup_cons]
          refine ⟨fun hm => ?_, nd2⟩
          obtain ⟨_, _, j', hj', hjj⟩ := (mem2 c).mp hm
          have : j' = j := by omega
          subst this
          exact hnd.1 hj'
        · exact nd2
      · rw [List.mem_append, mem2]
        constructor
        · rintro (h | ⟨h1, h2, j', hj', h3⟩)
          · rcases hit with ⟨c', rfl, hc, h1, h2⟩ | ⟨rfl, _⟩
            · rw [List.mem_singleton] at h; subst h
              exact ⟨hc, h1, j, by simp, h2⟩
            · cases h
          · exact ⟨h1, h2, j', by simp [hj'], h3⟩
        · rintro ⟨h1, h2, j', hj', h3⟩
          rcases List.mem_cons.mp hj' with rfl | hj'
          · rcases hit with ⟨c', rfl, hc, k1, k2⟩ | ⟨_, hno⟩
            · left
              rw [List.mem_singleton]
              have x := h1.user; have y := hc.user
              obtain ⟨z1, z2, z3, z4⟩ := hp.users name user huser
              have w1 := (setupUserRange_iff hfrom.range z3 z4 emptyRange _).mpr h1.range
              have w2 := (setupUserRange_iff hfrom.range z3 z4 emptyRange _).mpr hc.range
              rw [w1] at w2
              cases c; cases c'
              dsimp only at *
              simp only [Option.some.injEq] at w2
              rw [x, y, h2, k1, h3, k2, w2]
            · exact absurd h3 (fun h => hno c h1 h2 h)
          · exact .inr ⟨h1, h2, j', hj', h3⟩

theorem roleLoop_spec : ∀ (is : List Nat), (∀ i ∈ is, Ebitmap.getBit (p.userRoles name) i = true) → is.Nodup →
    ∀ {st0 : Sidtab.Sidtab} {cs : List Context} {u : UState}, UGood st0 cs u →
    ∃ u' go, roleLoop fuel p fromcon user is u = some (u', go) ∧
      (go = true → ∃ c1, c1.Nodup ∧ (∀ c, c ∈ c1 ↔ Enterable p R fromcon name user c ∧ ∃ i ∈ is, c.role = i + 1) ∧
        UGood st0 (cs ++ c1) u') ∧ (go = false → Failed st0 u') := by
  intro is
  induction is with
  | nil =>
    intro _ _ st0 cs u hu
    exact ⟨u, true, rfl, fun _ => ⟨[], .nil, fun c => by simp, by rw [List.append_nil]; exact hu⟩, fun h => (by cases h)⟩
  | cons i is ih =>
    intro his hnd st0 cs u hu
    rw [List.nodup_cons] at hnd
    obtain ⟨r1, r2, r3, types, ht, tw, tn⟩ := (hp.roles name).2 i (his i (by simp))
    obtain ⟨js, je, jn, jm⟩ := each_bit tw
    obtain ⟨u1, go1, e1, a1, b1⟩ := typeLoop_spec hp hmls hrank hfrom hft huser hfuel (his i (by simp)) ht js
      (fun j hj => (jm j).mp hj) jn hu
    unfold roleLoop
    rw [ht, Option.bind_some, je, Option.bind_some, e1, Option.bind_some]
    cases go1 with
    | false => exact ⟨u1, false, rfl, fun h => (by cases h), fun _ => b1 rfl⟩
    | true =>
      obtain ⟨c1, nd1, mem1, good⟩ := a1 rfl
      obtain ⟨u2, go2, e2, a2, b2⟩ := ih (fun j hj => his j (by simp [hj])) hnd.2 good
      refine ⟨u2, go2, by simpa using e2, fun hgo => ?_, b2⟩
      obtain ⟨c2, nd2, mem2, good2⟩ := a2 hgo
      refine ⟨c1 ++ c2, ?_, fun c => ?_, by rw [← List.append_assoc]; exact good2⟩
      · rw [List.nodup_append]
        refine ⟨nd1, nd2, fun c hc c' hc' heq => ?_⟩
        subst heq
        obtain ⟨_, h1, _⟩ := (mem1 c).mp hc
        obtain ⟨_, i', hi', h2⟩ := (mem2 c).mp hc'
        have : i' = i := by omega
        subst this
        exact hnd.1 hi'
      · rw [List.mem_append, mem1, mem2]
        constructor
        · rintro (⟨h1, h2, _⟩ | ⟨h1, i', hi', h3⟩)
          · exact ⟨h1, i, by simp, h2⟩
          · exact ⟨h1, i', by simp [hi'], h3⟩
        · rintro ⟨h1, i', hi', h3⟩
          rcases List.mem_cons.mp hi' with rfl | hi'
          · left
            refine ⟨h1, h3, ?_⟩
            obtain ⟨t1, types', t2, t3⟩ := h1.type
            rw [h3, Nat.add_sub_cancel, ht] at t2
            cases t2
            exact ⟨c.type - 1, (jm _).mpr t3, by omega⟩
          · exact .inr ⟨h1, i', hi', h3⟩

end

/-- C52: on an MLS policy `sepol_get_user_sids` with known SID and user either runs out of SIDs or returns SIDs of exactly
the contexts that can be entered, each once; SIDs handed out before keep their meaning. -/
theorem C52_user_sids {p : UPolicy} {R : Rules} {n : Nat} (hp : UserPolicyOk p R n) (hmls : p.pol.mls = true)
    {rank : Nat → Nat} (hrank : BoundsAcyclic p.toSPolicy rank) {st : Sidtab.Sidtab} (hst : Sidtab.Reach st) {fromsid : Nat}
    {fromcon : Context} (hsid : Sidtab.search st fromsid = some fromcon) (hfrom : CtxOk p.pol fromcon) (hft : fromcon.type ≤ n)
    {name : Str} {user : UserDatum} (huser : p.pol.users name = some user) {fuel : Nat} (hfuel : rank fromcon.type < fuel) :
    ∃ st', (∀ x c, Sidtab.lookup st x = some c → Sidtab.lookup st' x = some c) ∧
      ((∃ (sids : List Nat) (cs : List Context), getUserSids fuel p st fromsid name = some (st', 0, some sids) ∧
          sids.map (Sidtab.lookup st') = cs.map some ∧ cs.Nodup ∧ ∀ c, c ∈ cs ↔ Enterable p R fromcon name user c) ∨
        (getUserSids fuel p st fromsid name = some (st', -12, none) ∧ (st'.nextSid = 2 ^ 32 - 1 ∨ st'.shutdown = true))) := by
  obtain ⟨is, ie, ind, im⟩ := each_bit (hp.roles name).1
  have hinv := Sidtab.reach_inv hst
  obtain ⟨u, go, e, a, b⟩ := roleLoop_spec (R := R) hp hmls hrank hfrom hft huser hfuel is (fun i hi => (im i).mp hi) ind
    (st0 := st) (cs := []) (u := ⟨st, 0, []⟩) ⟨hinv, .refl hinv, rfl, rfl⟩
  have hg : getUserSids fuel p st fromsid name = some (u.st, u.rc, if go then some u.sids else none) := by
    unfold getUserSids
    rw [hsid, huser]
    dsimp only
    rw [ie, Option.bind_some, e, Option.bind_some]
  cases go with
  | true =>
    obtain ⟨cs, nd, mem, good⟩ := a rfl
    refine ⟨u.st, good.ext.2, .inl ⟨u.sids, cs, by rw [hg, good.rc]; rfl, by simpa using good.sids, nd, fun c => ?_⟩⟩
    rw [mem]
    constructor
    · exact fun h => h.1
    · intro h
      exact ⟨h, c.role - 1, (im _).mpr h.role.2, by have := h.role.1; omega⟩
  | false =>
    obtain ⟨h1, h2, h3⟩ := b rfl
    exact ⟨u.st, h3.2, .inr ⟨by rw [hg, h1]; rfl, h2⟩⟩

/-- C52: an unknown SID or user is refused. -/
theorem C52_unknown {fuel : Nat} {p : UPolicy} {st : Sidtab.Sidtab} {fromsid : Nat} {name : Str}
    (h : Sidtab.search st fromsid = none ∨ p.pol.users name = none) : getUserSids fuel p st fromsid name = some (st, -22, none) := by
  unfold getUserSids
  cases hs : Sidtab.search st fromsid with
  | none => rfl
  | some c =>
    rcases h with h | h
    · rw [hs] at h; cases h
    · rw [h]

/-! ## Example -/

/-- The policy of C16 with permission 2 as process transition; the user has roles 1 and 2, role 1 has types 1 and 2, role 2 has
types 2 and 3. -/
def exUPolicy : UPolicy :=
  { exPolicy with
    userRoles := fun _ => word 3#64
    roleTypes := fun i => if i = 0 then some (word 3#64) else if i = 1 then some (word 6#64) else none
    processTrans := 4#32 }

theorem exUPolicyOk : UserPolicyOk exUPolicy exRules 3 where
  ok := exPolicyOk
  types := exTypesOk
  small := by decide
  process := ⟨by decide, by decide⟩
  roles := by
    intro name
    refine ⟨word_wf (by decide), fun i hi => ?_⟩
    have h64 : i < 64 := word_lt hi
    have h2 : i < 2 := by
      by_contra hc
      have : ∀ i < 64, 2 ≤ i → Ebitmap.getBit (word 3#64) i = false := by decide +kernel
      have h0 := this i h64 (by omega)
      rw [show exUPolicy.userRoles name = word 3#64 from rfl, h0] at hi
      cases hi
    have hs : ∃ d, exUPolicy.pol.roleStruct i = some d := by
      refine ⟨demoRole, ?_⟩
      show (if i < 3 then some demoRole else none) = _
      rw [if_pos (by omega)]
    refine ⟨by show i < 3; omega, by omega, hs, ?_⟩
    have hb : i = 0 ∨ i = 1 := by omega
    rcases hb with rfl | rfl
    · refine ⟨word 3#64, rfl, word_wf (by decide), fun j hj => ?_⟩
      have : ∀ i < 64, 3 ≤ i → Ebitmap.getBit (word 3#64) i = false := by decide +kernel
      by_contra hc
      rw [this j (word_lt hj) (by omega)] at hj; cases hj
    · refine ⟨word 6#64, rfl, word_wf (by decide), fun j hj => ?_⟩
      have : ∀ i < 64, 3 ≤ i → Ebitmap.getBit (word 6#64) i = false := by decide +kernel
      by_contra hc
      rw [this j (word_lt hj) (by omega)] at hj; cases hj
  users := by
    intro name u h
    have h' : (if name = ['u'] then some demoUser else none) = some u := h
    split at h'
    · cases h'
      exact ⟨by decide, by decide, ⟨wf_of_inv Ebitmap.inv_init, demoAll_wf⟩, wf_of_inv Ebitmap.inv_init⟩
    · cases h'

/-- From SID 1 the user can enter type 2 in both roles. -/
example : UserPolicyOk exUPolicy exRules 3 ∧ BoundsAcyclic exUPolicy.toSPolicy (fun ty => if ty = 1 then 1 else 0) ∧
    Sidtab.Reach exSids ∧ Sidtab.search exSids 1 = some exS ∧ CtxOk exUPolicy.pol exS ∧
    (getUserSids 2 exUPolicy exSids 1 ['u']).map (fun r => (r.2.1, (r.2.2.getD []).map (fun x => ((Sidtab.lookup r.1 x).map
      (fun c => [c.user, c.role, c.type])).getD []))) = some (0, [[1, 1, 2], [1, 2, 2]]) :=
  ⟨exUPolicyOk, exAcyclic, exSids_reach, by decide +kernel, exCtxOk _ _ _ (by decide) (by decide) (by decide) _ _, by decide +kernel⟩

/-- C52 fails without MLS: as soon as one context can be entered the call reads the uninitialised range of a local
variable (services.c:2168, 2218; `mls_setup_user_range` leaves it alone). -/
theorem C52_nonmls_refuted : ∃ (p : UPolicy) (R : Rules) (st : Sidtab.Sidtab) (fromsid : Nat) (name : Str), UserPolicyOk p R 3 ∧
    p.pol.mls = false ∧ Sidtab.Reach st ∧ (Sidtab.search st fromsid).isSome = true ∧ (p.pol.users name).isSome = true ∧
    getUserSids 2 p st fromsid name = none := by
  refine ⟨{ exUPolicy with pol := { exUPolicy.pol with mls := false } }, exRules, exSids, 1, ['u'],
    ⟨⟨exPolicyOk.te, exPolicyOk.cond, exPolicyOk.attr, exPolicyOk.cons, exPolicyOk.bounds⟩, ⟨exTypesOk.attr, exTypesOk.struct, exTypesOk.classes⟩,
      by decide, ⟨by decide, by decide⟩, exUPolicyOk.roles, exUPolicyOk.users⟩, rfl, exSids_reach, by decide +kernel, rfl, by decide +kernel⟩

/-- C52: on a policy without the process class the call returns an error but hands out an array nevertheless, which a caller that
trusts the return code never frees. -/
theorem C52_error_with_array : ∃ (p : UPolicy) (st : Sidtab.Sidtab) (fromsid : Nat) (name : Str), Sidtab.Reach st ∧
    (getUserSids 2 p st fromsid name).map (fun r => r.2) = some (-22, some []) := by
  refine ⟨{ exUPolicy with processClass := 0 }, exSids, 1, ['u'], exSids_reach, by decide +kernel⟩

end Verif.Services
