import Verif.Services.LabelLemmas
import Verif.Services.AvProps

/-!
# C19: labels of new objects
-/

namespace Verif.Services
open Verif.Policy Verif.Mls

/-- C19: a SID returned by `sepol_transition_sid`, `sepol_change_sid` or `sepol_member_sid` stands for a label the
policy prescribes for the two contexts and the class, all known SIDs keep their meaning, and in enforcing
mode the label is an authorised context. -/
theorem C19_label {p : LPolicy} {R : Rules} (hp : LabelPolicyOk p R) (hw : WFPolicy p.pol) {st : Sidtab.Sidtab}
    (hr : Sidtab.Reach st) {s t : Context} {ssid tsid : Nat} (hs : Sidtab.search st ssid = some s)
    (ht : Sidtab.search st tsid = some t) (hst : s.type < 2 ^ 16) (htt : t.type < 2 ^ 16) {e : Bool} {cls : Nat} {k : Kind}
    {st' : Sidtab.Sidtab} {sid : Nat} (h : computeSid e p st ssid tsid cls k = some (some (st', sid))) :
    (∀ x c, Sidtab.lookup st x = some c → Sidtab.lookup st' x = some c) ∧
    ∃ n, Sidtab.lookup st' sid = some n ∧ LabelOf p R s t cls k n ∧ (e = true → Authorised p.pol n) := by
  have hi := Sidtab.reach_inv hr
  obtain ⟨n1, n2⟩ := newContext_spec hp (search_wf hi hs) (search_wf hi ht) hst htt cls k
  unfold computeSid at h
  rw [hs, ht] at h
  dsimp only at h
  cases hn : newContext p s t cls k with
  | none => rw [hn] at h; cases h
  | some n =>
    obtain ⟨wf, lab⟩ := n1 n hn
    rw [hn] at h
    dsimp only at h
    have conv : Sidtab.contextToSid st n = some (st', sid) → (∀ x c, Sidtab.lookup st x = some c → Sidtab.lookup st' x = some c) ∧
        Sidtab.lookup st' sid = some n := by
      intro hc
      obtain ⟨_, _, h3, h4, h5⟩ := (Sidtab.contextToSid_spec hi wf).2 st' sid hc
      refine ⟨fun x c hx => ?_, h3⟩
      by_cases hxs : x = sid
      · subst hxs
        rcases h5 with ⟨rfl, _⟩ | ⟨_, hsid, _⟩
        · exact hx
        · rw [hsid, Sidtab.lookup_next hi _ (Nat.le_refl _)] at hx; cases hx
      · rw [h4 x hxs]; exact hx
    split at h
    · rename_i hv
      simp only [Option.some.injEq] at h
      obtain ⟨c1, c2⟩ := conv h
      exact ⟨c1, n, c2, lab, fun _ => (C09_valid_iff_authorised hw wf).1 hv⟩
    · cases he : handleInvalid e p s t n cls with
      | none => rw [he] at h; cases h
      | some b =>
        rw [he] at h
        cases b with
        | false => cases h
        | true =>
          simp only [Option.some.injEq] at h
          obtain ⟨c1, c2⟩ := conv h
          refine ⟨c1, n, c2, lab, fun hee => ?_⟩
          rw [hee] at he
          unfold handleInvalid at he
          simp at he

/-- C19: the prescribed label is unique when the rules of the policy do not contradict each other. -/
theorem C19_unique {p : LPolicy} {R : Rules} {s t : Context} {cls : Nat} {k : Kind} (hc : Consistent p R s t cls k)
    {n n' : Context} (h : LabelOf p R s t cls k n) (h' : LabelOf p R s t cls k n') :
    n.user = n'.user ∧ n.role = n'.role ∧ n.type = n'.type ∧ Same n.range.low n'.range.low ∧
      Same n.range.high n'.range.high := by
  have dd : ∀ {d d' : Defaults}, DefaultsOf p cls d → DefaultsOf p cls d' → d = d' := fun a b => by
    rw [defaultsOf_iff.mp a, defaultsOf_iff.mp b]
  have drole : ∀ {v v'}, DefaultRoleOf p s t cls v → DefaultRoleOf p s t cls v' → v = v' := by
    intro v v' a b
    cases a <;> cases b <;> first | rfl | (rename_i d h1 h2 d' h3 h4; cases dd h1 h3; omega) |
      (rename_i d h1 h2 d' h3 h4 h5 h6; cases dd h1 h3; omega) |
      (rename_i d h1 h2 h3 h4 d' h5 h6; cases dd h1 h5; omega) |
      (rename_i d h1 h2 h3 h4 d' h5 h6 h7 h8; cases dd h1 h5; omega)
  have dtype : ∀ {v v'}, DefaultTypeOf p s t cls v → DefaultTypeOf p s t cls v' → v = v' := by
    intro v v' a b
    cases a <;> cases b <;> first | rfl | (rename_i d h1 h2 d' h3 h4; cases dd h1 h3; omega) |
      (rename_i d h1 h2 d' h3 h4 h5 h6; cases dd h1 h3; omega) |
      (rename_i d h1 h2 h3 h4 d' h5 h6; cases dd h1 h5; omega) |
      (rename_i d h1 h2 h3 h4 d' h5 h6 h7 h8; cases dd h1 h5; omega)
  have sm : ∀ l : Level, Same l l := fun l => ⟨rfl, fun _ => Iff.rfl⟩
  have plain : ∀ {r r'}, PlainRangeOf p s cls r → PlainRangeOf p s cls r' → r = r' := by
    intro r r' a b
    cases a <;> cases b <;> first | rfl | contradiction
  have cr : ∀ {v r r'}, ClassRange p s t cls v r → ClassRange p s t cls v r' → Same r.low r'.low ∧ Same r.high r'.high := by
    intro v r r' a b
    cases a with
    | glblub _ g =>
      cases b with
      | glblub _ g' =>
        obtain ⟨_, _, a1, a2, a3, a4⟩ := g
        obtain ⟨_, _, b1, b2, b3, b4⟩ := g'
        exact ⟨⟨by omega, fun c => by rw [a3, b3]⟩, ⟨by omega, fun c => by rw [a4, b4]⟩⟩
      | unset _ _ hv _ => omega
    | unset _ _ hv a =>
      cases b with
      | unset _ _ _ b => rw [plain a b]; exact ⟨sm _, sm _⟩
      | _ => omega
    | _ =>
      cases b with
      | unset _ _ hv b => omega
      | _ => exact ⟨sm _, sm _⟩
  refine ⟨?_, ?_, ?_, ?_⟩
  · have a := h.user
    have b := h'.user
    generalize n.user = u at a
    generalize n'.user = u' at b
    cases a <;> cases b <;> first | rfl | contradiction |
      (rename_i d h1 h2 h3 d' h4 h5 h6; cases dd h1 h4; contradiction)
  · have a := h.role
    have b := h'.role
    generalize n.role = u at a
    generalize n'.role = u' at b
    cases a with
    | rule r hr hm =>
      cases b with
      | rule r' hr' hm' => exact hc.role r hr r' hr' hm hm'
      | none _ hn _ => exact absurd hm (hn r hr)
      | other _ _ hk => exact absurd rfl hk
    | none _ hn hd =>
      cases b with
      | rule r' hr' hm' => exact absurd hm' (hn r' hr')
      | none _ _ hd' => exact drole hd hd'
      | other _ _ hk => exact absurd rfl hk
    | other _ _ hk hd =>
      cases b with
      | rule r' hr' hm' => exact absurd rfl hk
      | none _ _ hd' => exact absurd rfl hk
      | other _ _ _ hd' => exact drole hd hd'
  · have a := h.type
    have b := h'.type
    generalize n.type = u at a
    generalize n'.type = u' at b
    cases a with
    | rule r hr hm =>
      cases b with
      | rule r' hr' hm' => rw [hc.te r hr r' hr' hm hm']
      | cond _ hn => exact absurd hm (hn r hr)
      | none _ hn => exact absurd hm (hn r hr)
    | cond r hn hr hm ha =>
      cases b with
      | rule r' hr' hm' => exact absurd hm' (hn r' hr')
      | cond r' _ hr' hm' ha' => rw [hc.cond r hr r' hr' hm hm' ha ha']
      | none _ _ hn' => exact absurd ha (hn' r hr hm)
    | none _ hn hn2 hd =>
      cases b with
      | rule r' hr' hm' => exact absurd hm' (hn r' hr')
      | cond r' _ hr' hm' ha' => exact absurd ha' (hn2 r' hr' hm')
      | none _ _ _ hd' => exact dtype hd hd'
  · cases hm : p.pol.mls with
    | false => rw [h.norange hm, h'.norange hm]; exact ⟨sm _, sm _⟩
    | true =>
      have a := h.range hm
      have b := h'.range hm
      generalize n.range = u at a
      generalize n'.range = u' at b
      cases a with
      | rule _ hr => cases b with
        | rule _ hr' => rw [hr] at hr'; cases hr'; exact ⟨sm _, sm _⟩
        | default d _ hr' => rw [hr] at hr'; cases hr'
      | default d _ hr hd hcr => cases b with
        | rule _ hr' => rw [hr] at hr'; cases hr'
        | default d' _ hr' hd' hcr' => cases dd hd hd'; exact cr hcr hcr'
      | change _ hp => cases b with
        | change _ hp' => rw [plain hp hp']; exact ⟨sm _, sm _⟩
      | member => cases b with
        | member => exact ⟨sm _, sm _⟩

/-- C19: in enforcing mode the computation never leaves its arrays, and it returns an error exactly when a SID is
unknown, the policy prescribes no label, the label is not authorised, or the SID table is full. -/
theorem C19_enforcing {p : LPolicy} {R : Rules} (hp : LabelPolicyOk p R) (hw : WFPolicy p.pol) {st : Sidtab.Sidtab}
    (hr : Sidtab.Reach st) {ssid tsid cls : Nat} {k : Kind}
    (hty : ∀ x c, Sidtab.search st x = some c → c.type < 2 ^ 16) :
    computeSid true p st ssid tsid cls k ≠ none ∧
    ((Sidtab.search st ssid = none ∨ Sidtab.search st tsid = none ∨
        ∀ s t, Sidtab.search st ssid = some s → Sidtab.search st tsid = some t → ∀ n, LabelOf p R s t cls k n →
          ¬ Authorised p.pol n) → computeSid true p st ssid tsid cls k = some none) ∧
    (∀ s t, Sidtab.search st ssid = some s → Sidtab.search st tsid = some t → (∃ n, LabelOf p R s t cls k n) →
      (∀ n, LabelOf p R s t cls k n → Authorised p.pol n) → st.nextSid ≠ 2 ^ 32 - 1 → st.shutdown = false →
      ∃ r, computeSid true p st ssid tsid cls k = some (some r)) := by
  have hi := Sidtab.reach_inv hr
  cases hs : Sidtab.search st ssid with
  | none => unfold computeSid; rw [hs]; simp
  | some s =>
    cases ht : Sidtab.search st tsid with
    | none => unfold computeSid; rw [hs, ht]; simp
    | some t =>
      obtain ⟨n1, n2⟩ := newContext_spec hp (search_wf hi hs) (search_wf hi ht) (hty _ _ hs) (hty _ _ ht) cls k
      have hcs : computeSid true p st ssid tsid cls k = match newContext p s t cls k with
          | none => some none
          | some n => if isValid p.pol n then some (Sidtab.contextToSid st n) else some none := by
        unfold computeSid
        rw [hs, ht]
        dsimp only
        cases newContext p s t cls k <;> rfl
      rw [hcs]
      simp only [Option.some.injEq, reduceCtorEq, false_or]
      cases hn : newContext p s t cls k with
      | none =>
        refine ⟨by simp, fun _ => rfl, ?_⟩
        rintro s' t' rfl rfl ⟨n, hl⟩
        exact absurd hl (n2 hn n)
      | some n =>
        obtain ⟨wf, lab⟩ := n1 n hn
        dsimp only
        cases hv : isValid p.pol n with
        | false =>
          refine ⟨by simp, fun _ => rfl, ?_⟩
          rintro s' t' rfl rfl _ hall
          rw [(C09_valid_iff_authorised hw wf).2 (hall n lab)] at hv
          cases hv
        | true =>
          refine ⟨by simp, fun hno => absurd ((C09_valid_iff_authorised hw wf).1 hv) (hno s t rfl rfl n lab), ?_⟩
          rintro s' t' rfl rfl _ _ hnext hsh
          rw [if_pos rfl]
          cases hc : Sidtab.contextToSid st n with
          | some r => exact ⟨r, rfl⟩
          | none =>
            rcases ((Sidtab.contextToSid_spec hi wf).1.mp hc).2 with h' | h'
            · exact absurd h' hnext
            · rw [hsh] at h'; cases h'

/-! ### A concrete policy -/

/-- A process rule 1→2 gives type 3; class 1 (process) has no defaults, class 2 takes user and type of the source and
the glb/lub range; conditional rules exist for (3,2,2), one of them active; a role transition for role 1. -/
def exLPolicy : LPolicy :=
  { exPolicy with
    pol := { demo with nTypes := 3, roleStruct := fun i => if i < 2 then some ⟨2, word 7#64, Ebitmap.init⟩ else none }
    nClasses := 2
    te := Avtab.run 8 [.insert ⟨1, 2, 1, Avtab.TRANSITION⟩ ⟨3#32, none⟩]
    cond := Avtab.run 8 [.insertNonunique ⟨3, 2, 2, Avtab.TRANSITION⟩ ⟨1#32, none⟩,
      .insertNonunique ⟨3, 2, 2, Avtab.TRANSITION ||| Avtab.ENABLED⟩ ⟨2#32, none⟩]
    defaults := fun i => if i = 0 then some ⟨0, 0, 0, 0⟩ else if i = 1 then some ⟨2, 1, 1, 7⟩ else none
    roleTr := [⟨1, 2, 1, 2⟩]
    rangeTr := fun a b c => if a = 3 ∧ b = 2 ∧ c = 1 then some ⟨⟨1, demoSet⟩, ⟨1, demoSet⟩⟩ else none }

theorem exLPolicy_wf : WFPolicy exLPolicy.pol := ⟨demo_wf.levelWF, demo_wf.levelCats, demo_wf.userRange, demo_wf.catVal⟩

noncomputable def exLRules : Rules :=
  ⟨Avtab.logOf [.insert ⟨1, 2, 1, Avtab.TRANSITION⟩ ⟨3#32, none⟩],
   Avtab.logOf [.insertNonunique ⟨3, 2, 2, Avtab.TRANSITION⟩ ⟨1#32, none⟩,
      .insertNonunique ⟨3, 2, 2, Avtab.TRANSITION ||| Avtab.ENABLED⟩ ⟨2#32, none⟩]⟩

theorem exLPolicyOk : LabelPolicyOk exLPolicy exLRules where
  te := fun k => Avtab.C07_enumerate 8 (by decide) _ k
  cond := fun k => Avtab.C07_enumerate 8 (by decide) _ k
  ranges := by
    intro a b c r h
    simp only [exLPolicy] at h
    split at h
    · cases h; exact ⟨demoSet_wf, demoSet_wf⟩
    · cases h

def exSids : Sidtab.Sidtab := Sidtab.run Sidtab.init [.insert 1 exS, .insert 2 exT, .insert 5 { exS with type := 3 }]

theorem exSids_reach : Sidtab.Reach exSids := by
  have w : ∀ a b, WFRange ⟨⟨a, demoSet⟩, ⟨b, demoSet⟩⟩ := fun a b => ⟨demoSet_wf, demoSet_wf⟩
  have o : ∀ sid c, 0 < sid → sid < 2 ^ 32 - 1 → WFRange c.range → (Sidtab.Op.insert sid c).Ok := fun _ _ a b c => ⟨a, b, c⟩
  exact .call (.call (.call .init (o 1 exS (by decide) (by decide) (w _ _))) (o 2 exT (by decide) (by decide) (w _ _)))
    (o 5 { exS with type := 3 } (by decide) (by decide) (w _ _))

/-- The transition of a process uses type rule and role rule; a conditional rule applies only if it is active;
without a rule the class default decides; an unauthorised result (user 2 does not exist) is refused. -/
example : LabelPolicyOk exLPolicy exLRules ∧ WFPolicy exLPolicy.pol ∧ Sidtab.Reach exSids ∧
    ((computeSid true exLPolicy exSids 1 2 1 .transition).map (·.map (fun r => Sidtab.lookup r.1 r.2))) =
      some (some (some ⟨1, 2, 3, exS.range⟩)) ∧
    computeSid true exLPolicy exSids 1 2 2 .transition = some none ∧
    (newContext exLPolicy { exS with type := 3 } exT 2 .transition).map (fun n => (n.user, n.role, n.type)) = some (2, 1, 2) ∧
    (newContext exLPolicy exS exT 2 .transition).map (fun n => (n.user, n.role, n.type)) = some (2, 1, 1) ∧
    (newContext exLPolicy { exS with type := 3 } exT 1 .transition).map (fun n => n.range) = some ⟨⟨1, demoSet⟩, ⟨1, demoSet⟩⟩ ∧
    Sidtab.lookup exSids 5 = some { exS with type := 3 } := by
  refine ⟨exLPolicyOk, exLPolicy_wf, exSids_reach, by decide +kernel, ?_, by decide +kernel, by decide +kernel, by decide +kernel,
    by decide +kernel⟩
  have h1 : Sidtab.search exSids 1 = some exS := by decide +kernel
  have h2 : Sidtab.search exSids 2 = some exT := by decide +kernel
  have h3 : newContext exLPolicy exS exT 2 .transition = some ⟨2, 1, 1, ⟨⟨1, demoSet⟩, ⟨1, demoSet⟩⟩⟩ := by decide +kernel
  unfold computeSid
  rw [h1, h2]
  dsimp only
  rw [h3]
  rfl

theorem exConsistent (s t : Context) (cls : Nat) (k : Kind) : Consistent exLPolicy exLRules s t cls k where
  te := by
    intro r hr r' hr' _ _
    simp only [exLRules, Avtab.logOf, List.foldl, Avtab.logStep, List.not_mem_nil, false_and, exists_false, and_false, if_false,
      List.mem_singleton] at hr hr'
    rw [hr, hr']
  cond := by
    intro r hr r' hr' _ _ ha ha'
    simp only [exLRules, Avtab.logOf, List.foldl, Avtab.logStep, List.mem_cons, List.not_mem_nil, or_false] at hr hr'
    rcases hr with rfl | rfl
    · rcases hr' with rfl | rfl
      · rfl
      · exact absurd ha' (by unfold Active; decide)
    · exact absurd ha (by unfold Active; decide)
  role := by
    intro r hr r' hr' _ _
    simp only [exLPolicy, List.mem_singleton] at hr hr'
    rw [hr, hr']

/-- C19 refuted for permissive mode: when the computed label is not authorised, the warning reads the name of
the class without checking the class number. -/
theorem C19_permissive_refuted : ∃ (p : LPolicy) (R : Rules) (st : Sidtab.Sidtab) (ssid tsid cls : Nat),
    LabelPolicyOk p R ∧ WFPolicy p.pol ∧ Sidtab.Reach st ∧ Sidtab.search st ssid ≠ none ∧ Sidtab.search st tsid ≠ none ∧
    computeSid false p st ssid tsid cls .member = none := by
  refine ⟨exLPolicy, exLRules, exSids, 1, 2, 0, exLPolicyOk, exLPolicy_wf, exSids_reach, by decide +kernel, by decide +kernel, ?_⟩
  have h1 : Sidtab.search exSids 1 = some exS := by decide +kernel
  have h2 : Sidtab.search exSids 2 = some exT := by decide +kernel
  unfold computeSid
  rw [h1, h2]
  rfl

end Verif.Services
