import Verif.FileLabel.Loop
/-!
# A lookup in the tree of a list of specifications
-/
namespace Verif.FileLabel
open Spec

/-- The part of a hit that the property is about. -/
def Hit.answer (h : Hit) : Bytes × Nat × Bytes := (h.regexStr, h.kind, h.ctx)

theorem kindOk_fits (kind : Nat) (e : Entry) : kindOk kind e.kind = true ↔ Fits kind e := by
  unfold kindOk Fits; simp [or_assoc]

theorem M_matches (eng : Engine) (key : Bytes) (kind : Nat) (e : Entry) (hp : plain e.regex = none) :
    M eng key kind (toRe e) ↔ Matches eng e key kind := by
  unfold M Matches toRe
  simp only [kindOk_fits, hp, true_and]

theorem old_older (a b : Entry) : Old (toRe a) (toRe b) ↔ Older a b := Iff.rfl

/-- A sorted tree. -/
structure Sorted (es : List Entry) (n : Node) : Prop where
  res : ∀ p, obsAt Node.res n p = (es.filter (fun e => (plain e.regex).isNone && decide (leading e.regex = p))).map toRe
  lits : ∀ p, (obsAt Node.lits n p).Perm
    ((es.filter (fun e => (plain e.regex).any (fun t => decide (litPath t = p)))).map toLit)
  sortedL : ∀ p, SortedL (obsAt Node.lits n p)
  strict : ∀ p m, at_ n p = some m → Strict m
  depth : ∀ p, (at_ n p).isSome = true → p.length ≤ 3

theorem holds_sorted {q : Qsort} (hq : Sorts q) {es : List Entry} {n : Node} (h : Holds es n) :
    Sorted es (sortNode q n) := by
  have hres : ∀ p, obsAt Node.res (sortNode q n) p = obsAt Node.res n p := by
    intro p
    unfold obsAt
    rw [at_sort hq h.wf]
    cases at_ n p with
    | none => rfl
    | some m => simp [sortNode_res]
  have hlits : ∀ p, obsAt Node.lits (sortNode q n) p = [] ∧ obsAt Node.lits n p = [] ∨
      obsAt Node.lits (sortNode q n) p = q.sort cmpLit (obsAt Node.lits n p) := by
    intro p
    unfold obsAt
    rw [at_sort hq h.wf]
    cases at_ n p with
    | none => exact Or.inl ⟨rfl, rfl⟩
    | some m => right; simp [sortNode_lits]
  refine ⟨fun p => by rw [hres, h.res], ?_, ?_, ?_, ?_⟩
  · intro p
    rw [← h.lits]
    rcases hlits p with ⟨h1, h2⟩ | h1
    · rw [h1, h2]
    · rw [h1]; exact (hq cmpLit _).1
  · intro p
    rcases hlits p with ⟨h1, h2⟩ | h1
    · rw [h1]; exact List.Pairwise.nil
    · rw [h1]; exact (hq cmpLit _).2 cmpLit_consistent
  · intro p m hm
    rw [at_sort hq h.wf] at hm
    obtain ⟨x, hx, rfl⟩ := Option.map_eq_some_iff.1 hm
    exact strict_sort hq (at_wf h.wf hx)
  · intro p hp
    rw [at_sort hq h.wf] at hp
    exact h.depth p (by simpa using hp)

theorem load_sorted {q : Qsort} (hq : Sorts q) {files : List (List Bytes)} {d : Data}
    (h : load q none files = some d) :
    Sorted (entries 0 files) d.root ∧ d.num = (entries 0 files).length := by
  unfold load at h
  obtain ⟨d0, hd0, rfl⟩ := Option.map_eq_some_iff.1 h
  have h1 := processFiles_holds (es := []) (d := .empty) holds_new hd0
  rw [List.nil_append] at h1
  refine ⟨holds_sorted hq h1, ?_⟩
  have := processFiles_num hd0
  simp only [this, Data.empty, Nat.zero_add]

theorem take_prefix_of_prefix {p ds : List Bytes} (h : p <+: ds) : p = ds.take p.length := by
  obtain ⟨t, rfl⟩ := h; simp

/-- The stems of the literals of a clean path are its first directories. -/
theorem litPath_clean {key : Bytes} (hc : Clean key) : litPath key = (dirs key).take 3 := by
  unfold litPath
  rw [if_pos hc.1]
  congr 1
  exact List.filter_eq_self.2 (fun d hd => by simpa using hc.2 d hd)

theorem checkNode_says' {es : List Entry} {n : Node} (hs : Sorted es n)
    (hsort : (es.filter (fun e => (plain e.regex).isNone)).Pairwise Older)
    (htri : ∀ a ∈ es, ∀ b ∈ es, plain a.regex = none → plain b.regex = none → a = b ∨ Older a b ∨ Older b a)
    (eng : Engine) (key : Bytes) (kind : Nat) (hc : Clean key) (hroot : Rooted eng es key)
    (hne : NoError eng es key) (hnl : NoneLast eng es key kind) :
    Says eng es key kind ((checkNode eng false key kind (deepest n [] key)).map Hit.answer) := by
  rw [deepest_walk n [] key hc.1 hc.2 hs.strict]
  obtain ⟨k, hk1, hk2, hk3, hwalk⟩ := walk_eq n [] (dirs key)
  rw [List.append_nil] at hwalk
  -- the nodes
  have hmem : ∀ m ∈ walk n [] (dirs key), ∃ i ≤ k, at_ n ((dirs key).take i) = some m := by
    intro m hm
    rw [hwalk, List.mem_filterMap] at hm
    obtain ⟨i, hi, him⟩ := hm
    simp only [List.mem_reverse, List.mem_range] at hi
    exact ⟨i, by omega, him⟩
  have hmem' : ∀ i ≤ k, ∀ m, at_ n ((dirs key).take i) = some m → m ∈ walk n [] (dirs key) := by
    intro i hi m hm
    rw [hwalk, List.mem_filterMap]
    exact ⟨i, by simp only [List.mem_reverse, List.mem_range]; omega, hm⟩
  have hresm : ∀ i m, at_ n ((dirs key).take i) = some m →
      m.res = (es.filter (fun e => (plain e.regex).isNone && decide (leading e.regex = (dirs key).take i))).map toRe := by
    intro i m hm
    have := hs.res ((dirs key).take i)
    rw [obsAt, hm] at this
    simpa using this
  -- membership of expressions
  have hre : ∀ r, (∃ m ∈ walk n [] (dirs key), r ∈ m.res) →
      ∃ e ∈ es, plain e.regex = none ∧ r = toRe e := by
    rintro r ⟨m, hm, hr⟩
    obtain ⟨i, _, him⟩ := hmem m hm
    rw [hresm i m him, List.mem_map] at hr
    obtain ⟨e, he, rfl⟩ := hr
    rw [List.mem_filter] at he
    simp only [Bool.and_eq_true, Option.isNone_iff_eq_none, decide_eq_true_eq] at he
    exact ⟨e, he.1, he.2.1, rfl⟩
  have hre' : ∀ e ∈ es, Matches eng e key kind → ∃ m ∈ walk n [] (dirs key), toRe e ∈ m.res := by
    intro e he hm
    have hpre := hroot e he hm.1 hm.2.2
    have htake := take_prefix_of_prefix hpre
    have hin : toRe e ∈ obsAt Node.res n (leading e.regex) := by
      rw [hs.res]
      exact List.mem_map_of_mem (List.mem_filter.2 ⟨he, by simp [hm.1]⟩)
    cases hat : at_ n (leading e.regex) with
    | none => rw [obsAt, hat] at hin; simp at hin
    | some m =>
      rw [obsAt, hat] at hin
      refine ⟨m, ?_, by simpa using hin⟩
      have hlk : (leading e.regex).length ≤ k := by
        by_contra hgt
        have hlt : k < (dirs key).length := by have := hpre.length_le; omega
        have hnone := hk3 hlt
        -- a node above a node is there
        have hup : ∀ (p : List Bytes) (x : Node) (j : Nat), (at_ x p).isSome = true → (at_ x (p.take j)).isSome = true := by
          intro p
          induction p with
          | nil => intro x j h; simpa using h
          | cons a as ih =>
            intro x j h
            cases j with
            | zero => simp [at_]
            | succ j =>
              simp only [List.take_succ_cons, at_] at h ⊢
              cases hch : child x a with
              | none => simp [hch] at h
              | some c => simp only [hch, Option.bind_some] at h ⊢; exact ih c j h
        have := hup (leading e.regex) n (k + 1) (by rw [hat]; rfl)
        rw [htake, List.take_take, Nat.min_eq_left (by omega), hnone] at this
        simp at this
      exact hmem' _ hlk m (by rw [← htake]; exact hat)
  -- the literals
  have hhead : ∃ m, (walk n [] (dirs key)).head? = some m ∧ at_ n ((dirs key).take k) = some m := by
    obtain ⟨m, hm⟩ := Option.isSome_iff_exists.1 (hk2 k (Nat.le_refl _))
    refine ⟨m, ?_, hm⟩
    rw [hwalk, List.range_succ, List.reverse_append]
    simp [hm]
  obtain ⟨m0, hm0, hat0⟩ := hhead
  have hlitm : ∀ e ∈ es, plain e.regex = some key → toLit e ∈ m0.lits := by
    intro e he hp
    have hin : toLit e ∈ obsAt Node.lits n (litPath key) := by
      rw [(hs.lits _).mem_iff]
      exact List.mem_map_of_mem (List.mem_filter.2 ⟨he, by simp [hp]⟩)
    rw [litPath_clean hc] at hin
    cases hat : at_ n ((dirs key).take 3) with
    | none => rw [obsAt, hat] at hin; simp at hin
    | some m =>
      have hk : (dirs key).take k = (dirs key).take 3 := by
        rcases Nat.lt_or_ge k 3 with hlt | hge
        · rcases Nat.lt_or_ge k (dirs key).length with h1 | h1
          · exfalso
            have hnone := hk3 h1
            have hup : ∀ (p : List Bytes) (x : Node) (j : Nat), (at_ x p).isSome = true → (at_ x (p.take j)).isSome = true := by
              intro p
              induction p with
              | nil => intro x j h; simpa using h
              | cons a as ih =>
                intro x j h
                cases j with
                | zero => simp [at_]
                | succ j =>
                  simp only [List.take_succ_cons, at_] at h ⊢
                  cases hch : child x a with
                  | none => simp [hch] at h
                  | some c => simp only [hch, Option.bind_some] at h ⊢; exact ih c j h
            have := hup ((dirs key).take 3) n (k + 1) (by rw [hat]; rfl)
            rw [List.take_take, Nat.min_eq_left (by omega), hnone] at this
            simp at this
          · rw [List.take_of_length_le h1, List.take_of_length_le (by omega)]
        · have := hs.depth ((dirs key).take k) (by rw [hat0]; rfl)
          rw [List.length_take, Nat.min_eq_left hk1] at this
          have : k = 3 := by omega
          rw [this]
      rw [hk, hat] at hat0
      simp only [Option.some.injEq] at hat0
      rw [obsAt, hat] at hin
      rw [← hat0]
      simpa using hin
  have hlitm' : ∀ l ∈ m0.lits, ∃ e ∈ es, ∃ t, plain e.regex = some t ∧ l = toLit e ∧ l.literalMatch = t := by
    intro l hl
    have hin : l ∈ obsAt Node.lits n ((dirs key).take k) := by rw [obsAt, hat0]; simpa using hl
    rw [(hs.lits _).mem_iff, List.mem_map] at hin
    obtain ⟨e, he, rfl⟩ := hin
    rw [List.mem_filter] at he
    cases hp : plain e.regex with
    | none => rw [hp] at he; simp at he
    | some t => exact ⟨e, he.1, t, hp, rfl, by simp [toLit, hp]⟩
  have hsl : SortedL m0.lits := by
    have := hs.sortedL ((dirs key).take k)
    rw [obsAt, hat0] at this
    simpa using this
  -- the search for literals
  have hlit : match litPart false key kind (walk n [] (dirs key)) with
      | some r => ∃ e ∈ es, Names e key kind ∧ r = litAnswer (toLit e) ∧ ∀ e' ∈ es, Names e' key kind → e'.kind ≤ e.kind
      | none => ∀ e ∈ es, ¬ Names e key kind := by
    have hsp := searchLit_spec hsl key
    have hlp : litPart false key kind (walk n [] (dirs key)) =
        match searchLit false m0.lits.toArray key with
        | none => none
        | some i => litLoop false key kind (m0.lits.drop i) := by
      cases hw : walk n [] (dirs key) with
      | nil => rw [hw] at hm0; simp at hm0
      | cons x xs =>
        rw [hw] at hm0
        simp only [List.head?_cons, Option.some.injEq] at hm0
        subst hm0; rfl
    rw [hlp]
    cases hsr : searchLit false m0.lits.toArray key with
    | none =>
      rw [hsr] at hsp
      intro e he hn
      have := hsp _ (hlitm e he hn.1)
      apply this
      simp [toLit, hn.1]
    | some i =>
      rw [hsr] at hsp
      simp only
      obtain ⟨⟨b, hb, hbk⟩, hbefore⟩ := hsp
      have hdrop : ∀ x ∈ m0.lits, x.literalMatch = key → x ∈ m0.lits.drop i := by
        intro x hx hxk
        obtain ⟨j, hj, rfl⟩ := List.getElem_of_mem hx
        rcases Nat.lt_or_ge j i with hlt | hge
        · exact absurd hxk (hbefore j _ hlt (List.getElem?_eq_getElem hj))
        · rw [List.mem_drop_iff_getElem]
          exact ⟨j - i, by omega, by congr 1; omega⟩
      have hl := litLoop_spec (l := m0.lits.drop i) (hsl.sublist (List.drop_sublist _ _)) key kind (by
        intro a ha
        rw [List.head?_drop, hb] at ha
        simp only [Option.some.injEq] at ha
        rw [← ha]; exact hbk)
      cases hll : litLoop false key kind (m0.lits.drop i) with
      | none =>
        rw [hll] at hl
        intro e he hn
        have h1 : (toLit e).literalMatch = key := by simp [toLit, hn.1]
        exact hl _ (hdrop _ (hlitm e he hn.1) h1) h1 ((kindOk_fits kind e).2 hn.2)
      | some r =>
        rw [hll] at hl
        obtain ⟨a, ha, hak, hao, hr, hbest⟩ := hl
        obtain ⟨e, he, t, hp, hae, hat⟩ := hlitm' a (List.mem_of_mem_drop ha)
        subst hae
        rw [hat] at hak
        subst hak
        refine ⟨e, he, ⟨hp, (kindOk_fits kind e).1 hao⟩, hr, ?_⟩
        intro e' he' hn'
        have h1 : (toLit e').literalMatch = t := by simp [toLit, hn'.1]
        exact hbest _ (hdrop _ (hlitm e' he' hn'.1) h1) h1 ((kindOk_fits kind e').2 hn'.2)
  -- the search for expressions
  have hnodes := nodesLoop_spec eng key kind none [] (walk n [] (dirs key))
    (by
      intro m hm
      obtain ⟨i, _, him⟩ := hmem m hm
      rw [hresm i m him, List.pairwise_map]
      have := List.Pairwise.filter (fun e => decide (leading e.regex = (dirs key).take i)) hsort
      rw [List.filter_filter] at this
      have hcomm : (fun e : Entry => (plain e.regex).isNone && decide (leading e.regex = (dirs key).take i)) =
          fun e => decide (leading e.regex = (dirs key).take i) && (plain e.regex).isNone :=
        funext fun e => Bool.and_comm _ _
      rw [hcomm]
      exact this)
    (by
      intro m hm r hr
      obtain ⟨e, he, hp, rfl⟩ := hre r ⟨m, hm, hr⟩
      exact hne e he hp)
    (by
      intro a b ha hb
      simp only [List.not_mem_nil, false_or] at ha hb
      obtain ⟨e, he, hpe, rfl⟩ := hre a ha
      obtain ⟨e', he', hpe', rfl⟩ := hre b hb
      rcases htri e he e' he' hpe hpe' with h | h
      · exact Or.inl (by rw [h])
      · exact Or.inr h)
    (by simp)
    (by
      rw [hwalk]
      rw [List.pairwise_filterMap]
      rw [List.pairwise_reverse]
      refine List.Pairwise.imp_of_mem (R := fun i j => i < j) ?_ List.pairwise_lt_range
      intro i j hi hj hij m hm m' hm' r hr w hw hrm hrn hwm hold
      simp only [List.mem_range] at hi hj
      rw [hresm _ _ hm] at hr
      rw [hresm _ _ hm'] at hw
      obtain ⟨e, he, rfl⟩ := List.mem_map.1 hr
      obtain ⟨e', he', rfl⟩ := List.mem_map.1 hw
      rw [List.mem_filter] at he he'
      simp only [Bool.and_eq_true, Option.isNone_iff_eq_none, decide_eq_true_eq] at he he'
      have := hnl e he.1 ((M_matches eng key kind e he.2.1).1 hrm) hrn e' he'.1
        ((M_matches eng key kind e' he'.2.1).1 hwm) hold
      rw [he.2.2, he'.2.2, List.length_take, List.length_take, Nat.min_eq_left (by omega),
        Nat.min_eq_left (by omega)] at this
      omega)
  simp only [List.not_mem_nil, false_or] at hnodes
  unfold checkNode
  revert hlit
  cases litPart false key kind (walk n [] (dirs key)) with
  | some r =>
    rintro ⟨e, he, hn, hr, hbest⟩
    simp only
    have : r.map Hit.answer = Spec.answer e := by
      rw [hr]
      unfold litAnswer Spec.answer
      by_cases hx : e.ctx = none_
      · rw [if_pos hx, if_pos (by exact hx)]; rfl
      · rw [if_neg hx, if_neg (by exact hx)]; rfl
    rw [this]
    exact .named e he hn hbest
  | none =>
    intro hlit
    simp only
    revert hnodes
    cases nodesLoop eng false key kind none (walk n [] (dirs key)) with
    | error err =>
      rintro ⟨rfl, w, hwin, hwm, hwn, hwall⟩
      obtain ⟨e, he, hp, rfl⟩ := hre w hwin
      have : (Except.error Err.noent : Except Err Hit).map Hit.answer = Spec.answer e := by
        unfold Spec.answer
        rw [if_pos (by exact hwn)]; rfl
      simp only
      rw [this]
      refine .matched e he hlit ((M_matches eng key kind e hp).1 hwm) ?_
      intro e' he' hm'
      rcases hwall _ (hre' e' he' hm') ((M_matches eng key kind e' hm'.1).2 hm') with h | h
      · left
        rcases htri e' he' e he hm'.1 hp with h' | h' | h'
        · exact h'
        · rw [← old_older, h] at h'; exact absurd h' (Old.irrefl _)
        · rw [← old_older, h] at h'; exact absurd h' (Old.irrefl _)
      · exact Or.inr h
    | ok o =>
      cases o with
      | none =>
        intro hno
        refine .nothing hlit ?_
        intro e he hm
        exact hno _ (hre' e he hm) ((M_matches eng key kind e hm.1).2 hm)
      | some w =>
        rintro ⟨hwin, hwm, hwn, hwall⟩
        obtain ⟨e, he, hp, rfl⟩ := hre w hwin
        simp only
        have : (Except.ok (⟨(toRe e).regexStr, (toRe e).ctx, (toRe e).prefixLen, (toRe e).kind, true⟩ : Hit) :
            Except Err Hit).map Hit.answer = Spec.answer e := by
          unfold Spec.answer
          rw [if_neg (by exact hwn)]; rfl
        rw [this]
        refine .matched e he hlit ((M_matches eng key kind e hp).1 hwm) ?_
        intro e' he' hm'
        rcases hwall _ (hre' e' he' hm') ((M_matches eng key kind e' hm'.1).2 hm') with h | h
        · left
          rcases htri e' he' e he hm'.1 hp with h' | h' | h'
          · exact h'
          · rw [← old_older, h] at h'; exact absurd h' (Old.irrefl _)
          · rw [← old_older, h] at h'; exact absurd h' (Old.irrefl _)
        · exact Or.inr h

theorem checkNode_says {files : List (List Bytes)} {n : Node} (hs : Sorted (entries 0 files) n) (eng : Engine)
    (key : Bytes) (kind : Nat) (hc : Clean key) (hroot : Rooted eng (entries 0 files) key)
    (hne : NoError eng (entries 0 files) key) (hnl : NoneLast eng (entries 0 files) key kind) :
    Says eng (entries 0 files) key kind
      ((checkNode eng false key kind (deepest n [] key)).map Hit.answer) :=
  checkNode_says' hs ((entries_sorted 0 files).filter _) (fun _ ha _ hb _ _ => entries_tri ha hb) eng key kind hc hroot hne hnl

end Verif.FileLabel
