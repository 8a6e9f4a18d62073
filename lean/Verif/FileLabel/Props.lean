import Verif.FileLabel.Paths
/-!
# Properties of file labels
-/
namespace Verif.FileLabel
open Spec

/-! ## Examples -/

/-- The bytes of a text. -/
def str (s : String) : Bytes := s.toList.map (fun c => UInt8.ofNat c.toNat)

/-- Insert into a sorted list. -/
def ins {α : Type} (cmp : α → α → Int) (x : α) : List α → List α
  | [] => [x]
  | y :: ys => if cmp x y ≤ 0 then x :: y :: ys else y :: ins cmp x ys

/-- A stable sorting function. -/
def stable : Qsort := ⟨fun cmp l => l.foldr (ins cmp) []⟩

theorem ins_perm {α : Type} (cmp : α → α → Int) (x : α) (l : List α) : (ins cmp x l).Perm (x :: l) := by
  induction l with
  | nil => exact List.Perm.refl _
  | cons y ys ih =>
    rw [ins]
    split
    · exact List.Perm.refl _
    · exact (List.Perm.cons y ih).trans (List.Perm.swap x y ys)

theorem ins_sorted {α : Type} {cmp : α → α → Int} (hc : Consistent cmp) (x : α) (l : List α)
    (h : l.Pairwise (fun a b => cmp a b ≤ 0)) : (ins cmp x l).Pairwise (fun a b => cmp a b ≤ 0) := by
  induction l with
  | nil => simp [ins]
  | cons y ys ih =>
    rw [ins]
    have h' := List.pairwise_cons.1 h
    split
    · rename_i hxy
      refine List.pairwise_cons.2 ⟨?_, h⟩
      intro z hz
      rcases List.mem_cons.1 hz with rfl | hz
      · exact hxy
      · exact hc.trans _ _ _ hxy (h'.1 z hz)
    · rename_i hxy
      refine List.pairwise_cons.2 ⟨?_, ih h'.2⟩
      intro z hz
      rcases List.mem_cons.1 ((ins_perm cmp x ys).mem_iff.1 hz) with rfl | hz
      · have := hc.anti y z; omega
      · exact h'.1 z hz

/-- The stable sorting function sorts. -/
theorem stable_sorts : Sorts stable := by
  intro α cmp l
  constructor
  · change (l.foldr (ins cmp) []).Perm l
    induction l with
    | nil => exact List.Perm.refl _
    | cons x l ih => exact (ins_perm cmp x _).trans (List.Perm.cons x ih)
  · intro hc
    change (l.foldr (ins cmp) []).Pairwise _
    induction l with
    | nil => exact List.Pairwise.nil
    | cons x l ih => exact ins_sorted hc x _ ih

/-! ## C60: which specification a lookup returns -/

unseal isMeta isEscapable in
/-- The characters that make a specification an expression, those that a backslash makes plain, and white space. -/
theorem C60_characters (b : Byte) :
    (isMeta b = true ↔ b ∈ str ".^$?*+|[({])}") ∧ (isEscapable b = true ↔ b ∈ str ".^$?*+|[({])}-_,") ∧
    (isspace b = true ↔ b ∈ str " \t\n\r" ∨ b = 11 ∨ b = 12) := by
  have h : ∀ n : Fin 256, (isMeta ⟨⟨n⟩⟩ = true ↔ (⟨⟨n⟩⟩ : Byte) ∈ str ".^$?*+|[({])}") ∧
      (isEscapable ⟨⟨n⟩⟩ = true ↔ (⟨⟨n⟩⟩ : Byte) ∈ str ".^$?*+|[({])}-_,") ∧
      (isspace ⟨⟨n⟩⟩ = true ↔ (⟨⟨n⟩⟩ : Byte) ∈ str " \t\n\r" ∨ (⟨⟨n⟩⟩ : Byte) = 11 ∨ (⟨⟨n⟩⟩ : Byte) = 12) := by decide +kernel
  exact h b.toBitVec.toFin

/-- The lookup returns what the specifications say about the path: a
specification that names the path, else the last expression that matches. -/
theorem C60_partial (q : Qsort) (hq : Sorts q) (files : List (List Bytes)) (d : Data)
    (hl : load q none files = some d) (eng : Engine) (subs dist : List Sub) (key : Bytes) (kind : Nat)
    (hk : key.head? = some 47) (path : Bytes) (hp : path = subKey subs dist (joinPath (names key)))
    (hc : Clean path) (hroot : Rooted eng (entries 0 files) path) (hne : NoError eng (entries 0 files) path)
    (hnl : NoneLast eng (entries 0 files) path kind) :
    Says eng (entries 0 files) path kind
      ((lookupAll eng d subs dist key kind false).map (fun h => (h.regexStr, h.kind, h.ctx))) ∧
    lookup eng d subs dist key kind = (lookupAll eng d subs dist key kind false).map Hit.ctx := by
  constructor
  · obtain ⟨hs, hnum⟩ := load_sorted hq hl
    unfold lookupAll
    by_cases h0 : d.num = 0
    · rw [if_pos h0]
      rw [h0] at hnum
      have : entries 0 files = [] := List.length_eq_zero_iff.1 hnum.symm
      rw [this]
      exact .nothing (by simp) (by simp)
    · rw [if_neg h0]
      simp only
      rw [if_neg (dedup_nonempty hk), chop_dedup key hk, ← hp]
      exact checkNode_says hs eng path kind hc hroot hne hnl
  · unfold lookup
    cases lookupAll eng d subs dist key kind false <;> rfl

/-- Expressions that start at the root, have no alternatives at the top and no
repeated slashes never match outside of their fixed directories, whatever the
engine does with the rest of them. -/
theorem C60_regular (q : Qsort) (hq : Sorts q) (files : List (List Bytes)) (d : Data)
    (hl : load q none files = some d) (eng : Engine) (hlaw : FixedBeginning eng)
    (hreg : ∀ e ∈ entries 0 files, plain e.regex = none → Regular e.regex) (key : Bytes) (kind : Nat)
    (hk : key.head? = some 47) (hne : NoError eng (entries 0 files) (joinPath (names key)))
    (hnl : NoneLast eng (entries 0 files) (joinPath (names key)) kind) :
    Says eng (entries 0 files) (joinPath (names key)) kind
      ((lookupAll eng d [] [] key kind false).map (fun h => (h.regexStr, h.kind, h.ctx))) :=
  (C60_partial q hq files d hl eng [] [] key kind hk _ rfl (clean_join key)
    (rooted_of_regular hlaw hreg (clean_join key)) hne hnl).1

/-- The specifications determine the result, unless two of them name the same
path for the same kind of file. -/
theorem C60_determined (eng : Engine) (es : List Entry) (path : Bytes) (kind : Nat)
    (hdup : ∀ a ∈ es, ∀ b ∈ es, plain a.regex ≠ none → plain a.regex = plain b.regex → a.kind = b.kind → a = b)
    (x y : Except Err (Bytes × Nat × Bytes)) (hx : Says eng es path kind x) (hy : Says eng es path kind y) :
    x = y := by
  have older_irrefl : ∀ a : Entry, ¬ Older a a := by intro a; unfold Older; omega
  have older_asymm : ∀ a b : Entry, Older a b → ¬ Older b a := by intro a b; unfold Older; omega
  cases hx with
  | named e he hn hb =>
    cases hy with
    | named e' he' hn' hb' =>
      have : e = e' := hdup e he e' he' (by rw [hn.1]; simp) (by rw [hn.1, hn'.1])
        (Nat.le_antisymm (hb' e he hn) (hb e' he' hn'))
      rw [this]
    | matched e' he' hno => exact absurd hn (hno e he)
    | nothing hno => exact absurd hn (hno e he)
  | matched e he hno hm hl =>
    cases hy with
    | named e' he' hn' => exact absurd hn' (hno e' he')
    | matched e' he' hno' hm' hl' =>
      have : e = e' := by
        rcases hl e' he' hm' with h | h
        · exact h.symm
        · rcases hl' e he hm with h' | h'
          · exact h'
          · exact absurd h' (older_asymm _ _ h)
      rw [this]
    | nothing _ hnm => exact absurd hm (hnm e he)
  | nothing hno hnm =>
    cases hy with
    | named e' he' hn' => exact absurd hn' (hno e' he')
    | matched e' he' _ hm' => exact absurd hm' (hnm e' he')
    | nothing => rfl

/-- An engine for the expressions `.*`, `/usr/.*` and `/usr/?bin`. -/
def eng0 : Engine := fun r key _ =>
  if r = str ".*" then .full
  else if r = str "/usr/.*" then (if (str "/usr/").isPrefixOf key then .full else .no)
  else if r = str "/usr/?bin" then (if key = str "/usr/bin" ∨ key = str "/usrbin" then .full else .no)
  else .no

/-- The specification of a path that a lookup returns is not always the last one
that matches: `/usr/?bin` matches `/usrbin`, but is kept with the expressions for
`/usr/`, which are not tried. -/
theorem C60_refuted : ∃ (files : List (List Bytes)) (d : Data) (path : Bytes) (e : Entry),
    load stable none files = some d ∧ e ∈ entries 0 files ∧ Matches eng0 e path 0 ∧
    lookup eng0 d [] [] path 0 = .error .noent ∧
    ¬ Says eng0 (entries 0 files) path 0
      ((lookupAll eng0 d [] [] path 0 false).map (fun h => (h.regexStr, h.kind, h.ctx))) := by
  have hr : (load stable none [[str "/usr/?bin x"]]).map
      (fun d => ((lookup eng0 d [] [] (str "/usrbin") 0).toOption,
        (lookupAll eng0 d [] [] (str "/usrbin") 0 false).toOption.isNone)) = some (none, true) := by
    decide +kernel
  have hr2 : ((load stable none [[str "/usr/?bin x"]]).map
      (fun d => match lookupAll eng0 d [] [] (str "/usrbin") 0 false with
        | .error .noent => true | _ => false)) = some true := by decide +kernel
  cases hd : load stable none [[str "/usr/?bin x"]] with
  | none => rw [hd] at hr; simp at hr
  | some d =>
    rw [hd] at hr2
    simp only [Option.map_some, Option.some.injEq] at hr2
    have hla : lookupAll eng0 d [] [] (str "/usrbin") 0 false = .error .noent := by
      split at hr2
      · assumption
      · simp at hr2
    have hes : entries 0 [[str "/usr/?bin x"]] = [⟨str "/usr/?bin", 0, str "x", 0, 1⟩] := by decide +kernel
    have hm : Matches eng0 ⟨str "/usr/?bin", 0, str "x", 0, 1⟩ (str "/usrbin") 0 :=
      ⟨by decide +kernel, Or.inl rfl, by decide +kernel⟩
    refine ⟨[[str "/usr/?bin x"]], d, str "/usrbin", ⟨str "/usr/?bin", 0, str "x", 0, 1⟩, hd, by rw [hes]; simp, hm, ?_, ?_⟩
    · unfold lookup; rw [hla]
    · rw [hla, hes]
      intro hs
      have herr : (Except.error Err.noent : Except Err Hit).map (fun h => (h.regexStr, h.kind, h.ctx)) = .error .noent := rfl
      rw [herr] at hs
      have hans : ∀ e ∈ [(⟨str "/usr/?bin", 0, str "x", 0, 1⟩ : Entry)], answer e ≠ .error .noent := by
        intro e he
        simp only [List.mem_singleton] at he
        subst he
        unfold answer
        rw [if_neg (by decide +kernel)]
        simp
      generalize hg : (Except.error Err.noent : Except Err (Bytes × Nat × Bytes)) = a at hs
      cases hs with
      | named e he => exact hans e he hg.symm
      | matched e he => exact hans e he hg.symm
      | nothing _ hnm => exact hnm _ (by simp) hm

/-- A match with `<<none>>` ends the lookup even if a later specification with
fewer fixed directories matches. -/
theorem C60_none_refuted : ∃ (files : List (List Bytes)) (d : Data) (path : Bytes) (e : Entry),
    load stable none files = some d ∧ e ∈ entries 0 files ∧ Matches eng0 e path 0 ∧ e.ctx ≠ none_ ∧
    (∀ e' ∈ entries 0 files, plain e'.regex = none ∧ (e' = e ∨ Older e' e)) ∧
    lookup eng0 d [] [] path 0 = .error .noent := by
  have hr2 : ((load stable none [[str "/usr/.* <<none>>", str ".* x"]]).map
      (fun d => match lookup eng0 d [] [] (str "/usr/y") 0 with
        | .error .noent => true | _ => false)) = some true := by decide +kernel
  cases hd : load stable none [[str "/usr/.* <<none>>", str ".* x"]] with
  | none => rw [hd] at hr2; simp at hr2
  | some d =>
    rw [hd] at hr2
    simp only [Option.map_some, Option.some.injEq] at hr2
    have hla : lookup eng0 d [] [] (str "/usr/y") 0 = .error .noent := by
      split at hr2
      · assumption
      · simp at hr2
    have hes : entries 0 [[str "/usr/.* <<none>>", str ".* x"]] =
        [⟨str "/usr/.*", 0, none_, 0, 1⟩, ⟨str ".*", 0, str "x", 0, 2⟩] := by decide +kernel
    refine ⟨[[str "/usr/.* <<none>>", str ".* x"]], d, str "/usr/y", ⟨str ".*", 0, str "x", 0, 2⟩, hd,
      by rw [hes]; simp, ⟨by decide +kernel, Or.inl rfl, by decide +kernel⟩, by decide +kernel, ?_, hla⟩
    rw [hes]
    intro e' he'
    simp only [List.mem_cons, List.not_mem_nil, or_false] at he'
    rcases he' with rfl | rfl
    · exact ⟨by decide +kernel, Or.inr (Or.inr ⟨rfl, by decide⟩)⟩
    · exact ⟨by decide +kernel, Or.inl rfl⟩

/-- A specification of a path in a later file does not replace the one of the
same path in an earlier file. -/
theorem C60_local_refuted : ∃ (files : List (List Bytes)) (d : Data) (path : Bytes) (a b : Entry),
    load stable none files = some d ∧ entries 0 files = [a, b] ∧ Older a b ∧ Names a path 0 ∧ Names b path 0 ∧
    a.ctx ≠ b.ctx ∧ lookup eng0 d [] [] path 0 = .ok a.ctx := by
  have hr2 : ((load stable none [[str "/etc x"], [str "/etc y"]]).map
      (fun d => match lookup eng0 d [] [] (str "/etc") 0 with
        | .ok c => decide (c = str "x") | _ => false)) = some true := by decide +kernel
  cases hd : load stable none [[str "/etc x"], [str "/etc y"]] with
  | none => rw [hd] at hr2; simp at hr2
  | some d =>
    rw [hd] at hr2
    simp only [Option.map_some, Option.some.injEq] at hr2
    refine ⟨[[str "/etc x"], [str "/etc y"]], d, str "/etc", ⟨str "/etc", 0, str "x", 0, 1⟩,
      ⟨str "/etc", 0, str "y", 1, 1⟩, hd, by decide +kernel, Or.inl (by decide), ⟨by decide +kernel, Or.inl rfl⟩,
      ⟨by decide +kernel, Or.inl rfl⟩, by decide +kernel, ?_⟩
    split at hr2
    · rename_i c hc
      rw [hc]
      simp only [decide_eq_true_eq] at hr2
      rw [hr2]
    · simp at hr2

/-- An engine for `/usr/.*`. -/
def eng1 : Engine := fun r key _ =>
  if r = str "/usr/.*" then (if (str "/usr/").isPrefixOf key then .full else .no) else .no

/-- The law of fixed beginnings holds of an engine that matches. -/
theorem eng1_law : FixedBeginning eng1 := by
  intro lit rest t path hp _ _ hf
  unfold eng1 at hf
  by_cases hr : lit ++ rest = str "/usr/.*"
  · rw [if_pos hr] at hf
    by_cases hpre : (str "/usr/").isPrefixOf path = true
    · have hpre' : str "/usr/" <+: path := List.isPrefixOf_iff_prefix.1 hpre
      have hlit : lit = (str "/usr/.*").take lit.length := by rw [← hr]; simp
      have hlen : lit.length ≤ 7 := by
        have h7 : (lit ++ rest).length = 7 := by rw [hr]; decide +kernel
        rw [List.length_append] at h7; omega
      have key : ∀ n ≤ 7, ∀ t, plain ((str "/usr/.*").take n) = some t → t <+: str "/usr/" := by
        have : ∀ n ≤ 7, (match plain ((str "/usr/.*").take n) with
            | none => true | some t => t.isPrefixOf (str "/usr/")) = true := by decide +kernel
        intro n hn t ht
        have h := this n hn
        rw [ht] at h
        exact List.isPrefixOf_iff_prefix.1 h
      rw [hlit] at hp
      exact (key _ hlen t hp).trans hpre'
    · rw [if_neg hpre] at hf; simp at hf
  · rw [if_neg hr] at hf; simp at hf

/-- The files of the example. -/
def files1 : List (List Bytes) := [[str "# comment", str "/usr/.*   x", str "/usr/bin  --  z", str "/usr/bin -d w"], []]

example : entries 0 files1 = [⟨str "/usr/.*", 0, str "x", 0, 2⟩, ⟨str "/usr/bin", 7, str "z", 0, 3⟩,
    ⟨str "/usr/bin", 1, str "w", 0, 4⟩] := by decide +kernel

theorem files1_regular : ∀ e ∈ entries 0 files1, plain e.regex = none → Regular e.regex := by
  have hes : entries 0 files1 = [⟨str "/usr/.*", 0, str "x", 0, 2⟩, ⟨str "/usr/bin", 7, str "z", 0, 3⟩,
    ⟨str "/usr/bin", 1, str "w", 0, 4⟩] := by decide +kernel
  rw [hes]
  intro e he hp
  simp only [List.mem_cons, List.not_mem_nil, or_false] at he
  rcases he with rfl | rfl | rfl
  · refine ⟨by decide +kernel, Or.inl (by decide +kernel), ?_⟩
    intro a b c h
    change str "/usr/.*" = a ++ 47 :: b :: c at h
    have hlen : a.length + (c.length + 2) = 7 := by
      have : (str "/usr/.*").length = 7 := by decide +kernel
      rw [h] at this; simpa [Nat.add_assoc] using this
    have hb : (str "/usr/.*")[a.length + 1]? = some b := by rw [h]; simp
    have ha : (str "/usr/.*")[a.length]? = some 47 := by rw [h]; simp
    have key : ∀ n ≤ 5, (str "/usr/.*")[n]? = some 47 → ∀ b, (str "/usr/.*")[n + 1]? = some b → quantifier b = false := by
      have : ∀ n ≤ 5, (if (str "/usr/.*")[n]? = some 47 then
        (match (str "/usr/.*")[n + 1]? with | some b => !quantifier b | none => true) else true) = true := by
        decide +kernel
      intro n hn h1 b h2
      have h3 := this n hn
      rw [if_pos h1, h2] at h3
      simpa using h3
    exact key a.length (by omega) ha b hb
  · exact absurd hp (by decide +kernel)
  · exact absurd hp (by decide +kernel)

/-- The hypotheses of C60 are met by a lookup that has to choose between two
literals and an expression. -/
example : (load stable none files1).map (fun d => ((lookup eng1 d [] [] (str "//usr/bin/") 1).toOption,
      (lookup eng1 d [] [] (str "/usr/bin") 3).toOption, (lookup eng1 d [] [] (str "/bin") 0).toOption)) =
    some (some (str "w"), some (str "x"), none) := by decide +kernel

example : joinPath (names (str "//usr/bin/")) = str "/usr/bin" := by decide +kernel

example (key : Bytes) (kind : Nat) : NoError eng1 (entries 0 files1) key ∧ NoneLast eng1 (entries 0 files1) key kind := by
  constructor
  · intro e _ _
    unfold eng1
    split
    · split
      · exact Or.inl rfl
      · exact Or.inr rfl
    · exact Or.inr rfl
  · intro e he _ hn
    have hes : ∀ e ∈ entries 0 files1, e.ctx ≠ none_ := by
      have hes : entries 0 files1 = [⟨str "/usr/.*", 0, str "x", 0, 2⟩, ⟨str "/usr/bin", 7, str "z", 0, 3⟩,
        ⟨str "/usr/bin", 1, str "w", 0, 4⟩] := by decide +kernel
      rw [hes]
      intro e he
      simp only [List.mem_cons, List.not_mem_nil, or_false] at he
      rcases he with rfl | rfl | rfl <;> decide +kernel
    exact absurd hn (hes e he)

/-! ## C61: spelling of paths -/

/-- Two paths with the same names between their slashes are looked up alike. -/
theorem C61_spelling (eng : Engine) (d : Data) (subs dist : List Sub) (a b : Bytes) (kind : Nat) (pm : Bool)
    (ha : a.head? = some 47) (hb : b.head? = some 47) (h : names a = names b) :
    lookupAll eng d subs dist a kind pm = lookupAll eng d subs dist b kind pm := by
  unfold lookupAll
  split
  · rfl
  · simp only
    rw [if_neg (dedup_nonempty ha), if_neg (dedup_nonempty hb), chop_dedup a ha, chop_dedup b hb, h]

example : names (str "//usr///bin/") = names (str "/usr/bin") := by decide +kernel
example : names (str "///") = names (str "/") := by decide +kernel

/-! ## C62: substitutions -/

/-- A path is looked up as the path that the first local substitution and then
the first distribution substitution make of it. -/
theorem C62_substitution (eng : Engine) (d : Data) (subs dist : List Sub) (key : Bytes) (kind : Nat) (pm : Bool)
    (hk : key.head? = some 47) :
    ∃ p1 p2,
      (Substitutes subs (joinPath (names key)) p1 ∨
        (∀ s ∈ subs, ¬ ∃ rest, Under s.src (joinPath (names key)) rest) ∧ p1 = joinPath (names key)) ∧
      (Substitutes dist p1 p2 ∨ (∀ s ∈ dist, ¬ ∃ rest, Under s.src p1 rest) ∧ p2 = p1) ∧
      (p2.head? = some 47 → p2 = joinPath (names p2) →
        lookupAll eng d subs dist key kind pm = lookupAll eng d [] [] p2 kind pm) := by
  have hfinal : ∀ p2, p2 = subKey subs dist (joinPath (names key)) → p2.head? = some 47 → p2 = joinPath (names p2) →
      lookupAll eng d subs dist key kind pm = lookupAll eng d [] [] p2 kind pm := by
    intro p2 hp h1 h2
    unfold lookupAll
    split
    · rfl
    · simp only
      rw [if_neg (dedup_nonempty hk), if_neg (dedup_nonempty h1), chop_dedup key hk, chop_dedup p2 h1, ← hp, ← h2]
      rfl
  have h1 := applySubs_spec subs (joinPath (names key))
  cases ha : applySubs subs (joinPath (names key)) with
  | none =>
    rw [ha] at h1
    have h2 := applySubs_spec dist (joinPath (names key))
    cases hb : applySubs dist (joinPath (names key)) with
    | none =>
      rw [hb] at h2
      exact ⟨_, _, Or.inr ⟨h1, rfl⟩, Or.inr ⟨h2, rfl⟩, hfinal _ (by simp [subKey, ha, hb])⟩
    | some p2 =>
      rw [hb] at h2
      exact ⟨_, p2, Or.inr ⟨h1, rfl⟩, Or.inl h2, hfinal _ (by simp [subKey, ha, hb])⟩
  | some p1 =>
    rw [ha] at h1
    have h2 := applySubs_spec dist p1
    cases hb : applySubs dist p1 with
    | none =>
      rw [hb] at h2
      exact ⟨p1, p1, Or.inl h1, Or.inr ⟨h2, rfl⟩, hfinal _ (by simp [subKey, ha, hb])⟩
    | some p2 =>
      rw [hb] at h2
      exact ⟨p1, p2, Or.inl h1, Or.inl h2, hfinal _ (by simp [subKey, ha, hb])⟩

/-- There is only one first substitution. -/
theorem C62_unique (subs : List Sub) (path a b : Bytes) (ha : Substitutes subs path a) (hb : Substitutes subs path b) :
    a = b := by
  obtain ⟨p1, s1, q1, r1, h1, u1, n1, rfl⟩ := ha
  obtain ⟨p2, s2, q2, r2, h2, u2, n2, rfl⟩ := hb
  have hlen : p1.length = p2.length := by
    rcases Nat.lt_trichotomy p1.length p2.length with h | h | h
    · exfalso
      have : subs[p1.length]? = some s1 := by rw [h1]; simp
      rw [h2, List.getElem?_append_left h] at this
      exact n2 s1 (List.mem_of_getElem? this) ⟨r1, u1⟩
    · exact h
    · exfalso
      have : subs[p2.length]? = some s2 := by rw [h2]; simp
      rw [h1, List.getElem?_append_left h] at this
      exact n1 s2 (List.mem_of_getElem? this) ⟨r2, u2⟩
  have hs : s1 = s2 := by
    have e1 : subs[p1.length]? = some s1 := by rw [h1]; simp
    have e2 : subs[p1.length]? = some s2 := by rw [h2, hlen]; simp
    rw [e1] at e2; simpa using e2
  subst hs
  have hr : r1 = r2 := by
    have := u1.1.symm.trans u2.1
    exact List.append_cancel_left this
  rw [hr]

example : Substitutes [⟨str "/run/lock", str "/var/lock"⟩, ⟨str "/run", str "/var/run"⟩] (str "/run/x") (str "/var/run/x") :=
  ⟨[⟨str "/run/lock", str "/var/lock"⟩], ⟨str "/run", str "/var/run"⟩, [], str "/x", rfl,
    ⟨by decide +kernel, by decide +kernel⟩, by
      rintro x hx ⟨rest, h, _⟩
      simp only [List.mem_singleton] at hx
      subst hx
      have : (str "/run/x").take 9 = str "/run/lock" := by
        rw [h]
        have : (str "/run/lock").length = 9 := by decide +kernel
        rw [← this]; simp
      exact absurd this (by decide +kernel), by decide +kernel⟩

/-! ## C63: the best of several names -/

theorem bestLoop_exact (best : Option Hit) (n : Nat) (pre post : List (Except Err Hit)) (h : Hit)
    (hpre : ∀ x ∈ pre, ∀ y, x = .ok y → y.hasMeta = true) (hh : h.hasMeta = false) :
    bestLoop best n (pre ++ .ok h :: post) = .ok h := by
  induction pre generalizing best n with
  | nil => rw [List.nil_append, bestLoop, hh]; simp
  | cons x pre ih =>
    have ih := fun b n => ih (best := b) (n := n) (fun x hx => hpre x (List.mem_cons_of_mem _ hx))
    rw [List.cons_append]
    cases x with
    | error e => rw [bestLoop]; exact ih best n
    | ok y =>
      have := hpre _ List.mem_cons_self y rfl
      rw [bestLoop, this]
      simp only [Bool.not_true, Bool.false_eq_true, if_false]
      split
      · exact ih _ _
      · exact ih _ _

/-- The first of the longest fixed beginnings. -/
def Longest (rs : List (Except Err Hit)) (h : Hit) : Prop :=
  ∃ pre post, rs = pre ++ .ok h :: post ∧ (∀ y, .ok y ∈ pre → y.prefixLen < h.prefixLen) ∧
    (∀ y, .ok y ∈ post → y.prefixLen ≤ h.prefixLen)

theorem bestLoop_longest (best : Option Hit) (n : Nat) (rs : List (Except Err Hit))
    (hrs : ∀ y, .ok y ∈ rs → y.hasMeta = true) :
    (∃ h, bestLoop best n rs = .ok h ∧ Longest rs h ∧ n < h.prefixLen) ∨
    ((∀ y, .ok y ∈ rs → y.prefixLen ≤ n) ∧ bestLoop best n rs = match best with | some h => .ok h | none => .error .noent) := by
  induction rs generalizing best n with
  | nil => right; exact ⟨by simp, by cases best <;> rw [bestLoop.eq_def]⟩
  | cons x rs ih =>
    have ih := fun b n => ih (best := b) (n := n) (fun y hy => hrs y (List.mem_cons_of_mem _ hy))
    cases x with
    | error e =>
      rw [bestLoop]
      rcases ih best n with ⟨h, h1, ⟨pre, post, h2, h3, h4⟩, h5⟩ | ⟨h1, h2⟩
      · refine Or.inl ⟨h, h1, ⟨.error e :: pre, post, by rw [h2]; rfl, ?_, h4⟩, h5⟩
        intro y hy
        rcases List.mem_cons.1 hy with hy | hy
        · simp at hy
        · exact h3 y hy
      · refine Or.inr ⟨?_, h2⟩
        intro y hy
        rcases List.mem_cons.1 hy with hy | hy
        · simp at hy
        · exact h1 y hy
    | ok z =>
      have hz := hrs z List.mem_cons_self
      rw [bestLoop, hz]
      simp only [Bool.not_true, Bool.false_eq_true, if_false]
      by_cases hgt : z.prefixLen > n
      · rw [if_pos hgt]
        left
        rcases ih (some z) z.prefixLen with ⟨h, h1, ⟨pre, post, h2, h3, h4⟩, h5⟩ | ⟨h1, h2⟩
        · refine ⟨h, h1, ⟨.ok z :: pre, post, by rw [h2]; rfl, ?_, h4⟩, by omega⟩
          intro y hy
          rcases List.mem_cons.1 hy with hy | hy
          · simp only [Except.ok.injEq] at hy; rw [hy]; exact h5
          · exact h3 y hy
        · exact ⟨z, h2, ⟨[], rs, rfl, by simp, h1⟩, hgt⟩
      · rw [if_neg hgt]
        rcases ih best n with ⟨h, h1, ⟨pre, post, h2, h3, h4⟩, h5⟩ | ⟨h1, h2⟩
        · refine Or.inl ⟨h, h1, ⟨.ok z :: pre, post, by rw [h2]; rfl, ?_, h4⟩, h5⟩
          intro y hy
          rcases List.mem_cons.1 hy with hy | hy
          · simp only [Except.ok.injEq] at hy; rw [hy]; omega
          · exact h3 y hy
        · refine Or.inr ⟨?_, h2⟩
          intro y hy
          rcases List.mem_cons.1 hy with hy | hy
          · simp only [Except.ok.injEq] at hy; rw [hy]; omega
          · exact h1 y hy

/-- With several names of a file, the first one that a specification names
exactly is used; else the match with the longest fixed beginning, the first of
these; this is so if the path itself has a match or the longest fixed beginning
is not empty. -/
theorem C63_partial (eng : Engine) (d : Data) (subs dist : List Sub) (key : Bytes) (aliases : List Bytes) (kind : Nat)
    (rs : List (Except Err Hit)) (hrs : rs = (key :: aliases).map (fun k => lookupAll eng d subs dist k kind false)) :
    (∀ pre h post, rs = pre ++ .ok h :: post → h.hasMeta = false → (∀ y, .ok y ∈ pre → y.hasMeta = true) →
      bestMatch eng d subs dist key aliases kind = .ok h) ∧
    ((∀ y, .ok y ∈ rs → y.hasMeta = true) →
      ((∃ h, lookupAll eng d subs dist key kind false = .ok h) ∨ ∃ h, .ok h ∈ rs ∧ 0 < h.prefixLen) →
      ∃ h, bestMatch eng d subs dist key aliases kind = .ok h ∧ Longest rs h) ∧
    ((∀ h, .ok h ∉ rs) → ∃ e, bestMatch eng d subs dist key aliases kind = .error e) := by
  subst hrs
  simp only [List.map_cons]
  generalize hlook : (fun k => lookupAll eng d subs dist k kind false) = look
  have hlk : ∀ k, lookupAll eng d subs dist k kind false = look k := fun k => by rw [← hlook]
  have hb : bestMatch eng d subs dist key aliases kind =
      if aliases = [] then look key
      else match look key with
        | .ok h => if !h.hasMeta then .ok h else bestLoop (some h) h.prefixLen (aliases.map look)
        | .error _ => bestLoop none 0 (aliases.map look) := by
    unfold bestMatch; rw [hlook]; rfl
  rw [hb]
  simp only [hlk]
  refine ⟨?_, ?_, ?_⟩
  · intro pre h post hsplit hh hpre
    cases pre with
    | nil =>
      simp only [List.nil_append, List.cons.injEq] at hsplit
      rw [hsplit.1]
      split
      · rfl
      · simp only [hh]; rfl
    | cons x pre =>
      simp only [List.cons_append, List.cons.injEq] at hsplit
      have hne : aliases ≠ [] := by
        rintro rfl
        simp at hsplit
      rw [if_neg hne, hsplit.2]
      have hpre' : ∀ x ∈ pre, ∀ y, x = .ok y → y.hasMeta = true := by
        rintro x hx y rfl
        exact hpre y (List.mem_cons_of_mem _ hx)
      cases hx : look key with
      | error e => exact bestLoop_exact none 0 pre post h hpre' hh
      | ok z =>
        have hz := hpre z (by rw [← hsplit.1, hx]; exact List.mem_cons_self)
        simp only [hz, Bool.not_true, Bool.false_eq_true, if_false]
        exact bestLoop_exact _ _ pre post h hpre' hh
  · intro hall hex
    have hall' : ∀ y, .ok y ∈ aliases.map look → y.hasMeta = true :=
      fun y hy => hall y (List.mem_cons_of_mem _ hy)
    by_cases hne : aliases = []
    · subst hne
      rw [if_pos rfl]
      rcases hex with ⟨h, hh⟩ | ⟨h, hh, _⟩
      · exact ⟨h, hh, [], [], by simp [hh], by simp, by simp⟩
      · simp only [List.map_nil, List.mem_cons, List.not_mem_nil, or_false] at hh
        exact ⟨h, hh.symm, [], [], by simp [← hh], by simp, by simp⟩
    · rw [if_neg hne]
      cases hx : look key with
      | error e =>
        simp only
        rcases bestLoop_longest none 0 (aliases.map look) hall' with ⟨h, h1, ⟨pre, post, h2, h3, h4⟩, _⟩ | ⟨h1, _⟩
        · refine ⟨h, h1, .error e :: pre, post, by rw [h2]; rfl, ?_, h4⟩
          intro y hy
          rcases List.mem_cons.1 hy with hy | hy
          · simp at hy
          · exact h3 y hy
        · exfalso
          rw [hx] at hex
          rcases hex with ⟨h, hh⟩ | ⟨h, hh, hp⟩
          · simp at hh
          · rcases List.mem_cons.1 hh with hh | hh
            · simp at hh
            · have := h1 h hh; omega
      | ok z =>
        have hz := hall z (by rw [hx]; exact List.mem_cons_self)
        simp only [hz, Bool.not_true, Bool.false_eq_true, if_false]
        rcases bestLoop_longest (some z) z.prefixLen (aliases.map look) hall' with ⟨h, h1, ⟨pre, post, h2, h3, h4⟩, h5⟩ | ⟨h1, h2⟩
        · refine ⟨h, h1, .ok z :: pre, post, by rw [h2]; rfl, ?_, h4⟩
          intro y hy
          rcases List.mem_cons.1 hy with hy | hy
          · simp only [Except.ok.injEq] at hy; rw [hy]; exact h5
          · exact h3 y hy
        · exact ⟨z, h2, [], aliases.map look, rfl, by simp, h1⟩
  · intro hno
    have hk : ∃ e, look key = .error e := by
      cases hx : look key with
      | error e => exact ⟨e, rfl⟩
      | ok z => exact absurd (by rw [hx]; exact List.mem_cons_self) (hno z)
    obtain ⟨e, he⟩ := hk
    rw [he]
    split
    · exact ⟨e, rfl⟩
    · simp only
      have hall' : ∀ y, .ok y ∈ aliases.map look → y.hasMeta = true :=
        fun y hy => absurd (List.mem_cons_of_mem _ hy) (hno y)
      rcases bestLoop_longest none 0 (aliases.map look) hall' with ⟨h, _, ⟨pre, post, h2, _⟩, _⟩ | ⟨_, h2⟩
      · exact absurd (List.mem_cons_of_mem _ (by rw [h2]; simp)) (hno h)
      · exact ⟨_, h2⟩

/-- If the path itself has no match, a match of another name is lost when its
expression has no fixed beginning. -/
theorem C63_refuted : ∃ (files : List (List Bytes)) (d : Data) (eng : Engine) (key al : Bytes) (h : Hit),
    load stable none files = some d ∧ lookupAll eng d [] [] al 0 false = .ok h ∧
    bestMatch eng d [] [] key [al] 0 = .error .noent := by
  have hr2 : ((load stable none [[str ".*x c"]]).map
      (fun d => match lookupAll (fun _ k _ => if k.getLast? = some 120 then .full else .no) d [] [] (str "/x") 0 false,
          bestMatch (fun _ k _ => if k.getLast? = some 120 then .full else .no) d [] [] (str "/y") [str "/x"] 0 with
        | .ok _, .error .noent => true | _, _ => false)) = some true := by decide +kernel
  cases hd : load stable none [[str ".*x c"]] with
  | none => rw [hd] at hr2; simp at hr2
  | some d =>
    rw [hd] at hr2
    simp only [Option.map_some, Option.some.injEq] at hr2
    split at hr2
    · rename_i h h1 h2
      exact ⟨[[str ".*x c"]], d, fun _ k _ => if k.getLast? = some 120 then .full else .no, str "/y", str "/x", h, hd, h1, h2⟩
    · simp at hr2

/-- The hypotheses of C63 are met by two matches of different lengths. -/
example : ((load stable none [[str ".* c", str "/usr/.* d"]]).map
    (fun d => match bestMatch eng0 d [] [] (str "/y") [str "/usr/x", str "/usr/z"] 0 with
      | .ok h => (h.ctx, h.prefixLen, h.hasMeta) | .error _ => ([], 0, false))) = some (str "d", 5, true) := by
  decide +kernel

/-! ## C64: partial matches -/

theorem mem_litLoop {pm : Bool} {key : Bytes} {kind : Nat} {ls : List Lit} {h : Hit}
    (hh : ∀ a, ls.head? = some a → litCmp pm a key = 0)
    (hl : litLoop pm key kind ls = some (.ok h)) : ∃ l ∈ ls, litCmp pm l key = 0 ∧ h.regexStr = l.regexStr := by
  induction ls with
  | nil => simp [litLoop] at hl
  | cons a as ih =>
    rw [litLoop.eq_def] at hl
    simp only at hl
    split at hl
    · split at hl
      · simp at hl
      · simp only [Option.some.injEq, Except.ok.injEq] at hl
        exact ⟨a, List.mem_cons_self, hh a rfl, by rw [← hl]⟩
    · split at hl
      · simp at hl
      · rename_i l' ls
        split at hl
        · rename_i hc
          obtain ⟨l, h1, h2, h3⟩ := ih (by
            intro x hx
            simp only [List.head?_cons, Option.some.injEq] at hx
            rw [← hx]; exact hc) hl
          exact ⟨l, List.mem_cons_of_mem _ h1, h2, h3⟩
        · simp at hl

theorem mem_reLoop {eng : Engine} {pm : Bool} {key : Bytes} {kind : Nat} {ch : Option Re} {rs : List Re} {w : Re}
    (h : reLoop eng pm key kind ch rs = .ok (some w)) :
    ch = some w ∨ (w ∈ rs ∧ (eng w.regexStr key pm = .full ∨ eng w.regexStr key pm = .part)) := by
  induction rs with
  | nil => simp only [reLoop, Except.ok.injEq] at h; exact Or.inl h
  | cons r rs ih =>
    have lift : (ch = some w ∨ (w ∈ rs ∧ (eng w.regexStr key pm = .full ∨ eng w.regexStr key pm = .part))) →
        ch = some w ∨ (w ∈ r :: rs ∧ (eng w.regexStr key pm = .full ∨ eng w.regexStr key pm = .part)) := by
      rintro (h | ⟨h1, h2⟩)
      · exact Or.inl h
      · exact Or.inr ⟨List.mem_cons_of_mem _ h1, h2⟩
    rw [reLoop] at h
    split at h
    · simp only [Except.ok.injEq] at h; exact Or.inl h
    · split at h
      · exact lift (ih h)
      · split at h
        · simp at h
        · simp at h
        · exact lift (ih h)
        · rename_i he
          split at h
          · simp at h
          · simp only [Except.ok.injEq, Option.some.injEq] at h
            subst h
            exact Or.inr ⟨List.mem_cons_self, Or.inl he⟩
        · rename_i he
          split at h
          · split at h
            · simp at h
            · simp only [Except.ok.injEq, Option.some.injEq] at h
              subst h
              exact Or.inr ⟨List.mem_cons_self, Or.inr he⟩
          · simp at h

theorem mem_nodesLoop {eng : Engine} {pm : Bool} {key : Bytes} {kind : Nat} {ch : Option Re} {ns : List Node} {w : Re}
    (h : nodesLoop eng pm key kind ch ns = .ok (some w)) :
    ch = some w ∨ ((∃ n ∈ ns, w ∈ n.res) ∧ (eng w.regexStr key pm = .full ∨ eng w.regexStr key pm = .part)) := by
  induction ns generalizing ch with
  | nil => simp only [nodesLoop, Except.ok.injEq] at h; exact Or.inl h
  | cons n ns ih =>
    rw [nodesLoop] at h
    cases hr : reLoop eng pm key kind ch n.res.reverse with
    | error e => rw [hr] at h; simp at h
    | ok c =>
      rw [hr] at h
      simp only at h
      rcases ih h with h1 | ⟨⟨m, hm, hw⟩, h2⟩
      · subst h1
        rcases mem_reLoop hr with h3 | ⟨h3, h4⟩
        · exact Or.inl h3
        · exact Or.inr ⟨⟨n, List.mem_cons_self, by simpa using h3⟩, h4⟩
      · exact Or.inr ⟨⟨m, List.mem_cons_of_mem _ hm, hw⟩, h2⟩

theorem searchLit_hit {pm : Bool} {a : Array Lit} {key : Bytes} {i : Nat} (h : searchLit pm a key = some i) :
    ∃ l, a[i]? = some l ∧ litCmp pm l key = 0 := by
  have hfm : ∀ m l, a[m]? = some l → litCmp pm l key = 0 →
      ∃ l, a[firstMatch pm a key m]? = some l ∧ litCmp pm l key = 0 := by
    intro m
    induction m with
    | zero => intro l h1 h2; exact ⟨l, by rw [firstMatch]; exact h1, h2⟩
    | succ m ih =>
      intro l h1 h2
      rw [firstMatch]
      cases hm : a[m]? with
      | none => exact ⟨l, h1, h2⟩
      | some l' =>
        simp only
        split
        · rename_i hc; exact ih l' hm hc
        · exact ⟨l, h1, h2⟩
  have hloop : ∀ k lower upper, upper + 1 - lower = k → searchLitLoop pm a key lower upper = some i →
      ∃ l, a[i]? = some l ∧ litCmp pm l key = 0 := by
    intro k
    induction k using Nat.strongRecOn with
    | _ k ih =>
      intro lower upper hk hs
      rw [searchLitLoop] at hs
      split at hs
      · rename_i hle
        simp only at hs
        split at hs
        · simp at hs
        · rename_i l hl
          split at hs
          · rename_i hc
            simp only [Option.some.injEq] at hs
            rw [← hs]
            exact hfm _ l hl hc
          · split at hs
            · exact ih _ (by omega) _ _ rfl hs
            · split at hs
              · simp at hs
              · exact ih _ (by omega) _ _ rfl hs
      · simp at hs
  unfold searchLit at h
  split at h
  · simp at h
  · exact hloop _ _ _ rfl h

/-- A partial match is only reported if a specification may match below the
path: a literal that begins with it, or an expression that the engine says
matches it completely or as the beginning of a match. -/
theorem C64_partial (q : Qsort) (hq : Sorts q) (files : List (List Bytes)) (d : Data)
    (hl : load q none files = some d) (eng : Engine) (key : Bytes) (hk : key.head? = some 47)
    (h : partialMatch eng d [] [] key = true) :
    ∃ e ∈ entries 0 files,
      (∃ t, plain e.regex = some t ∧ joinPath (names key) <+: t) ∨
      (plain e.regex = none ∧ (eng e.regex (joinPath (names key)) true = .full ∨
        eng e.regex (joinPath (names key)) true = .part)) := by
  obtain ⟨hs, _⟩ := load_sorted hq hl
  unfold partialMatch at h
  cases hla : lookupAll eng d [] [] key 0 true with
  | error e => rw [hla] at h; simp at h
  | ok hit =>
    unfold lookupAll at hla
    split at hla
    · simp at hla
    · simp only at hla
      rw [if_neg (dedup_nonempty hk), chop_dedup key hk] at hla
      have hsub : subKey [] [] (joinPath (names key)) = joinPath (names key) := rfl
      rw [hsub] at hla
      have hc := clean_join key
      generalize joinPath (names key) = path at *
      rw [deepest_walk d.root [] path hc.1 hc.2 hs.strict] at hla
      obtain ⟨k, hk1, hk2, hk3, hwalk⟩ := walk_eq d.root [] (dirs path)
      rw [List.append_nil] at hwalk
      have hmem : ∀ m ∈ walk d.root [] (dirs path), ∃ i, at_ d.root ((dirs path).take i) = some m := by
        intro m hm
        rw [hwalk, List.mem_filterMap] at hm
        obtain ⟨i, _, him⟩ := hm
        exact ⟨i, him⟩
      unfold checkNode at hla
      split at hla
      · rename_i r hr
        subst hla
        cases hw : walk d.root [] (dirs path) with
        | nil => rw [hw] at hr; simp [litPart] at hr
        | cons n ns =>
          rw [hw, litPart] at hr
          cases hsl : searchLit true n.lits.toArray path with
          | none => rw [hsl] at hr; simp at hr
          | some i =>
            rw [hsl] at hr
            simp only at hr
            obtain ⟨l0, hl0, hc0⟩ := searchLit_hit hsl
            simp only [List.getElem?_toArray] at hl0
            obtain ⟨l, hlm, hlc, _⟩ := mem_litLoop (by
              intro a ha
              rw [List.head?_drop, hl0] at ha
              simp only [Option.some.injEq] at ha
              rw [← ha]; exact hc0) hr
            have hlm := List.mem_of_mem_drop hlm
            obtain ⟨j, hj⟩ := hmem n (by rw [hw]; exact List.mem_cons_self)
            have hin : l ∈ obsAt Node.lits d.root ((dirs path).take j) := by rw [obsAt, hj]; simpa using hlm
            rw [(hs.lits _).mem_iff, List.mem_map] at hin
            obtain ⟨e, he, rfl⟩ := hin
            rw [List.mem_filter] at he
            cases hp : plain e.regex with
            | none => rw [hp] at he; simp at he
            | some t =>
              refine ⟨e, he.1, Or.inl ⟨t, hp, ?_⟩⟩
              have : (toLit e).literalMatch = t := by simp [toLit, hp]
              simp only [litCmp, if_true, strncmp, this] at hlc
              rw [strcmp_eq, List.take_length] at hlc
              rw [← hlc]
              exact List.take_prefix _ _
      · split at hla
        · simp at hla
        · simp at hla
        · rename_i r hr
          rcases mem_nodesLoop hr with h1 | ⟨⟨n, hn, hrn⟩, h2⟩
          · simp at h1
          · obtain ⟨j, hj⟩ := hmem n hn
            have hin : r ∈ obsAt Node.res d.root ((dirs path).take j) := by rw [obsAt, hj]; simpa using hrn
            rw [hs.res, List.mem_map] at hin
            obtain ⟨e, he, rfl⟩ := hin
            rw [List.mem_filter] at he
            simp only [Bool.and_eq_true, Option.isNone_iff_eq_none] at he
            exact ⟨e, he.1, Or.inr ⟨he.2.1, h2⟩⟩

/-- A partial match is missed if the specification has more fixed directories
than the path: with the only line `/usr/lib/foo x`, nothing is said to match
below `/usr`. -/
theorem C64_refuted : ∃ (files : List (List Bytes)) (d : Data) (eng : Engine) (key : Bytes) (e : Entry),
    load stable none files = some d ∧ entries 0 files = [e] ∧ plain e.regex = some e.regex ∧
    key ++ [47] <+: e.regex ∧ partialMatch eng d [] [] key = false := by
  have hr2 : ((load stable none [[str "/usr/lib/foo x"]]).map
      (fun d => partialMatch (fun _ _ _ => .no) d [] [] (str "/usr"))) = some false := by decide +kernel
  cases hd : load stable none [[str "/usr/lib/foo x"]] with
  | none => rw [hd] at hr2; simp at hr2
  | some d =>
    rw [hd] at hr2
    simp only [Option.map_some, Option.some.injEq] at hr2
    exact ⟨[[str "/usr/lib/foo x"]], d, fun _ _ _ => .no, str "/usr", ⟨str "/usr/lib/foo", 0, str "x", 0, 1⟩, hd,
      by decide +kernel, by decide +kernel, ⟨str "lib/foo", by decide +kernel⟩, hr2⟩

example : ((load stable none [[str "/usr/lib x"]]).map
    (fun d => partialMatch (fun _ _ _ => .no) d [] [] (str "/usr/li"))) = some true := by decide +kernel

/-! ## C65: lines -/

/-- A line means what its words say, unless it has two words and white space
after them. -/
theorem C65_partial (l : Bytes)
    (h : ¬ (Trailing l ∧ ∃ r c, words (text l) = [r, c] ∧ r.head? ≠ some 35 ∧ ∀ x ∈ [r, c], ¬ badWord x)) :
    Means l (parseLine l) := by
  rcases parseLine_cases l with ⟨h1, _⟩ | ⟨_, h1⟩
  · exact h1
  · exact absurd h1 h

/-- In that case the reader takes more arguments than it was given. -/
theorem C65_refuted (l : Bytes) (ht : Trailing l) (r c : Bytes) (h : words (text l) = [r, c])
    (hc : r.head? ≠ some 35) (hb : ∀ x ∈ [r, c], ¬ badWord x) : parseLine l = .ub := by
  rcases parseLine_cases l with ⟨_, h1⟩ | ⟨h1, _⟩
  · exact absurd ⟨ht, r, c, h, hc, hb⟩ h1
  · exact h1

example : Trailing (str "/etc x ") ∧ words (text (str "/etc x ")) = [str "/etc", str "x"] ∧
    parseLine (str "/etc x ") = .ub := ⟨⟨32, by decide +kernel, by decide +kernel⟩, by decide +kernel, by decide +kernel⟩

/-- A line has one meaning. -/
theorem C65_determined (l : Bytes) (a b : Line) (ha : Means l a) (hb : Means l b) : a = b := by
  have hk : ∀ t k k', (t, k) ∈ kindNames → (t, k') ∈ kindNames → k = k' := by
    intro t k k' h1 h2
    rw [← kindOf_names] at h1 h2
    rw [h1] at h2; simpa using h2
  cases ha with
  | blank h => cases hb <;> simp_all
  | comment w ws h hc => cases hb <;> simp_all
  | bad w ws h hc hbad =>
    cases hb with
    | blank h' => simp_all
    | comment w' ws' h' hc' => rw [h] at h'; simp only [List.cons.injEq] at h'; rw [h'.1] at hc; exact absurd hc' hc
    | bad => rfl
    | one => rfl
    | badKind => rfl
    | two r c h' _ hg =>
      rw [h] at h'
      obtain ⟨x, hx, hxb⟩ := hbad
      rw [h'] at hx
      exact absurd hxb (hg x hx)
    | three r t c k ws' h' _ hg _ =>
      rw [h] at h'
      obtain ⟨x, hx, hxb⟩ := hbad
      rw [h'] at hx
      exact absurd hxb (hg x (by simpa using hx))
  | one w h hc =>
    cases hb with
    | blank h' => simp_all
    | comment w' ws' h' hc' => rw [h] at h'; simp only [List.cons.injEq] at h'; rw [h'.1] at hc; exact absurd hc' hc
    | bad => rfl
    | one => rfl
    | badKind => rfl
    | two r c h' => rw [h] at h'; simp at h'
    | three r t c k ws' h' => rw [h] at h'; simp at h'
  | two r c h hc hg =>
    cases hb with
    | blank h' => simp_all
    | comment w' ws' h' hc' => rw [h] at h'; simp only [List.cons.injEq] at h'; rw [h'.1] at hc; exact absurd hc' hc
    | bad w ws h' _ hbad =>
      rw [h] at h'
      obtain ⟨x, hx, hxb⟩ := hbad
      rw [← h'] at hx
      exact absurd hxb (hg x hx)
    | one w h' => rw [h] at h'; simp at h'
    | badKind r t c ws h' => rw [h] at h'; simp at h'
    | two r' c' h' => rw [h] at h'; simp only [List.cons.injEq, and_true] at h'; rw [h'.1, h'.2]
    | three r t c k ws' h' => rw [h] at h'; simp at h'
  | three r t c k ws h hc hg ht =>
    cases hb with
    | blank h' => simp_all
    | comment w' ws' h' hc' => rw [h] at h'; simp only [List.cons.injEq] at h'; rw [h'.1] at hc; exact absurd hc' hc
    | bad w ws h' _ hbad =>
      rw [h] at h'
      obtain ⟨x, hx, hxb⟩ := hbad
      rw [← h'] at hx
      exact absurd hxb (hg x (by simpa using hx))
    | one w h' => rw [h] at h'; simp at h'
    | badKind r' t' c' ws h' _ _ ht' =>
      rw [h] at h'; simp only [List.cons.injEq] at h'
      rw [h'.2.1] at ht
      exact absurd ht (ht' k)
    | two r' c' h' => rw [h] at h'; simp at h'
    | three r' t' c' k' ws' h' _ _ ht' =>
      rw [h] at h'; simp only [List.cons.injEq] at h'
      rw [h'.2.1] at ht
      rw [h'.1, h'.2.2.1, hk t' k k' ht ht']
  | badKind r t c ws h hc hg ht =>
    cases hb with
    | blank h' => simp_all
    | comment w' ws' h' hc' => rw [h] at h'; simp only [List.cons.injEq] at h'; rw [h'.1] at hc; exact absurd hc' hc
    | bad => rfl
    | one => rfl
    | badKind => rfl
    | two r' c' h' => rw [h] at h'; simp at h'
    | three r' t' c' k' ws' h' _ _ ht' =>
      rw [h] at h'; simp only [List.cons.injEq] at h'
      rw [h'.2.1] at ht
      exact absurd ht' (ht k')

/-- Files of lines without errors can be loaded. -/
theorem C65_load (q : Qsort) (files : List (List Bytes))
    (h : ∀ f ∈ files, ∀ l ∈ f, parseLine l = .skip ∨ ∃ r k c, parseLine l = .spec r k c) :
    ∃ d, load q none files = some d := by
  have hlines : ∀ (ls : List Bytes) (i n : Nat) (d : Data) (es : List Entry), Holds es d.root →
      (∀ l ∈ ls, parseLine l = .skip ∨ ∃ r k c, parseLine l = .spec r k c) →
      ∃ d', processLines none i n ls d = some d' := by
    intro ls
    induction ls with
    | nil => intro i n d es _ _; exact ⟨d, rfl⟩
    | cons l ls ih =>
      intro i n d es hh hok
      have ih := fun n d es hh => ih i n d es hh (fun l hl => hok l (List.mem_cons_of_mem _ hl))
      rw [processLines]
      rcases hok l List.mem_cons_self with hl | ⟨r, k, c, hl⟩
      · rw [hl]; exact ih (n + 1) d es hh
      · rw [hl]
        obtain ⟨d1, hd1, hh1⟩ := insert_holds hh ⟨r, k, c, i, n + 1⟩ (parseLine_short hl)
        simp only at hd1 ⊢
        rw [hd1]
        exact ih (n + 1) d1 _ hh1
  have hfiles : ∀ (fs : List (List Bytes)) (i : Nat) (d : Data) (es : List Entry), Holds es d.root →
      (∀ f ∈ fs, ∀ l ∈ f, parseLine l = .skip ∨ ∃ r k c, parseLine l = .spec r k c) →
      ∃ d', processFiles none i fs d = some d' := by
    intro fs
    induction fs with
    | nil => intro i d es _ _; exact ⟨d, rfl⟩
    | cons f fs ih =>
      intro i d es hh hok
      rw [processFiles]
      obtain ⟨d1, hd1⟩ := hlines f i 0 d es hh (hok f List.mem_cons_self)
      rw [hd1]
      exact ih (i + 1) d1 _ (processLines_holds hh hd1) (fun f hf => hok f (List.mem_cons_of_mem _ hf))
  obtain ⟨d, hd⟩ := hfiles files 0 .empty [] holds_new h
  unfold load
  rw [hd]
  exact ⟨_, rfl⟩

example : Means (str "  /etc/.*\t-d  x  y") (.spec (str "/etc/.*") 1 (str "x")) := by
  have := C65_partial (str "  /etc/.*\t-d  x  y") (by
    rintro ⟨_, r, c, h, _⟩
    have hw : words (text (str "  /etc/.*\t-d  x  y")) = [str "/etc/.*", str "-d", str "x", str "y"] := by decide +kernel
    rw [hw] at h
    simp at h)
  have hp : parseLine (str "  /etc/.*\t-d  x  y") = .spec (str "/etc/.*") 1 (str "x") := by decide +kernel
  rw [hp] at this
  exact this

/-! ## C66: files of substitutions -/

/-- The substitutions of a file whose lines all end with a newline are those of
its lines, whatever is in the buffer. -/
theorem C66_partial (buf : Buf) (lines : List Bytes)
    (h : ∀ l ∈ lines, (10 : Byte) ∉ l ∧ (0 : Byte) ∉ l ∧ l.length ≤ 1021) :
    subsInit buf (lines.map (· ++ [10])).flatten = some (lines.filterMap subOf) := subsInit_eq buf lines h

/-- Without a newline at the end a line of one word gets a second one from the
remains of the line before it. -/
theorem C66_refuted : subsInit [] (str "/aaaa /bb\n/cc") = some [⟨str "/aaaa", str "/bb"⟩, ⟨str "/cc", str "a"⟩] ∧
    subOf (str "/cc") = none := by
  constructor <;> decide +kernel

/-- Or undefined bytes are read. -/
theorem C66_uninit_refuted (buf : Buf) (h : buf = List.replicate 1024 none) : subsInit buf (str "/cc") = none := by
  subst h; decide +kernel

example : [str "# x y", str " /run   /var/run z", str "/a"].filterMap subOf = [⟨str "/run", str "/var/run"⟩] := by
  decide +kernel

end Verif.FileLabel
