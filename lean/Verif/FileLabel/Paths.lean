import Verif.FileLabel.Text
/-!
# Paths, substitutions and expressions with a fixed beginning
-/
namespace Verif.FileLabel
open Spec

/-! ## Parts -/

theorem parts_free {a : Bytes} (h : (47 : Byte) ∉ a) : parts a = [] := by
  induction a with
  | nil => rfl
  | cons b a ih =>
    simp only [List.mem_cons, not_or] at h
    rw [parts, if_neg (fun x => h.1 x.symm), ih h.2]

theorem parts_app {a : Bytes} (h : (47 : Byte) ∉ a) (x : Bytes) : parts (a ++ 47 :: x) = a :: parts x := by
  induction a with
  | nil => rw [List.nil_append, parts, if_pos rfl]
  | cons b a ih =>
    simp only [List.mem_cons, not_or] at h
    rw [List.cons_append, parts, if_neg (fun x => h.1 x.symm), ih h.2]

theorem parts_mem {s d : Bytes} (h : d ∈ parts s) : (47 : Byte) ∉ d := by
  induction s generalizing d with
  | nil => simp [parts] at h
  | cons b s ih =>
    rw [parts] at h
    split at h
    · rcases List.mem_cons.1 h with rfl | h
      · simp
      · exact ih h
    · rename_i hb
      cases hp : parts s with
      | nil => rw [hp] at h; simp at h
      | cons x xs =>
        rw [hp] at h ih
        rcases List.mem_cons.1 h with rfl | h
        · simp only [List.mem_cons, not_or]
          exact ⟨fun x => hb x.symm, ih List.mem_cons_self⟩
        · exact ih (List.mem_cons_of_mem _ h)

theorem cut_some {r seg q : Bytes} (h : cut r = some (seg, q)) : r = seg ++ q ∧ (47 : Byte) ∉ seg := by
  induction r generalizing seg q with
  | nil => simp [cut] at h
  | cons b bs ih =>
    unfold cut at h
    split at h
    · simp only [Option.some.injEq, Prod.mk.injEq] at h; rw [← h.1, ← h.2]; simp
    · rename_i hb
      cases hc : cut bs with
      | none => simp [hc] at h
      | some x =>
        simp only [hc, Option.map_some, Option.some.injEq, Prod.mk.injEq] at h
        obtain ⟨h1, h2⟩ := ih (seg := x.1) (q := x.2) (by rw [hc])
        rw [← h.1, ← h.2]
        refine ⟨by rw [List.cons_append, ← h1], ?_⟩
        simp only [List.mem_cons, not_or]
        exact ⟨fun x => hb x.symm, h2⟩

theorem cut_none {r : Bytes} (h : cut r = none) : (47 : Byte) ∉ r := by
  induction r with
  | nil => simp
  | cons b bs ih =>
    unfold cut at h
    split at h
    · simp at h
    · rename_i hb
      simp only [Option.map_eq_none_iff] at h
      simp only [List.mem_cons, not_or]
      exact ⟨fun x => hb x.symm, ih h⟩

theorem cut_q {r seg q : Bytes} (h : cut r = some (seg, q)) : ∃ q', q = 47 :: q' := by
  have := cut_head h
  cases q with
  | nil => simp at this
  | cons b q => simp only [List.head?_cons, Option.some.injEq] at this; exact ⟨q, by rw [this]⟩

/-! ## Cleaning of paths -/

/-- The text of a list of names. -/
def fl (ns : List Bytes) : Bytes := (ns.map (47 :: ·)).flatten

theorem names_cons (seg q : Bytes) (h : (47 : Byte) ∉ seg) :
    names (47 :: (seg ++ 47 :: q)) = if seg = [] then names (47 :: q) else seg :: names (47 :: q) := by
  unfold names
  have e : 47 :: (seg ++ 47 :: q) ++ [47] = [] ++ 47 :: (seg ++ 47 :: (q ++ [47])) := by simp
  have e2 : (47 :: q ++ [47] : Bytes) = [] ++ 47 :: (q ++ [47]) := by simp
  rw [e, e2, parts_app (a := []) (by simp) (seg ++ 47 :: (q ++ [47])), parts_app h, parts_app (a := []) (by simp) (q ++ [47])]
  simp only [List.filter_cons]
  by_cases hs : seg = [] <;> simp [hs]

theorem names_base (r : Bytes) (h : (47 : Byte) ∉ r) : names (47 :: r) = if r = [] then [] else [r] := by
  unfold names
  have e : (47 :: r ++ [47] : Bytes) = [] ++ 47 :: (r ++ 47 :: []) := by simp
  rw [e, parts_app (a := []) (by simp), parts_app h]
  by_cases hs : r = [] <;> simp [hs, parts]

theorem dedup_ne {b c : Byte} (h : c ≠ slash) (x : Bytes) : dedup (b :: c :: x) = b :: dedup (c :: x) := by
  rw [dedup, if_neg (fun hh => h hh.2)]

theorem dedup_ne' {c : Byte} (h : c ≠ slash) (x : Bytes) : dedup (c :: x) = c :: dedup x := by
  cases x with
  | nil => rfl
  | cons d x => rw [dedup, if_neg (fun hh => h hh.1)]

theorem dedup_seg {seg : Bytes} (h : (47 : Byte) ∉ seg) (q : Bytes) : dedup (seg ++ q) = seg ++ dedup q := by
  induction seg with
  | nil => rfl
  | cons b seg ih =>
    simp only [List.mem_cons, not_or] at h
    rw [List.cons_append, dedup_ne' (fun x => h.1 x.symm), ih h.2]; rfl

theorem dedup_lead {seg : Bytes} (h : (47 : Byte) ∉ seg) (hne : seg ≠ []) (q : Bytes) :
    dedup (47 :: (seg ++ q)) = 47 :: (seg ++ dedup q) := by
  cases seg with
  | nil => exact absurd rfl hne
  | cons b seg =>
    have h' := h
    simp only [List.mem_cons, not_or] at h'
    rw [List.cons_append, dedup_ne (fun x => h'.1 x.symm), ← List.cons_append, dedup_seg h]

theorem dedup_names (k : Bytes) (hk : k.head? = some 47) :
    (names k = [] ∧ dedup k = [47]) ∨
    (names k ≠ [] ∧ (dedup k = fl (names k) ∨ dedup k = fl (names k) ++ [47])) := by
  induction hn : k.length using Nat.strongRecOn generalizing k with
  | _ n ih =>
    cases k with
    | nil => simp at hk
    | cons b r =>
      simp only [List.head?_cons, Option.some.injEq] at hk
      subst hk
      cases hc : cut r with
      | none =>
        have hf := cut_none hc
        rw [names_base r hf]
        by_cases hr : r = []
        · subst hr; left; simp [dedup]
        · rw [if_neg hr]
          right
          refine ⟨by simp, Or.inl ?_⟩
          have := dedup_lead hf hr []
          simp only [List.append_nil] at this
          rw [this]
          simp [fl, dedup]
      | some x =>
        obtain ⟨seg, q⟩ := x
        obtain ⟨hr, hf⟩ := cut_some hc
        obtain ⟨q', rfl⟩ := cut_q hc
        have hlen : (47 :: q').length < n := by
          rw [← hn, hr]; simp only [List.length_cons, List.length_append]; omega
        have ihq := ih _ hlen (47 :: q') rfl rfl
        rw [hr, names_cons seg q' hf]
        by_cases hs : seg = []
        · subst hs
          rw [if_pos rfl, List.nil_append, dedup, if_pos ⟨rfl, rfl⟩]
          exact ihq
        · rw [if_neg hs, dedup_lead hf hs]
          right
          refine ⟨by simp, ?_⟩
          rcases ihq with ⟨h1, h2⟩ | ⟨h1, h2 | h2⟩
          · right; rw [h1, h2]; simp [fl]
          · left; rw [h2]; simp [fl]
          · right; rw [h2]; simp [fl]

theorem names_mem {k d : Bytes} (h : d ∈ names k) : d ≠ [] ∧ (47 : Byte) ∉ d := by
  unfold names at h
  rw [List.mem_filter] at h
  exact ⟨by simpa using h.2, parts_mem h.1⟩

theorem fl_last {ns : List Bytes} (hne : ns ≠ []) (h : ∀ d ∈ ns, d ≠ [] ∧ (47 : Byte) ∉ d) :
    (fl ns).getLast? ≠ some 47 := by
  have hsplit : ns = ns.dropLast ++ [ns.getLast hne] := (List.dropLast_append_getLast hne).symm
  have hd := h _ (List.getLast_mem hne)
  rw [hsplit]
  unfold fl
  rw [List.map_append, List.flatten_append]
  simp only [List.map_cons, List.map_nil, List.flatten_cons, List.flatten_nil, List.append_nil]
  rw [List.getLast?_append_of_ne_nil _ (by simp)]
  have : (47 :: ns.getLast hne : Bytes) = [47] ++ ns.getLast hne := rfl
  rw [this, List.getLast?_append_of_ne_nil _ hd.1, List.getLast?_eq_some_getLast hd.1]
  intro hh
  simp only [Option.some.injEq] at hh
  exact hd.2 (hh ▸ List.getLast_mem hd.1)

theorem chop_dedup (k : Bytes) (hk : k.head? = some 47) : chop (dedup k) = joinPath (names k) := by
  rcases dedup_names k hk with ⟨h1, h2⟩ | ⟨h1, h2⟩
  · rw [h1, h2]; decide
  · have hj : joinPath (names k) = fl (names k) := by
      unfold joinPath
      cases hn : names k with
      | nil => exact absurd hn h1
      | cons a as => rfl
    have hl := fl_last h1 (fun d hd => names_mem hd)
    rw [hj]
    rcases h2 with h2 | h2
    · rw [h2, chop, if_neg (fun hh => hl hh.2)]
    · rw [h2, chop, if_pos, List.dropLast_concat]
      refine ⟨?_, by simp⟩
      cases hn : names k with
      | nil => exact absurd hn h1
      | cons a as => simp [fl]; omega

theorem dirs_fl {ns : List Bytes} (h : ∀ d ∈ ns, d ≠ [] ∧ (47 : Byte) ∉ d) : parts ((fl ns).drop 1) = ns.dropLast := by
  induction ns with
  | nil => rfl
  | cons a as ih =>
    have ha := h a List.mem_cons_self
    have ih := ih (fun d hd => h d (List.mem_cons_of_mem _ hd))
    cases as with
    | nil => simp [fl, parts_free ha.2]
    | cons b bs =>
      have e : (fl (a :: b :: bs)).drop 1 = a ++ 47 :: ((fl (b :: bs)).drop 1) := by simp [fl]
      rw [e, parts_app ha.2, ih]; rfl

theorem clean_join (k : Bytes) : Clean (joinPath (names k)) := by
  cases hn : names k with
  | nil => exact ⟨rfl, by simp [joinPath, dirs, parts]⟩
  | cons a as =>
    have h : ∀ d ∈ a :: as, d ≠ [] ∧ (47 : Byte) ∉ d := by rw [← hn]; intro d hd; exact names_mem hd
    refine ⟨rfl, ?_⟩
    intro d hd
    have : dirs (joinPath (a :: as)) = (a :: as).dropLast := dirs_fl h
    rw [this] at hd
    exact (h d ((List.dropLast_sublist _).subset hd)).1

theorem dedup_nonempty {k : Bytes} (hk : k.head? = some 47) : (dedup k).length ≠ 0 := by
  rcases dedup_names k hk with ⟨_, h2⟩ | ⟨h1, h2 | h2⟩
  · rw [h2]; simp
  · rw [h2]
    cases hn : names k with
    | nil => exact absurd hn h1
    | cons a as => simp [fl]
  · rw [h2]; simp

/-! ## Substitutions -/

theorem under_iff (s : Sub) (p : Bytes) :
    (∃ rest, Under s.src p rest) ↔ p.take s.src.length = s.src ∧
      (p.drop s.src.length = [] ∨ (p.drop s.src.length).head? = some 47) := by
  constructor
  · rintro ⟨rest, rfl, h⟩
    simpa using h
  · rintro ⟨h1, h2⟩
    exact ⟨p.drop s.src.length, by conv_lhs => rw [← List.take_append_drop s.src.length p, h1], h2⟩

theorem applySubs_spec (subs : List Sub) (p : Bytes) :
    match applySubs subs p with
    | some r => Substitutes subs p r
    | none => ∀ s ∈ subs, ¬ ∃ rest, Under s.src p rest := by
  induction subs with
  | nil => rw [applySubs]; simp
  | cons s ss ih =>
    have hskip : (¬ ∃ rest, Under s.src p rest) →
        match applySubs ss p with
        | some r => Substitutes (s :: ss) p r
        | none => ∀ x ∈ s :: ss, ¬ ∃ rest, Under x.src p rest := by
      intro hn
      revert ih
      cases applySubs ss p with
      | none =>
        intro h x hx
        rcases List.mem_cons.1 hx with rfl | hx
        · exact hn
        · exact h x hx
      | some r =>
        rintro ⟨before, t, after, rest, h1, h2, h3, h4⟩
        refine ⟨s :: before, t, after, rest, by rw [h1]; rfl, h2, ?_, h4⟩
        intro x hx
        rcases List.mem_cons.1 hx with rfl | hx
        · exact hn
        · exact h3 x hx
    rw [applySubs]
    by_cases hp : p.take s.src.length = s.src
    · rw [if_pos hp]
      have hsplit : p = s.src ++ p.drop s.src.length := by
        conv_lhs => rw [← List.take_append_drop s.src.length p, hp]
      cases hd : p.drop s.src.length with
      | nil =>
        rw [hd] at hsplit
        refine ⟨[], s, ss, [], rfl, ⟨hsplit, Or.inl rfl⟩, by simp, ?_⟩
        simp [place]
      | cons b bs =>
        rw [hd] at hsplit
        simp only
        by_cases hb : b = slash
        · rw [if_pos hb]
          refine ⟨[], s, ss, b :: bs, rfl, ⟨hsplit, Or.inr (by rw [hb]; rfl)⟩, by simp, ?_⟩
          unfold place
          by_cases hds : s.dst = [slash]
          · rw [if_pos hds, if_pos ⟨hds, by simp⟩, hds, hb]; rfl
          · rw [if_neg hds, if_neg (fun h => hds h.1)]
        · rw [if_neg hb]
          apply hskip
          rw [under_iff]
          rintro ⟨_, h | h⟩
          · rw [hd] at h; simp at h
          · rw [hd] at h; simp only [List.head?_cons, Option.some.injEq] at h; exact hb h
    · rw [if_neg hp]
      apply hskip
      rw [under_iff]
      exact fun h => hp h.1

/-! ## The file of substitutions -/

theorem chunk_line (l rest : Bytes) (n : Nat) (h : (10 : Byte) ∉ l) (hl : l.length < n) :
    chunk n (l ++ 10 :: rest) = (l ++ [10], rest) := by
  induction l generalizing n with
  | nil =>
    cases n with
    | zero => simp at hl
    | succ n => rw [List.nil_append, chunk, if_pos rfl]; rfl
  | cons b l ih =>
    simp only [List.mem_cons, not_or] at h
    cases n with
    | zero => simp at hl
    | succ n =>
      simp only [List.length_cons] at hl
      rw [List.cons_append, chunk, if_neg (fun x => h.1 x.symm), ih n h.2 (by omega)]
      rfl

theorem skipSpace_eq (pre : Buf) (s : Bytes) (rest : Buf) (h0 : (0 : Byte) ∉ s) :
    skipSpace (pre ++ (s.map some ++ some 0 :: rest)) pre.length =
      some (pre.length + (s.takeWhile isspace).length) := by
  induction s generalizing pre with
  | nil =>
    rw [skipSpace]
    have : (pre ++ (([] : Bytes).map some ++ some 0 :: rest))[pre.length]? = some (some 0) := by simp
    split
    · rename_i b hb
      rw [this] at hb
      simp only [Option.some.injEq] at hb
      subst hb
      simp
    · rename_i hb; exact absurd this (hb 0)
  | cons b s ih =>
    simp only [List.mem_cons, not_or] at h0
    rw [skipSpace]
    have : (pre ++ ((b :: s).map some ++ some 0 :: rest))[pre.length]? = some (some b) := by simp
    split
    · rename_i c hb
      rw [this] at hb
      simp only [Option.some.injEq] at hb
      subst hb
      by_cases hsp : isspace b = true
      · rw [if_pos ⟨fun x => h0.1 x.symm, hsp⟩]
        have e : pre ++ ((b :: s).map some ++ some 0 :: rest) = (pre ++ [some b]) ++ (s.map some ++ some 0 :: rest) := by simp
        have e2 : pre.length + 1 = (pre ++ [some b]).length := by simp
        rw [e, e2, ih _ h0.2, List.takeWhile_cons_of_pos hsp]
        simp only [List.length_append, List.length_cons, List.length_nil, Option.some.injEq]; omega
      · rw [if_neg (fun x => hsp x.2), List.takeWhile_cons_of_neg hsp]; simp
    · rename_i hb; exact absurd this (hb b)

theorem skipWord_eq (pre : Buf) (s : Bytes) (rest : Buf) (h0 : (0 : Byte) ∉ s) :
    skipWord (pre ++ (s.map some ++ some 0 :: rest)) pre.length =
      some (pre.length + (s.takeWhile (fun b => !isspace b)).length) := by
  induction s generalizing pre with
  | nil =>
    rw [skipWord]
    have : (pre ++ (([] : Bytes).map some ++ some 0 :: rest))[pre.length]? = some (some 0) := by simp
    split
    · rename_i b hb
      rw [this] at hb
      simp only [Option.some.injEq] at hb
      subst hb
      simp
    · rename_i hb; exact absurd this (hb 0)
  | cons b s ih =>
    simp only [List.mem_cons, not_or] at h0
    rw [skipWord]
    have : (pre ++ ((b :: s).map some ++ some 0 :: rest))[pre.length]? = some (some b) := by simp
    split
    · rename_i c hb
      rw [this] at hb
      simp only [Option.some.injEq] at hb
      subst hb
      by_cases hsp : (!isspace b) = true
      · rw [if_pos ⟨fun x => h0.1 x.symm, hsp⟩]
        have e : pre ++ ((b :: s).map some ++ some 0 :: rest) = (pre ++ [some b]) ++ (s.map some ++ some 0 :: rest) := by simp
        have e2 : pre.length + 1 = (pre ++ [some b]).length := by simp
        rw [e, e2, ih _ h0.2, List.takeWhile_cons_of_pos (by simpa using hsp)]
        simp only [List.length_append, List.length_cons, List.length_nil, Option.some.injEq]; omega
      · rw [if_neg (fun x => hsp x.2), List.takeWhile_cons_of_neg (by simpa using hsp)]; simp
    · rename_i hb; exact absurd this (hb b)

theorem words_newline (l : Bytes) : words (l ++ [10]) = words l := by
  have key : ∀ (l w : Bytes), wordsFrom w (l ++ [10]) = wordsFrom w l := by
    intro l
    induction l with
    | nil => intro w; simp [wordsFrom, isspace]
    | cons b l ih => intro w; simp only [List.cons_append, wordsFrom, ih]
  exact key l []

theorem words_space (b : Byte) (s : Bytes) (h : isspace b = true) : words (b :: s) = words s := by
  rw [words, wordsFrom, if_pos h, if_pos rfl]; rfl

theorem set_mid (pre : Buf) (x y : Option Byte) (post : Buf) : (pre ++ x :: post).set pre.length y = pre ++ y :: post := by
  simp

theorem fm_some (s : Bytes) : (s.map some).filterMap id = s := by
  induction s with
  | nil => rfl
  | cons b s ih => simp

theorem subLine_eq (buf : Buf) (l : Bytes) (h0 : (0 : Byte) ∉ l) :
    ∃ buf', subLine (put buf (l ++ [10])) = some (subOf l, buf') := by
  unfold put
  generalize buf.drop ((l ++ [10]).length + 1) = R
  have hz : (0 : Byte) ∉ l ++ [10] := by simp [h0]
  have hsub : subOf l = match words (l ++ [10]) with
      | a :: b :: _ => if a.head? = some 35 then none else some ⟨a, b⟩
      | _ => none := by rw [words_newline]; rfl
  rw [hsub]
  have hlast : (l ++ [10]).getLast? = some 10 := by simp
  generalize l ++ [10] = S at *
  have hS := split_fw S
  generalize hsp : S.takeWhile isspace = sp at *
  have hz1 : (0 : Byte) ∉ fw S := fun h => hz (by rw [hS]; simp [h])
  have hz2 : (0 : Byte) ∉ fr S := fun h => hz (by rw [hS]; simp [h])
  -- the first search
  have h1 : skipSpace (S.map some ++ some 0 :: R) 0 = some sp.length := by
    have := skipSpace_eq [] S R hz
    simpa [hsp] using this
  have hB : S.map some ++ some 0 :: R = sp.map some ++ ((fw S ++ fr S).map some ++ some 0 :: R) := by
    conv_lhs => rw [hS]
    simp
  unfold subLine
  rw [h1]
  simp only [Option.bind_eq_bind, Option.bind_some]
  rw [words_fw]
  have hspl : sp.length = (sp.map some : Buf).length := by simp
  by_cases hw : fw S = []
  · -- a blank line
    rw [if_pos hw]
    rw [hw, fr_nil_of_fw_nil hw] at hB
    rw [hB]
    have hg : (sp.map some ++ ((([] : Bytes) ++ []).map some ++ some 0 :: R) : Buf)[sp.length]? = some (some 0) := by
      rw [hspl]; simp
    rw [if_neg (by rw [hg]; decide)]
    have h2 := skipWord_eq (sp.map some) [] R (by simp)
    rw [hspl]
    simp only [List.append_nil] at h2 ⊢
    rw [h2]
    simp only [Option.bind_some, List.takeWhile_nil, List.length_nil, Nat.add_zero, List.map_nil, List.nil_append]
    rw [set_mid]
    rw [if_pos (by simp)]
    exact ⟨_, rfl⟩
  · rw [if_neg hw]
    have hrne : fr S ≠ [] := by
      intro hr
      obtain ⟨b, hb, hnb⟩ := getLast_fw hw hr
      rw [hlast] at hb
      simp only [Option.some.injEq] at hb
      rw [← hb] at hnb
      exact absurd hnb (by decide)
    obtain ⟨e, E, hE⟩ : ∃ e E, fr S = e :: E := by
      cases hfr : fr S with
      | nil => exact absurd hfr hrne
      | cons e E => exact ⟨e, E, rfl⟩
    have hesp : isspace e = true := by
      have : ∀ s : Bytes, ∀ x, (s.dropWhile (fun b => !isspace b)).head? = some x → isspace x = true := by
        intro s
        induction s with
        | nil => simp
        | cons a s ih =>
          intro x hx
          rw [List.dropWhile_cons] at hx
          split at hx
          · exact ih x hx
          · rename_i ha
            simp only [List.head?_cons, Option.some.injEq] at hx
            rw [← hx]; simpa using ha
      exact this (S.dropWhile isspace) e (by change (fr S).head? = _; rw [hE]; rfl)
    obtain ⟨w, W, hW⟩ : ∃ w W, fw S = w :: W := by
      cases hfw : fw S with
      | nil => exact absurd hfw hw
      | cons w W => exact ⟨w, W, rfl⟩
    have hzE : (0 : Byte) ∉ E := fun h => hz2 (by rw [hE]; simp [h])
    have hw0 : w ≠ 0 := fun h => hz1 (by rw [hW, h]; simp)
    rw [hB]
    have hg : (sp.map some ++ ((fw S ++ fr S).map some ++ some 0 :: R) : Buf)[sp.length]? = some (some w) := by
      rw [hspl, hW]; simp
    rw [hg]
    by_cases hh : w = hash
    · rw [if_pos (by rw [hh])]
      refine ⟨sp.map some ++ ((fw S ++ fr S).map some ++ some 0 :: R), ?_⟩
      cases words (fr S) with
      | nil => rfl
      | cons a b => simp only; rw [if_pos (by rw [hW, hh]; rfl)]; rfl
    · rw [if_neg (by simpa using hh)]
      have h2 := skipWord_eq (sp.map some) (fw S ++ fr S) R (by simp only [List.mem_append, not_or]; exact ⟨hz1, hz2⟩)
      have htw : (fw S ++ fr S).takeWhile (fun b => !isspace b) = fw S := by
        rw [List.takeWhile_append_of_pos (by
          intro a ha
          exact mem_takeWhile_sat (p := fun b => !isspace b) ha), hE]
        simp [hesp]
      rw [htw] at h2
      rw [hspl, h2]
      simp only [Option.bind_some]
      have hptr : (sp.map some : Buf).length + (fw S).length = (sp.map some ++ (fw S).map some : Buf).length := by simp
      have hB1 : (sp.map some ++ ((fw S ++ fr S).map some ++ some 0 :: R) : Buf) =
          (sp.map some ++ (fw S).map some) ++ some e :: (E.map some ++ some 0 :: R) := by rw [hE]; simp
      rw [hptr, hB1, set_mid]
      have hg1 : ((sp.map some ++ (fw S).map some) ++ some 0 :: (E.map some ++ some 0 :: R) : Buf)[(sp.map some : Buf).length]? = some (some w) := by
        rw [hW]; simp
      rw [hg1, if_neg (by simpa using hw0)]
      have hptr1 : (sp.map some ++ (fw S).map some : Buf).length + 1 = (sp.map some ++ (fw S).map some ++ [some 0] : Buf).length := by simp only [List.length_append, List.length_map, List.length_cons, List.length_nil]
      have hB2 : ((sp.map some ++ (fw S).map some) ++ some 0 :: (E.map some ++ some 0 :: R) : Buf) =
          (sp.map some ++ (fw S).map some ++ [some 0]) ++ (E.map some ++ some 0 :: R) := by simp
      have h3 := skipSpace_eq (sp.map some ++ (fw S).map some ++ [some 0]) E R hzE
      rw [hptr1, hB2, h3]
      simp only [Option.bind_some]
      have hE2 := split_fw E
      generalize hsp2 : E.takeWhile isspace = sp2 at *
      have hzf : (0 : Byte) ∉ fw E ++ fr E := by
        intro h
        apply hzE
        rw [hE2, List.append_assoc, List.mem_append]
        exact Or.inr h
      have hB3 : ((sp.map some ++ (fw S).map some ++ [some 0]) ++ (E.map some ++ some 0 :: R) : Buf) =
          (sp.map some ++ (fw S).map some ++ [some 0] ++ sp2.map some) ++ ((fw E ++ fr E).map some ++ some 0 :: R) := by
        conv_lhs => rw [hE2]
        simp
      have hdst : (sp.map some ++ (fw S).map some ++ [some 0] : Buf).length + sp2.length =
          (sp.map some ++ (fw S).map some ++ [some 0] ++ sp2.map some : Buf).length := by simp only [List.length_append, List.length_map]
      rw [hdst, hB3]
      have h4 := skipWord_eq (sp.map some ++ (fw S).map some ++ [some 0] ++ sp2.map some) (fw E ++ fr E) R hzf
      have hwr : words (fr S) = if fw E = [] then [] else fw E :: words (fr E) := by
        rw [hE, words_space e E hesp, words_fw]
      rw [hwr]
      by_cases hwE : fw E = []
      · rw [if_pos hwE]
        rw [hwE, fr_nil_of_fw_nil hwE] at h4 ⊢
        simp only [List.append_nil, List.takeWhile_nil, List.length_nil, Nat.add_zero, List.map_nil,
          List.nil_append] at h4 ⊢
        rw [h4]
        simp only [Option.bind_some]
        rw [set_mid, if_pos (by simp)]
        exact ⟨_, rfl⟩
      · rw [if_neg hwE]
        have htw2 : (fw E ++ fr E).takeWhile (fun b => !isspace b) = fw E := by
          rw [List.takeWhile_append_of_pos (by
            intro a ha
            exact mem_takeWhile_sat (p := fun b => !isspace b) ha)]
          cases hfr : fr E with
          | nil => simp
          | cons x X =>
            have : ∀ s : Bytes, ∀ x, (s.dropWhile (fun b => !isspace b)).head? = some x → isspace x = true := by
              intro s
              induction s with
              | nil => simp
              | cons a s ih =>
                intro x hx
                rw [List.dropWhile_cons] at hx
                split at hx
                · exact ih x hx
                · rename_i ha
                  simp only [List.head?_cons, Option.some.injEq] at hx
                  rw [← hx]; simpa using ha
            have hx := this (E.dropWhile isspace) x (by change (fr E).head? = _; rw [hfr]; rfl)
            simp [hx]
        rw [htw2] at h4
        rw [h4]
        simp only [Option.bind_some]
        obtain ⟨v, V, hV⟩ : ∃ v V, fw E = v :: V := by
          cases hfw : fw E with
          | nil => exact absurd hfw hwE
          | cons v V => exact ⟨v, V, rfl⟩
        have hv0 : v ≠ 0 := fun h => hzf (by rw [hV, h]; simp)
        -- the end of the second word
        obtain ⟨post, y, hpost⟩ : ∃ (post : Buf) (y : Option Byte), (fr E).map some ++ some 0 :: R = y :: post := by
          cases fr E with
          | nil => exact ⟨R, some 0, rfl⟩
          | cons x X => exact ⟨X.map some ++ some 0 :: R, some x, rfl⟩
        have hB4 : ((sp.map some ++ (fw S).map some ++ [some 0] ++ sp2.map some) ++ ((fw E ++ fr E).map some ++ some 0 :: R) : Buf) =
            (sp.map some ++ (fw S).map some ++ [some 0] ++ sp2.map some ++ (fw E).map some) ++ y :: post := by
          rw [← hpost]; simp
        have hend : (sp.map some ++ (fw S).map some ++ [some 0] ++ sp2.map some : Buf).length + (fw E).length =
            (sp.map some ++ (fw S).map some ++ [some 0] ++ sp2.map some ++ (fw E).map some : Buf).length := by simp only [List.length_append, List.length_map]
        rw [hend, hB4, set_mid]
        have hg2 : ((sp.map some ++ (fw S).map some ++ [some 0] ++ sp2.map some ++ (fw E).map some) ++ some 0 :: post : Buf)[
            (sp.map some ++ (fw S).map some ++ [some 0] ++ sp2.map some : Buf).length]? = some (some v) := by
          rw [hV]
          rw [List.append_assoc, List.getElem?_append_right (Nat.le_refl _)]
          simp
        rw [hg2, if_neg (by simpa using hv0)]
        refine ⟨(sp.map some ++ (fw S).map some ++ [some 0] ++ sp2.map some ++ (fw E).map some) ++ some 0 :: post, ?_⟩
        · have ht1 : bufText ((sp.map some ++ (fw S).map some ++ [some 0] ++ sp2.map some ++ (fw E).map some) ++ some 0 :: post)
              (sp.map some : Buf).length (sp.map some ++ (fw S).map some : Buf).length = fw S := by
            unfold bufText
            have : ((sp.map some ++ (fw S).map some ++ [some 0] ++ sp2.map some ++ (fw E).map some) ++ some 0 :: post : Buf) =
                sp.map some ++ ((fw S).map some ++ ([some 0] ++ sp2.map some ++ (fw E).map some ++ some 0 :: post)) := by simp
            rw [this, List.drop_left]
            have hl : (sp.map some ++ (fw S).map some : Buf).length - (sp.map some : Buf).length = ((fw S).map some : Buf).length := by simp
            rw [hl, List.take_left, fm_some]
          have ht2 : bufText ((sp.map some ++ (fw S).map some ++ [some 0] ++ sp2.map some ++ (fw E).map some) ++ some 0 :: post)
              (sp.map some ++ (fw S).map some ++ [some 0] ++ sp2.map some : Buf).length
              (sp.map some ++ (fw S).map some ++ [some 0] ++ sp2.map some ++ (fw E).map some : Buf).length = fw E := by
            unfold bufText
            rw [List.append_assoc (sp.map some ++ (fw S).map some ++ [some 0] ++ sp2.map some : Buf) ((fw E).map some), List.drop_left]
            have hl : (sp.map some ++ (fw S).map some ++ [some 0] ++ sp2.map some ++ (fw E).map some : Buf).length -
                (sp.map some ++ (fw S).map some ++ [some 0] ++ sp2.map some : Buf).length = ((fw E).map some : Buf).length := by
              rw [List.length_append]; omega
            rw [hl, List.take_left, fm_some]
          simp only [ht1, ht2]
          rw [if_neg (by rw [hW]; simpa using hh)]
          rfl

theorem subsInit_eq (buf : Buf) (lines : List Bytes)
    (h : ∀ l ∈ lines, (10 : Byte) ∉ l ∧ (0 : Byte) ∉ l ∧ l.length ≤ 1021) :
    subsInit buf (lines.map (· ++ [10])).flatten = some (lines.filterMap subOf) := by
  induction lines generalizing buf with
  | nil => rw [subsInit]; rfl
  | cons l ls ih =>
    have hl := h l List.mem_cons_self
    rw [subsInit]
    have hf : ((l :: ls).map (· ++ [10])).flatten = l ++ 10 :: (ls.map (· ++ [10])).flatten := by simp
    rw [hf, dif_neg (by simp), chunk_line l _ 1022 hl.1 (by omega)]
    simp only
    obtain ⟨buf', hb⟩ := subLine_eq buf l hl.2.1
    rw [hb]
    simp only
    rw [ih buf' (fun x hx => h x (List.mem_cons_of_mem _ hx))]
    cases hs : subOf l <;> simp [hs]

/-! ## Fixed beginnings -/

theorem simplify_append {a b x : Bytes} (h : simplify a = some x) : simplify (a ++ b) = (simplify b).map (x ++ ·) := by
  induction hk : a.length using Nat.strongRecOn generalizing a x with
  | _ k ih =>
    cases a with
    | nil =>
      rw [simplify] at h
      simp only [Option.some.injEq] at h
      subst h
      simp
    | cons c a =>
      rw [simplify_cons] at h
      simp only [List.length_cons] at hk
      rw [List.cons_append, simplify_cons]
      split at h
      · simp at h
      · rename_i hm
        rw [if_neg hm]
        split at h
        · rename_i hb
          rw [if_pos hb]
          cases a with
          | nil => simp at h
          | cons d a =>
            simp only [List.length_cons] at hk
            simp only [List.cons_append] at h ⊢
            split at h
            · rename_i he
              rw [if_pos he]
              obtain ⟨u, hu, rfl⟩ := Option.map_eq_some_iff.1 h
              rw [ih a.length (by omega) hu rfl]
              simp [Option.map_map, Function.comp_def]
            · simp at h
        · rename_i hb
          rw [if_neg hb]
          obtain ⟨u, hu, rfl⟩ := Option.map_eq_some_iff.1 h
          rw [ih a.length (by omega) hu rfl]
          simp [Option.map_map, Function.comp_def]

theorem simplify_mem {a x : Bytes} (h : simplify a = some x) {b : Byte} (hb : b ∈ x) : b ∈ a := by
  induction hk : a.length using Nat.strongRecOn generalizing a x with
  | _ k ih =>
    cases a with
    | nil =>
      rw [simplify] at h
      simp only [Option.some.injEq] at h
      subst h
      simp at hb
    | cons c a =>
      rw [simplify_cons] at h
      simp only [List.length_cons] at hk
      split at h
      · simp at h
      · split at h
        · cases a with
          | nil => simp at h
          | cons d a =>
            simp only [List.length_cons] at hk
            simp only at h
            split at h
            · obtain ⟨u, hu, rfl⟩ := Option.map_eq_some_iff.1 h
              rcases List.mem_cons.1 hb with rfl | hb
              · simp
              · have := ih a.length (by omega) hu hb rfl
                simp [this]
            · simp at h
        · obtain ⟨u, hu, rfl⟩ := Option.map_eq_some_iff.1 h
          rcases List.mem_cons.1 hb with rfl | hb
          · simp
          · have := ih a.length (by omega) hu hb rfl
            simp [this]

theorem simplify_ne {a x : Bytes} (h : simplify a = some x) (ha : a ≠ []) : x ≠ [] := by
  rintro rfl
  cases a with
  | nil => exact ha rfl
  | cons c a =>
    rw [simplify_cons] at h
    split at h
    · simp at h
    · split at h
      · cases a with
        | nil => simp at h
        | cons d a => simp only at h; split at h <;> simp at h
      · simp at h

unseal isMeta in
theorem simplify_slash (a : Bytes) : simplify (47 :: a) = (simplify a).map (47 :: ·) := by
  rw [simplify_cons, if_neg (by decide), if_neg (by decide)]

theorem leads_text (r : Bytes) (hr : r.head? = some 47) (m : Nat) (hm1 : 1 ≤ m) (hm : m ≤ (leads r).length) :
    ∃ lit0 rest t, r = 47 :: (lit0 ++ 47 :: rest) ∧ plain (47 :: (lit0 ++ [47])) = some (47 :: (t ++ [47])) ∧
      (parts (t ++ [47])).filter (· ≠ []) = (leads r).take m := by
  induction hk : r.length using Nat.strongRecOn generalizing r m with
  | _ k ih =>
    cases r with
    | nil => simp at hr
    | cons b r' =>
      simp only [List.head?_cons, Option.some.injEq] at hr
      subst hr
      rw [leads_cut] at hm ⊢
      simp only [List.drop_succ_cons, List.drop_zero] at hm ⊢
      cases hc : cut r' with
      | none => rw [hc] at hm; simp only [List.length_nil] at hm; omega
      | some x =>
        obtain ⟨seg, q⟩ := x
        obtain ⟨hr', hf⟩ := cut_some hc
        obtain ⟨q', rfl⟩ := cut_q hc
        rw [hc] at hm
        simp only at hm ⊢
        have hlen : (47 :: q').length < k := by
          rw [← hk, hr']; simp only [List.length_cons, List.length_append]; omega
        by_cases hs : seg = []
        · subst hs
          rw [if_pos rfl] at hm ⊢
          obtain ⟨lit0, rest, t, h1, h2, h3⟩ := ih _ hlen (47 :: q') rfl m hm1 hm rfl
          refine ⟨47 :: lit0, rest, 47 :: t, by rw [hr', h1]; rfl, ?_, ?_⟩
          · rw [← simplify_plain] at h2 ⊢
            rw [simplify_slash]
            simp only [List.cons_append]
            rw [h2]; rfl
          · rw [← h3]
            have := parts_app (a := []) (by simp) (t ++ [47])
            simp only [List.nil_append] at this
            rw [List.cons_append, this]
            simp
        · rw [if_neg hs] at hm ⊢
          cases hp : plain seg with
          | none => rw [hp] at hm; simp only [List.length_nil] at hm; omega
          | some t0 =>
            rw [hp] at hm
            simp only [List.length_cons] at hm
            rw [← simplify_plain] at hp
            have ht0 : (47 : Byte) ∉ t0 := fun h => hf (simplify_mem hp h)
            have htne := simplify_ne hp hs
            by_cases hm2 : m = 1
            · subst hm2
              refine ⟨seg, q', t0, by rw [hr'], ?_, ?_⟩
              · rw [← simplify_plain, simplify_slash, simplify_append hp, simplify_slash]
                rfl
              · rw [parts_app ht0]
                simp [parts, htne]
            · obtain ⟨lit0, rest, t, h1, h2, h3⟩ := ih _ hlen (47 :: q') rfl (m - 1) (by omega) (by omega) rfl
              refine ⟨seg ++ 47 :: lit0, rest, t0 ++ 47 :: t, ?_, ?_, ?_⟩
              · rw [hr', h1]; simp
              · rw [← simplify_plain] at h2 ⊢
                rw [simplify_slash, List.append_assoc, simplify_append hp]
                rw [List.cons_append, h2]
                simp
              · rw [List.append_assoc, List.cons_append, parts_app ht0]
                have : m = (m - 1) + 1 := by omega
                rw [this, List.take_succ_cons, ← h3]
                simp [List.filter_cons, htne]

theorem parts_ended (t x : Bytes) : parts (t ++ 47 :: x) = parts (t ++ [47]) ++ parts x := by
  induction t with
  | nil => simp [parts]
  | cons b t ih =>
    rw [List.cons_append, List.cons_append, parts, parts]
    split
    · rw [ih]; rfl
    · rw [ih]
      cases hp : parts (t ++ [47]) with
      | nil =>
        exfalso
        have : ∀ t : Bytes, parts (t ++ [47]) ≠ [] := by
          intro t
          induction t with
          | nil => simp [parts]
          | cons b t ih =>
            rw [List.cons_append, parts]
            split
            · simp
            · cases h : parts (t ++ [47]) with
              | nil => exact absurd h ih
              | cons _ _ => simp
        exact this t hp
      | cons d ds => rfl

theorem rooted_of_regular {eng : Engine} {es : List Entry} {path : Bytes} (hlaw : FixedBeginning eng)
    (hreg : ∀ e ∈ es, plain e.regex = none → Regular e.regex) (hc : Clean path) : Rooted eng es path := by
  intro e he hp hfull
  obtain ⟨h47, hbar, hq⟩ := hreg e he hp
  rw [leading_eq]
  by_cases h0 : ((leads e.regex).take 3).length = 0
  · rw [List.length_eq_zero_iff.1 h0]; exact List.nil_prefix
  · have hle : ((leads e.regex).take 3).length ≤ (leads e.regex).length := by
      rw [List.length_take]; omega
    obtain ⟨lit0, rest, t, h1, h2, h3⟩ := leads_text e.regex h47 _ (by omega) hle
    have htake : (leads e.regex).take ((leads e.regex).take 3).length = (leads e.regex).take 3 := by
      rw [List.length_take]
      rcases Nat.le_total 3 (leads e.regex).length with h | h
      · rw [Nat.min_eq_left h]
      · rw [Nat.min_eq_right h, List.take_length, List.take_of_length_le h]
    rw [htake] at h3
    have hr : e.regex = 47 :: (lit0 ++ [47]) ++ rest := by rw [h1]; simp
    have hpre := hlaw (47 :: (lit0 ++ [47])) rest _ path h2 (by
      intro b hb
      cases rest with
      | nil => simp at hb
      | cons c rest =>
        simp only [List.head?_cons, Option.some.injEq] at hb
        subst hb
        exact hq (47 :: lit0) c rest (by rw [h1]; simp)) (by rw [← hr]; exact hbar) (by rw [← hr]; exact hfull)
    obtain ⟨x, hx⟩ := hpre
    have hd : dirs path = parts (t ++ [47]) ++ parts x := by
      unfold dirs
      rw [← hx]
      simp only [List.cons_append, List.drop_succ_cons, List.drop_zero, List.append_assoc, List.nil_append]
      exact parts_ended t x
    rw [← h3]
    have hall : (parts (t ++ [47])).filter (· ≠ []) = parts (t ++ [47]) := by
      rw [List.filter_eq_self]
      intro d hdm
      have := hc.2 d (by rw [hd]; exact List.mem_append_left _ hdm)
      simpa using this
    rw [hall, hd]
    exact List.prefix_append _ _

end Verif.FileLabel
