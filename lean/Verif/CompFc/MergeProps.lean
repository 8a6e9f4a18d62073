import Verif.CompFc.MergeLemmas
/-! # Properties of handles with several files, of text or compiled -/
namespace Verif.CompFc
open Verif.FileLabel
open Verif.FileLabel.Spec (Entry Sorts plain leading entriesFrom entries Older Says Rooted NoError NoneLast Clean names joinPath Names Matches Fits answer)
open Spec

/-! ## The specification -/

/-- A file that holds these lines: the text itself, or what `sefcontext_compile`
made of it, maybe with another version of PCRE. If it was the same version, PCRE
can read what it wrote. The literals of a compiled file are long enough. -/
inductive Comes (lib : Lib) (decode : Bytes → Dec) (lines : List Bytes) : Source → Prop
  | text : Comes lib decode lines (.text lines)
  | compiled (q : Qsort) (hq : Sorts q) (d : Data) (hd : FileLabel.load q none [lines] = some d)
      (hlen : lines.length < 4294967295) (hroomy : ∀ x, Within d.root x → Roomy x) (lib' : Lib) (ser : Bytes → Option Bytes)
      (pre : Bool) (hp : lib = lib' → pre = true → Pcre ser decode) (bytes : Bytes) (hc : compile lib' ser pre d = some bytes) :
      Comes lib decode lines (.compiled bytes)

/-! ## What a compiled file adds -/

theorem child_keep (i : Nat) (n : Node) (s : Bytes) : child (keep i n) s = (child n s).map (keep i) := by
  unfold child
  rw [keep_children, List.find?_map]
  congr 1
  congr 1
  funext c
  simp [keep_stem]

theorem at_keep (i : Nat) (n : Node) (p : List Bytes) : at_ (keep i n) p = (at_ n p).map (keep i) := by
  induction p generalizing n with
  | nil => rfl
  | cons s ss ih =>
    simp only [at_, child_keep]
    cases child n s with
    | none => rfl
    | some c => exact ih c

theorem obs_keep_res (i : Nat) (n : Node) (p : List Bytes) : obsAt Node.res (keep i n) p = (obsAt Node.res n p).map (keepRe i) := by
  unfold obsAt
  rw [at_keep]
  cases at_ n p with
  | none => rfl
  | some m => exact keep_res i m

theorem obs_keep_lits (i : Nat) (n : Node) (p : List Bytes) : obsAt Node.lits (keep i n) p = (obsAt Node.lits n p).map keepLit := by
  unfold obsAt
  rw [at_keep]
  cases at_ n p with
  | none => rfl
  | some m => exact keep_lits i m

theorem within_keep {i : Nat} {n x : Node} (h : Within (keep i n) x) : ∃ y, Within n y ∧ x = keep i y := by
  generalize hm : keep i n = m at h
  induction h generalizing n with
  | here m => exact ⟨n, .here n, hm.symm⟩
  | @child m x c hc _ ih =>
    subst hm
    rw [keep_children] at hc
    obtain ⟨c', hc', rfl⟩ := List.mem_map.1 hc
    obtain ⟨y, hy, rfl⟩ := ih rfl
    exact ⟨y, .child hc' hy, rfl⟩

theorem allOrd_keep {i : Nat} {n : Node} (h : AllOrd n) : AllOrd (keep i n) := by
  intro x hx
  obtain ⟨y, hy, rfl⟩ := within_keep hx
  unfold Strict
  rw [keep_children, List.pairwise_map]
  refine List.Pairwise.imp ?_ (h y hy)
  intro a b hab
  rw [keep_stem, keep_stem]
  exact hab

mutual
theorem wf_allOrd (n : Node) (h : AllOrd n) : WF n := by
  cases n with
  | mk s l r c => exact .mk s l r c (ord_nodup (h _ (.here _))) (wfs_allOrd c fun x hx => h.sub (n := .mk s l r c) hx)
theorem wfs_allOrd (c : List Node) (h : ∀ x ∈ c, AllOrd x) : ∀ x ∈ c, WF x := by
  cases c with
  | nil => intro x hx; simp at hx
  | cons a c =>
    intro x hx
    rcases List.mem_cons.1 hx with hxa | hx
    · rw [hxa]; exact wf_allOrd a (h a List.mem_cons_self)
    · exact wfs_allOrd c (fun y hy => h y (List.mem_cons_of_mem _ hy)) x hx
end

/-! ## The invariant -/

/-- An entry as it is in the tree: literals of compiled files have no line. -/
def blur (comp : Nat → Bool) (e : Entry) : Entry :=
  if (plain e.regex).isSome && comp e.input then { e with line := 0 } else e

theorem blur_regex (comp : Nat → Bool) (e : Entry) : (blur comp e).regex = e.regex := by unfold blur; split <;> rfl
theorem blur_kind (comp : Nat → Bool) (e : Entry) : (blur comp e).kind = e.kind := by unfold blur; split <;> rfl
theorem blur_ctx (comp : Nat → Bool) (e : Entry) : (blur comp e).ctx = e.ctx := by unfold blur; split <;> rfl
theorem blur_re (comp : Nat → Bool) {e : Entry} (h : plain e.regex = none) : blur comp e = e := by unfold blur; simp [h]

/-- What the tree holds; the literals in any order. -/
structure HoldsP (es : List Entry) (d : Data) : Prop where
  wf : WF d.root
  res : ∀ p, obsAt Node.res d.root p = (es.filter (fun e => (plain e.regex).isNone && decide (leading e.regex = p))).map toRe
  lits : ∀ p, (obsAt Node.lits d.root p).Perm ((es.filter (fun e => (plain e.regex).any (fun t => decide (litPath t = p)))).map toLit)
  depth : ∀ p, (at_ d.root p).isSome = true → p.length ≤ 3
  num : d.num = es.length

theorem holdsP_empty : HoldsP [] .empty where
  wf := holds_new.wf
  res := holds_new.res
  lits p := by rw [show obsAt Node.lits Data.empty.root p = _ from holds_new.lits p]
  depth := holds_new.depth
  num := rfl

theorem insert_holdsP {es : List Entry} {d : Data} (h : HoldsP es d) (e : Entry) (hl : e.regex.length < 65535) :
    ∃ d', insertSpec none d e.regex e.kind e.ctx e.input e.line = some d' ∧ HoldsP (es ++ [e]) d' := by
  unfold insertSpec
  have hm := hasMeta_plain e.regex 0
  simp only
  cases hp : plain e.regex with
  | none =>
    rw [hp] at hm
    simp only [Option.isNone_none] at hm
    rw [if_pos hm, reStems_eq 0 e.regex hl]
    refine ⟨_, rfl, ?_⟩
    have hpath : (leads e.regex).take (3 - 0) = leading e.regex := (leading_eq _).symm
    rw [hpath]
    refine ⟨upd_wf (addRe_local _) _ h.wf, ?_, ?_, ?_, by simp [h.num]⟩
    · intro p
      rw [obsAt_upd (addRe_local _) [toRe e] (by intro n; cases n; rfl) (by intro s; rfl) (by intros; rfl), h.res, h.res]
      rw [List.filter_append, List.map_append]
      by_cases hpp : p = leading e.regex
      · subst hpp; simp [hp]
      · have : ¬ leading e.regex = p := fun x => hpp x.symm
        simp [hpp, this]
    · intro p
      rw [obsAt_upd (addRe_local _) [] (by intro n; cases n; simp [addRe, Node.lits]) (by intro s; rfl) (by intros; rfl)]
      rw [List.filter_append, List.map_append]
      simp only [List.append_nil, List.filter_cons, hp, Option.any_none, Bool.false_eq_true, if_false, List.filter_nil,
        List.map_nil]
      split
      · rename_i hh; rw [← hh]; exact h.lits p
      · exact h.lits p
    · intro p hpp
      rcases (isSome_upd (addRe_local _) _ _ _).1 hpp with h1 | h1
      · exact h.depth p h1
      · have := h1.length_le
        have := leading_length e.regex
        omega
  | some t =>
    rw [hp] at hm
    simp only [Option.isNone_some] at hm
    rw [if_neg (by rw [hm]; exact Bool.false_ne_true), simplify_plain, hp]
    simp only
    rw [litStems_eq]
    refine ⟨_, rfl, ?_⟩
    have hpath : (if t.head? = some slash then ((Verif.FileLabel.Spec.parts (t.drop 1)).filter (· ≠ [])).take (3 - 0) else []) = litPath t := rfl
    rw [hpath]
    have hlit : toLit e = ⟨e.ctx, e.regex, t, (hasMeta e.regex 0).2, e.kind, e.line⟩ := by
      simp [toLit, hp]
    refine ⟨upd_wf (addLit_local _) _ h.wf, ?_, ?_, ?_, by simp [h.num]⟩
    · intro p
      rw [obsAt_upd (addLit_local _) [] (by intro n; cases n; simp [addLit, Node.res]) (by intro s; rfl) (by intros; rfl)]
      rw [List.filter_append, List.map_append]
      simp only [List.append_nil, List.filter_cons, hp, Option.isNone_some, Bool.false_and, Bool.false_eq_true,
        if_false, List.filter_nil, List.map_nil, ← h.res]
      split
      · rename_i hh; rw [hh]
      · rfl
    · intro p
      rw [obsAt_upd (addLit_local _) [toLit e] (by intro n; rw [hlit]; cases n; rfl) (by intro s; rfl) (by intros; rfl)]
      rw [List.filter_append, List.map_append]
      by_cases hpp : p = litPath t
      · subst hpp
        simp only [if_true, List.filter_cons, hp, Option.any_some, decide_true, List.filter_nil, List.map_cons, List.map_nil]
        exact (h.lits _).append_right _
      · have : ¬ litPath t = p := fun x => hpp x.symm
        simp only [if_neg hpp, List.filter_cons, hp, Option.any_some, this, decide_false, Bool.false_eq_true, if_false,
          List.filter_nil, List.map_nil, List.append_nil]
        exact h.lits p
    · intro p hpp
      rcases (isSome_upd (addLit_local _) _ _ _).1 hpp with h1 | h1
      · exact h.depth p h1
      · have := h1.length_le
        have := litPath_length t
        omega

theorem processLines_holdsP {inputno : Nat} {ls : List Bytes} {lineno : Nat} {d d' : Data} {es : List Entry}
    (h : HoldsP es d) (hp : processLines none inputno lineno ls d = some d') :
    HoldsP (es ++ entriesFrom inputno lineno ls) d' := by
  induction ls generalizing lineno d es with
  | nil => simp only [processLines, Option.some.injEq] at hp; subst hp; simpa [entriesFrom] using h
  | cons l ls ih =>
    rw [processLines] at hp
    rw [entriesFrom]
    cases hl : parseLine l with
    | ub => rw [hl] at hp; simp at hp
    | err => rw [hl] at hp; simp at hp
    | skip => rw [hl] at hp; exact ih h hp
    | spec r k c =>
      rw [hl] at hp
      simp only at hp ⊢
      obtain ⟨d1, hd1, hh⟩ := insert_holdsP h ⟨r, k, c, inputno, lineno + 1⟩ (parseLine_short hl)
      simp only at hd1
      rw [hd1] at hp
      simp only at hp
      have := ih hh hp
      rw [List.append_assoc, List.singleton_append] at this
      exact this

theorem entriesFrom_input (i n : Nat) (ls : List Bytes) :
    entriesFrom i n ls = (entriesFrom 0 n ls).map (fun e => { e with input := i }) := by
  induction ls generalizing n with
  | nil => rfl
  | cons l ls ih =>
    rw [entriesFrom, entriesFrom]
    split
    · rw [List.map_cons, ih]
    · exact ih _

/-- The entries of a compiled file as they are in the tree. -/
def marked (i : Nat) (lines : List Bytes) : List Entry := (entriesFrom i 0 lines).map (blur fun _ => true)

theorem keep_holdsP {q : Qsort} (hq : Sorts q) {lines : List Bytes} {d : Data} (h : FileLabel.load q none [lines] = some d)
    (hlen : lines.length < 4294967295) (i : Nat) : HoldsP (marked i lines) ⟨keep i d.root, d.num⟩ := by
  obtain ⟨hs, hn⟩ := load_sorted hq h
  obtain ⟨-, -, hstrict, -⟩ := load_tree hq h hlen
  rw [show entries 0 [lines] = entriesFrom 0 0 lines from List.append_nil _] at hs hn
  have hmk : marked i lines = (entriesFrom 0 0 lines).map ((blur fun _ => true) ∘ fun e => { e with input := i }) := by
    rw [marked, entriesFrom_input i, List.map_map]
  refine ⟨wf_allOrd _ (allOrd_keep hstrict), ?_, ?_, ?_, ?_⟩
  · intro p
    show obsAt Node.res (keep i d.root) p = _
    rw [obs_keep_res, hs.res, hmk, List.filter_map, List.map_map, List.map_map]
    have hf : ((fun e : Entry => (plain e.regex).isNone && decide (leading e.regex = p)) ∘
        ((blur fun _ => true) ∘ fun e : Entry => { e with input := i })) =
        fun e : Entry => (plain e.regex).isNone && decide (leading e.regex = p) := by
      funext e
      simp only [Function.comp, blur_regex]
    rw [hf]
    refine List.map_congr_left ?_
    intro e he
    have hpn := (List.mem_filter.1 he).2
    simp only [Bool.and_eq_true, Option.isNone_iff_eq_none] at hpn
    simp only [Function.comp]
    rw [blur_re _ (show plain ({ e with input := i } : Entry).regex = none from hpn.1)]
    rfl
  · intro p
    show (obsAt Node.lits (keep i d.root) p).Perm _
    rw [obs_keep_lits]
    refine ((hs.lits p).map keepLit).trans (List.Perm.of_eq ?_)
    rw [hmk, List.filter_map, List.map_map, List.map_map]
    have hf : ((fun e : Entry => (plain e.regex).any (fun t => decide (litPath t = p))) ∘
        ((blur fun _ => true) ∘ fun e : Entry => { e with input := i })) =
        fun e : Entry => (plain e.regex).any (fun t => decide (litPath t = p)) := by
      funext e
      simp only [Function.comp, blur_regex]
    rw [hf]
    refine List.map_congr_left ?_
    intro e he
    have hpn := (List.mem_filter.1 he).2
    have hps : (plain e.regex).isSome = true := by
      cases hx : plain e.regex with
      | none => rw [hx] at hpn; simp at hpn
      | some t => rfl
    simp only [Function.comp, blur, hps, Bool.and_self, if_true]
    rfl
  · intro p hp
    rw [show at_ (Data.root ⟨keep i d.root, d.num⟩) p = _ from at_keep i d.root p, Option.isSome_map] at hp
    exact hs.depth p hp
  · rw [marked, List.length_map, entriesFrom_input i, List.length_map]
    exact hn

theorem merge_holdsP {q : Qsort} (hq : Sorts q) {es es' : List Entry} {d d' : Data} (h : HoldsP es d) (h' : HoldsP es' d')
    (ho : AllOrd d'.root) :
    HoldsP (es ++ es') (if d.num = 0 then ⟨d'.root, d.num + d'.num⟩ else ⟨merge q 32 d.root d'.root, d.num + d'.num⟩) := by
  split
  · rename_i h0
    have : es = [] := List.length_eq_zero_iff.1 (h.num.symm.trans h0)
    subst this
    exact ⟨h'.wf, h'.res, h'.lits, h'.depth, by simp [h0, h'.num]⟩
  · have hlev : Levels 32 d'.root := fun p hp => by have := h'.depth p hp; omega
    refine ⟨merge_wf hq h.wf ho h'.wf, ?_, ?_, ?_, by simp [h.num, h'.num]⟩
    · intro p
      rw [obs_merge hq (by intro k n m; cases n; cases m; rfl) h.wf ho hlev, h.res, h'.res, List.filter_append, List.map_append]
    · intro p
      rw [obs_merge hq (by intro k n m; cases n; cases m; rfl) h.wf ho hlev, List.filter_append, List.map_append]
      exact (h.lits p).append (h'.lits p)
    · intro p hp
      rcases isSome_merge hq h.wf ho hlev p hp with hp | hp
      · exact h.depth p hp
      · exact h'.depth p hp

/-- Whether a file is compiled. -/
def Source.isComp : Source → Bool
  | .text _ => false
  | .compiled _ => true

theorem addFile_holds {q : Qsort} (hq : Sorts q) {lib : Lib} {decode : Bytes → Dec} {i : Nat} {lines : List Bytes} {src : Source}
    (hc : Comes lib decode lines src) {comp : Nat → Bool} (hi : comp i = src.isComp) {es : List Entry} {d d' : Data}
    (h : HoldsP es d) (ha : addFile q lib decode some i d src = some d') :
    HoldsP (es ++ (entriesFrom i 0 lines).map (blur comp)) d' := by
  have hin : ∀ e ∈ entriesFrom i 0 lines, comp e.input = src.isComp := by
    intro e he
    rw [(entriesFrom_mem he).1, hi]
  cases hc with
  | text =>
    rw [show (entriesFrom i 0 lines).map (blur comp) = entriesFrom i 0 lines from by
      conv => rhs; rw [← List.map_id (entriesFrom i 0 lines)]
      refine List.map_congr_left fun e he => ?_
      unfold blur
      rw [hin e he]
      simp [Source.isComp]]
    exact processLines_holdsP h ha
  | compiled q0 hq0 d0 hd0 hlen hroomy lib' ser pre hp bytes hb =>
    rw [show (entriesFrom i 0 lines).map (blur comp) = marked i lines from by
      refine List.map_congr_left fun e he => ?_
      unfold blur
      rw [hin e he]
      rfl]
    simp only [addFile] at ha
    rw [C110_partial hq0 hd0 hlen hroomy hp hb (fun _ _ _ => rfl) i] at ha
    simp only [Option.some.injEq] at ha
    subst ha
    exact merge_holdsP hq h (keep_holdsP hq0 hd0 hlen i) (allOrd_keep (load_tree hq0 hd0 hlen).2.2.1)

theorem addFiles_holds {q : Qsort} (hq : Sorts q) {lib : Lib} {decode : Bytes → Dec} {comp : Nat → Bool} {i : Nat}
    {files : List (List Bytes)} {srcs : List Source} (hc : List.Forall₂ (Comes lib decode) files srcs)
    (hi : ∀ j src, srcs[j]? = some src → comp (i + j) = src.isComp) {es : List Entry} {d d' : Data}
    (h : HoldsP es d) (ha : addFiles q lib decode some i srcs d = some d') :
    HoldsP (es ++ (entries i files).map (blur comp)) d' := by
  induction hc generalizing i es d with
  | nil => simp only [addFiles, Option.some.injEq] at ha; subst ha; simpa [entries] using h
  | @cons f src fs ss hcf hcs ih =>
    rw [addFiles] at ha
    cases hf : addFile q lib decode some i d src with
    | none => rw [hf] at ha; simp at ha
    | some d1 =>
      rw [hf] at ha
      simp only at ha
      have h1 := addFile_holds hq hcf (hi 0 src rfl) h hf
      have := ih (i := i + 1) (fun j s hj => by
        rw [show i + 1 + j = i + (j + 1) from by omega]
        exact hi (j + 1) s hj) h1 ha
      rw [entries, List.map_append, ← List.append_assoc]
      exact this

theorem sort_holdsP {q : Qsort} (hq : Sorts q) {es : List Entry} {d : Data} (h : HoldsP es d) :
    FileLabel.Sorted es (sortNode q d.root) := by
  have hres : ∀ p, obsAt Node.res (sortNode q d.root) p = obsAt Node.res d.root p := by
    intro p
    unfold obsAt
    rw [at_sort hq h.wf]
    cases at_ d.root p with
    | none => rfl
    | some m => simp [sortNode_res]
  have hlits : ∀ p, obsAt Node.lits (sortNode q d.root) p = [] ∧ obsAt Node.lits d.root p = [] ∨
      obsAt Node.lits (sortNode q d.root) p = q.sort cmpLit (obsAt Node.lits d.root p) := by
    intro p
    unfold obsAt
    rw [at_sort hq h.wf]
    cases at_ d.root p with
    | none => exact Or.inl ⟨rfl, rfl⟩
    | some m => right; simp [sortNode_lits]
  refine ⟨fun p => by rw [hres, h.res], ?_, ?_, ?_, ?_⟩
  · intro p
    refine List.Perm.trans ?_ (h.lits p)
    rcases hlits p with ⟨h1, h2⟩ | h1
    · rw [h1, h2]
    · rw [h1]; exact (hq cmpLit _).1
  · intro p
    rcases hlits p with ⟨h1, h2⟩ | h1
    · rw [h1]; exact List.Pairwise.nil
    · rw [h1]; exact (hq cmpLit _).2 cmpLit_consistent
  · intro p m hm
    rw [at_sort hq h.wf] at hm
    obtain ⟨x, hx, rfl⟩ := Option.map_eq_some_iff.1 hm
    exact strict_sort hq (at_wf h.wf hx)
  · intro p hp
    rw [at_sort hq h.wf] at hp
    exact h.depth p (by simpa using hp)

/-! ## From the entries in the tree to those of the files -/

theorem names_blur (comp : Nat → Bool) (e : Entry) (path : Bytes) (kind : Nat) : Names (blur comp e) path kind ↔ Names e path kind := by
  unfold Names Fits
  rw [blur_regex, blur_kind]

theorem matches_blur (comp : Nat → Bool) (eng : Engine) (e : Entry) (path : Bytes) (kind : Nat) :
    Matches eng (blur comp e) path kind ↔ Matches eng e path kind := by
  unfold Matches Fits
  rw [blur_regex, blur_kind]

theorem says_blur {comp : Nat → Bool} {eng : Engine} {es : List Entry} {path : Bytes} {kind : Nat} {x : Except Err (Bytes × Nat × Bytes)}
    (h : Says eng (es.map (blur comp)) path kind x) : Says eng es path kind x := by
  have hans : ∀ e, answer (blur comp e) = answer e := by
    intro e
    unfold answer
    rw [blur_ctx, blur_regex, blur_kind]
  cases h with
  | named e he hn hb =>
    obtain ⟨e, hee, rfl⟩ := List.mem_map.1 he
    rw [hans]
    refine .named e hee ((names_blur ..).1 hn) ?_
    intro e' he' hn'
    have := hb _ (List.mem_map_of_mem he') ((names_blur ..).2 hn')
    rwa [blur_kind, blur_kind] at this
  | matched e he hno hm hl =>
    obtain ⟨e, hee, rfl⟩ := List.mem_map.1 he
    rw [hans]
    have hm' := (matches_blur ..).1 hm
    refine .matched e hee (fun e' he' hn => hno _ (List.mem_map_of_mem he') ((names_blur ..).2 hn)) hm' ?_
    intro e' he' hme
    have := hl _ (List.mem_map_of_mem he') ((matches_blur ..).2 hme)
    rwa [blur_re comp hme.1, blur_re comp hm'.1] at this
  | nothing hno hnm =>
    exact .nothing (fun e' he' hn => hno _ (List.mem_map_of_mem he') ((names_blur ..).2 hn))
      (fun e' he' hn => hnm _ (List.mem_map_of_mem he') ((matches_blur ..).2 hn))

/-! ## C113: several files in one handle -/

/-- A handle with several files answers as the lines of all the files say, in the
order of the files, whichever of the files are compiled. -/
theorem C113_partial (q : Qsort) (hq : Sorts q) (lib : Lib) (decode : Bytes → Dec) (files : List (List Bytes)) (srcs : List Source)
    (hsrc : List.Forall₂ (Comes lib decode) files srcs) (d : Data) (hl : openAll q lib decode some srcs = some d) (eng : Engine)
    (subs dist : List Sub) (key : Bytes) (kind : Nat) (hk : key.head? = some 47) (path : Bytes)
    (hp : path = subKey subs dist (joinPath (names key))) (hc : Clean path) (hroot : Rooted eng (entries 0 files) path)
    (hne : NoError eng (entries 0 files) path) (hnl : NoneLast eng (entries 0 files) path kind) :
    Says eng (entries 0 files) path kind
      ((lookupAll eng d subs dist key kind false).map (fun h => (h.regexStr, h.kind, h.ctx))) ∧
    d.num = (entries 0 files).length := by
  unfold openAll at hl
  obtain ⟨d0, hd0, rfl⟩ := Option.map_eq_some_iff.1 hl
  have hh := addFiles_holds (comp := fun j => (srcs[j]?.map Source.isComp).getD false) hq hsrc
    (fun j s hj => by simp [hj]) holdsP_empty hd0
  rw [List.nil_append] at hh
  have hnum : d0.num = (entries 0 files).length := by rw [hh.num, List.length_map]
  refine ⟨?_, hnum⟩
  unfold lookupAll
  simp only
  by_cases h0 : d0.num = 0
  · rw [if_pos h0]
    rw [h0] at hnum
    rw [List.length_eq_zero_iff.1 hnum.symm]
    exact .nothing (by simp) (by simp)
  · rw [if_neg h0, if_neg (dedup_nonempty hk), chop_dedup key hk, ← hp]
    refine says_blur (checkNode_says' (sort_holdsP hq hh) ?_ ?_ eng path kind hc ?_ ?_ ?_)
    · rw [List.filter_map, List.pairwise_map]
      refine List.Pairwise.imp_of_mem ?_ ((entries_sorted 0 files).filter _)
      intro a b ha hb hab
      have ha' := (List.mem_filter.1 ha).2
      have hb' := (List.mem_filter.1 hb).2
      simp only [Function.comp, blur_regex, Option.isNone_iff_eq_none] at ha' hb'
      rw [blur_re _ ha', blur_re _ hb']
      exact hab
    · intro a ha b hb hpa hpb
      obtain ⟨a, haa, rfl⟩ := List.mem_map.1 ha
      obtain ⟨b, hbb, rfl⟩ := List.mem_map.1 hb
      rw [blur_regex] at hpa hpb
      rw [blur_re _ hpa, blur_re _ hpb]
      exact entries_tri haa hbb
    · intro e he
      obtain ⟨e, hee, rfl⟩ := List.mem_map.1 he
      rw [blur_regex]
      exact hroot e hee
    · intro e he
      obtain ⟨e, hee, rfl⟩ := List.mem_map.1 he
      rw [blur_regex]
      exact hne e hee
    · intro e he hm hx w hw hwm ho
      obtain ⟨e, hee, rfl⟩ := List.mem_map.1 he
      obtain ⟨w, hww, rfl⟩ := List.mem_map.1 hw
      have h1 := (matches_blur ..).1 hm
      have h2 := (matches_blur ..).1 hwm
      rw [blur_re _ h1.1] at hx ho ⊢
      rw [blur_re _ h2.1] at ho ⊢
      exact hnl e hee h1 hx w hww h2 ho

theorem lines_fine {i n : Nat} {ls : List Bytes} {d d' : Data} (h : processLines none i n ls d = some d') :
    ∀ l ∈ ls, parseLine l ≠ .ub ∧ parseLine l ≠ .err := by
  induction ls generalizing n d with
  | nil => simp
  | cons l ls ih =>
    rw [processLines] at h
    intro x hx
    cases hl : parseLine l with
    | ub => rw [hl] at h; simp at h
    | err => rw [hl] at h; simp at h
    | skip =>
      rw [hl] at h
      rcases List.mem_cons.1 hx with rfl | hx
      · rw [hl]; exact ⟨by simp, by simp⟩
      · exact ih h x hx
    | spec r k c =>
      rw [hl] at h
      simp only at h
      split at h
      · simp at h
      · rcases List.mem_cons.1 hx with rfl | hx
        · rw [hl]; exact ⟨by simp, by simp⟩
        · exact ih h x hx

theorem processLines_total {i n : Nat} {ls : List Bytes} {d : Data} {es : List Entry} (h : HoldsP es d)
    (hf : ∀ l ∈ ls, parseLine l ≠ .ub ∧ parseLine l ≠ .err) : ∃ d', processLines none i n ls d = some d' := by
  induction ls generalizing n d es with
  | nil => exact ⟨d, rfl⟩
  | cons l ls ih =>
    rw [processLines]
    have hl' := hf l List.mem_cons_self
    cases hl : parseLine l with
    | ub => exact absurd hl hl'.1
    | err => exact absurd hl hl'.2
    | skip => exact ih h (fun x hx => hf x (List.mem_cons_of_mem _ hx))
    | spec r k c =>
      obtain ⟨d1, hd1, hh⟩ := insert_holdsP h ⟨r, k, c, i, n + 1⟩ (parseLine_short hl)
      simp only at hd1 ⊢
      rw [hd1]
      exact ih hh (fun x hx => hf x (List.mem_cons_of_mem _ hx))

/-- A handle can be opened with several files if each of them can be loaded alone. -/
theorem C113_opens (q : Qsort) (hq : Sorts q) (lib : Lib) (decode : Bytes → Dec) (files : List (List Bytes)) (srcs : List Source)
    (hsrc : List.Forall₂ (Comes lib decode) files srcs) (hf : ∀ f ∈ files, ∃ q0 d0, FileLabel.load q0 none [f] = some d0) :
    ∃ d, openAll q lib decode some srcs = some d := by
  have key : ∀ (i : Nat) (es : List Entry) (d : Data) (comp : Nat → Bool),
      (∀ j src, srcs[j]? = some src → comp (i + j) = src.isComp) → HoldsP es d →
      ∃ d', addFiles q lib decode some i srcs d = some d' := by
    induction hsrc with
    | nil => intro i es d comp _ _; exact ⟨d, rfl⟩
    | @cons f src fs ss hcf hcs ih =>
      intro i es d comp hi h
      rw [addFiles]
      have hsome : ∃ d1, addFile q lib decode some i d src = some d1 := by
        cases hcf with
        | text =>
          obtain ⟨q0, d0, hd0⟩ := hf f List.mem_cons_self
          unfold FileLabel.load at hd0
          obtain ⟨d1, hd1, -⟩ := Option.map_eq_some_iff.1 hd0
          rw [processFiles] at hd1
          cases hp : processLines none 0 0 f .empty with
          | none => rw [hp] at hd1; simp at hd1
          | some d2 => exact processLines_total h (lines_fine hp)
        | compiled q0 hq0 d0 hd0 hlen hroomy lib' ser pre hp bytes hb =>
          simp only [addFile]
          rw [C110_partial hq0 hd0 hlen hroomy hp hb (fun _ _ _ => rfl) i]
          exact ⟨_, rfl⟩
      obtain ⟨d1, hd1⟩ := hsome
      rw [hd1]
      exact ih (fun g hg => hf g (List.mem_cons_of_mem _ hg)) (i + 1) _ d1 comp (fun j s hj => by
        rw [show i + 1 + j = i + (j + 1) from by omega]
        exact hi (j + 1) s hj) (addFile_holds hq hcf (hi 0 src rfl) h hd1)
  obtain ⟨d', hd'⟩ := key 0 [] .empty (fun j => (srcs[j]?.map Source.isComp).getD false) (fun j s hj => by simp [hj]) holdsP_empty
  exact ⟨_, by unfold openAll; rw [hd']; rfl⟩

/-- If a handle can be opened, each of its files can be loaded alone. -/
theorem C113_refuses (q : Qsort) (lib : Lib) (decode : Bytes → Dec) (check : Bytes → Option Bytes) (srcs : List Source) (d : Data)
    (h : openAll q lib decode check srcs = some d) (j : Nat) :
    (∀ f, srcs[j]? = some (.text f) → ∃ d0, FileLabel.load q none [f] = some d0) ∧
    (∀ b, srcs[j]? = some (.compiled b) → ∃ x r, load lib decode check j b = .ok x r) := by
  have key : ∀ (ss : List Source) (i j : Nat) (d d' : Data), addFiles q lib decode check i ss d = some d' →
      (∀ f, ss[j]? = some (.text f) → ∃ d0, FileLabel.load q none [f] = some d0) ∧
      (∀ b, ss[j]? = some (.compiled b) → ∃ x r, load lib decode check (i + j) b = .ok x r) := by
    intro ss
    induction ss with
    | nil => intro i j d d' _; simp
    | cons s ss ih =>
      intro i j d d' h
      rw [addFiles] at h
      cases hs : addFile q lib decode check i d s with
      | none => rw [hs] at h; simp at h
      | some d1 =>
        rw [hs] at h
        cases j with
        | succ j =>
          have := ih (i + 1) j d1 d' h
          rw [show i + 1 + j = i + (j + 1) from by omega] at this
          simpa using this
        | zero =>
          constructor
          · intro f hf
            simp only [List.getElem?_cons_zero, Option.some.injEq] at hf
            subst hf
            simp only [addFile] at hs
            obtain ⟨d2, hd2⟩ := processLines_total (i := 0) (n := 0) holdsP_empty (lines_fine hs)
            exact ⟨_, by unfold FileLabel.load; rw [processFiles, hd2]; rfl⟩
          · intro b hb
            simp only [List.getElem?_cons_zero, Option.some.injEq] at hb
            subst hb
            simp only [addFile] at hs
            split at hs
            · rename_i x r hx; exact ⟨x, r, hx⟩
            · simp at hs
  unfold openAll at h
  obtain ⟨d0, hd0, -⟩ := Option.map_eq_some_iff.1 h
  have := key srcs 0 j .empty d0 hd0
  rwa [Nat.zero_add] at this

/-- It does not matter which of the files are compiled, unless two lines name the
same path for the same kind of file. -/
theorem C113_agree_partial (q q' : Qsort) (hq : Sorts q) (hq' : Sorts q') (lib lib' : Lib) (decode decode' : Bytes → Dec)
    (files : List (List Bytes)) (srcs srcs' : List Source) (hsrc : List.Forall₂ (Comes lib decode) files srcs)
    (hsrc' : List.Forall₂ (Comes lib' decode') files srcs') (d d' : Data) (hl : openAll q lib decode some srcs = some d)
    (hl' : openAll q' lib' decode' some srcs' = some d')
    (hdup : ∀ a ∈ entries 0 files, ∀ b ∈ entries 0 files, plain a.regex ≠ none → plain a.regex = plain b.regex → a.kind = b.kind → a = b)
    (eng : Engine) (subs dist : List Sub) (key : Bytes) (kind : Nat) (hk : key.head? = some 47) (path : Bytes)
    (hp : path = subKey subs dist (joinPath (names key))) (hc : Clean path) (hroot : Rooted eng (entries 0 files) path)
    (hne : NoError eng (entries 0 files) path) (hnl : NoneLast eng (entries 0 files) path kind) :
    lookup eng d subs dist key kind = lookup eng d' subs dist key kind := by
  have h1 := (C113_partial q hq lib decode files srcs hsrc d hl eng subs dist key kind hk path hp hc hroot hne hnl).1
  have h2 := (C113_partial q' hq' lib' decode' files srcs' hsrc' d' hl' eng subs dist key kind hk path hp hc hroot hne hnl).1
  have h := C60_determined eng (entries 0 files) path kind hdup _ _ h1 h2
  unfold lookup
  cases ha : lookupAll eng d subs dist key kind false with
  | error e =>
    rw [ha] at h
    cases hb : lookupAll eng d' subs dist key kind false with
    | error e' => rw [hb] at h; simpa [Except.map] using h
    | ok y => rw [hb] at h; simp [Except.map] at h
  | ok x =>
    rw [ha] at h
    cases hb : lookupAll eng d' subs dist key kind false with
    | error e' => rw [hb] at h; simp [Except.map] at h
    | ok y =>
      rw [hb] at h
      simp only [Except.map, Except.ok.injEq, Prod.mk.injEq] at h
      simp [h.2.2]

/-! ### Examples -/

/-- The lines of a second file, for the same directories and for others. -/
def lines2 : List Bytes :=
  [FileLabel.str "/usr/bin/su -- su_t", FileLabel.str "/usr/bin/z.* z_t", FileLabel.str "/etc/a(/.*)? a_t",
   FileLabel.str "/opt/some/file -- opt_t"]

/-- The bytes of the second file, compiled. -/
def bytes2 : Bytes := ((FileLabel.load FileLabel.stable none [lines2]).bind (compile lib0 ser0 true)).getD []

/-- Text first, then a compiled file. -/
theorem comes2 : List.Forall₂ (Comes lib0 decode0) [lines0, lines2] [.text lines0, .compiled bytes2] := by
  have hr : (FileLabel.load FileLabel.stable none [lines2]).map (fun d => (roomyB d.root, (compile lib0 ser0 true d).isSome)) =
      some (true, true) := by decide +kernel
  obtain ⟨d, hd, hr⟩ := Option.map_eq_some_iff.1 hr
  simp only [Prod.mk.injEq] at hr
  obtain ⟨b, hb⟩ := Option.isSome_iff_exists.1 hr.2
  have : bytes2 = b := by unfold bytes2; rw [hd, Option.bind_some, hb]; rfl
  rw [this]
  exact .cons .text (.cons (.compiled _ FileLabel.stable_sorts d hd (by decide) (fun x hx => roomyB_within hx hr.1) lib0 ser0 true
    (fun _ _ => pcre0) b hb) .nil)

/-- The theorems apply: both files are in the handle. -/
example : (openAll FileLabel.stable lib0 decode0 some [.text lines0, .compiled bytes2]).map Data.num = some 9 := by decide +kernel

/-- An engine for two of the expressions. -/
def eng2 : Engine := fun r key _ =>
  if r = FileLabel.str "/usr/bin/.*" then (if (FileLabel.str "/usr/bin/").isPrefixOf key then .full else .no)
  else if r = FileLabel.str "/usr/bin/z.*" then (if (FileLabel.str "/usr/bin/z").isPrefixOf key then .full else .no)
  else .no

/-- The hypotheses are met by a lookup that has to choose between expressions of both files. -/
example : ∃ d, openAll FileLabel.stable lib0 decode0 some [.text lines0, .compiled bytes2] = some d ∧
    Says eng2 (entries 0 [lines0, lines2]) (FileLabel.str "/usr/bin/zip") 7
      ((lookupAll eng2 d [] [] (FileLabel.str "/usr/bin/zip") 7 false).map (fun h => (h.regexStr, h.kind, h.ctx))) := by
  obtain ⟨d, hd⟩ := C113_opens FileLabel.stable FileLabel.stable_sorts lib0 decode0 _ _ comes2 (by
    have h0 : (FileLabel.load FileLabel.stable none [lines0]).isSome = true := by decide +kernel
    have h2 : (FileLabel.load FileLabel.stable none [lines2]).isSome = true := by decide +kernel
    intro f hf
    simp only [List.mem_cons, List.not_mem_nil, or_false] at hf
    rcases hf with rfl | rfl
    · obtain ⟨d, hd⟩ := Option.isSome_iff_exists.1 h0; exact ⟨_, d, hd⟩
    · obtain ⟨d, hd⟩ := Option.isSome_iff_exists.1 h2; exact ⟨_, d, hd⟩)
  refine ⟨d, hd, (C113_partial FileLabel.stable FileLabel.stable_sorts lib0 decode0 _ _ comes2 d hd eng2 [] [] _ 7
    (by decide +kernel) _ (by decide +kernel) ⟨by decide +kernel, by decide +kernel⟩ (by unfold Rooted; decide +kernel)
    (by unfold NoError; decide +kernel) ?_).1⟩
  intro e he _ hx
  have : ∀ e ∈ entries 0 [lines0, lines2], e.ctx ≠ none_ := by decide +kernel
  exact absurd hx (this e he)

/-- The answers come from both files. -/
example : (openAll FileLabel.stable lib0 decode0 some [.text lines0, .compiled bytes2]).map (fun d =>
      [FileLabel.str "/usr/bin/zip", FileLabel.str "/usr/bin/sh", FileLabel.str "/usr/bin/su", FileLabel.str "/usr/bin/x",
       FileLabel.str "/opt/some/file", FileLabel.str "/opt/some"].map (fun p => (lookup eng2 d [] [] p 7).toOption)) =
    some [some (FileLabel.str "z_t"), some (FileLabel.str "shell_t"), some (FileLabel.str "su_t"), some (FileLabel.str "bin_t"),
      some (FileLabel.str "opt_t"), none] := by decide +kernel

end Verif.CompFc
