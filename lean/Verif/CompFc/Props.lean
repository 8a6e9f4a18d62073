import Verif.CompFc.Look
import Verif.CompFc.Safe
import Verif.FileLabel.Props
/-! # Properties of compiled `file_contexts` files -/
namespace Verif.CompFc
open Verif.FileLabel (Node Lit Re Data strcmp Qsort Engine Sub lookupAll sortNode sortNodes cmpLit cmpNode parseLine Strict SortedL)
open Verif.FileLabel.Spec (Sorts)
open Spec

/-! ## C110: a compiled file is as good as its source -/

/-- The contexts of lines. -/
def lineCtx (l : Bytes) : Bytes := match parseLine l with | .spec _ _ c => c | _ => []

theorem load_tree {q : Qsort} (hq : Sorts q) {lines : List Bytes} {d : Data} (h : FileLabel.load q none [lines] = some d)
    (hlen : lines.length < 4294967295) :
    Tr (ALit (lines.map lineCtx)) (ARe 0 (lines.map lineCtx)) 4 d.root ∧ (∀ x, Within d.root x → Small x) ∧
      (∀ x, Within d.root x → Strict x) ∧ (∀ x, Within d.root x → SortedL x.lits) ∧ d.root.stem = [] ∧
      d.num < 4294967295 := by
  have hnum : d.num = (FileLabel.Spec.entries 0 [lines]).length := (FileLabel.load_sorted hq h).2
  have hel : ∀ (ls : List Bytes) n, (FileLabel.Spec.entriesFrom 0 n ls).length ≤ ls.length := by
    intro ls
    induction ls with
    | nil => intro n; simp [FileLabel.Spec.entriesFrom]
    | cons l ls ih =>
      intro n
      rw [FileLabel.Spec.entriesFrom]
      have := ih (n + 1)
      split <;> simp only [List.length_cons] <;> omega
  unfold FileLabel.load at h
  obtain ⟨d0, hd0, rfl⟩ := Option.map_eq_some_iff.1 h
  have hwf := (FileLabel.processFiles_holds (es := []) (d := .empty) FileLabel.holds_new hd0).wf
  rw [FileLabel.processFiles] at hd0
  cases hp : FileLabel.processLines none 0 0 lines .empty with
  | none => rw [hp] at hd0; simp at hd0
  | some d1 =>
    rw [hp] at hd0
    simp only [FileLabel.processFiles, Option.some.injEq] at hd0
    subst hd0
    have hS : ∀ l ∈ lines, ∀ r k c, parseLine l = .spec r k c → c ∈ lines.map lineCtx := by
      intro l hl r k c hpl
      refine List.mem_map.2 ⟨l, hl, ?_⟩
      unfold lineCtx; rw [hpl]
    obtain ⟨ht, hc⟩ := processLines_tr (input := 0) hS (by omega) (tr_new _ _ 3 []) hp
    have hts := sort_tr hq ht
    have hcount : count (sortNode q d1.root) < 4294967295 := by
      rw [count_sort hq]
      have : count (Data.empty).root = 0 := rfl
      omega
    refine ⟨hts, small_of_tr hts hcount, wf_within_sort hq hwf, lits_within_sort hq, ?_, ?_⟩
    · show (sortNode q d1.root).stem = []
      rw [FileLabel.sortNode_stem]
      have : ∀ (ls : List Bytes) (n : Nat) (d d' : Data), FileLabel.processLines none 0 n ls d = some d' → d'.root.stem = d.root.stem := by
        intro ls
        induction ls with
        | nil => intro n d d' h; simp only [FileLabel.processLines, Option.some.injEq] at h; rw [h]
        | cons l ls ih =>
          intro n d d' h
          rw [FileLabel.processLines] at h
          split at h
          · simp at h
          · simp at h
          · exact ih _ _ _ h
          · split at h
            · simp at h
            · rename_i d2 hi
              rw [ih _ _ _ h]
              unfold FileLabel.insertSpec at hi
              simp only at hi
              split at hi
              · split at hi
                · simp only [Option.some.injEq] at hi; rw [hi]
                · simp only [Option.some.injEq] at hi
                  rw [← hi]; exact FileLabel.upd_stem (FileLabel.addRe_local _) _ _
              · split at hi
                · simp at hi
                · split at hi
                  · simp only [Option.some.injEq] at hi; rw [hi]
                  · simp only [Option.some.injEq] at hi
                    rw [← hi]; exact FileLabel.upd_stem (FileLabel.addLit_local _) _ _
      exact this lines 0 _ _ hp
    · rw [hnum]
      have := hel lines 0
      simp only [FileLabel.Spec.entries, List.append_nil]
      omega

theorem addCtx_nodup {t : List Bytes} (h : t.Nodup) (c : Bytes) : (addCtx t c).Nodup := by
  unfold addCtx
  split
  · exact h
  · rename_i hc
    refine List.nodup_append.2 ⟨h, by simp, ?_⟩
    intro a ha b hb
    simp only [List.mem_singleton] at hb
    subst hb
    rintro rfl
    exact hc ha

theorem foldl_nodup {cs t : List Bytes} (h : t.Nodup) : (cs.foldl addCtx t).Nodup := by
  induction cs generalizing t with
  | nil => exact h
  | cons c cs ih => exact ih (addCtx_nodup h c)

mutual
theorem nodeCtxs_nodup (n : Node) {t : List Bytes} (h : t.Nodup) : (nodeCtxs n t).Nodup := by
  cases n with
  | mk s ls rs cs => rw [nodeCtxs]; exact nodesCtxs_nodup cs (foldl_nodup (foldl_nodup h))
theorem nodesCtxs_nodup (cs : List Node) {t : List Bytes} (h : t.Nodup) : (nodesCtxs cs t).Nodup := by
  cases cs with
  | nil => rw [nodesCtxs]; exact h
  | cons c cs => rw [nodesCtxs]; exact nodesCtxs_nodup cs (nodeCtxs_nodup c h)
end

theorem nodup_length {l m : List Bytes} (h : l.Nodup) (hs : ∀ x ∈ l, x ∈ m) : l.length ≤ m.length := by
  induction l generalizing m with
  | nil => simp
  | cons x xs ih =>
    have hx := hs x List.mem_cons_self
    rw [List.nodup_cons] at h
    have := ih h.2 (m := m.erase x) (by
      intro y hy
      have hne : y ≠ x := fun e => h.1 (e ▸ hy)
      exact (List.mem_erase_of_ne hne).2 (hs y (List.mem_cons_of_mem _ hy)))
    rw [List.length_erase_of_mem hx] at this
    have hpos : 0 < m.length := List.length_pos_of_mem hx
    simp only [List.length_cons]; omega

theorem ctx_ok {q : Qsort} (hq : Sorts q) {lines : List Bytes} {d : Data} (h : FileLabel.load q none [lines] = some d)
    (hlen : lines.length < 4294967295) : ∀ c, HasCtx d.root c → CtxOk (lines.map lineCtx) c := by
  intro c hc
  rcases tr_ctx (load_tree hq h hlen).1 hc with ⟨l, hl, rfl⟩ | ⟨r, hr, rfl⟩
  · exact hl.ctx
  · exact hr.ctx

theorem table_length {q : Qsort} (hq : Sorts q) {lines : List Bytes} {d : Data} (h : FileLabel.load q none [lines] = some d)
    (hlen : lines.length < 4294967295) : (table d.root).length < 4294967295 := by
  have := nodup_length (nodeCtxs_nodup d.root List.nodup_nil)
    (fun x hx => (ctx_ok hq h hlen x ((table_mem d.root x).1 hx)).mem)
  rw [List.length_map] at this
  exact Nat.lt_of_le_of_lt this hlen

/-- What `sefcontext_compile` writes for a file of specifications, `selabel_open`
reads back: the same tree, but for the line numbers of literals. The version of
PCRE need not be the same; if it is, PCRE must be able to read what it wrote. The exception: the literals of a node must be long enough. -/
theorem C110_partial {q : Qsort} (hq : Sorts q) {lines : List Bytes} {d : Data} (h : FileLabel.load q none [lines] = some d)
    (hlen : lines.length < 4294967295) (hroomy : ∀ x, Within d.root x → Roomy x)
    {ser : Bytes → Option Bytes} {decode : Bytes → Dec}
    {lib lib' : Lib} {pre : Bool} (hp : lib' = lib → pre = true → Pcre ser decode) {bytes : Bytes} (hc : compile lib ser pre d = some bytes)
    {check : Bytes → Option Bytes} (hk : ∀ c, HasCtx d.root c → c ≠ FileLabel.none_ → check c = some c) (input : Nat) :
    load lib' decode check input bytes = .ok ⟨keep input d.root, d.num⟩ [] := by
  obtain ⟨ht, hsmall, hstrict, _, hstem, hnum⟩ := load_tree hq h hlen
  have hf : Fine 32 true d.root :=
    fine_of_tr ht (by simp [hstem]) (by simp [hstem]) (Or.inl rfl) hstrict hroomy hsmall 28
  have := compile_reads hp hf (by omega) (table_length hq h hlen) (fun c hc => (ctx_ok hq h hlen c hc).nul) hk hc
    (lib' := lib') (input := input) []
  rwa [List.append_nil] at this

/-- A sorting function that leaves what is in order as it is. -/
def Stable (q : Qsort) : Prop := ∀ {α : Type} (cmp : α → α → Int) (l : List α), l.Pairwise (fun a b => cmp a b ≤ 0) → q.sort cmp l = l

mutual
theorem sort_keep {q : Qsort} (hq : Stable q) (i : Nat) (n : Node) (h1 : ∀ x, Within n x → Strict x)
    (h2 : ∀ x, Within n x → SortedL x.lits) : sortNode q (keep i n) = keep i n := by
  cases n with
  | mk s ls rs cs =>
    rw [keep, sortNode, sorts_keep hq i cs (fun c hc x hx => h1 x (.child hc hx)) (fun c hc x hx => h2 x (.child hc hx))]
    rw [hq cmpLit, hq cmpNode]
    · rw [keeps_map, List.pairwise_map]
      refine List.Pairwise.imp ?_ (h1 _ (.here _))
      intro a b hab
      unfold cmpNode
      rw [keep_stem, keep_stem]
      exact Int.le_of_lt hab
    · rw [List.pairwise_map]
      exact h2 _ (.here _)
theorem sorts_keep {q : Qsort} (hq : Stable q) (i : Nat) (cs : List Node) (h1 : ∀ c ∈ cs, ∀ x, Within c x → Strict x)
    (h2 : ∀ c ∈ cs, ∀ x, Within c x → SortedL x.lits) : sortNodes q (keeps i cs) = keeps i cs := by
  cases cs with
  | nil => rfl
  | cons c cs =>
    rw [keeps, sortNodes, sort_keep hq i c (h1 c List.mem_cons_self) (h2 c List.mem_cons_self),
      sorts_keep hq i cs (fun x hx => h1 x (List.mem_cons_of_mem _ hx)) (fun x hx => h2 x (List.mem_cons_of_mem _ hx))]
end

theorem tr_within {A : Lit → Prop} {B : Re → Prop} {k : Nat} {n : Node} (h : Tr A B k n) :
    ∀ x, Within n x → ∀ r ∈ x.res, B r := by
  induction h with
  | mk lits res kids stems some_ ih =>
    intro x hx
    cases hx with
    | here => exact res
    | child hc hw => exact ih _ hc x hw

/-- A handle with the compiled file gives the same answers as one with the file
of text: `selabel_open` loads the file as the first one and sorts the tree. -/
theorem C110_lookup_partial {q q' : Qsort} (hq : Sorts q) (hq' : Stable q') {lines : List Bytes} {d : Data}
    (h : FileLabel.load q none [lines] = some d)
    (hlen : lines.length < 4294967295) (hroomy : ∀ x, Within d.root x → Roomy x)
    {ser : Bytes → Option Bytes} {decode : Bytes → Dec}
    {lib lib' : Lib} {pre : Bool} (hp : lib' = lib → pre = true → Pcre ser decode) {bytes : Bytes} (hc : compile lib ser pre d = some bytes)
    {check : Bytes → Option Bytes} (hk : ∀ c, HasCtx d.root c → c ≠ FileLabel.none_ → check c = some c) :
    ∃ d', load lib' decode check 0 bytes = .ok d' [] ∧
      ∀ (eng : Engine) (subs dist : List Sub) (key : Bytes) (kind : Nat) (pm : Bool),
        lookupAll eng { d' with root := sortNode q' d'.root } subs dist key kind pm = lookupAll eng d subs dist key kind pm := by
  refine ⟨_, C110_partial hq h hlen hroomy hp hc hk 0, ?_⟩
  intro eng subs dist key kind pm
  obtain ⟨ht, _, hstrict, hsl, _, _⟩ := load_tree hq h hlen
  show lookupAll eng ⟨sortNode q' (keep 0 d.root), d.num⟩ subs dist key kind pm = _
  rw [sort_keep hq' 0 d.root hstrict hsl]
  exact lookupAll_keep eng d (fun m hm r hr => (tr_within ht m hm r hr).input) subs dist key kind pm

theorem wrAll_total {α : Type} {f : α → Option Bytes} {xs : List α} (h : ∀ x ∈ xs, (f x).isSome) : (wrAll f xs).isSome := by
  induction xs with
  | nil => rfl
  | cons x xs ih =>
    obtain ⟨a, ha⟩ := Option.isSome_iff_exists.1 (h x List.mem_cons_self)
    obtain ⟨b, hb⟩ := Option.isSome_iff_exists.1 (ih (fun y hy => h y (List.mem_cons_of_mem _ hy)))
    simp [wrAll, ha, hb]

theorem wrStr_total {s : Bytes} (h1 : s ≠ []) (h2 : s.length < 65535) : ∃ x, wrStr s = some x := by
  refine ⟨_, if_neg ?_⟩
  have : s.length ≠ 0 := by simpa using h1
  omega

theorem wrNode_total {ser : Bytes → Option Bytes} {pre : Bool} (hs : ∀ r, ∃ x, ser r = some x ∧ x.length < 4294967295) {S t : List Bytes}
    {input k : Nat} {n : Node} (h : Tr (ALit S) (ARe input S) k n) (top : Bool) (h1 : top = true ∨ n.stem ≠ [])
    (h2 : n.stem.length < 65535) : (wrNode ser pre t top n).isSome := by
  induction h generalizing top with
  | @mk k s ls rs cs lits res kids stems some_ ih =>
    simp only [Node.stem] at h1 h2
    have ha : ∃ a, wrStem top s = some a := by
      refine ⟨_, if_neg ?_⟩
      rintro (⟨x, y⟩ | x)
      · rcases h1 with h1 | h1
        · rw [h1] at y; simp at y
        · exact h1 (by simpa using x)
      · omega
    have hl : (wrAll (wrLit t) ls).isSome := wrAll_total (by
      intro l hl
      have := lits l hl
      have hsh := this.ok.short
      obtain ⟨x, hx⟩ := wrStr_total this.ne this.short
      obtain ⟨y, hy⟩ := wrStr_total this.lne (by have := this.short; omega)
      simp [wrLit, hx, hy])
    have hr : (wrAll (wrRe ser pre t) rs).isSome := wrAll_total (by
      intro r hr
      have := res r hr
      obtain ⟨x, hx⟩ := wrStr_total this.ne this.short
      obtain ⟨y, hy, hy'⟩ := hs r.regexStr
      have hz : ∃ z, wrRegex ser pre r.regexStr = some z := by
        unfold wrRegex
        cases pre with
        | false => exact ⟨_, rfl⟩
        | true => rw [if_pos rfl, hy]; exact ⟨_, if_neg (by omega)⟩
      obtain ⟨z, hz⟩ := hz
      simp [wrRe, hx, hz])
    have hc : (wrNodes ser pre t cs).isSome := by
      rw [wrNodes_wrAll]
      exact wrAll_total (fun c hc => ih c hc false (Or.inr (stems c hc).1) (stems c hc).2.2)
    obtain ⟨a, ha⟩ := ha
    obtain ⟨l, hl⟩ := Option.isSome_iff_exists.1 hl
    obtain ⟨r, hr⟩ := Option.isSome_iff_exists.1 hr
    obtain ⟨c, hc⟩ := Option.isSome_iff_exists.1 hc
    simp [wrNode, ha, hl, hr, hc]

/-- Every file of specifications that can be loaded can be compiled. -/
theorem C110_compiles {q : Qsort} (hq : Sorts q) {lines : List Bytes} {d : Data} (h : FileLabel.load q none [lines] = some d)
    (hlen : lines.length < 4294967295) {ser : Bytes → Option Bytes} (hs : ∀ r, ∃ x, ser r = some x ∧ x.length < 4294967295)
    {lib : Lib} (hv : 0 < lib.version.length ∧ lib.version.length < 4294967295)
    (ha : 0 < lib.arch.length ∧ lib.arch.length < 4294967295) (pre : Bool) : ∃ bytes, compile lib ser pre d = some bytes := by
  obtain ⟨ht, _, _, _, hstem, _⟩ := load_tree hq h hlen
  have hn : (wrNode ser pre (table d.root) true d.root).isSome :=
    wrNode_total hs ht true (Or.inl rfl) (by rw [hstem]; simp)
  have ht : (wrAll wrCtx (table d.root)).isSome := wrAll_total (by
    intro c hc
    have := ctx_ok hq h hlen c ((table_mem _ _).1 hc)
    have h1 : c.length ≠ 0 := by simpa using this.ne
    have h2 := this.short
    have h3 : ¬ (c.length = 0 ∨ c.length ≥ 65535) := by omega
    simp only [wrCtx, if_neg h3, Option.isSome_some])
  obtain ⟨n, hn⟩ := Option.isSome_iff_exists.1 hn
  obtain ⟨t, ht⟩ := Option.isSome_iff_exists.1 ht
  have hv' : wrHead lib.version = some (be 4 lib.version.length ++ lib.version) := if_neg (by omega)
  have ha' : wrHead lib.arch = some (be 4 lib.arch.length ++ lib.arch) := if_neg (by omega)
  simp [compile, hv', ha', wrTable, ht, hn]

/-! ### Examples -/

/-- A library. -/
def lib0 : Lib := ⟨[49], [54, 52]⟩

/-- Serialized expressions: a mark and the expression. -/
def ser0 (r : Bytes) : Option Bytes := if r.length < 65535 then some (7 :: r) else none
/-- What the library makes of bytes. -/
def decode0 : Bytes → Dec
  | [] => .outside
  | b :: _ => if b = 7 then .one else .other

theorem pcre0 : Pcre ser0 decode0 := by
  intro r x rest h
  unfold ser0 at h
  split at h
  · simp only [Option.some.injEq] at h; rw [← h]; rfl
  · simp at h

theorem stable_stable : Stable FileLabel.stable := by
  intro α cmp l h
  show l.foldr (FileLabel.ins cmp) [] = l
  induction l with
  | nil => rfl
  | cons x xs ih =>
    rw [List.pairwise_cons] at h
    rw [List.foldr_cons, ih h.2]
    cases xs with
    | nil => rfl
    | cons y ys => rw [FileLabel.ins, if_pos (h.1 y List.mem_cons_self)]

/-- Lines with nested directories, literals and expressions. -/
def lines0 : List Bytes :=
  [FileLabel.str "/ -d root_t", FileLabel.str "/usr/bin/.* bin_t", FileLabel.str "/usr/bin/sh -- shell_t",
   FileLabel.str "/var/log(/.*)? log_t", FileLabel.str "/usr/x\\.y bin_t", FileLabel.str "# comment"]

mutual
/-- Whether all nodes are roomy. -/
def roomyB : Node → Bool
  | .mk _ ls _ cs => decide (16 * ls.length ≤ (ls.map litBytes).sum + 8) && roomysB cs
/-- Whether all nodes are roomy. -/
def roomysB : List Node → Bool
  | [] => true
  | c :: cs => roomyB c && roomysB cs
end

theorem roomysB_mem {cs : List Node} (h : roomysB cs = true) : ∀ c ∈ cs, roomyB c = true := by
  induction cs with
  | nil => simp
  | cons c cs ih =>
    rw [roomysB, Bool.and_eq_true] at h
    intro x hx
    rcases List.mem_cons.1 hx with rfl | hx
    · exact h.1
    · exact ih h.2 x hx

theorem roomyB_within {n x : Node} (hw : Within n x) (h : roomyB n = true) : Roomy x := by
  induction hw with
  | here n =>
    cases n with
    | mk s ls rs cs => rw [roomyB, Bool.and_eq_true] at h; simpa [Roomy, Node.lits] using h.1
  | @child n m c hc _ ih =>
    cases n with
    | mk s ls rs cs => rw [roomyB, Bool.and_eq_true] at h; exact ih (roomysB_mem h.2 c hc)

/-- The theorems apply: the lines load, are roomy and compile, with serialized expressions. -/
example : ∃ d bytes, FileLabel.load FileLabel.stable none [lines0] = some d ∧ lines0.length < 4294967295 ∧
    (∀ x, Within d.root x → Roomy x) ∧ compile lib0 ser0 true d = some bytes ∧ d.num = 5 ∧ bytes.length = 293 ∧
    load lib0 decode0 some 0 bytes = .ok ⟨keep 0 d.root, d.num⟩ [] := by
  have hr : (FileLabel.load FileLabel.stable none [lines0]).map (fun d => (roomyB d.root, d.num)) = some (true, 5) := by decide +kernel
  obtain ⟨d, hd, hr⟩ := Option.map_eq_some_iff.1 hr
  have hb : (FileLabel.load FileLabel.stable none [lines0]).bind (fun d => (compile lib0 ser0 true d).map List.length) = some 293 := by
    decide +kernel
  rw [hd, Option.bind_some] at hb
  obtain ⟨bytes, hbytes, hlen⟩ := Option.map_eq_some_iff.1 hb
  simp only [Prod.mk.injEq] at hr
  exact ⟨d, bytes, hd, by decide, fun x hx => roomyB_within hx hr.1, hbytes, hr.2, hlen,
    C110_partial FileLabel.stable_sorts hd (by decide) (fun x hx => roomyB_within hx hr.1) (fun _ _ => pcre0) hbytes (fun _ _ _ => rfl) 0⟩

/-- Another version of PCRE, which cannot read what the first wrote, is never asked to. -/
example : ∃ d bytes, FileLabel.load FileLabel.stable none [lines0] = some d ∧ compile lib0 ser0 true d = some bytes ∧
    load ⟨[50], [54, 52]⟩ (fun _ => .outside) some 0 bytes = .ok ⟨keep 0 d.root, d.num⟩ [] := by
  have hr : (FileLabel.load FileLabel.stable none [lines0]).map (fun d => (roomyB d.root, d.num)) = some (true, 5) := by decide +kernel
  obtain ⟨d, hd, hr⟩ := Option.map_eq_some_iff.1 hr
  have hb : (FileLabel.load FileLabel.stable none [lines0]).bind (fun d => (compile lib0 ser0 true d).map List.length) = some 293 := by
    decide +kernel
  rw [hd, Option.bind_some] at hb
  obtain ⟨bytes, hbytes, hlen⟩ := Option.map_eq_some_iff.1 hb
  simp only [Prod.mk.injEq] at hr
  exact ⟨d, bytes, hd, hbytes,
    C110_partial FileLabel.stable_sorts hd (by decide) (fun x hx => roomyB_within hx hr.1)
      (fun h _ => absurd (congrArg Lib.version h) (by decide)) hbytes (fun _ _ _ => rfl) 0⟩

/-- Nine short paths. -/
def lines1 : List Bytes :=
  [FileLabel.str "/a x", FileLabel.str "/b x", FileLabel.str "/c x", FileLabel.str "/d x", FileLabel.str "/e x",
   FileLabel.str "/f x", FileLabel.str "/g x", FileLabel.str "/h x", FileLabel.str "/i x"]

/-- Not every compiled file can be loaded: for a file with nine short paths (and
nothing else) the reader demands more bytes than there are. -/
theorem C110_refuted : ∃ (lines : List Bytes) (d : Data) (bytes : Bytes),
    FileLabel.load FileLabel.stable none [lines] = some d ∧ compile lib0 ser0 true d = some bytes ∧
    load lib0 decode0 some 0 bytes = .bad := by
  have hb : (FileLabel.load FileLabel.stable none [lines1]).bind (fun d => (compile lib0 ser0 true d).map (fun b =>
      match load lib0 decode0 some 0 b with | .bad => true | _ => false)) = some true := by decide +kernel
  obtain ⟨d, hd, hb⟩ := Option.bind_eq_some_iff.1 hb
  obtain ⟨b, hb, hl⟩ := Option.map_eq_some_iff.1 hb
  refine ⟨lines1, d, b, hd, hb, ?_⟩
  split at hl
  · assumption
  · simp at hl

/-! ## C111: compiled files from anywhere -/

/-- Whatever the bytes of the file are: nothing outside of it is read, but by
PCRE, for which the file is not checked. -/
theorem C111_partial (lib : Lib) (decode : Bytes → Dec) (check : Bytes → Option Bytes) (input : Nat) (bytes : Bytes)
    (h : load lib decode check input bytes = .oob) : ∃ t, t <:+ bytes ∧ decode t = .outside :=
  (safe_load lib decode check input bytes).1 h

/-- A file that makes PCRE read past its end: an expression whose serialized form
is missing. -/
def forged (lib : Lib) : Bytes :=
  be 4 magic ++ (be 4 version ++ ((be 4 lib.version.length ++ lib.version) ++ ((be 4 lib.arch.length ++ lib.arch) ++
    (be 8 1 ++ ((be 4 1 ++ (be 2 1 ++ [120])) ++
    ((be 2 1 ++ [0]) ++ (be 4 0 ++ (be 4 1 ++
      (be 4 1 ++ (be 4 1 ++ ((be 2 2 ++ [46, 0]) ++ (be 2 0 ++ (be 1 0 ++ be 4 1)))))))))))))

theorem head_ok {s : Bytes} (h0 : 0 ∉ s) (hl : s.length < 4294967295) : Reads (rdHead s) (be 4 s.length ++ s) true := by
  intro rest
  unfold rdHead
  rw [List.append_assoc, bind_ok (num_reads (by omega) _), if_neg (by simp)]
  rw [bind_ok (room_ok (by simp)), bind_ok (next_reads s rest)]
  simp only [takeWhile_self h0]
  simp [ret]

/-- A forged file makes the library read outside of it, with any PCRE, as PCRE
cannot say anything about no bytes at all. -/
theorem C111_refuted (lib : Lib) (hv : 0 ∉ lib.version) (ha : 0 ∉ lib.arch) (hvl : lib.version.length < 4294967295)
    (hal : lib.arch.length < 4294967295) (decode : Bytes → Dec) (hd : decode [] = .outside) (input : Nat) :
    load lib decode some input (forged lib) = .oob := by
  unfold load forged
  rw [bind_ok (num_reads (by unfold magic; omega) _), bind_ok (refuse_false (by simp) _)]
  rw [bind_ok (num_reads (by unfold version; omega) _), bind_ok (refuse_false (by simp) _)]
  rw [bind_ok (head_ok hv hvl _), bind_ok (head_ok ha hal _), bind_ok (num_reads (by omega) _)]
  rw [bind_ok (rdTable_reads (t := [[120]]) (by simp) (by simp) (by simp) (by rfl) _)]
  rw [bind_eq]
  have key : rdNode decode (true && true) input [[120]] 32 true
      ((be 2 1 ++ [0]) ++ (be 4 0 ++ (be 4 1 ++
        (be 4 1 ++ (be 4 1 ++ ((be 2 2 ++ [46, 0]) ++ (be 2 0 ++ (be 1 0 ++ be 4 1)))))))) = .oob := by
    rw [rdNode]
    rw [bind_ok (rdStem_reads (s := []) (by simp) (by simp) (by rfl) _)]
    rw [bind_ok (num_reads (by omega) _), bind_ok (refuse_false (by rfl) _), bind_ok (room_ok (by simp))]
    rw [bind_ok (show rep (rdLit [[120]]) 0 _ = R.ok [] _ from rfl)]
    rw [bind_ok (num_reads (by omega) _), bind_ok (refuse_false (by rfl) _)]
    rw [bind_ok (room_ok (by simp [be_length]))]
    rw [bind_eq, rep, bind_eq]
    have h1 : rdRe decode (true && true) input [[120]]
        (be 4 1 ++ (be 4 1 ++ ((be 2 2 ++ [46, 0]) ++ (be 2 0 ++ (be 1 0 ++ be 4 1))))) = .oob := by
      unfold rdRe
      have hid := rdId_reads (t := [[120]]) (c := [120]) (by simp) (by simp)
      rw [show idOf [[120]] [120] = 1 from by decide] at hid
      rw [bind_ok (hid _)]
      rw [bind_ok (num_reads (by omega) _), bind_ok (refuse_false (by rfl) _)]
      rw [bind_ok (rdStr_reads (s := [46]) (by decide) (by rfl) _)]
      rw [bind_ok (num_reads (by omega) _), bind_ok (refuse_false (by rfl) _), bind_ok (num_reads (by omega) _)]
      rw [bind_eq]
      have h2 : rdRegex decode (true && true) (be 4 1) = .oob := by
        unfold rdRegex
        have := num_reads (k := 4) (v := 1) (by omega) []
        rw [List.append_nil] at this
        rw [bind_ok this, bind_eq]
        have : rdDecode decode (true && true) 1 [] = .oob := by
          unfold rdDecode
          rw [if_pos (by simp), hd]
        rw [this]
      rw [h2]
    rw [h1]
  rw [key]

/-- A library that meets the hypotheses. -/
example : load lib0 decode0 some 0 (forged lib0) = .oob :=
  C111_refuted lib0 (by decide) (by decide) (by decide) (by decide) decode0 rfl 0

/-! ## C112: the trees that are loaded -/

/-- Whatever the bytes of the file are: if it is loaded, the tree is at most 32
levels deep, the children of a node are in strict order, no node but the root is
empty, and the specifications have proper strings and valid contexts. -/
theorem C112_tree {lib : Lib} {decode : Bytes → Dec} {check : Bytes → Option Bytes} {input : Nat} {bytes rest : Bytes} {d : Data}
    (h : load lib decode check input bytes = .ok d rest) :
    ∃ t, Shape t input 32 true d.root ∧ ∀ c ∈ t, c = FileLabel.none_ ∨ ∃ c', check c' = some c := by
  have hctx : Post (rdCtx check) (fun c => c = FileLabel.none_ ∨ ∃ c', check c' = some c) := by
    unfold rdCtx
    refine post_bind (post_any _) fun n _ => post_bind (post_any _) fun _ _ => post_bind (post_any _) fun _ _ =>
      post_bind (post_any _) fun b _ => ?_
    simp only
    split
    · rename_i hn; exact post_ret (Or.inl hn)
    · split
      · intro s a r h; simp at h
      · rename_i c hc; exact post_ret (Or.inr ⟨_, hc⟩)
  have htab : Post (rdTable check) (fun t => ∀ c ∈ t, c = FileLabel.none_ ∨ ∃ c', check c' = some c) := by
    unfold rdTable
    refine post_bind (post_any _) fun n _ => post_bind (post_any _) fun _ _ => ?_
    intro s a r hr
    exact (post_rep hctx n s a r hr).2
  have : Post (load lib decode check input) (fun d => ∃ t, Shape t input 32 true d.root ∧
      ∀ c ∈ t, c = FileLabel.none_ ∨ ∃ c', check c' = some c) := by
    unfold load
    refine post_bind (post_any _) fun _ _ => post_bind (post_any _) fun _ _ => post_bind (post_any _) fun _ _ =>
      post_bind (post_any _) fun _ _ => post_bind (post_any _) fun okv _ => post_bind (post_any _) fun oka _ =>
      post_bind (post_any _) fun n _ => post_bind htab fun t ht => post_bind (post_rdNode decode _ input t 32 true) fun root hr =>
      post_ret ⟨t, hr, ht⟩
  exact this bytes d rest h

theorem leBytes_leVal (bs : Bytes) : leBytes bs.length (leVal bs) = bs := by
  induction bs with
  | nil => rfl
  | cons b bs ih =>
    have hb : b.toNat < 256 := b.toNat_lt
    have h1 : (b.toNat + 256 * leVal bs) % 256 = b.toNat := by omega
    have h2 : (b.toNat + 256 * leVal bs) / 256 = leVal bs := by omega
    simp only [List.length_cons, leVal, leBytes, h2, ih]
    congr 1
    apply UInt8.toNat_inj.1
    simp

theorem num_inv {k n : Nat} {s r : Bytes} (h : num k s = .ok n r) : s.take k = be k n ∧ r = s.drop k := by
  unfold num at h
  rw [bind_eq] at h
  unfold next at h
  split at h
  · rename_i hs
    split at hs
    · simp at hs
    · rename_i hl
      simp only [R.ok.injEq] at hs
      simp only [ret, R.ok.injEq] at h
      obtain ⟨rfl, rfl⟩ := h
      obtain ⟨rfl, rfl⟩ := hs
      refine ⟨?_, rfl⟩
      have := leBytes_leVal (s.take k).reverse
      rw [List.length_reverse, List.length_take, Nat.min_eq_left (by omega)] at this
      unfold be beVal
      rw [this, List.reverse_reverse]
  · simp at h
  · simp at h

theorem bind_inv {α β : Type} {p : P α} {f : α → P β} {s r : Bytes} {b : β} (h : (p >>= f) s = .ok b r) :
    ∃ a t, p s = .ok a t ∧ f a t = .ok b r := by
  rw [bind_eq] at h
  split at h
  · exact ⟨_, _, by assumption, h⟩
  · simp at h
  · simp at h

theorem refuse_inv {c : Bool} {s r : Bytes} {u : Unit} (h : refuse c s = .ok u r) : c = false ∧ r = s := by
  unfold refuse at h
  split at h
  · simp at h
  · rename_i hc
    simp only [R.ok.injEq] at h
    exact ⟨by simpa using hc, h.2.symm⟩

/-- The head of a file is checked: other files are refused. -/
theorem C112_head {lib : Lib} {decode : Bytes → Dec} {check : Bytes → Option Bytes} {input : Nat} {bytes rest : Bytes} {d : Data}
    (h : load lib decode check input bytes = .ok d rest) : bytes.take 8 = [0xf9, 0x7c, 0xff, 0x8a, 0, 0, 0, 6] := by
  unfold load at h
  obtain ⟨m, t1, hm, h⟩ := bind_inv h
  obtain ⟨_, t2, hr, h⟩ := bind_inv h
  obtain ⟨v, t3, hv, h⟩ := bind_inv h
  obtain ⟨_, t4, hr', h⟩ := bind_inv h
  obtain ⟨h1, rfl⟩ := refuse_inv hr
  obtain ⟨h2, rfl⟩ := refuse_inv hr'
  obtain ⟨h3, rfl⟩ := num_inv hm
  obtain ⟨h4, -⟩ := num_inv hv
  have em : m = magic := by simpa using h1
  have ev : v = version := by simpa using h2
  rw [show (8 : Nat) = 4 + 4 from rfl, List.take_add, h3, h4, em, ev]
  decide

/-- The theorems apply: an empty file is accepted. -/
example : ∃ d, load lib0 decode0 some 0 (be 4 magic ++ (be 4 version ++ ([0, 0, 0, 1, 49] ++ ([0, 0, 0, 2, 54, 52] ++ (be 8 0 ++
    (be 4 0 ++ ([0, 1, 0] ++ (be 4 0 ++ (be 4 0 ++ be 4 0))))))))) = .ok d [] := ⟨⟨.mk [] [] [] [], 0⟩, by rfl⟩

end Verif.CompFc
