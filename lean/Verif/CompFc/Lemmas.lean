import Verif.CompFc.Spec
import Verif.Prelude
/-! # Reading back what was written -/
namespace Verif.CompFc
open Verif.FileLabel (Node Lit Re Data strcmp)
open Spec

/-- The reader gives `a` for the bytes `e`, whatever follows. -/
def Reads {α : Type} (p : P α) (e : Bytes) (a : α) : Prop := ∀ rest, p (e ++ rest) = .ok a rest

theorem bind_ok {α β : Type} {p : P α} {f : α → P β} {s r : Bytes} {a : α} (h : p s = .ok a r) :
    (p >>= f) s = f a r := by
  show andThen p f s = f a r
  unfold andThen; rw [h]

theorem be_length (k v : Nat) : (be k v).length = k := by simp [be, leBytes_length]

theorem beVal_be {k v : Nat} (h : v < 256 ^ k) : beVal (be k v) = v := by
  simp [be, beVal, leVal_leBytes k v h]

theorem next_reads (e : Bytes) : Reads (next e.length) e e := by
  intro rest
  unfold next
  rw [if_neg (by simp)]
  simp

theorem num_reads {k v : Nat} (h : v < 256 ^ k) : Reads (num k) (be k v) v := by
  intro rest
  unfold num
  have := next_reads (be k v) rest
  rw [be_length] at this
  rw [bind_ok this]
  show R.ok _ _ = _
  rw [beVal_be h]

theorem refuse_false {c : Bool} (h : c = false) (s : Bytes) : refuse c s = .ok () s := by
  unfold refuse; rw [h]; rfl

theorem room_ok {n k : Nat} {s : Bytes} (h : n * k ≤ s.length) : room n k s = .ok () s := by
  unfold room; rw [if_neg (by omega)]

theorem takeWhile_all {s : Bytes} (h : 0 ∉ s) (rest : Bytes) : (s ++ 0 :: rest).takeWhile (fun b => decide (b ≠ 0)) = s := by
  induction s with
  | nil => simp
  | cons b s ih =>
    simp only [List.mem_cons, not_or] at h
    have hb : b ≠ 0 := fun x => h.1 x.symm
    have := ih h.2
    simp only [List.cons_append, List.takeWhile_cons, hb, ne_eq, not_false_eq_true, decide_true, if_true]
    rw [this]

theorem takeWhile_self {s : Bytes} (h : 0 ∉ s) : s.takeWhile (fun b => decide (b ≠ 0)) = s := by
  induction s with
  | nil => rfl
  | cons b s ih =>
    simp only [List.mem_cons, not_or] at h
    have hb : b ≠ 0 := fun x => h.1 x.symm
    have := ih h.2
    simp only [List.takeWhile_cons, hb, ne_eq, not_false_eq_true, decide_true, if_true]
    rw [this]

theorem str_reads {s : Bytes} (h : 0 ∉ s) (hs : s ≠ []) : Reads (str (s.length + 1)) (s ++ [0]) s := by
  intro rest
  unfold str
  rw [if_neg (by simp), if_neg (by omega)]
  have h0 : ((s ++ [0]) ++ rest)[0]? = s.head? := by
    cases s with
    | nil => exact absurd rfl hs
    | cons b s => rfl
  have hz : ((s ++ [0]) ++ rest)[s.length + 1 - 1]? = some 0 := by
    simp
  rw [h0, hz]
  cases s with
  | nil => exact absurd rfl hs
  | cons b s =>
    simp only [List.head?_cons]
    have hb : b ≠ 0 := by
      intro x; subst x; exact h List.mem_cons_self
    rw [if_neg (by simp [hb])]
    have : strAt (b :: s ++ [0] ++ rest) = some (b :: s) := by
      unfold strAt
      rw [if_pos (by simp)]
      have he : b :: s ++ [0] ++ rest = b :: s ++ 0 :: rest := by simp
      rw [he, takeWhile_all h rest]
    rw [this]
    simp

theorem wrStr_some {s x : Bytes} (h : wrStr s = some x) :
    s ≠ [] ∧ s.length < 65535 ∧ x = be 2 (s.length + 1) ++ (s ++ [0]) := by
  unfold wrStr at h
  split at h
  · simp at h
  · rename_i hc
    simp only [Option.some.injEq] at h
    refine ⟨?_, by omega, h.symm⟩
    intro hs; subst hs; simp at hc

theorem rdStr_reads {s x : Bytes} (h : 0 ∉ s) (hx : wrStr s = some x) : Reads rdStr x (s.length + 1, s) := by
  obtain ⟨hs, hl, rfl⟩ := wrStr_some hx
  intro rest
  unfold rdStr
  rw [List.append_assoc, bind_ok (num_reads (by omega) _)]
  have : s.length ≠ 0 := by simpa using hs
  rw [bind_ok (refuse_false (by simp; omega) _), bind_ok (str_reads h hs rest)]
  rfl

/-! ## Lists -/

theorem wrAll_cons {α : Type} {f : α → Option Bytes} {x : α} {xs : List α} {e : Bytes} (h : wrAll f (x :: xs) = some e) :
    ∃ a b, f x = some a ∧ wrAll f xs = some b ∧ e = a ++ b := by
  unfold wrAll at h
  simp only [Option.bind_eq_bind, Option.bind_eq_some_iff] at h
  obtain ⟨a, ha, b, hb, h⟩ := h
  simp only [Option.some.injEq] at h
  exact ⟨a, b, ha, hb, h.symm⟩

theorem rep_reads {α β : Type} {f : α → Option Bytes} {p : P β} {g : α → β} {xs : List α} {e : Bytes}
    (h : wrAll f xs = some e) (hp : ∀ x ∈ xs, ∀ a, f x = some a → Reads p a (g x)) :
    Reads (rep p xs.length) e (xs.map g) := by
  induction xs generalizing e with
  | nil =>
    simp only [wrAll, Option.some.injEq] at h
    subst h
    intro rest
    rfl
  | cons x xs ih =>
    obtain ⟨a, b, ha, hb, rfl⟩ := wrAll_cons h
    intro rest
    simp only [List.length_cons, rep]
    rw [List.append_assoc, bind_ok (hp x List.mem_cons_self a ha _)]
    rw [bind_ok (ih hb (fun y hy => hp y (List.mem_cons_of_mem _ hy)) rest)]
    rfl

theorem wrAll_length {α : Type} {f : α → Option Bytes} {k : α → Nat} {xs : List α} {e : Bytes}
    (h : wrAll f xs = some e) (hk : ∀ x ∈ xs, ∀ a, f x = some a → k x ≤ a.length) :
    (xs.map k).sum ≤ e.length := by
  induction xs generalizing e with
  | nil => simp
  | cons x xs ih =>
    obtain ⟨a, b, ha, hb, rfl⟩ := wrAll_cons h
    have h1 := hk x List.mem_cons_self a ha
    have h2 := ih hb (fun y hy => hk y (List.mem_cons_of_mem _ hy))
    simp only [List.map_cons, List.sum_cons, List.length_append]
    omega

theorem wrAll_least {α : Type} {f : α → Option Bytes} {k : Nat} {xs : List α} {e : Bytes}
    (h : wrAll f xs = some e) (hk : ∀ x ∈ xs, ∀ a, f x = some a → k ≤ a.length) :
    xs.length * k ≤ e.length := by
  have := wrAll_length (k := fun _ => k) h hk
  rw [List.map_const', List.sum_replicate_nat] at this
  simpa using this

/-! ## The table of contexts -/

theorem addCtx_mem (t : List Bytes) (c x : Bytes) : x ∈ addCtx t c ↔ x ∈ t ∨ x = c := by
  unfold addCtx
  split
  · constructor
    · exact Or.inl
    · rintro (h | h)
      · exact h
      · subst h; assumption
  · simp

theorem foldl_mem (cs t : List Bytes) (x : Bytes) : x ∈ cs.foldl addCtx t ↔ x ∈ t ∨ x ∈ cs := by
  induction cs generalizing t with
  | nil => simp
  | cons c cs ih => rw [List.foldl_cons, ih, addCtx_mem, List.mem_cons]; tauto

theorem within_iff (s : Bytes) (ls : List Lit) (rs : List Re) (cs : List Node) (c : Bytes) :
    HasCtx (.mk s ls rs cs) c ↔ c ∈ ls.map Lit.ctx ∨ c ∈ rs.map Re.ctx ∨ ∃ k ∈ cs, HasCtx k c := by
  constructor
  · rintro ⟨m, hm, h⟩
    cases hm with
    | here =>
      rcases h with ⟨l, hl, rfl⟩ | ⟨r, hr, rfl⟩
      · exact Or.inl (List.mem_map_of_mem hl)
      · exact Or.inr (Or.inl (List.mem_map_of_mem hr))
    | child hc hw => exact Or.inr (Or.inr ⟨_, hc, m, hw, h⟩)
  · rintro (h | h | ⟨k, hk, m, hm, h⟩)
    · obtain ⟨l, hl, rfl⟩ := List.mem_map.1 h
      exact ⟨_, .here _, Or.inl ⟨l, hl, rfl⟩⟩
    · obtain ⟨l, hl, rfl⟩ := List.mem_map.1 h
      exact ⟨_, .here _, Or.inr ⟨l, hl, rfl⟩⟩
    · exact ⟨m, .child hk hm, h⟩

mutual
theorem nodeCtxs_mem (n : Node) (t : List Bytes) (x : Bytes) : x ∈ nodeCtxs n t ↔ x ∈ t ∨ HasCtx n x := by
  cases n with
  | mk s ls rs cs =>
    rw [nodeCtxs, nodesCtxs_mem cs, foldl_mem, foldl_mem, within_iff]
    tauto
theorem nodesCtxs_mem (cs : List Node) (t : List Bytes) (x : Bytes) :
    x ∈ nodesCtxs cs t ↔ x ∈ t ∨ ∃ k ∈ cs, HasCtx k x := by
  cases cs with
  | nil => simp [nodesCtxs]
  | cons c cs =>
    rw [nodesCtxs, nodesCtxs_mem cs, nodeCtxs_mem c]
    simp only [List.mem_cons, exists_eq_or_imp]
    tauto
end

theorem table_mem (n : Node) (x : Bytes) : x ∈ table n ↔ HasCtx n x := by
  unfold table; rw [nodeCtxs_mem]; simp

theorem wrCtx_some {c e : Bytes} (h : wrCtx c = some e) : c ≠ [] ∧ c.length < 65535 ∧ e = be 2 c.length ++ c := by
  unfold wrCtx at h
  split at h
  · simp at h
  · rename_i hc
    simp only [Option.some.injEq] at h
    refine ⟨?_, by omega, h.symm⟩
    intro hs; subst hs; simp at hc

theorem rdCtx_reads {check : Bytes → Option Bytes} {c e : Bytes} (h0 : 0 ∉ c)
    (hk : c ≠ FileLabel.none_ → check c = some c) (h : wrCtx c = some e) : Reads (rdCtx check) e c := by
  obtain ⟨hs, hl, rfl⟩ := wrCtx_some h
  have hlen : c.length ≠ 0 := by simpa using hs
  intro rest
  unfold rdCtx
  rw [List.append_assoc, bind_ok (num_reads (by omega) _)]
  have h65 : c.length ≠ 65535 := by omega
  rw [bind_ok (refuse_false (by simp [hs, h65]) _), bind_ok (room_ok (by simp)), bind_ok (next_reads c rest)]
  simp only [takeWhile_self h0]
  split
  · rfl
  · rename_i hn
    rw [hk hn]; rfl

theorem rdTable_reads {check : Bytes → Option Bytes} {t : List Bytes} {e : Bytes} (h0 : ∀ c ∈ t, 0 ∉ c)
    (hk : ∀ c ∈ t, c ≠ FileLabel.none_ → check c = some c) (hn : t.length < 4294967295)
    (h : wrTable t = some e) : Reads (rdTable check) e t := by
  unfold wrTable at h
  simp only [Option.bind_eq_bind, Option.bind_eq_some_iff, Option.some.injEq] at h
  obtain ⟨b, hb, rfl⟩ := h
  intro rest
  unfold rdTable
  rw [List.append_assoc, bind_ok (num_reads (by omega) _)]
  have hlen := wrAll_least (k := 3) hb (by
    intro x _ a ha
    obtain ⟨h1, _, rfl⟩ := wrCtx_some ha
    have : x.length ≠ 0 := by simpa using h1
    simp only [List.length_append, be_length]; omega)
  rw [bind_ok (room_ok (by simp only [List.length_append]; omega))]
  have := rep_reads (g := id) hb (fun x hx a ha => rdCtx_reads (h0 x hx) (hk x hx) ha) rest
  rw [List.map_id] at this
  exact this

theorem rdId_reads {t : List Bytes} {c : Bytes} (hn : t.length < 4294967295) (hc : c ∈ t) :
    Reads (rdId t) (be 4 (idOf t c)) c := by
  have hi := List.idxOf_lt_length_of_mem hc
  have hlt : idOf t c ≤ t.length := by unfold idOf; omega
  intro rest
  unfold rdId
  rw [bind_ok (num_reads (by omega) _)]
  have : (idOf t c == 0 || idOf t c == 4294967295 || decide (idOf t c > t.length)) = false := by
    have : idOf t c ≠ 0 := by unfold idOf; omega
    have h2 : idOf t c ≠ 4294967295 := by omega
    simp [this, h2]; omega
  rw [bind_ok (refuse_false this _)]
  have hg : t[idOf t c - 1]? = some c := by
    unfold idOf
    rw [Nat.add_sub_cancel, List.getElem?_eq_getElem hi, List.getElem_idxOf hi]
  rw [hg]; rfl

/-! ## Specifications -/

/-- A literal as the text reader makes it. -/
structure LitOk (l : Lit) : Prop where
  regex : 0 ∉ l.regexStr
  lit : 0 ∉ l.literalMatch
  plen : l.prefixLen = l.literalMatch.length
  short : l.literalMatch.length ≤ l.regexStr.length
  kind : l.kind < 256

/-- An expression as the text reader makes it. -/
structure ReOk (r : Re) : Prop where
  regex : 0 ∉ r.regexStr
  plen : r.prefixLen ≤ r.regexStr.length
  kind : r.kind < 256
  line : 0 < r.lineno
  line' : r.lineno < 4294967295

theorem wrLit_some {t : List Bytes} {l : Lit} {e : Bytes} (h : wrLit t l = some e) :
    ∃ r m, wrStr l.regexStr = some r ∧ wrStr l.literalMatch = some m ∧
      e = be 4 (idOf t l.ctx) ++ (r ++ (m ++ be 1 l.kind)) := by
  unfold wrLit at h
  simp only [Option.bind_eq_bind, Option.bind_eq_some_iff, Option.some.injEq] at h
  obtain ⟨r, hr, m, hm, rfl⟩ := h
  exact ⟨r, m, hr, hm, rfl⟩

theorem wrStr_length {s x : Bytes} (h : wrStr s = some x) : x.length = 3 + s.length := by
  obtain ⟨_, _, rfl⟩ := wrStr_some h
  simp only [List.length_append, be_length, List.length_singleton]; omega

theorem wrLit_length {t : List Bytes} {l : Lit} {e : Bytes} (h : wrLit t l = some e) : e.length = litBytes l := by
  obtain ⟨r, m, hr, hm, rfl⟩ := wrLit_some h
  simp only [List.length_append, be_length, wrStr_length hr, wrStr_length hm, litBytes]; omega

theorem rdLit_reads {t : List Bytes} {l : Lit} {e : Bytes} (hn : t.length < 4294967295) (hc : l.ctx ∈ t) (hl : LitOk l)
    (h : wrLit t l = some e) : Reads (rdLit t) e (keepLit l) := by
  obtain ⟨r, m, hr, hm, rfl⟩ := wrLit_some h
  intro rest
  unfold rdLit
  rw [List.append_assoc, bind_ok (rdId_reads hn hc _), List.append_assoc, bind_ok (rdStr_reads hl.regex hr _),
    List.append_assoc, bind_ok (rdStr_reads hl.lit hm _)]
  have := hl.short
  rw [bind_ok (refuse_false (by simp; omega) _), bind_ok (num_reads (by have := hl.kind; omega) _)]
  show R.ok _ _ = _
  congr 1
  simp only [keepLit, Nat.add_sub_cancel, ← hl.plen]

theorem wrRe_some {ser : Bytes → Option Bytes} {pre : Bool} {t : List Bytes} {r : Re} {e : Bytes}
    (h : wrRe ser pre t r = some e) :
    ∃ s x, wrStr r.regexStr = some s ∧ wrRegex ser pre r.regexStr = some x ∧
      e = be 4 (idOf t r.ctx) ++ (be 4 r.lineno ++ (s ++ (be 2 r.prefixLen ++ (be 1 r.kind ++ x)))) := by
  unfold wrRe at h
  simp only [Option.bind_eq_bind, Option.bind_eq_some_iff, Option.some.injEq] at h
  obtain ⟨s, hs, m, hm, rfl⟩ := h
  exact ⟨s, m, hs, hm, rfl⟩

theorem rdRegex_reads {ser : Bytes → Option Bytes} {decode : Bytes → Dec} {pre load : Bool} (hp : load = true → pre = true → Pcre ser decode) {r x : Bytes}
    (h : wrRegex ser pre r = some x) : Reads (rdRegex decode load) x () := by
  intro rest
  unfold wrRegex at h
  split at h
  · split at h
    · simp at h
    · rename_i y hy
      split at h
      · simp at h
      · simp only [Option.some.injEq] at h
        subst h
        unfold rdRegex
        rw [List.append_assoc, bind_ok (num_reads (by omega) _)]
        have hd : rdDecode decode load y.length (y ++ rest) = .ok () (y ++ rest) := by
          unfold rdDecode
          split
          · rename_i hpre _ _ hl
            rw [hp hl.2 hpre r y rest hy]
          · rfl
        rw [bind_ok hd, bind_ok (next_reads y rest)]
        rfl
  · simp only [Option.some.injEq] at h
    subst h
    unfold rdRegex
    rw [bind_ok (num_reads (v := 0) (by omega) _)]
    have hd : rdDecode decode load 0 rest = .ok () rest := by simp [rdDecode]
    rw [bind_ok hd]
    have := next_reads [] rest
    rw [List.length_nil, List.nil_append] at this
    rw [bind_ok this]
    rfl

theorem wrRe_least {ser : Bytes → Option Bytes} {pre : Bool} {t : List Bytes} {r : Re} {e : Bytes}
    (h : wrRe ser pre t r = some e) : 14 ≤ e.length := by
  obtain ⟨s, x, hs, _, rfl⟩ := wrRe_some h
  obtain ⟨hne, _, _⟩ := wrStr_some hs
  have : r.regexStr.length ≠ 0 := by simpa using hne
  simp only [List.length_append, be_length, wrStr_length hs]; omega

theorem rdRe_reads {ser : Bytes → Option Bytes} {decode : Bytes → Dec} {pre load : Bool} (hp : load = true → pre = true → Pcre ser decode) {input : Nat}
    {t : List Bytes} {r : Re} {e : Bytes} (hn : t.length < 4294967295) (hc : r.ctx ∈ t) (hr : ReOk r)
    (h : wrRe ser pre t r = some e) : Reads (rdRe decode load input t) e (keepRe input r) := by
  obtain ⟨s, x, hs, hx, rfl⟩ := wrRe_some h
  obtain ⟨_, hlen, _⟩ := wrStr_some hs
  intro rest
  unfold rdRe
  have h1 := hr.line
  have h2 := hr.line'
  have h3 := hr.plen
  rw [List.append_assoc, bind_ok (rdId_reads hn hc _), List.append_assoc, bind_ok (num_reads (by omega) _)]
  rw [bind_ok (refuse_false (by simp; omega) _), List.append_assoc, bind_ok (rdStr_reads hr.regex hs _),
    List.append_assoc, bind_ok (num_reads (by omega) _), bind_ok (refuse_false (by simp; omega) _),
    List.append_assoc, bind_ok (num_reads (by have := hr.kind; omega) _), bind_ok (rdRegex_reads hp hx _)]
  rfl

/-! ## Nodes -/

/-- A tree as the text reader makes it, of at most `k` levels. -/
inductive Fine : Nat → Bool → Node → Prop
  | mk {k : Nat} {top : Bool} {s : Bytes} {ls : List Lit} {rs : List Re} {cs : List Node}
      (stem : s = [] ↔ top = true) (nul : 0 ∉ s) (lits : ∀ l ∈ ls, LitOk l) (res : ∀ r ∈ rs, ReOk r)
      (roomy : Roomy (.mk s ls rs cs)) (small : Small (.mk s ls rs cs))
      (kids : ∀ c ∈ cs, Fine k false c) (order : cs.Pairwise (fun a b => strcmp a.stem b.stem < 0))
      (some_ : top = true ∨ ls ≠ [] ∨ rs ≠ [] ∨ cs ≠ []) : Fine (k + 1) top (.mk s ls rs cs)

theorem keep_stem (i : Nat) (n : Node) : (keep i n).stem = n.stem := by cases n; rfl

theorem keeps_map (i : Nat) (cs : List Node) : keeps i cs = cs.map (keep i) := by
  induction cs with
  | nil => rfl
  | cons c cs ih => rw [keeps, ih, List.map_cons]

theorem wrNodes_wrAll (ser : Bytes → Option Bytes) (pre : Bool) (t : List Bytes) (cs : List Node) :
    wrNodes ser pre t cs = wrAll (wrNode ser pre t false) cs := by
  induction cs with
  | nil => rfl
  | cons c cs ih => rw [wrNodes, wrAll, ih]

theorem wrStem_some {top : Bool} {s e : Bytes} (h : wrStem top s = some e) :
    (s = [] → top = true) ∧ s.length < 65535 ∧ e = be 2 (s.length + 1) ++ (s ++ [0]) := by
  unfold wrStem at h
  split at h
  · simp at h
  · rename_i hc
    simp only [Option.some.injEq] at h
    refine ⟨?_, by omega, h.symm⟩
    intro hs
    subst hs
    cases top
    · simp at hc
    · rfl

theorem wrNode_some {ser : Bytes → Option Bytes} {pre : Bool} {t : List Bytes} {top : Bool} {s : Bytes} {ls : List Lit}
    {rs : List Re} {cs : List Node} {e : Bytes} (h : wrNode ser pre t top (.mk s ls rs cs) = some e) :
    ∃ a l r c, wrStem top s = some a ∧ wrAll (wrLit t) ls = some l ∧ wrAll (wrRe ser pre t) rs = some r ∧
      wrAll (wrNode ser pre t false) cs = some c ∧
      e = a ++ (be 4 ls.length ++ (l ++ (be 4 rs.length ++ (r ++ (be 4 cs.length ++ c))))) := by
  unfold wrNode at h
  simp only [Option.bind_eq_bind, Option.bind_eq_some_iff, Option.some.injEq] at h
  obtain ⟨a, ha, l, hl, r, hr, c, hc, rfl⟩ := h
  rw [wrNodes_wrAll] at hc
  exact ⟨a, l, r, c, ha, hl, hr, hc, rfl⟩

theorem wrNode_least {ser : Bytes → Option Bytes} {pre : Bool} {t : List Bytes} {top : Bool} {n : Node} {e : Bytes}
    (h : wrNode ser pre t top n = some e) : 14 ≤ e.length := by
  cases n with
  | mk s ls rs cs =>
    obtain ⟨a, l, r, c, ha, _, _, _, rfl⟩ := wrNode_some h
    obtain ⟨_, _, rfl⟩ := wrStem_some ha
    simp only [List.length_append, be_length, List.length_singleton]; omega

theorem rdStem_reads {top : Bool} {s e : Bytes} (hs : s = [] ↔ top = true) (h0 : 0 ∉ s) (h : wrStem top s = some e) :
    Reads (rdStem top) e s := by
  obtain ⟨_, hl, rfl⟩ := wrStem_some h
  intro rest
  unfold rdStem
  rw [List.append_assoc, bind_ok (num_reads (by omega) _), bind_ok (refuse_false (by simp) _)]
  cases top with
  | true =>
    have := hs.2 rfl
    subst this
    rw [bind_ok (refuse_false (by simp) _), if_pos rfl]
    have := next_reads [(0 : UInt8)] rest
    rw [List.nil_append]
    have h2 : next ([] : Bytes).length.succ ([0] ++ rest) = .ok [0] rest := this
    rw [bind_ok h2]
    rfl
  | false =>
    have hne : s ≠ [] := fun x => by have := hs.1 x; simp at this
    have : s.length ≠ 0 := by simpa using hne
    rw [bind_ok (refuse_false (by simpa using this) _), if_neg (by simp)]
    exact str_reads h0 hne rest

theorem rdKids_reads {f : Node → Option Bytes} {p : P Node} {g : Node → Node} (hg : ∀ n, (g n).stem = n.stem)
    {cs : List Node} {e : Bytes} {prev : Option Bytes}
    (h : wrAll f cs = some e) (hp : ∀ c ∈ cs, ∀ a, f c = some a → Reads p a (g c))
    (ho : cs.Pairwise (fun a b => strcmp a.stem b.stem < 0)) (hprev : ∀ s, prev = some s → ∀ c ∈ cs.head?, strcmp s c.stem < 0) :
    Reads (rdKids p cs.length prev) e (cs.map g) := by
  induction cs generalizing e prev with
  | nil =>
    simp only [wrAll, Option.some.injEq] at h
    subst h
    intro rest
    rfl
  | cons x xs ih =>
    obtain ⟨a, b, ha, hb, rfl⟩ := wrAll_cons h
    intro rest
    simp only [List.length_cons, rdKids]
    rw [List.append_assoc, bind_ok (hp x List.mem_cons_self a ha _)]
    have hr : (prev.any (fun s => decide (strcmp s (g x).stem ≥ 0))) = false := by
      rw [hg]
      cases prev with
      | none => rfl
      | some s =>
        have := hprev s rfl x (by simp)
        simp only [Option.any_some, decide_eq_false_iff_not]; omega
    rw [bind_ok (refuse_false hr _)]
    rw [List.pairwise_cons] at ho
    have := ih hb (fun y hy => hp y (List.mem_cons_of_mem _ hy)) ho.2 (prev := some (g x).stem) (by
      intro s hs c hc
      simp only [Option.some.injEq] at hs
      subst hs
      rw [hg]
      exact ho.1 c (List.mem_of_mem_head? hc)) rest
    rw [bind_ok this]
    rfl

theorem rdNode_reads {ser : Bytes → Option Bytes} {decode : Bytes → Dec} {pre load : Bool} (hp : load = true → pre = true → Pcre ser decode) {input : Nat}
    {t : List Bytes} (hn : t.length < 4294967295) {k : Nat} {top : Bool} {n : Node} {e : Bytes} (hf : Fine k top n)
    (hc : ∀ c, HasCtx n c → c ∈ t) (h : wrNode ser pre t top n = some e) :
    Reads (rdNode decode load input t k top) e (keep input n) := by
  induction hf generalizing e with
  | @mk k top s ls rs cs stem nul lits res roomy small kids order some_ ih =>
    obtain ⟨a, l, r, c, ha, hl, hr, hcs, rfl⟩ := wrNode_some h
    have hcl : ∀ x ∈ ls, x.ctx ∈ t := fun x hx => hc _ ((within_iff _ _ _ _ _).2 (Or.inl (List.mem_map_of_mem hx)))
    have hcr : ∀ x ∈ rs, x.ctx ∈ t := fun x hx => hc _ ((within_iff _ _ _ _ _).2 (Or.inr (Or.inl (List.mem_map_of_mem hx))))
    have hck : ∀ x ∈ cs, ∀ y, HasCtx x y → y ∈ t :=
      fun x hx y hy => hc _ ((within_iff _ _ _ _ _).2 (Or.inr (Or.inr ⟨x, hx, hy⟩)))
    obtain ⟨s1, s2, s3⟩ := small
    simp only [Node.lits, Node.res, Node.children] at s1 s2 s3
    have hll := wrAll_length (k := litBytes) hl (fun x _ a ha => Nat.le_of_eq (wrLit_length ha).symm)
    have hrl := wrAll_least (k := 14) hr (fun x _ a ha => wrRe_least ha)
    have hkl := wrAll_least (k := 14) hcs (fun x _ a ha => wrNode_least ha)
    have hroomy : 16 * ls.length ≤ (ls.map litBytes).sum + 8 := roomy
    intro rest
    rw [rdNode]
    rw [List.append_assoc, bind_ok (rdStem_reads stem nul ha _)]
    rw [List.append_assoc, bind_ok (num_reads (by omega) _), bind_ok (refuse_false (by simp; omega) _)]
    rw [bind_ok (room_ok (by simp only [List.length_append, be_length]; omega))]
    rw [List.append_assoc, bind_ok (rep_reads hl (fun x hx a ha => rdLit_reads hn (hcl x hx) (lits x hx) ha) _)]
    rw [List.append_assoc, bind_ok (num_reads (by omega) _), bind_ok (refuse_false (by simp; omega) _)]
    rw [bind_ok (room_ok (by simp only [List.length_append, be_length]; omega))]
    rw [List.append_assoc, bind_ok (rep_reads hr (fun x hx a ha => rdRe_reads hp hn (hcr x hx) (res x hx) ha) _)]
    rw [List.append_assoc, bind_ok (num_reads (by omega) _), bind_ok (refuse_false (by simp; omega) _)]
    rw [bind_ok (room_ok (by simp only [List.length_append]; omega))]
    rw [bind_ok (rdKids_reads (keep_stem input) hcs (fun x hx a ha => ih x hx (hck x hx) ha) order (by simp) rest)]
    have hlast : (!top && ls.length == 0 && rs.length == 0 && cs.length == 0) = false := by
      rcases some_ with h | h | h | h
      · simp [h]
      · simp [h]
      · simp [h]
      · simp [h]
    rw [bind_ok (refuse_false hlast _)]
    show R.ok _ _ = _
    rw [keep, keeps_map]

theorem wrHead_some {s e : Bytes} (h : wrHead s = some e) : s.length < 4294967295 ∧ e = be 4 s.length ++ s := by
  unfold wrHead at h
  split at h
  · simp at h
  · simp only [Option.some.injEq] at h
    exact ⟨by omega, h.symm⟩

theorem rdHead_reads {want s e : Bytes} (h : wrHead s = some e) : ∃ ok, Reads (rdHead want) e ok ∧ (ok = true → want = s) := by
  obtain ⟨hl, rfl⟩ := wrHead_some h
  by_cases hw : want.length = s.length
  · refine ⟨decide (s.takeWhile (· ≠ 0) = want), ?_, fun h => ?_⟩
    rotate_left
    · have h := of_decide_eq_true h
      rw [← h]
      exact (List.takeWhile_prefix _).eq_of_length (by rw [h, hw])
    intro rest
    unfold rdHead
    rw [List.append_assoc, bind_ok (num_reads (by omega) _), if_neg (by simpa using hw)]
    rw [bind_ok (room_ok (by simp)), bind_ok (next_reads s rest)]
    rfl
  · refine ⟨false, ?_, fun h => nomatch h⟩
    intro rest
    unfold rdHead
    rw [List.append_assoc, bind_ok (num_reads (by omega) _), if_pos hw]
    show (if s.length > (s ++ rest).length then R.ok false (s ++ rest) else R.ok false ((s ++ rest).drop s.length)) = _
    rw [if_neg (by simp), List.drop_left]

theorem compile_reads {lib lib' : Lib} {ser : Bytes → Option Bytes} {decode : Bytes → Dec} {pre : Bool}
    (hp : lib' = lib → pre = true → Pcre ser decode) {d : Data}
    {check : Bytes → Option Bytes} {input : Nat} {e : Bytes} (hf : Fine 32 true d.root) (hnum : d.num < 2 ^ 64)
    (hn : (table d.root).length < 4294967295) (h0 : ∀ c, HasCtx d.root c → 0 ∉ c)
    (hk : ∀ c, HasCtx d.root c → c ≠ FileLabel.none_ → check c = some c)
    (h : compile lib ser pre d = some e) :
    Reads (load lib' decode check input) e ⟨keep input d.root, d.num⟩ := by
  unfold compile at h
  simp only [Option.bind_eq_bind, Option.bind_eq_some_iff, Option.some.injEq] at h
  obtain ⟨v, hv, a, ha, t, ht, n, hn', rfl⟩ := h
  obtain ⟨okv, hokv, hokv'⟩ := rdHead_reads (want := lib'.version) hv
  obtain ⟨oka, hoka, hoka'⟩ := rdHead_reads (want := lib'.arch) ha
  have hp' : (okv && oka) = true → pre = true → Pcre ser decode := by
    intro h
    rw [Bool.and_eq_true] at h
    refine hp ?_
    cases lib; cases lib'
    rw [Lib.mk.injEq]
    exact ⟨hokv' h.1, hoka' h.2⟩
  intro rest
  unfold load
  rw [List.append_assoc, bind_ok (num_reads (by unfold magic; omega) _), bind_ok (refuse_false (by simp) _)]
  rw [List.append_assoc, bind_ok (num_reads (by unfold version; omega) _), bind_ok (refuse_false (by simp) _)]
  rw [List.append_assoc, bind_ok (hokv _), List.append_assoc, bind_ok (hoka _)]
  rw [List.append_assoc, bind_ok (num_reads (by omega) _)]
  rw [List.append_assoc, bind_ok (rdTable_reads (fun c hc => h0 c ((table_mem _ _).1 hc)) (fun c hc => hk c ((table_mem _ _).1 hc)) hn ht _)]
  rw [bind_ok (rdNode_reads hp' hn hf (fun c hc => (table_mem _ _).2 hc) hn' _)]
  rfl

end Verif.CompFc
