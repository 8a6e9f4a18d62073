import Verif.Modules.Lemmas4
import Verif.Context.Props

/-!
# Theorems about the store of policy modules

`Abs.empty.run (opsOf cs)` is what the modules should be after the calls `cs`; `history vs compile cs` is what the directories are.
-/

namespace Verif.Modules
open Verif
open Verif.Context (b)
open Verif.LocalFile (isDigit digitsVal caseEq lower)

variable {vs : Cmp} {compile : Compiler} {t : Tree} {a : Abs}

theorem infoFor_tells (h : Rep LangOk t a) {p : Nat} {n ext data : Bytes} (hm : a.mods p n = some (ext, data)) {i : Info} :
    i = infoFor t p n ext ↔ a.Tells i ∧ i.priority = p ∧ i.name = n := by
  have hoff := h.off (n := n)
  constructor
  · rintro rfl
    refine ⟨⟨⟨data, hm⟩, ?_⟩, rfl, rfl⟩
    by_cases hc : n ∈ t.disabled
    · exact Or.inr ⟨by simp [infoFor, hc], hoff.1 hc⟩
    · exact Or.inl ⟨by simp [infoFor, hc], fun h' => hc (hoff.2 h')⟩
  · obtain ⟨ip, iname, ie, ien⟩ := i
    rintro ⟨⟨⟨data', hm'⟩, he⟩, h1, h2⟩
    simp only at h1 h2 hm' he
    subst h1 h2
    rw [hm] at hm'
    cases hm'
    unfold infoFor
    rcases he with ⟨he, h1⟩ | ⟨he, h1⟩
    · have : iname ∉ t.disabled := fun h' => h1 (hoff.1 h')
      simp [this, he]
    · have : iname ∈ t.disabled := hoff.2 h1
      simp [this, he]

theorem infoAt_tells (h : Rep LangOk t a) {i : Info} : infoAt t i.priority i.name = some i ↔ a.Tells i := by
  constructor
  · intro hi
    obtain ⟨ext, data, hm, hie⟩ := infoAt_elim h hi
    exact ((infoFor_tells h hm).1 hie).1
  · intro hi
    obtain ⟨data, hm⟩ := hi.1
    rw [infoAt_some h hm, ← (infoFor_tells h hm).2 ⟨hi, rfl, rfl⟩]

/-! ## C97: the policy is built from the module of the greatest priority of each enabled name -/

/-- The modules that are listed as active. -/
theorem C97_active (hv : OrdersPriorities vs) (cs : List Cmd) :
    ∃ l, active vs (history vs compile cs) = some l ∧ (l.map (·.name)).Pairwise Before ∧
      ∀ p n, (∃ i ∈ l, i.priority = p ∧ i.name = n) ↔ (Abs.empty.run (opsOf cs)).Active p n := by
  obtain ⟨l, h1, h2, h3⟩ := active_spec hv (history_rep (compile := compile) hv cs).lang
  refine ⟨l, h1, h2, fun p n => ⟨?_, fun ha => ?_⟩⟩
  · rintro ⟨i, hi, rfl, rfl⟩
    exact ((h3 i).1 hi).1
  · obtain ⟨⟨ext, data⟩, hm⟩ := Option.ne_none_iff_exists'.1 ha.2.1
    exact ⟨⟨p, n, ext, 1⟩, (h3 _).2 ⟨ha, rfl, data, hm⟩, rfl, rfl⟩

/-- The texts that a policy is built from: one for each active module and no other, in the order of names, whatever was compiled before. -/
theorem C97_build (hv : OrdersPriorities vs) (cs : List Cmd) (ig : Bool) :
    (((build vs compile ig (history vs compile cs)).1 = none) ↔ ∃ p n ext data, (Abs.empty.run (opsOf cs)).Active p n ∧
      (Abs.empty.run (opsOf cs)).mods p n = some (ext, data) ∧ ¬ IsCil ext ∧ compile ext data = none) ∧
    ∀ F, (build vs compile ig (history vs compile cs)).1 = some F → (F.map (·.1)).Pairwise Before ∧
      ∀ n c, (n, c) ∈ F ↔ ∃ p ext data, (Abs.empty.run (opsOf cs)).Active p n ∧ (Abs.empty.run (opsOf cs)).mods p n = some (ext, data) ∧
        inCil compile IsCil ext data c :=
  (build_spec hv (history_rep hv cs) ig).2

/-- A commit that succeeds with an active module left: the policy is that of the modules of the transaction. -/
theorem C97_commit_partial (hv : OrdersPriorities vs) (cs : List Cmd) (compiles : List (Bytes × Bytes) → Bool) (ig : Bool) (s s' : Store)
    (hact : ∃ p n, (Abs.empty.run (opsOf cs)).Active p n)
    (hc : commit vs compile compiles ig s (history vs compile cs) = (true, s')) :
    s'.tree = history vs compile (cs ++ [.build ig]) ∧ (s'.policy.map (·.1)).Pairwise Before ∧ compiles s'.policy = true ∧
      ∀ n c, (n, c) ∈ s'.policy ↔ ∃ p ext data, (Abs.empty.run (opsOf cs)).Active p n ∧
        (Abs.empty.run (opsOf cs)).mods p n = some (ext, data) ∧ inCil compile IsCil ext data c := by
  obtain ⟨-, h2⟩ := C97_build (compile := compile) hv cs ig
  obtain ⟨l, a1, -, a3⟩ := C97_active (compile := compile) hv cs
  obtain ⟨p, n, hpn⟩ := hact
  obtain ⟨i, hi, -⟩ := (a3 p n).2 hpn
  unfold commit at hc
  rw [a1] at hc
  cases l with
  | nil => simp at hi
  | cons i l =>
    simp only at hc
    obtain ⟨f, t', hb⟩ : ∃ f t', build vs compile ig (history vs compile cs) = (f, t') := ⟨_, _, rfl⟩
    rw [hb] at hc
    cases f with
    | none => cases hc
    | some F =>
      simp only at hc
      split at hc
      · rename_i hcomp
        cases hc
        obtain ⟨g1, g2⟩ := h2 F (by rw [hb])
        refine ⟨?_, g1, hcomp, g2⟩
        show t' = (cs ++ [Cmd.build ig]).foldl (step vs compile) ⟨[], []⟩
        rw [List.foldl_append, List.foldl_cons, List.foldl_nil]
        show t' = (build vs compile ig (history vs compile cs)).2
        rw [hb]
      · cases hc

/-- A commit that fails changes nothing. -/
theorem C97_commit_failed (vs : Cmp) (compile : Compiler) (compiles : List (Bytes × Bytes) → Bool) (ig : Bool) (s s' : Store) (t : Tree)
    (hc : commit vs compile compiles ig s t = (false, s')) : s' = s := by
  unfold commit at hc
  split at hc
  · cases hc; rfl
  · cases hc
  · split at hc
    · cases hc; rfl
    · split at hc
      · cases hc
      · cases hc; rfl

/-! ### The hypotheses are met -/

/-- A comparison as the C library makes it of digits. -/
theorem strLe_orders : OrdersPriorities strLe := by
  intro p q hp hq
  have hn : ∀ x, x ≤ 9 → (UInt8.ofNat (48 + x)).toNat = 48 + x := fun x hx => by rw [UInt8.toNat_ofNat']; omega
  have hlt : ∀ x y, x ≤ 9 → y ≤ 9 → ((UInt8.ofNat (48 + x) < UInt8.ofNat (48 + y)) ↔ x < y) := fun x y hx hy => by
    rw [UInt8.lt_iff_toNat_lt, hn x hx, hn y hy]; omega
  have b1 : p / 100 ≤ 9 := by omega
  have b2 : q / 100 ≤ 9 := by omega
  have b3 : p / 10 % 10 ≤ 9 := by omega
  have b4 : q / 10 % 10 ≤ 9 := by omega
  have b5 : p % 10 ≤ 9 := by omega
  have b6 : q % 10 ≤ 9 := by omega
  have heq : ∀ x y, x ≤ 9 → y ≤ 9 → ((UInt8.ofNat (48 + x) = UInt8.ofNat (48 + y)) ↔ x = y) := fun x y hx hy => by
    rw [← UInt8.toNat_inj, hn x hx, hn y hy]; omega
  rw [Bool.eq_iff_iff, decide_eq_true_iff]
  simp only [fmt3, strLe, hlt _ _ b1 b2, hlt _ _ b3 b4, hlt _ _ b5 b6, heq _ _ b1 b2, heq _ _ b3 b4, heq _ _ b5 b6]
  repeat' split
  all_goals (simp only [decide_eq_true_iff, true_iff]; omega)

/-- A compiler for one language. -/
def someCompiler : Compiler := fun ext data => if ext = b "pp" then some (b "; pp\n" ++ data) else none

/-- Two versions of a module, a module of another language, one that is switched off. -/
def someCalls : List Cmd :=
  [.op (.install 100 (b "web") (b "cil") (-1) (b "(type t)")), .op (.install 400 (b "web") (b "cil") (-1) (b "(type u)")),
   .op (.install 100 (b "app.x") (b "pp") 1 (b "binary")), .op (.install 200 (b "old") (b "cil") 0 (b "(type o)")), .build false,
   .op (.install 1000 (b "web") (b "cil") (-1) []), .op (.install 100 (b "9x") (b "cil") (-1) [])]

example : (build strLe someCompiler false (history strLe someCompiler someCalls)).1 =
    some [(b "app.x", b "; pp\nbinary"), (b "web", b "(type u)")] := by decide +kernel

example : (build strLe someCompiler false (history strLe someCompiler (someCalls ++ [.op (.remove 400 (b "web")), .op (.enable 0 (b "old") 1)]))).1 =
    some [(b "app.x", b "; pp\nbinary"), (b "old", b "(type o)"), (b "web", b "(type t)")] := by decide +kernel

example : (commit strLe someCompiler (fun _ => true) false ⟨⟨[], []⟩, []⟩ (history strLe someCompiler someCalls)).1 = true := by decide +kernel

/-- When the last enabled module is removed, the commit succeeds and the module and the policy stay. -/
theorem C97_commit_refuted :
    let before := [Cmd.op (.install 100 (b "web") (b "cil") (-1) (b "(type t)"))]
    let s := (commit strLe someCompiler (fun _ => true) false ⟨⟨[], []⟩, []⟩ (history strLe someCompiler before)).2
    let t := (remove strLe s.tree 100 (b "web")).2
    (remove strLe s.tree 100 (b "web")).1 = true ∧ listAll strLe t = some [] ∧
    commit strLe someCompiler (fun _ => true) false s t = (true, s) ∧ s.policy = [(b "web", b "(type t)")] ∧
      listAll strLe s.tree = some [⟨100, b "web", b "cil", 1⟩] := by decide +kernel

/-! ## C98: modules can be installed, removed, switched, listed and taken out -/

/-- A call succeeds just when it should, and if not it changes nothing; afterwards the directories hold what they should. -/
theorem C98_history (hv : OrdersPriorities vs) (cs : List Cmd) (o : Op) :
    ((stepOp vs (history vs compile cs) o).1 = true ↔ (Abs.empty.run (opsOf cs)).ok o) ∧
    ((stepOp vs (history vs compile cs) o).1 = false → (stepOp vs (history vs compile cs) o).2 = history vs compile cs) :=
  ⟨(stepOp_spec hv (history_rep hv cs) o).1, (stepOp_spec (compile := compile) hv (history_rep hv cs) o).2.1⟩

/-- The list of all modules: each once, greater priorities first. -/
theorem C98_list (hv : OrdersPriorities vs) (cs : List Cmd) :
    ∃ L, listAll vs (history vs compile cs) = some L ∧ (∀ i, i ∈ L ↔ (Abs.empty.run (opsOf cs)).Tells i) ∧
      L.Pairwise fun i j => j.priority < i.priority ∨ (j.priority = i.priority ∧ i.name ≠ j.name) := by
  have h := (history_rep (compile := compile) hv cs).lang
  obtain ⟨L, h1, h2, h3⟩ := listAll_spec hv h
  exact ⟨L, h1, fun i => by rw [h2, infoAt_tells h], h3⟩

/-- What is known of one module. -/
theorem C98_info (hv : OrdersPriorities vs) (cs : List Cmd) (p : Nat) (hp : p ≠ 0) (n : Bytes) (i : Info) :
    getInfo vs (history vs compile cs) p n = some i ↔ (Abs.empty.run (opsOf cs)).Tells i ∧ i.priority = p ∧ i.name = n := by
  have h := (history_rep (compile := compile) hv cs).lang
  rw [getInfo_pos h hp]
  constructor
  · rintro ⟨ext, data, hm, hi⟩
    exact (infoFor_tells h hm).1 hi
  · rintro ⟨hi, rfl, rfl⟩
    obtain ⟨data, hm⟩ := hi.1
    exact ⟨i.ext, data, hm, (infoFor_tells h hm).2 ⟨hi, rfl, rfl⟩⟩

/-- Priority 0 stands for the greatest. -/
theorem C98_info_highest (hv : OrdersPriorities vs) (cs : List Cmd) (n : Bytes) (i : Info) :
    getInfo vs (history vs compile cs) 0 n = some i ↔ (Abs.empty.run (opsOf cs)).Tells i ∧ i.name = n ∧
      ∀ q, i.priority < q → (Abs.empty.run (opsOf cs)).mods q n = none := by
  have h := (history_rep (compile := compile) hv cs).lang
  constructor
  · intro hi
    obtain ⟨p, ext, data, hm, hmax, hie⟩ := getInfo_zero_some hv h hi
    obtain ⟨h1, h2, h3⟩ := (infoFor_tells h hm).1 hie
    exact ⟨h1, h3, by rw [h2]; exact hmax⟩
  · rintro ⟨ht, rfl, hmax⟩
    obtain ⟨data, hm⟩ := ht.1
    cases hg : getInfo vs (history vs compile cs) 0 i.name with
    | none =>
      rw [getInfo_zero_none hv h hg] at hm
      cases hm
    | some j =>
      obtain ⟨p, ext, data', hm', hmax', hie⟩ := getInfo_zero_some hv h hg
      have hpp : p = i.priority := by
        rcases Nat.lt_trichotomy p i.priority with hlt | heq | hlt
        · rw [hmax' _ hlt] at hm; cases hm
        · exact heq
        · rw [hmax _ hlt] at hm'; cases hm'
      subst hpp
      rw [hm] at hm'
      cases hm'
      rw [hie, ← (infoFor_tells h hm).2 ⟨ht, rfl, rfl⟩]

/-- Whether a module is switched on. -/
theorem C98_enabled (hv : OrdersPriorities vs) (cs : List Cmd) (p : Nat) (n : Bytes) (e : Int) :
    getEnabled vs (history vs compile cs) p n = some e ↔
      (if p = 0 then ∃ q, (Abs.empty.run (opsOf cs)).mods q n ≠ none else (Abs.empty.run (opsOf cs)).mods p n ≠ none) ∧
      ((e = 1 ∧ ¬ (Abs.empty.run (opsOf cs)).off n) ∨ (e = 0 ∧ (Abs.empty.run (opsOf cs)).off n)) := by
  have h := (history_rep (compile := compile) hv cs).lang
  rw [← getInfo_isSome hv h]
  unfold getEnabled
  cases hg : getInfo vs (history vs compile cs) p n with
  | none => exact ⟨fun h => (by cases h), fun h => (by obtain ⟨i, hi⟩ := h.1; cases hi)⟩
  | some i =>
    have hn : i.name = n := (getInfo_name hv h hg).1
    rw [← h.off]
    simp only [hn, Option.some.injEq, List.contains_eq_mem, decide_eq_true_iff]
    constructor
    · rintro rfl
      refine ⟨⟨i, rfl⟩, ?_⟩
      split
      · rename_i h; exact Or.inr ⟨rfl, h⟩
      · rename_i h; exact Or.inl ⟨rfl, h⟩
    · rintro ⟨-, ⟨rfl, h⟩ | ⟨rfl, h⟩⟩
      · rw [if_neg h]
      · rw [if_pos h]

/-- A name that has no modules is not switched off: a module that is installed for the first time, or again after it was removed, is on
unless the call says otherwise. -/
theorem C98_fresh (hv : OrdersPriorities vs) (cs : List Cmd) (p : Nat) (n ext data : Bytes)
    (hnone : ∀ q, (Abs.empty.run (opsOf cs)).mods q n = none)
    (hok : (stepOp vs (history vs compile cs) (.install p n ext (-1) data)).1 = true) :
    getInfo vs (history vs compile (cs ++ [.op (.install p n ext (-1) data)])) p n = some ⟨p, n, ext, 1⟩ := by
  have hok' := (C98_history (compile := compile) hv cs _).1.1 hok
  have hp : p ≠ 0 := by
    have := hok'.1.1
    omega
  rw [C98_info hv _ _ hp]
  have key : ∀ (os : List Op) (a : Abs), (∀ m, a.off m → ∃ q, a.mods q m ≠ none) → ∀ m, (a.run os).off m → ∃ q, (a.run os).mods q m ≠ none := by
    intro os
    induction os with
    | nil => exact fun a h => h
    | cons o os ih =>
      intro a h
      unfold Abs.run
      refine ih _ ?_
      split
      · rename_i ho
        cases o with
        | install p n ext e data =>
          intro m hm
          by_cases hmn : m = n
          · exact ⟨p, by simp [Abs.next, hmn]⟩
          · simp only [Abs.next, if_neg hmn] at hm
            obtain ⟨q, hq⟩ := h m hm
            exact ⟨q, by simp only [Abs.next, hmn, and_false, if_false]; exact hq⟩
        | remove p n =>
          intro m hm
          by_cases hmn : m = n
          · subst hmn
            simp only [Abs.next, if_true] at hm
            obtain ⟨-, q, hq, hq'⟩ := hm
            exact ⟨q, by simp only [Abs.next, hq, false_and, if_false]; exact hq'⟩
          · simp only [Abs.next, if_neg hmn] at hm
            obtain ⟨q, hq⟩ := h m hm
            exact ⟨q, by simp only [Abs.next, hmn, and_false, if_false]; exact hq⟩
        | enable p n e =>
          intro m hm
          by_cases hmn : m = n
          · subst hmn
            have := ho.2
            split at this
            · exact this
            · exact ⟨_, this⟩
          · simp only [Abs.next, if_neg hmn] at hm
            exact h m hm
      · exact h
  have hoff : ¬ (Abs.empty.run (opsOf cs)).off n := fun h => by
    obtain ⟨q, hq⟩ := key (opsOf cs) Abs.empty (fun _ h => h.elim) n h
    exact hq (hnone q)
  have hrun : Abs.empty.run (opsOf (cs ++ [.op (.install p n ext (-1) data)])) =
      (Abs.empty.run (opsOf cs)).next (.install p n ext (-1) data) := by
    have e1 : opsOf (cs ++ [.op (.install p n ext (-1) data)]) = opsOf cs ++ [.install p n ext (-1) data] := by
      unfold opsOf
      rw [List.filterMap_append]
      rfl
    rw [e1]
    have : ∀ (os : List Op) (a : Abs) (o : Op), (a.run os).ok o → a.run (os ++ [o]) = (a.run os).next o := by
      intro os
      induction os with
      | nil =>
        intro a o ho
        have ho' : a.ok o := ho
        simp only [List.nil_append, Abs.run, if_pos ho']
      | cons o' os ih =>
        intro a o ho
        rw [List.cons_append]
        unfold Abs.run at ho ⊢
        exact ih _ _ ho
    exact this _ _ _ hok'
  rw [hrun]
  refine ⟨⟨⟨data, by simp [Abs.next]⟩, Or.inl ⟨rfl, ?_⟩⟩, rfl, rfl⟩
  simp [Abs.next, hoff]

/-- A text that is taken out is the one that was put in; or it is what the compiler makes of it.  The one exception that is left out is a
module in CIL whose extension is not written in small letters. -/
theorem C98_extract_partial (hv : OrdersPriorities vs) (cs : List Cmd) (p : Nat) (n : Bytes) (c : Bool) (i : Info) (text : Bytes)
    (hx : c = false → ∀ ext data, (Abs.empty.run (opsOf cs)).mods p n = some (ext, data) → IsCil ext → ext = b "cil") :
    (extract vs compile (history vs compile cs) p n c).1 = some (i, text) ↔
      (Abs.empty.run (opsOf cs)).Tells i ∧ i.priority = p ∧ i.name = n ∧
      ∃ data, (Abs.empty.run (opsOf cs)).mods p n = some (i.ext, data) ∧
        if c = true then inCil compile IsCil i.ext data text else text = data := by
  have h := history_rep (compile := compile) hv cs
  obtain ⟨-, h2, h3⟩ := extract_spec (vs := vs) h p n c
  have hx' : ∀ ext data, (Abs.empty.run (opsOf cs)).mods p n = some (ext, data) → (c = false → ext = cilExt ∨ ¬ IsCil ext) :=
    fun ext data hm hc => by
      by_cases hI : IsCil ext
      · exact Or.inl ((hx hc ext data hm hI).trans (by decide +kernel))
      · exact Or.inr hI
  constructor
  · intro he
    rcases h2 with h2 | ⟨ext, data, text', hm, -⟩
    · rw [h2] at he; cases he
    · obtain ⟨hi, ht⟩ := (h3 ext data hm (hx' _ _ hm) i text).1 he
      obtain ⟨k1, k2, k3⟩ := (infoFor_tells h.lang hm).1 hi
      have : i.ext = ext := by rw [hi]; rfl
      exact ⟨k1, k2, k3, data, by rw [this]; exact hm, by rw [this]; exact ht⟩
  · rintro ⟨k1, k2, k3, data, hm, ht⟩
    exact (h3 _ _ hm (hx' _ _ hm) i text).2 ⟨(infoFor_tells h.lang hm).2 ⟨k1, k2, k3⟩, ht⟩

/-- The names of modules that are accepted. -/
theorem C98_names {s : Bytes} : validName s = true ↔ ModuleName s := validName_iff

/-- The extensions that are accepted. -/
theorem C98_extensions {s : Bytes} : validExt s = true ↔ Extension s := validExt_iff

/-- A name that is accepted cannot lead out of the directory: it has no slash, is not empty, does not begin with a dot. -/
theorem C98_names_safe {s : Bytes} (h : validName s = true) : s ≠ [] ∧ 47 ∉ s ∧ 0 ∉ s ∧ s.head? ≠ some 46 := by
  obtain ⟨c, cs, rfl, hc, ht⟩ := validName_iff.1 h
  have ch : ∀ {d : UInt8}, NameChar d → d ≠ 47 ∧ d ≠ 0 := by
    intro d hd
    constructor <;> (rintro rfl; cases hd <;> simp_all)
  have tail : ∀ {s : Bytes}, NameTail s → 47 ∉ s ∧ 0 ∉ s := by
    intro s hs
    induction hs with
    | nil => simp
    | char hc _ ih => simp only [List.mem_cons, not_or]; exact ⟨⟨(ch hc).1.symm, ih.1⟩, (ch hc).2.symm, ih.2⟩
    | @dot c d s he hc _ ih =>
      simp only [List.mem_cons, not_or]
      refine ⟨⟨?_, (ch hc).1.symm, ih.1⟩, ?_, (ch hc).2.symm, ih.2⟩ <;> (rintro rfl; revert he; decide)
  have hc' : c ≠ 47 ∧ c ≠ 0 ∧ c ≠ 46 := by
    refine ⟨?_, ?_, ?_⟩ <;> (rintro rfl; revert hc; unfold Letter; decide)
  obtain ⟨t1, t2⟩ := tail ht
  exact ⟨by simp, by simp [hc'.1.symm, t1], by simp [hc'.2.1.symm, t2], by simp [hc'.2.2]⟩

/-! ### The hypotheses are met -/

example : listAll strLe (history strLe someCompiler someCalls) =
    some [⟨400, b "web", b "cil", 1⟩, ⟨200, b "old", b "cil", 0⟩, ⟨100, b "app.x", b "pp", 1⟩, ⟨100, b "web", b "cil", 1⟩] := by decide +kernel

example : getInfo strLe (history strLe someCompiler someCalls) 0 (b "web") = some ⟨400, b "web", b "cil", 1⟩ := by decide +kernel

example : (extract strLe someCompiler (history strLe someCompiler someCalls) 100 (b "app.x") false).1 = some (⟨100, b "app.x", b "pp", 1⟩, b "binary") ∧
    (extract strLe someCompiler (history strLe someCompiler someCalls) 100 (b "app.x") true).1 =
      some (⟨100, b "app.x", b "pp", 1⟩, b "; pp\nbinary") := by decide +kernel

example : (stepOp strLe (history strLe someCompiler (someCalls ++ [.op (.remove 200 (b "old"))])) (.install 300 (b "old") (b "cil") (-1) [])).1 = true ∧
    validName (b "app.x") = true ∧ validName (b "a..b") = false ∧ validName (b "../x") = false := by decide +kernel

example : getEnabled strLe (history strLe someCompiler someCalls) 0 (b "web") = some 1 ∧
    getEnabled strLe (history strLe someCompiler someCalls) 200 (b "old") = some 0 ∧
    getEnabled strLe (history strLe someCompiler someCalls) 100 (b "old") = none := by decide +kernel

/-- A module with the extension `CIL` is accepted and goes into the policy; it cannot be taken out. -/
theorem C98_extract_refuted :
    let cs := [Cmd.op (.install 100 (b "web") (b "CIL") (-1) (b "(type t)"))]
    (build strLe someCompiler false (history strLe someCompiler cs)).1 = some [(b "web", b "(type t)")] ∧
    getInfo strLe (history strLe someCompiler cs) 100 (b "web") = some ⟨100, b "web", b "CIL", 1⟩ ∧
    (extract strLe someCompiler (history strLe someCompiler cs) 100 (b "web") false).1 = none := by decide +kernel

end Verif.Modules
