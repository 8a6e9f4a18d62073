import Verif.Checksum.Spec
import Verif.Sha.Props
import Mathlib.Data.List.Sort

/-!
# C57: the module checksum
-/

namespace Verif.Checksum
open Verif.Sha

/-! ### Order -/

theorem nameLe_refl (a : Bytes) : nameLe a a = true := by
  induction a with
  | nil => rfl
  | cons x xs ih => simp [nameLe, ih]

theorem nameLe_antisymm : ∀ (a b : Bytes), nameLe a b = true → nameLe b a = true → a = b
  | [], [], _, _ => rfl
  | [], _ :: _, _, h => by simp [nameLe] at h
  | _ :: _, [], h, _ => by simp [nameLe] at h
  | x :: xs, y :: ys, h, h' => by
    unfold nameLe at h h'
    by_cases e : x = y
    · subst e
      rw [if_pos rfl] at h h'
      rw [nameLe_antisymm xs ys h h']
    · rw [if_neg e] at h
      rw [if_neg (fun h => e h.symm)] at h'
      have h1 := of_decide_eq_true h
      have h2 := of_decide_eq_true h'
      rw [UInt8.lt_iff_toNat_lt] at h1 h2
      omega

theorem nameLe_total : ∀ (a b : Bytes), nameLe a b = true ∨ nameLe b a = true
  | [], _ => Or.inl (by simp [nameLe])
  | _ :: _, [] => Or.inr (by simp [nameLe])
  | x :: xs, y :: ys => by
    unfold nameLe
    by_cases e : x = y
    · subst e
      rw [if_pos rfl, if_pos rfl]
      exact nameLe_total xs ys
    · rw [if_neg e, if_neg (fun h => e h.symm)]
      have : x.toNat ≠ y.toNat := fun h => e (UInt8.toNat_inj.1 h)
      simp only [decide_eq_true_eq, UInt8.lt_iff_toNat_lt]
      omega

theorem nameLe_trans : ∀ (a b c : Bytes), nameLe a b = true → nameLe b c = true → nameLe a c = true
  | [], _, _, _, _ => by simp [nameLe]
  | _ :: _, [], _, h, _ => by simp [nameLe] at h
  | _ :: _, _ :: _, [], _, h => by simp [nameLe] at h
  | x :: xs, y :: ys, z :: zs, h, h' => by
    unfold nameLe at h h' ⊢
    by_cases e1 : x = y
    · subst e1
      rw [if_pos rfl] at h
      by_cases e2 : x = z
      · subst e2
        rw [if_pos rfl] at h' ⊢
        exact nameLe_trans xs ys zs h h'
      · rw [if_neg e2] at h' ⊢
        exact h'
    · rw [if_neg e1] at h
      have h1 := of_decide_eq_true h
      by_cases e2 : y = z
      · subst e2
        rw [if_neg e1]
        exact h
      · rw [if_neg e2] at h'
        have h2 := of_decide_eq_true h'
        rw [UInt8.lt_iff_toNat_lt] at h1 h2
        have e3 : x ≠ z := by
          intro e
          rw [e] at h1
          omega
        rw [if_neg e3]
        simp only [decide_eq_true_eq, UInt8.lt_iff_toNat_lt]
        omega

theorem insertMod_perm (m : Module) (l : List Module) : (insertMod m l).Perm (m :: l) := by
  induction l with
  | nil => exact List.Perm.refl _
  | cons x xs ih =>
    unfold insertMod
    split
    · exact List.Perm.refl _
    · exact (List.Perm.cons x ih).trans (List.Perm.swap m x xs)

theorem insertMod_inOrder (m : Module) (l : List Module) (h : InOrder l) : InOrder (insertMod m l) := by
  induction l with
  | nil => exact List.pairwise_singleton _ _
  | cons x xs ih =>
    unfold InOrder at h
    rw [List.pairwise_cons] at h
    unfold insertMod
    split
    · rename_i hm
      refine List.pairwise_cons.2 ⟨?_, List.pairwise_cons.2 h⟩
      intro y hy
      rcases List.mem_cons.1 hy with rfl | hy
      · exact hm
      · exact nameLe_trans _ _ _ hm (h.1 y hy)
    · rename_i hm
      refine List.pairwise_cons.2 ⟨?_, ih h.2⟩
      intro y hy
      rcases List.mem_cons.1 ((insertMod_perm m xs).mem_iff.1 hy) with rfl | hy
      · exact (nameLe_total x.name y.name).resolve_right (by simpa using hm)
      · exact h.1 y hy

theorem sortMods_spec (l : List Module) : (sortMods l).Perm l ∧ InOrder (sortMods l) := by
  induction l with
  | nil => exact ⟨List.Perm.refl _, List.Pairwise.nil⟩
  | cons m l ih =>
    exact ⟨(insertMod_perm m _).trans (List.Perm.cons m ih.1), insertMod_inOrder m _ ih.2⟩

theorem sortMods_unique (l s : List Module) (hd : Distinct l) (hp : s.Perm l) (ho : InOrder s) :
    sortMods l = s := by
  obtain ⟨h1, h2⟩ := sortMods_spec l
  refine List.Perm.eq_of_pairwise (le := fun a b : Module => nameLe a.name b.name = true) ?_ h2 ho
    (h1.trans hp.symm)
  intro a b ha hb hab hba
  have e := nameLe_antisymm _ _ hab hba
  exact List.inj_on_of_nodup_map hd (h1.mem_iff.1 ha) (hp.mem_iff.1 hb) e

/-! ### Encoding -/

theorem append_cancel {a b c d : Bytes} (h : a ++ b = c ++ d) (hl : a.length = c.length) :
    a = c ∧ b = d := List.append_inj h hl

theorem withLen_inj {m n : Nat} (hm : m < 2 ^ 64) (hn : n < 2 ^ 64) (h : withLen m = withLen n) : m = n := by
  have h1 := leVal_leBytes 8 m (by simpa using hm)
  have h2 := leVal_leBytes 8 n (by simpa using hn)
  unfold withLen at h
  rw [← h1, ← h2, h]

/-- What the loop hands to the digest, for modules with a source. -/
def flat : List Bytes → Bytes
  | [] => []
  | c :: cs => withLen c.length ++ (c ++ flat cs)

theorem flat_inj : ∀ (a b : List Bytes), a.length = b.length → (∀ c ∈ a, c.length < 2 ^ 64) →
    (∀ c ∈ b, c.length < 2 ^ 64) → flat a = flat b → a = b
  | [], [], _, _, _, _ => rfl
  | [], _ :: _, h, _, _, _ => by simp at h
  | _ :: _, [], h, _, _, _ => by simp at h
  | x :: xs, y :: ys, hl, ha, hb, h => by
    unfold flat at h
    obtain ⟨h1, h2⟩ := append_cancel h (by rw [withLen, withLen, leBytes_length, leBytes_length])
    have e := withLen_inj (ha x (by simp)) (hb y (by simp)) h1
    obtain ⟨h3, h4⟩ := append_cancel h2 e
    rw [h3, flat_inj xs ys (by simpa using hl) (fun c hc => ha c (by simp [hc]))
      (fun c hc => hb c (by simp [hc])) h4]

/-- The sources of modules that all have one. -/
theorem feedModules_source (l : List Module)
    (hs : ∀ m ∈ l, m.isCil = true → m.cil ≠ none) :
    ∀ cs, feedModules false l = some cs → ∃ srcs : List Bytes, cs.flatten = flat srcs ∧
      srcs.map some = l.map source := by
  induction l with
  | nil => intro cs h; cases h; exact ⟨[], rfl, rfl⟩
  | cons m ms ih =>
    intro cs h
    unfold feedModules at h
    cases hf : feedModule false m with
    | none => rw [hf] at h; cases h
    | some c =>
      rw [hf] at h
      dsimp only at h
      cases hg : feedModules false ms with
      | none => rw [hg] at h; cases h
      | some cs' =>
        rw [hg] at h
        dsimp only at h
        cases h
        obtain ⟨srcs, h1, h2⟩ := ih (fun m hm => hs m (by simp [hm])) cs' hg
        have key : ∃ x, source m = some x ∧ c = [withLen x.length, x] := by
          unfold feedModule at hf
          unfold source
          rw [if_neg (by simp)] at hf
          cases hc : m.cil with
          | some y => rw [hc] at hf; cases hf; exact ⟨y, rfl, rfl⟩
          | none =>
            rw [hc] at hf
            dsimp only at hf
            have : ¬ m.isCil = true := fun e => hs m (by simp) e hc
            rw [if_neg this] at hf
            cases hk : m.compiled with
            | none => rw [hk] at hf; cases hf
            | some y => rw [hk] at hf; cases hf; exact ⟨y, rfl, rfl⟩
        obtain ⟨x, hx, rfl⟩ := key
        refine ⟨x :: srcs, ?_, by simp [hx, h2]⟩
        simp [flat, h1]

theorem withBool_inj {a b : Bool} (h : withBool a = withBool b) : a = b := by
  cases a <;> cases b <;> first | rfl | (exact absurd h (by decide))

/-- **C57** (encoding).  Where every module written in CIL has its file, the bytes that are hashed
determine the options and the list of the CIL sources in the order of the module names.  (Modules of
other languages may or may not have been compiled before.) -/
theorem C57_encoding (x y : Extra) (l k l' k' : List Module) (cs ds : List Bytes)
    (hx : Fits x l) (hy : Fits y k) (dl : Distinct l) (dk : Distinct k)
    (hl : ∀ m ∈ l, m.isCil = true → m.cil ≠ none) (hk : ∀ m ∈ k, m.isCil = true → m.cil ≠ none)
    (pl : l'.Perm l) (ol : InOrder l') (pk : k'.Perm k) (ok : InOrder k')
    (h1 : feed false x l = some cs) (h2 : feed false y k = some ds) (h : cs.flatten = ds.flatten) :
    x = y ∧ l'.map source = k'.map source := by
  unfold feed at h1 h2
  dsimp only at h1 h2
  rw [sortMods_unique l l' dl pl ol] at h1
  rw [sortMods_unique k k' dk pk ok] at h2
  cases e1 : feedModules false l' with
  | none => rw [e1] at h1; cases h1
  | some as =>
    cases e2 : feedModules false k' with
    | none => rw [e2] at h2; cases h2
    | some bs =>
      rw [e1] at h1; rw [e2] at h2
      cases h1; cases h2
      obtain ⟨sa, ha, ma⟩ := feedModules_source l' (fun m hm => hl m (pl.mem_iff.1 hm)) as e1
      obtain ⟨sb, hb, mb⟩ := feedModules_source k' (fun m hm => hk m (pk.mem_iff.1 hm)) bs e2
      simp only [List.cons_append, List.nil_append, List.flatten_cons] at h
      rw [ha, hb] at h
      have L : ∀ m n, (withLen m).length = (withLen n).length := fun m n => by
        rw [withLen, withLen, leBytes_length, leBytes_length]
      have B : ∀ a b, (withBool a).length = (withBool b).length := fun a b => rfl
      obtain ⟨-, h⟩ := append_cancel h (L _ _)
      obtain ⟨b1, h⟩ := append_cancel h (B _ _)
      obtain ⟨b2, h⟩ := append_cancel h (B _ _)
      obtain ⟨b3, h⟩ := append_cancel h (L _ _)
      obtain ⟨b4, h⟩ := append_cancel h (L _ _)
      obtain ⟨b5, h⟩ := append_cancel h (L _ _)
      have hll : l'.length = k'.length := by
        refine withLen_inj ?_ ?_ b5
        · rw [pl.length_eq]; exact hx.2.2.1
        · rw [pk.length_eq]; exact hy.2.2.1
      have bound : ∀ (z : Extra) (n n' : List Module) (s : List Bytes), Fits z n → n'.Perm n →
          s.map some = n'.map source → ∀ c ∈ s, c.length < 2 ^ 64 := by
        intro z n n' s hf hp hm c hc
        have : some c ∈ n'.map source := by rw [← hm]; exact List.mem_map_of_mem hc
        obtain ⟨m, hm1, hm2⟩ := List.mem_map.1 this
        refine hf.2.2.2 m (hp.mem_iff.1 hm1) c ?_
        unfold source at hm2
        cases hcm : m.cil with
        | some y => rw [hcm] at hm2; exact Or.inl hm2
        | none => rw [hcm] at hm2; exact Or.inr hm2
      have hlen : sa.length = sb.length := by
        have e1 := congrArg List.length ma
        have e2 := congrArg List.length mb
        simp only [List.length_map] at e1 e2
        omega
      have := flat_inj sa sb hlen (bound x l l' sa hx pl ma) (bound y k k' sb hy pk mb) h
      refine ⟨?_, by rw [← ma, ← mb, this]⟩
      obtain ⟨x1, x2, x3, x4⟩ := x
      obtain ⟨y1, y2, y3, y4⟩ := y
      have e1 := withBool_inj b1
      have e2 := withBool_inj b2
      have e3 := withLen_inj hx.1 hy.1 b3
      have e4 := withLen_inj hx.2.1 hy.2.1 b4
      dsimp only at e1 e2 e3 e4
      rw [e1, e2, e3, e4]

/-! ### Digest and text -/

theorem hexDigit_inj {m n : Nat} (hm : m < 16) (hn : n < 16) (h : hexDigit m = hexDigit n) : m = n := by
  have : ∀ m < 16, ∀ n < 16, hexDigit m = hexDigit n → m = n := by decide
  exact this m hm n hn h

theorem hex_inj : ∀ (a b : Bytes),
    (a.flatMap fun b => [hexDigit (b.toNat / 16), hexDigit (b.toNat % 16)]) =
      (b.flatMap fun b => [hexDigit (b.toNat / 16), hexDigit (b.toNat % 16)]) → a = b
  | [], [], _ => rfl
  | [], _ :: _, h => by simp at h
  | _ :: _, [], h => by simp at h
  | x :: xs, y :: ys, h => by
    simp only [List.flatMap_cons, List.cons_append, List.nil_append, List.cons.injEq] at h
    obtain ⟨h1, h2, h3⟩ := h
    have hx := x.toNat_lt
    have hy := y.toNat_lt
    have e1 := hexDigit_inj (by omega) (by omega) h1
    have e2 := hexDigit_inj (by omega) (by omega) h2
    have : x = y := UInt8.toNat_inj.1 (by omega)
    rw [this, hex_inj xs ys h3]

/-- **C57** (text).  The text of a digest determines the digest, and has the size that the file is
compared with. -/
theorem C57_text (a b : Bytes) :
    (checksumString a = checksumString b → a = b) ∧
      (a.length = 32 → (checksumString a).length = contentSize) := by
  constructor
  · intro h
    unfold checksumString at h
    exact hex_inj a b (List.append_cancel_left (List.append_cancel_right h))
  · intro h
    unfold checksumString contentSize
    rw [List.length_append, List.length_append, List.length_flatMap]
    have : ∀ l : Bytes, (l.map fun b : UInt8 =>
        ([hexDigit (b.toNat / 16), hexDigit (b.toNat % 16)] : Bytes).length).sum = 2 * l.length := by
      intro l
      induction l with
      | nil => rfl
      | cons x xs ih =>
        rw [List.map_cons, List.sum_cons, ih]
        show 2 + 2 * xs.length = 2 * (xs.length + 1)
        omega
    rw [this, h]
    rfl

theorem compile_eq (mem : Bytes) (hm : mem.length = 64) (ic : Bool) (x : Extra) (l : List Module) (s : Bytes)
    (h : compileModules mem ic x l = some s) :
    ∃ cs, feed ic x l = some cs ∧ s = checksumString (sha256 K256 cs.flatten) := by
  unfold compileModules at h
  cases hf : feed ic x l with
  | none => rw [hf] at h; cases h
  | some cs =>
    rw [hf] at h
    dsimp only at h
    rw [C56_digest mem hm cs] at h
    cases h
    exact ⟨cs, rfl, rfl⟩

/-- **C57** (order).  The checksum does not depend on the order in which the modules are found. -/
theorem C57_order (mem : Bytes) (ic : Bool) (x : Extra) (l k : List Module) (hd : Distinct l)
    (hp : k.Perm l) : compileModules mem ic x l = compileModules mem ic x k := by
  obtain ⟨h1, h2⟩ := sortMods_spec k
  have : sortMods l = sortMods k := sortMods_unique l _ hd (h1.trans hp) h2
  unfold compileModules feed
  dsimp only
  rw [this]

/-- **C57** (cache).  Compiling a module beforehand does not change the checksum: the file "cil" that
the compiler would make may be there or not. -/
theorem C57_cache (m : Module) (c : Bytes) (h1 : m.isCil = false) (h2 : m.compiled = some c) :
    feedModule false { m with cil := some c } = feedModule false { m with cil := none } := by
  unfold feedModule
  simp [h1, h2]

theorem decide_records (mem : Bytes) (h : Handle) (s s1 : Store) (r : Bool)
    (hd : decideRebuild mem h s = .proceed r s1) (hr : r = true ∨ h.checkExt = true) :
    compileModules mem h.ignoreCache h.extra s.mods = s1.checksum := by
  unfold decideRebuild at hd
  dsimp only at hd
  split at hd
  · split at hd
    · cases hd
    · split at hd
      · cases hd
      · rename_i sum hsum
        injection hd with _ hd
        rw [hsum, ← hd]
  · rename_i hn
    injection hd with h1 h2
    rw [h1] at hn
    rcases hr with hr | hr
    · rw [hr] at hn; simp at hn
    · rw [hr] at hn; simp at hn

/-- **C57** (decision).  Let a commit have linked the modules `s.mods` under the options `h.extra`, or
have looked for outside changes.  If a later commit that looks for outside changes does not link the modules again,
then the options are the same, the sources of the modules are the same, in the order of their names,
and the store has the outputs of the earlier link — or two different strings with the same SHA-256
have been found. -/
theorem C57_detect_partial (mem mem' : Bytes) (hm : mem.length = 64) (hm' : mem'.length = 64)
    (h h' : Handle) (s s1 s' s2 : Store) (r : Bool)
    (hc : h.ignoreCache = false) (hc' : h'.ignoreCache = false)
    (ext : h'.checkExt = true)
    (fl : Fits h.extra s.mods) (fk : Fits h'.extra s'.mods)
    (dl : Distinct s.mods) (dk : Distinct s'.mods)
    (cl : ∀ m ∈ s.mods, m.isCil = true → m.cil ≠ none)
    (ck : ∀ m ∈ s'.mods, m.isCil = true → m.cil ≠ none)
    (first : decideRebuild mem h s = .proceed r s1) (hrec : r = true ∨ h.checkExt = true)
    (hs : s1.checksum = s'.checksum)
    (second : decideRebuild mem' h' s' = .proceed false s2) :
    (h.extra = h'.extra ∧
      (∀ l k, l.Perm s.mods → InOrder l → k.Perm s'.mods → InOrder k → l.map source = k.map source) ∧
      (∀ b ∈ s'.computed, b = true) ∧ h'.doRebuild = false ∧ h'.modulesModified = false) ∨
    ∃ a b : Bytes, a ≠ b ∧ sha256 K256 a = sha256 K256 b := by
  replace hrec := decide_records mem h s s1 r first hrec
  unfold decideRebuild at second
  dsimp only at second
  rw [ext] at second
  rw [if_pos (by simp)] at second
  split at second
  · cases second
  · split at second
    · cases second
    · rename_i sum hsum
      simp only [Bool.and_true] at second
      generalize hr : (h'.doRebuild || h'.modulesModified || (s'.dontaudit != h'.extra.disableDontaudit) ||
        (s'.tunables != h'.extra.preserveTunables) || !(s'.computed.all id)) = r' at second
      cases r' with
      | true => rw [if_neg (by simp)] at second; cases second
      | false =>
        rw [if_pos (by rfl)] at second
        have hcmp : compareChecksum s'.checksum sum = false := by
          injection second
        have hck : s'.checksum = some sum := by
          unfold compareChecksum at hcmp
          split at hcmp
          · cases hcmp
          · rename_i f hf
            split at hcmp
            · cases hcmp
            · rw [hf]
              simpa using hcmp
        rw [hs, hck, hc] at hrec
        rw [hc'] at hsum
        obtain ⟨cs, hcs, e1⟩ := compile_eq mem hm _ _ _ _ hrec
        obtain ⟨ds, hds, e2⟩ := compile_eq mem' hm' _ _ _ _ hsum
        have hh := (C57_text _ _).1 (e1.symm.trans e2)
        by_cases heq : cs.flatten = ds.flatten
        · left
          refine ⟨?_, ?_, ?_, ?_, ?_⟩
          · exact (C57_encoding _ _ _ _ _ _ cs ds fl fk dl dk cl ck (sortMods_spec _).1 (sortMods_spec _).2
              (sortMods_spec _).1 (sortMods_spec _).2 hcs hds heq).1
          · intro l k pl ol pk ok
            exact (C57_encoding _ _ _ _ l k cs ds fl fk dl dk cl ck pl ol pk ok hcs hds heq).2
          · simp only [Bool.or_eq_false_iff, Bool.not_eq_false', List.all_eq_true, id] at hr
            exact hr.2
          · simp only [Bool.or_eq_false_iff] at hr
            exact hr.1.1.1.1
          · simp only [Bool.or_eq_false_iff] at hr
            exact hr.1.1.1.2
        · right
          exact ⟨_, _, heq, hh⟩

/-- A store and a handle for the examples. -/
def exMods (c : UInt8) : List Module := [⟨[98], some [c, 1], true, none⟩, ⟨[97], none, false, some [7]⟩]
def exHandle (ic : Bool) : Handle := ⟨false, false, true, ic, ⟨false, true, 0, 33⟩⟩
def exStore (c : UInt8) (sum : Option Bytes) : Store := ⟨false, true, [true, true], sum, exMods c⟩

/-- The hypotheses of `C57_detect_partial` are met, and the second commit does not link again. -/
example : Fits (exHandle false).extra (exMods 5) ∧ Distinct (exMods 5) ∧
    (∀ m ∈ exMods 5, m.isCil = true → m.cil ≠ none) ∧
    ∃ sum, compileModules (List.replicate 64 0) false (exHandle false).extra (exMods 5) = some sum ∧
      decideRebuild (List.replicate 64 0) (exHandle false) (exStore 5 (some sum))
        = .proceed false (exStore 5 (some sum)) := by
  refine ⟨⟨by decide, by decide, by decide, ?_⟩, by unfold Distinct exMods; decide, ?_, ?_⟩
  · intro m hm c hc
    have : c.length ≤ 2 := by
      unfold exMods at hm
      simp only [List.mem_cons, List.not_mem_nil, or_false] at hm
      rcases hm with rfl | rfl
      · rcases hc with hc | hc
        · cases hc; decide
        · cases hc
      · rcases hc with hc | hc
        · cases hc
        · cases hc; decide
    omega
  · intro m hm hi
    unfold exMods at hm
    simp only [List.mem_cons, List.not_mem_nil, or_false] at hm
    rcases hm with rfl | rfl
    · simp
    · cases hi
  · obtain ⟨cs, hf⟩ : ∃ cs, feed false (exHandle false).extra (exMods 5) = some cs := ⟨_, rfl⟩
    have hcomp : compileModules (List.replicate 64 0) false (exHandle false).extra (exMods 5)
        = some (checksumString (sha256 K256 cs.flatten)) := by
      unfold compileModules
      rw [hf]
      dsimp only
      rw [C56_digest _ List.length_replicate cs]
    refine ⟨_, hcomp, ?_⟩
    have hl : (checksumString (sha256 K256 cs.flatten)).length = contentSize :=
      (C57_text _ []).2 rfl
    unfold decideRebuild
    dsimp only
    have e1 : (exStore 5 (some (checksumString (sha256 K256 cs.flatten)))).mods = exMods 5 := rfl
    rw [e1, show (exHandle false).ignoreCache = false from rfl, hcomp]
    dsimp only
    rw [show (exHandle false).checkExt = true from rfl]
    rw [if_pos (by simp), if_neg (by decide)]
    have e2 : compareChecksum (exStore 5 (some (checksumString (sha256 K256 cs.flatten)))).checksum
        (checksumString (sha256 K256 cs.flatten)) = false := by
      show compareChecksum (some (checksumString (sha256 K256 cs.flatten))) _ = false
      unfold compareChecksum
      dsimp only
      rw [if_neg (by rw [hl]; simp)]
      simp
    rw [e2]
    rfl

/-- **C57** (refuted when the cache is ignored).  If both commits ignore the module cache, the modules
written in CIL are not hashed at all: whatever their files contain, the second commit keeps the
policy that was linked from the old ones. -/
theorem C57_detect_refuted (mem : Bytes) (hm : mem.length = 64) (c d : UInt8) :
    ∃ sum, compileModules mem true (exHandle true).extra (exMods c) = some sum ∧
      decideRebuild mem (exHandle true) (exStore d (some sum)) = .proceed false (exStore d (some sum)) := by
  have hf : ∀ c, feed true (exHandle true).extra (exMods c) = feed true (exHandle true).extra (exMods 0) := by
    intro c; rfl
  obtain ⟨cs, hcs⟩ : ∃ cs, feed true (exHandle true).extra (exMods 0) = some cs := ⟨_, rfl⟩
  have hcomp : ∀ c, compileModules mem true (exHandle true).extra (exMods c)
      = some (checksumString (sha256 K256 cs.flatten)) := by
    intro c
    unfold compileModules
    rw [hf, hcs]
    dsimp only
    rw [C56_digest mem hm cs]
  refine ⟨_, hcomp c, ?_⟩
  have hl : (checksumString (sha256 K256 cs.flatten)).length = contentSize :=
    (C57_text _ []).2 rfl
  unfold decideRebuild
  dsimp only
  have e1 : (exStore d (some (checksumString (sha256 K256 cs.flatten)))).mods = exMods d := rfl
  rw [e1, show (exHandle true).ignoreCache = true from rfl, hcomp d]
  dsimp only
  rw [show (exHandle true).checkExt = true from rfl]
  rw [if_pos (by simp), if_neg (by show ¬ (2 : Nat) = 0; decide)]
  have e2 : compareChecksum (exStore d (some (checksumString (sha256 K256 cs.flatten)))).checksum
      (checksumString (sha256 K256 cs.flatten)) = false := by
    show compareChecksum (some (checksumString (sha256 K256 cs.flatten))) _ = false
    unfold compareChecksum
    dsimp only
    rw [if_neg (by rw [hl]; simp)]
    simp
  rw [e2]
  rfl

end Verif.Checksum
