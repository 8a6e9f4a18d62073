import Verif.Restore.Props2

/-!
# C103: a case that meets the hypotheses, and where the code falls short
-/

namespace Verif.Restore
open Verif.Context (Res b)

namespace Ex

/-- A directory with a file and an excluded directory. -/
def d : Ent := ⟨b "/d", 4, 1, 1⟩
def f : Ent := ⟨b "/d/f", 8, 1, 2⟩
def x : Ent := ⟨b "/d/x", 4, 1, 3⟩
def g : Ent := ⟨b "/d/x/g", 8, 1, 4⟩
def tree : Tree := .node d .dir [.node f .other [], .node x .dir [.node g .other []]]

/-- Contexts. -/
def etc : Parts := ⟨b "system_u", b "object_r", b "etc_t", some (b "s0")⟩
def tmp : Parts := ⟨b "user_u", b "object_r", b "tmp_t", some (b "s0:c1")⟩

/-- What is looked up. -/
def look (p : Bytes) (_ : Nat) : Look :=
  if p = b "/d/f" ∨ p = b "/d/x/g" then .found (b "system_u:object_r:etc_t:s0") else .noMatch

/-- A machine. -/
def env : Env where
  lookup := look
  specDigest := fun _ => none
  partialMatch := fun _ => true
  custom := none
  toRaw := some
  canGet := fun _ => true
  canSet := fun _ _ => true
  inoAt := fun p => if p = b "/d" then some 1 else if p = b "/d/f" then some 2 else none
  root := none
  excl := [⟨b "/d/x", true⟩]

/-- Its files. -/
def w : World where
  label := fun k => if k = (1, 2) ∨ k = (1, 4) then some (b "user_u:object_r:tmp_t:s0:c1") else none
  digest := fun _ => none

/-- The call `restorecon -R -v`. -/
def call : Call := ⟨{ verbose := true }, true, false, true, false⟩

theorem etc_text : b "system_u:object_r:etc_t:s0" = etc.text := by decide +kernel
theorem tmp_text : b "user_u:object_r:tmp_t:s0:c1" = tmp.text := by decide +kernel

theorem etc_good : etc.Good := by
  refine ⟨?_, ?_, ?_, by decide +kernel, ?_⟩
  · unfold Plain etc; decide +kernel
  · unfold Plain etc; decide +kernel
  · unfold Plain etc; decide +kernel
  · rintro g ⟨⟩; decide +kernel

theorem tmp_good : tmp.Good := by
  refine ⟨?_, ?_, ?_, by decide +kernel, ?_⟩
  · unfold Plain tmp; decide +kernel
  · unfold Plain tmp; decide +kernel
  · unfold Plain tmp; decide +kernel
  · rintro g ⟨⟩; decide +kernel

theorem x_excluded : checkExcluded env.excl x.path = true := by decide +kernel
theorem d_not_excluded : checkExcluded env.excl d.path = false := by decide +kernel

theorem files_tree : files env call.flags w tree = [d, f] := by
  have h1 : Entered env call.flags w d := by
    refine ⟨fun h => absurd h (by decide), fun _ => rfl, fun h => ?_, fun h => ?_⟩
    · rw [← checkExcluded_iff, d_not_excluded] at h; cases h
    · exact absurd h.1 (by decide)
  have h2 : ¬ Entered env call.flags w x := fun h => h.2.2.1 ((checkExcluded_iff _ _).1 x_excluded)
  have hdev : ∀ e, OnDevice call.flags e := fun e h => absurd h (by decide)
  simp [tree, files, filess, hdev, h1, h2]

theorem normal : Normal env call.flags w tree := by
  refine ⟨?_, fun e he => ?_, rfl, fun k v hk => ?_, fun e v he => ?_, fun p _ => rfl⟩
  · refine .node _ _ _ (by simp) fun k hk => ?_
    simp only [List.mem_cons, List.not_mem_nil, or_false] at hk
    rcases hk with rfl | rfl
    · exact .node _ _ _ (by simp) (by simp)
    · refine .node _ _ _ (by simp) fun k hk => ?_
      simp only [List.mem_cons, List.not_mem_nil, or_false] at hk
      subst hk
      exact .node _ _ _ (by simp) (by simp)
  · rw [← mem_files, files_tree] at he
    simp only [List.mem_cons, List.not_mem_nil, or_false] at he
    rcases he with rfl | rfl <;> decide +kernel
  · unfold w at hk
    simp only at hk
    split at hk
    · exact ⟨tmp, tmp_good, by rw [← tmp_text]; exact (Option.some.inj hk).symm⟩
    · cases hk
  · obtain ⟨p, -, h⟩ := he
    unfold env look at h
    simp only at h
    split at h
    · exact ⟨etc, etc_good, by rw [← etc_text]; cases h; rfl⟩
    · cases h

theorem apart : Apart env call.flags (files env call.flags w tree) := by
  rw [files_tree]
  refine ⟨fun _ => ?_, fun h => by cases h⟩
  refine List.pairwise_cons.2 ⟨fun a ha hk => ?_, List.pairwise_singleton _ _⟩
  rw [List.mem_singleton] at ha
  subst ha
  exact absurd hk (by decide)

/-- The hypotheses of `C103_label`, `C103_messages`, `C103_idempotent` and `C103_dry_run` are met, the file counts and has a context, and the call
changes its label and not that of the file in the excluded directory. -/
example : Normal env call.flags w tree ∧ Apart env call.flags (files env call.flags w tree) ∧ Chosen env call.flags (files env call.flags w tree) f ∧
    Cur w f.key (some tmp) ∧ Specified env f etc.text ∧
    (restorecon env call tree w).map (fun s => (s.w.label (1, 2), s.w.label (1, 4), s.log.length, s.error)) =
      some (some (b "user_u:object_r:etc_t:s0:c1"), some (b "user_u:object_r:tmp_t:s0:c1"), 1, false) := by
  refine ⟨normal, apart, ?_, ⟨?_, by rintro _ ⟨⟩; exact tmp_good⟩, ?_, by decide +kernel⟩
  · rw [files_tree]
    exact ⟨[d], [], rfl, fun h => by cases h⟩
  · show w.label (1, 2) = some tmp.text
    rw [← tmp_text]; rfl
  · exact ⟨b "/d/f", by unfold Names env; rfl, by rw [← etc_text]; decide +kernel⟩

/-- The hypotheses of `C103_excluded_partial` are met. -/
example : (⟨b "/d/x", true⟩ : Edir) ∈ env.excl ∧ WellNamed tree ∧ Reached env call.flags w tree f := by
  refine ⟨by simp [env], ?_, by rw [← mem_files, files_tree]; simp⟩
  refine .node _ _ _ (fun k hk => ?_) (fun k hk e' i ks he => ?_)
  · simp only [List.mem_cons, List.not_mem_nil, or_false] at hk
    rcases hk with rfl | rfl
    · exact .node _ _ _ (by simp) (by simp)
    · refine .node _ _ _ (fun k hk => ?_) (fun k hk e' i ks he => ?_)
      · simp only [List.mem_cons, List.not_mem_nil, or_false] at hk
        subst hk
        exact .node _ _ _ (by simp) (by simp)
      · simp only [List.mem_cons, List.not_mem_nil, or_false] at hk
        subst hk
        cases he
        exact ⟨b "g", by decide +kernel, by decide +kernel⟩
  · simp only [List.mem_cons, List.not_mem_nil, or_false] at hk
    rcases hk with rfl | rfl <;> cases he
    · exact ⟨b "f", by decide +kernel, by decide +kernel⟩
    · exact ⟨b "x", by decide +kernel, by decide +kernel⟩

/-- A call for one file. -/
example : Cur w f.key (some tmp) ∧ ¬ Excluded env.excl f.path ∧
    (restorecon env { call with recurse := false } (.node f .other []) w).map (fun s => s.w.label (1, 2)) = some (some (b "user_u:object_r:etc_t:s0:c1")) := by
  refine ⟨⟨?_, by rintro _ ⟨⟩; exact tmp_good⟩, fun h => ?_, by decide +kernel⟩
  · show w.label (1, 2) = some tmp.text
    rw [← tmp_text]; rfl
  · rw [← checkExcluded_iff] at h
    exact absurd h (by decide +kernel)

end Ex

/-! ## Where the code falls short -/

/-- **C103, refuted.** A file in an excluded directory is labelled all the same if a recursive call is for the file itself. -/
theorem C103_excluded_file_refuted : ∃ env c e w s, c.recurse = true ∧ Excluded env.excl e.path ∧
    restorecon env c (.node e .other []) w = some s ∧ s.w.label e.key ≠ w.label e.key := by
  have h : (restorecon Ex.env Ex.call (.node Ex.g .other []) Ex.w).map (fun s => s.w.label Ex.g.key) = some (some (b "user_u:object_r:etc_t:s0:c1")) := by
    decide +kernel
  obtain ⟨s, hs, hv⟩ := Option.map_eq_some_iff.1 h
  refine ⟨Ex.env, Ex.call, Ex.g, Ex.w, s, rfl, (checkExcluded_iff _ _).1 (by decide +kernel), hs, ?_⟩
  rw [hv]
  decide +kernel

/-- **C103, refuted.** With an alternate root a path counts as below it if it begins with the same letters: /mnt/root2/x is looked up as 2/x. -/
theorem C103_alt_root_refuted : ∃ (env : Env) (root path : Bytes), env.root = some root ∧ ¬ Below root path ∧ path ≠ root ∧
    lookupPath env.root path = some (b "2/x") := by
  refine ⟨{ Ex.env with root := some (b "/mnt/root") }, b "/mnt/root", b "/mnt/root2/x", rfl, ?_, by decide +kernel, by decide +kernel⟩
  rintro ⟨rest, h⟩
  have h1 := congrArg (fun l => l[9]?) h
  have h2 : (b "/mnt/root" ++ 47 :: rest)[9]? = some 47 := by
    rw [List.getElem?_append_right (by decide +kernel)]
    have : 9 - (b "/mnt/root").length = 0 := by decide +kernel
    rw [this]; rfl
  simp only [h2] at h1
  exact absurd h1 (by decide +kernel)

/-- **C103, refuted.** With the table of inodes a file is not labelled if a file on another file system that was met before has the same
inode number. -/
theorem C103_two_devices_refuted : ∃ env c t w s e e' new, c.recurse = true ∧ c.fl.addAssoc = true ∧ In t e ∧ In t e' ∧ e.dev ≠ e'.dev ∧ e.ino = e'.ino ∧
    Specified env e' new ∧ restorecon env c t w = some s ∧ s.error = false ∧ s.w.label e'.key = none := by
  let env : Env := { Ex.env with inoAt := fun p => if p = b "/d/f" ∨ p = b "/d/x/g" then some 2 else some 1, excl := [] }
  let t : Tree := .node Ex.d .dir [.node Ex.f .other [], .node { Ex.g with dev := 2, ino := 2 } .other []]
  have h : (restorecon env { Ex.call with fl := { addAssoc := true } } t { Ex.w with label := fun _ => none }).map
      (fun s => (s.error, s.w.label (2, 2))) = some (false, none) := by
    decide +kernel
  obtain ⟨s, hs, hv⟩ := Option.map_eq_some_iff.1 h
  refine ⟨env, { Ex.call with fl := { addAssoc := true } }, t, { Ex.w with label := fun _ => none }, s,
    Ex.f, { Ex.g with dev := 2, ino := 2 }, b "system_u:object_r:etc_t:s0", rfl, rfl, ?_, ?_, by decide, rfl, ?_, hs, congrArg Prod.fst hv, congrArg Prod.snd hv⟩
  · exact .inside _ _ _ _ _ (List.mem_cons_self ..) (.here _ _ _)
  · exact .inside _ _ _ _ _ (List.mem_cons_of_mem _ (List.mem_cons_self ..)) (.here _ _ _)
  · exact ⟨b "/d/x/g", by unfold Names; rfl, by decide +kernel⟩

/-- **C103, refuted.** A directory that cannot be read is no failure: the call succeeds and writes the digest, so that a later call, when the directory
can be read, skips it and leaves the files in it as they are. -/
theorem C103_unreadable_refuted : ∃ env c e k w s s2 new, c.recurse = true ∧ restorecon env c (.node e .unreadable []) w = some s ∧ s.error = false ∧
    s.skipped = 0 ∧ restorecon env c (.node e .dir [.node k .other []]) s.w = some s2 ∧ Specified env k new ∧ w.label k.key = none ∧
    s2.w.label k.key = none ∧ s2.error = false := by
  let env : Env := { Ex.env with specDigest := fun _ => some (b "digest"), excl := [] }
  let c : Call := { Ex.call with wantDigest := true }
  let w : World := { Ex.w with label := fun _ => none }
  have h : ((restorecon env c (.node Ex.d .unreadable []) w).bind fun s => (restorecon env c (.node Ex.d .dir [.node Ex.f .other []]) s.w).map
      fun s2 => (s.error, s.skipped, s2.w.label Ex.f.key, s2.error)) = some (false, 0, none, false) := by
    decide +kernel
  obtain ⟨s, hs, h⟩ := Option.bind_eq_some_iff.1 h
  obtain ⟨s2, hs2, hv⟩ := Option.map_eq_some_iff.1 h
  simp only [Prod.mk.injEq] at hv
  exact ⟨env, c, Ex.d, Ex.f, w, s, s2, b "system_u:object_r:etc_t:s0", rfl, hs, hv.1, hv.2.1, hs2, ⟨b "/d/f", by unfold Names; rfl, by decide +kernel⟩,
    rfl, hv.2.2.1, hv.2.2.2⟩

/-- **C103, refuted.** The digest of a directory says nothing of what was excluded: after a call with an excluded directory the same call without the
exclusion skips the directory above it, and the files stay as they are. -/
theorem C103_digest_excluded_refuted : ∃ env env' c w s s2, env' = { env with excl := [] } ∧ c.recurse = true ∧ restorecon env c Ex.tree w = some s ∧
    s.error = false ∧ restorecon env' c Ex.tree s.w = some s2 ∧ s2.error = false ∧ Specified env' Ex.g (b "system_u:object_r:etc_t:s0") ∧
    s2.w.label Ex.g.key = none := by
  let env : Env := { Ex.env with specDigest := fun _ => some (b "digest") }
  let c : Call := { Ex.call with wantDigest := true }
  let w : World := { Ex.w with label := fun _ => none }
  have h : ((restorecon env c Ex.tree w).bind fun s => (restorecon { env with excl := [] } c Ex.tree s.w).map
      fun s2 => (s.error, s2.error, s2.w.label Ex.g.key)) = some (false, false, none) := by
    decide +kernel
  obtain ⟨s, hs, h⟩ := Option.bind_eq_some_iff.1 h
  obtain ⟨s2, hs2, hv⟩ := Option.map_eq_some_iff.1 h
  simp only [Prod.mk.injEq] at hv
  exact ⟨env, _, c, w, s, s2, rfl, rfl, hs, hv.1, hs2, hv.2.1, ⟨b "/d/x/g", by unfold Names; rfl, by decide +kernel⟩, hv.2.2⟩

/-- **C103, refuted.** A label without a type, which a file may have that was written without SELinux, is undefined behaviour. -/
theorem C103_bad_label_refuted : ∃ env c t w, c.recurse = true ∧ (∀ k x, w.label k = some x → x = b "u:r:") ∧ restorecon env c t w = none := by
  refine ⟨Ex.env, Ex.call, Ex.tree, { Ex.w with label := fun _ => some (b "u:r:") }, rfl, ?_, ?_⟩
  · rintro k x ⟨⟩; rfl
  · have h : (restorecon Ex.env Ex.call Ex.tree { Ex.w with label := fun _ => some (b "u:r:") }).isNone = true := by decide +kernel
    simpa using h

end Verif.Restore
