import Verif.Prelude
import Verif.Commit.Spec
/-!
# A Hoare logic with crash conditions, and the helpers
-/
namespace Verif.Commit
open Spec

/-! ## Directories -/

theorem get_put (d : Dir) (n m : Name) (c : Bytes) :
    (d.put n c).get m = if m = n then some c else d.get m := by
  unfold Dir.put Dir.get
  split
  · rename_i h
    induction d with
    | nil => simp at h
    | cons x d ih =>
      obtain ⟨a, b⟩ := x
      by_cases ha : a = n
      · subst ha
        by_cases hm : m = a
        · subst hm; simp [List.lookup]
        · simp only [List.map_cons, if_true, if_neg hm]
          rw [List.lookup_cons, List.lookup_cons]
          have : (m == a) = false := by simpa using hm
          simp only [this]
          by_cases h' : d.any (fun x => decide (x.1 = a)) = true
          · rw [ih h', if_neg hm]
          · congr 1
            conv => rhs; rw [← List.map_id d]
            apply List.map_congr_left
            intro y hy
            simp only [List.any_eq_true, not_exists, not_and, decide_eq_true_eq] at h'
            rw [if_neg (h' y hy)]; rfl
      · simp only [List.map_cons, if_neg ha]
        have h : d.any (fun x => decide (x.1 = n)) = true := by simpa [ha] using h
        rw [List.lookup_cons, List.lookup_cons, ih h]
        by_cases hm : m = a
        · subst hm; simp [ha]
        · have : (m == a) = false := by simpa using hm
          simp only [this]
  · rename_i h
    rw [List.lookup_append]
    by_cases hm : m = n
    · subst hm
      have : d.lookup m = none := by
        rw [List.lookup_eq_none_iff]
        intro p hp
        simp only [List.any_eq_true, not_exists, not_and, decide_eq_true_eq] at h
        have := h p hp
        simpa using fun h => this h.symm
      simp [this, List.lookup]
    · have : (m == n) = false := by simpa using hm
      simp [List.lookup, this, hm]

theorem get_del (d : Dir) (n m : Name) :
    (d.del n).get m = if m = n then none else d.get m := by
  unfold Dir.del Dir.get
  induction d with
  | nil => simp
  | cons x d ih =>
    obtain ⟨a, b⟩ := x
    by_cases ha : a = n
    · subst ha
      rw [List.filter_cons_of_neg (by simp), ih]
      by_cases hm : m = a
      · simp [hm]
      · have : (m == a) = false := by simpa using hm
        simp [hm, List.lookup_cons, this]
    · rw [List.filter_cons_of_pos (by simpa using ha), List.lookup_cons, List.lookup_cons, ih]
      by_cases hm : m = a
      · subst hm; simp [ha]
      · have : (m == a) = false := by simpa using hm
        simp only [this]

theorem set_same (f : FS) (l : Loc) (d : Option Dir) : f.set l d l = d := by simp [FS.set]

theorem set_other (f : FS) {l x : Loc} (d : Option Dir) (h : x ≠ l) : f.set l d x = f x := by
  simp [FS.set, h]

/-! ## The logic -/

/-- From every state with `P`, the program ends with its result and state in
`Q`, and all the states on the way are in `T`. -/
def Holds (e : Env) (P : FS → Prop) {α} (m : M α) (Q : α → FS → Prop) (T : FS → Prop) : Prop :=
  ∀ s : St, P s.fs → Q (m e s).1 (m e s).2.fs ∧
    ∃ new, (m e s).2.trace = new ++ s.trace ∧ ∀ f ∈ new, T f

section
variable {e : Env} {P : FS → Prop} {T : FS → Prop} {α β : Type}

theorem Holds.pure {a : α} {Q : α → FS → Prop} (h : ∀ f, P f → Q a f) :
    Holds e P (pure a : M α) Q T := by
  intro s hs; exact ⟨h _ hs, [], rfl, by simp⟩

theorem Holds.look {Q : FS → FS → Prop} (h : ∀ f, P f → Q f f) : Holds e P Commit.look Q T := by
  intro s hs; exact ⟨h _ hs, [], rfl, by simp⟩

theorem Holds.ask {Q : Env → FS → Prop} (h : ∀ f, P f → Q e f) : Holds e P Commit.ask Q T := by
  intro s hs; exact ⟨h _ hs, [], rfl, by simp⟩

theorem Holds.bind {m : M α} {k : α → M β} {Q : α → FS → Prop} {R : β → FS → Prop}
    (h1 : Holds e P m Q T) (h2 : ∀ a, Holds e (Q a) (k a) R T) : Holds e P (m >>= k) R T := by
  intro s hs
  obtain ⟨hq, n1, ht1, hT1⟩ := h1 s hs
  obtain ⟨hr, n2, ht2, hT2⟩ := h2 _ _ hq
  refine ⟨hr, n2 ++ n1, ?_, ?_⟩
  · show (k (m e s).1 e (m e s).2).2.trace = _
    rw [ht2, ht1, List.append_assoc]
  · intro f hf
    rcases List.mem_append.1 hf with h | h
    · exact hT2 f h
    · exact hT1 f h

theorem Holds.conseq {m : M α} {P' : FS → Prop} {Q Q' : α → FS → Prop} {T' : FS → Prop}
    (h : Holds e P' m Q' T') (hp : ∀ f, P f → P' f) (hq : ∀ a f, Q' a f → Q a f)
    (ht : ∀ f, T' f → T f) : Holds e P m Q T := by
  intro s hs
  obtain ⟨h1, n, h2, h3⟩ := h s (hp _ hs)
  exact ⟨hq _ _ h1, n, h2, fun f hf => ht f (h3 f hf)⟩

/-- Prove a triple from each single starting state. -/
theorem Holds.each {m : M α} {Q : α → FS → Prop}
    (h : ∀ g, P g → Holds e (· = g) m Q T) : Holds e P m Q T := by
  intro s hs; exact h s.fs hs s rfl

theorem Holds.vac {m : M α} {Q : α → FS → Prop} (hp : ∀ f, ¬ P f) : Holds e P m Q T := by
  intro s hs; exact absurd hs (hp _)

theorem Holds.sys {c : Call} {f : FS → FS} {Q : Sys → FS → Prop}
    (hok : ∀ g, P g → T (f g) ∧ Q .ok (f g))
    (hbad : ∀ g r, P g → r ≠ .ok → (∃ k, e.out c k = r) → Q r g) : Holds e P (sys c f) Q T := by
  intro s hs
  unfold Commit.sys
  split
  · exact ⟨(hok _ hs).2, [f s.fs], rfl, by simpa using (hok _ hs).1⟩
  · rename_i h
    refine ⟨hbad _ _ hs ?_ ⟨s.step, rfl⟩, [], rfl, by simp⟩
    intro h'; exact h h'

theorem Holds.sysFail {c : Call} {Q : Sys → FS → Prop}
    (h : ∀ g r, P g → (r = .exdev ∧ ∃ k, e.out c k = .exdev) ∨ r = .err → Q r g) :
    Holds e P (Commit.sysFail c) Q T := by
  intro s hs
  refine ⟨?_, [], rfl, by simp⟩
  show Q (if e.out c s.step = .exdev then .exdev else .err) s.fs
  by_cases hk : e.out c s.step = .exdev
  · rw [if_pos hk]; exact h _ _ hs (Or.inl ⟨rfl, _, hk⟩)
  · rw [if_neg hk]; exact h _ _ hs (Or.inr rfl)

theorem Holds.sysOk {c : Call} {f : FS → FS} {Q : Bool → FS → Prop}
    (hok : ∀ g, P g → T (f g) ∧ Q true (f g))
    (hbad : ∀ g, P g → (∃ k, e.out c k ≠ .ok) → Q false g) : Holds e P (sysOk c f) Q T := by
  unfold Commit.sysOk
  refine Holds.bind (Q := fun r g => (r = .ok ∧ Q true g) ∨ (r ≠ .ok ∧ Q false g))
    (Holds.sys (fun g hg => ⟨(hok g hg).1, Or.inl ⟨rfl, (hok g hg).2⟩⟩)
      (fun g r hg hr hk => Or.inr ⟨hr, hbad g hg (by obtain ⟨k, hk⟩ := hk; exact ⟨k, hk ▸ hr⟩)⟩)) ?_
  intro r
  refine Holds.pure ?_
  rintro f (⟨rfl, h⟩ | ⟨hr, h⟩)
  · exact h
  · have : (r == Sys.ok) = false := by simpa using hr
    rw [this]; exact h

/-- A call without an effect. -/
theorem Holds.idle {c : Call} {Q : Bool → FS → Prop} (hT : ∀ g, P g → T g)
    (hok : ∀ g, P g → Q true g) (hbad : ∀ g, P g → (∃ k, e.out c k ≠ .ok) → Q false g) :
    Holds e P (Commit.sysOk c id) Q T :=
  Holds.sysOk (fun g hg => ⟨hT g hg, hok g hg⟩) hbad

theorem Holds.ite {c : Prop} [Decidable c] {m1 m2 : M α} {Q : α → FS → Prop}
    (h1 : c → Holds e P m1 Q T) (h2 : ¬ c → Holds e P m2 Q T) :
    Holds e P (if c then m1 else m2) Q T := by
  split
  · exact h1 ‹_›
  · exact h2 ‹_›
end

/-! ## Frames -/

/-- Only the directory `l` differs. -/
def Frame (l : Loc) (g f : FS) : Prop := ∀ x, x ≠ l → f x = g x

theorem Frame.refl (l : Loc) (g : FS) : Frame l g g := fun _ _ => rfl

theorem Frame.set {l : Loc} {g f : FS} (h : Frame l g f) (d : Option Dir) : Frame l g (f.set l d) := by
  intro x hx; rw [set_other _ _ hx]; exact h x hx

theorem Frame.trans {l : Loc} {g f h : FS} (h1 : Frame l g f) (h2 : Frame l f h) : Frame l g h := by
  intro x hx; rw [h2 x hx, h1 x hx]

theorem putFile_frame (l : Loc) (n : Name) (c : Bytes) {g f : FS} (h : Frame l g f) :
    Frame l g (putFile l n c f) := h.set _

theorem removeAll_holds {e : Env} (l : Loc) (g : FS) (ns : List Name) :
    Holds e (Frame l g) (removeAll l ns) (fun r f => Frame l g f ∧ (r ≠ 0 → r < 0)) (Frame l g) := by
  induction ns with
  | nil => exact Holds.pure (fun f h => ⟨h, by simp⟩)
  | cons n ns ih =>
    unfold removeAll
    refine Holds.bind (Q := fun _ => Frame l g)
      (Holds.idle (fun _ h => h) (fun _ h => h) (fun _ h _ => h)) ?_
    intro a
    refine Holds.ite (fun _ => Holds.pure (fun f h => ⟨h, by decide⟩)) (fun _ => ?_)
    refine Holds.bind (Q := fun _ => Frame l g)
      (Holds.sysOk (fun f h => ⟨h.set _, h.set _⟩) (fun _ h _ => h)) ?_
    intro a
    exact Holds.ite (fun _ => Holds.pure (fun f h => ⟨h, by decide⟩)) (fun _ => ih)

/-- `semanage_remove_directory` touches only its directory, which is gone when
it succeeds. -/
theorem removeDir_holds {e : Env} (l : Loc) (g : FS) :
    Holds e (Frame l g) (removeDir l)
      (fun r f => Frame l g f ∧ (r = 0 → f l = none) ∧ (r ≠ 0 → r < 0)) (Frame l g) := by
  unfold removeDir
  refine Holds.bind (Q := fun _ => Frame l g) (Holds.look (fun _ h => h)) ?_
  intro f0
  split
  · exact Holds.pure (fun f h => ⟨h, by simp, by simp⟩)
  · refine Holds.bind (Q := fun _ => Frame l g)
      (Holds.idle (fun _ h => h) (fun _ h => h) (fun _ h _ => h)) ?_
    intro a
    refine Holds.ite (fun _ => Holds.pure (fun f h => ⟨h, by simp, by simp⟩)) (fun _ => ?_)
    refine Holds.bind (removeAll_holds l g _) ?_
    intro r
    refine Holds.ite (fun hr => Holds.pure (fun f h => ⟨h.1, fun h0 => absurd h0 hr, h.2⟩)) (fun _ => ?_)
    refine Holds.bind (Q := fun b f => Frame l g f ∧ (b = true → f l = none))
      (Holds.sysOk (fun f h => ⟨h.1.set _, h.1.set _, fun _ => set_same _ _ _⟩)
        (fun f h _ => ⟨h.1, by simp⟩)) ?_
    intro b
    exact Holds.ite (fun hb => Holds.pure (fun f h => ⟨h.1, fun _ => h.2 hb, by simp⟩))
      (fun _ => Holds.pure (fun f h => ⟨h.1, by simp, by simp⟩))

theorem removeDir_never {e : Env} (l : Loc) (g : FS) (h : (g l).isSome)
    (h1 : Never e .scandir) (h2 : Never e .stat) (h3 : Never e .unlink) (h4 : Never e .rmdir) :
    Holds e (· = g) (removeDir l) (fun r _ => r = 0) (fun _ => True) := by
  have hall : ∀ ns, Holds e (fun _ => True) (removeAll l ns) (fun r _ => r = 0) (fun _ => True) := by
    intro ns
    induction ns with
    | nil => exact Holds.pure (fun _ _ => rfl)
    | cons n ns ih =>
      unfold removeAll
      refine Holds.bind (Q := fun b _ => b = true)
        (Holds.idle (fun _ _ => trivial) (fun _ _ => rfl)
          (fun _ _ hk => by obtain ⟨k, hk⟩ := hk; exact absurd (h2 k) hk)) ?_
      intro a
      refine Holds.ite (fun ha => Holds.vac (fun _ hb => by simp [hb] at ha)) (fun _ => ?_)
      refine Holds.bind (Q := fun b _ => b = true)
        (Holds.sysOk (fun _ _ => ⟨trivial, rfl⟩)
          (fun _ _ hk => by obtain ⟨k, hk⟩ := hk; exact absurd (h3 k) hk)) ?_
      intro a
      refine Holds.ite (fun ha => Holds.vac (fun _ hb => by simp [hb] at ha)) (fun _ => ?_)
      exact ih.conseq (fun _ _ => trivial) (fun _ _ h => h) (fun _ h => h)
  unfold removeDir
  refine Holds.bind (Q := fun f0 _ => f0 = g) (Holds.look (fun _ h => h)) ?_
  intro f0
  refine Holds.each ?_
  rintro f rfl
  split
  · rename_i hn; rw [hn] at h; exact absurd h (by simp)
  · refine Holds.bind (Q := fun b _ => b = true)
      (Holds.idle (fun _ _ => trivial) (fun _ _ => rfl)
        (fun _ _ hk => by obtain ⟨k, hk⟩ := hk; exact absurd (h1 k) hk)) ?_
    intro a
    refine Holds.ite (fun ha => Holds.vac (fun _ hb => by simp [hb] at ha)) (fun _ => ?_)
    refine Holds.bind ((hall _).conseq (fun _ _ => trivial) (fun _ _ h => h) (fun _ h => h)) ?_
    intro r
    refine Holds.ite (fun hr => Holds.vac (fun _ hb => hr hb)) (fun _ => ?_)
    refine Holds.bind (Q := fun b _ => b = true)
      (Holds.sysOk (fun _ _ => ⟨trivial, rfl⟩)
        (fun _ _ hk => by obtain ⟨k, hk⟩ := hk; exact absurd (h4 k) hk)) ?_
    intro b
    exact Holds.ite (fun _ => Holds.pure (fun _ _ => rfl))
      (fun hb => Holds.vac (fun _ h => hb h))

/-! ## Renaming -/

/-- The file system after `rename(src, dst)`. -/
def moved (src dst : Loc) (g : FS) : FS := (g.set dst (g src)).set src none

theorem renameDir_holds {e : Env} (src dst : Loc) (g : FS) (hx : NoExdev e) :
    Holds e (· = g) (renameDir src dst)
      (fun r f => (r = .ok ∧ f = moved src dst g ∧ (g src).isSome) ∨
        (r = .err ∧ f = g ∧ ((∃ k, e.out .rename k ≠ .ok) ∨ (g src).isNone ∨ ∃ d, g dst = some d ∧ d ≠ [])))
      (fun f => f = moved src dst g) := by
  unfold renameDir
  refine Holds.bind (Q := fun f0 f => f0 = g ∧ f = g) (Holds.look (fun _ h => ⟨h, h⟩)) ?_
  intro f0
  refine Holds.ite (fun hc => Holds.sysFail ?_) (fun hc => Holds.sys ?_ ?_)
  · rintro f r ⟨rfl, rfl⟩ hr
    have hr : r = .err := hr.resolve_left (fun h => hx _ h.2.choose_spec)
    refine Or.inr ⟨hr, rfl, Or.inr ?_⟩
    simp only [Bool.or_eq_true, Option.any_eq_true, Bool.not_eq_true', List.isEmpty_eq_false_iff] at hc
    rcases hc with h | ⟨d, h, h'⟩
    · exact Or.inl h
    · exact Or.inr ⟨d, h, h'⟩
  · rintro f ⟨rfl, rfl⟩
    refine ⟨rfl, Or.inl ⟨rfl, rfl, ?_⟩⟩
    simp only [Bool.or_eq_true, not_or] at hc
    have := hc.1
    cases h : f src with
    | none => simp [h] at this
    | some d => rfl
  · rintro f r ⟨rfl, rfl⟩ hr ⟨k, hk⟩
    cases r with
    | ok => exact absurd rfl hr
    | exdev => exact absurd hk (hx k)
    | err => exact Or.inr ⟨rfl, rfl, Or.inl ⟨k, by rw [hk]; decide⟩⟩

theorem semRename_holds {e : Env} (src dst : Loc) (g : FS) (hx : NoExdev e) :
    Holds e (· = g) (semRename src dst)
      (fun r f => (r = 0 ∧ f = moved src dst g ∧ (g src).isSome) ∨
        (r = -1 ∧ f = g ∧ ((∃ k, e.out .rename k ≠ .ok) ∨ (g src).isNone ∨ ∃ d, g dst = some d ∧ d ≠ [])))
      (fun f => f = moved src dst g) := by
  unfold semRename
  refine Holds.bind (renameDir_holds src dst g hx) ?_
  intro r
  cases r with
  | ok =>
    refine Holds.pure ?_
    rintro f (⟨_, h⟩ | ⟨h, _⟩)
    · exact Or.inl ⟨rfl, h⟩
    · exact absurd h (by decide)
  | err =>
    refine Holds.pure ?_
    rintro f (⟨h, _⟩ | ⟨_, h⟩)
    · exact absurd h (by decide)
    · exact Or.inr ⟨rfl, h⟩
  | exdev =>
    refine Holds.vac ?_
    rintro f (⟨h, _⟩ | ⟨h, _⟩) <;> exact absurd h (by decide)

/-! ## Copying a file -/

/-- Only the directory `l` differs, and in it only the file `t`. -/
def Only (l : Loc) (t : Name) (g f : FS) : Prop :=
  Frame l g f ∧ (f l).isSome = (g l).isSome ∧
    ∀ m, m ≠ t → (f l).bind (·.get m) = (g l).bind (·.get m)

theorem Only.refl (l : Loc) (t : Name) (g : FS) : Only l t g g := ⟨Frame.refl _ _, rfl, fun _ _ => rfl⟩

theorem Only.put {l : Loc} {t : Name} {g f : FS} (h : Only l t g f) (c : Bytes) :
    Only l t g (putFile l t c f) := by
  refine ⟨h.1.set _, ?_, ?_⟩
  · unfold putFile; rw [set_same, Option.isSome_map]; exact h.2.1
  · intro m hm
    unfold putFile
    rw [set_same, ← h.2.2 m hm]
    cases f l with
    | none => rfl
    | some d => simp [get_put, hm]

theorem putFile_get {l : Loc} {t : Name} {f : FS} (c : Bytes) (h : (f l).isSome) :
    (putFile l t c f l).bind (·.get t) = some c := by
  unfold putFile
  rw [set_same]
  cases hf : f l with
  | none => rw [hf] at h; exact absurd h (by simp)
  | some d => simp [get_put]

theorem copyLoop_holds {e : Env} (l : Loc) (t : Name) (g : FS) (hg : (g l).isSome) (done rest : Bytes) :
    Holds e (fun f => Only l t g f ∧ (f l).bind (·.get t) = some done) (copyLoop l t done rest)
      (fun b f => Only l t g f ∧ (b = true → (f l).bind (·.get t) = some (done ++ rest))) (Only l t g) := by
  induction h : rest.length using Nat.strongRecOn generalizing done rest with
  | _ k ih =>
    rw [copyLoop.eq_def]
    refine Holds.bind (Q := fun _ f => Only l t g f ∧ (f l).bind (·.get t) = some done)
      (Holds.idle (fun _ h => h.1) (fun _ h => h) (fun _ h _ => h)) ?_
    intro a
    refine Holds.ite (fun _ => Holds.pure (fun f h => ⟨h.1, by simp⟩)) (fun _ => ?_)
    cases rest with
    | nil => exact Holds.pure (fun f h => ⟨h.1, fun _ => by rw [h.2, List.append_nil]⟩)
    | cons b bs =>
      simp only
      refine Holds.bind (Q := fun r f => Only l t g f ∧
          (r = true → (f l).bind (·.get t) = some (done ++ (b :: bs).take 4192)))
        (Holds.sysOk (fun f h => ⟨h.1.put _, h.1.put _, fun _ => putFile_get _ (by rw [h.1.2.1]; exact hg)⟩)
          (fun f h _ => ⟨h.1, by simp⟩)) ?_
      intro r
      refine Holds.ite (fun _ => Holds.pure (fun f h => ⟨h.1, by simp⟩)) (fun hr => ?_)
      have hr : r = true := by simpa using hr
      have := ih ((b :: bs).drop 4192).length (by subst h; simp; omega)
        (done ++ (b :: bs).take 4192) ((b :: bs).drop 4192) rfl
      rw [List.append_assoc, List.take_append_drop] at this
      exact this.conseq (fun f h => ⟨h.1, h.2 hr⟩) (fun _ _ h => h) (fun _ h => h)

/-- The effect of a completed copy of `n` with content `c` on directory `l`:
besides `n` only its temporary file may differ. -/
def Put (l : Loc) (n : Name) (c : Bytes) (g f : FS) : Prop :=
  Frame l g f ∧ (f l).bind (·.get n) = some c ∧
    ∀ m, m ≠ n → m ≠ n.tmp → (f l).bind (·.get m) = (g l).bind (·.get m)

theorem tmp_ne (n : Name) : n.tmp ≠ n := by
  intro h
  have := congrArg Name.tmps h
  simp [Name.tmp] at this

theorem moveFile_put {l : Loc} {n : Name} {c : Bytes} {g f : FS} (h : Only l n.tmp g f)
    (hc : (f l).bind (·.get n.tmp) = some c) : Put l n c g (moveFile l n f) := by
  unfold moveFile
  rw [hc]
  simp only
  cases hf : f l with
  | none => rw [hf] at hc; exact absurd hc (by simp)
  | some d =>
    refine ⟨h.1.set _, ?_, ?_⟩
    · rw [set_same]; simp [get_put]
    · intro m h1 h2
      have := h.2.2 m h2
      rw [hf] at this
      rw [set_same, ← this]
      simp [get_put, get_del, h1, h2]

/-- `semanage_copy_file`: until it succeeds only the temporary file differs. -/
theorem copyFile_holds {e : Env} (src dst : Loc) (n : Name) (sync : Bool) (g : FS) :
    Holds e (· = g) (copyFile src dst n sync)
      (fun b f => if b then ∃ c, (g src).bind (·.get n) = some c ∧ Put dst n c g f
        else Only dst n.tmp g f)
      (fun f => Only dst n.tmp g f ∨ ∃ c, (g src).bind (·.get n) = some c ∧ Put dst n c g f) := by
  unfold copyFile
  refine Holds.bind (Q := fun f0 f => f0 = g ∧ f = g) (Holds.look (fun _ h => ⟨h, h⟩)) ?_
  intro f0
  refine Holds.each ?_
  rintro g ⟨rfl, rfl⟩
  split
  · exact Holds.pure (by rintro f rfl; exact Only.refl _ _ _)
  · rename_i c hc
    refine Holds.bind (Q := fun _ f => f = g)
      (Holds.idle (fun f h => h ▸ Or.inl (Only.refl _ _ _)) (fun _ h => h) (fun _ h _ => h)) ?_
    intro a
    refine Holds.ite (fun _ => Holds.pure (by rintro f rfl; exact Only.refl _ _ _)) (fun _ => ?_)
    refine Holds.ite (fun _ => Holds.pure (by rintro f rfl; exact Only.refl _ _ _)) (fun hd => ?_)
    have hd : (g dst).isSome = true := by
      cases h : g dst with
      | none => simp [h] at hd
      | some d => rfl
    refine Holds.bind (Q := fun b f => Only dst n.tmp g f ∧
        (b = true → (f dst).bind (·.get n.tmp) = some []))
      (Holds.sysOk ?_ ?_) ?_
    · rintro f rfl
      exact ⟨Or.inl ((Only.refl _ _ _).put _), (Only.refl _ _ _).put _, fun _ => putFile_get _ hd⟩
    · rintro f rfl _
      exact ⟨Only.refl _ _ _, by simp⟩
    intro a
    refine Holds.ite (fun _ => Holds.pure (fun f h => h.1)) (fun ha => ?_)
    have ha : a = true := by simpa using ha
    refine Holds.bind ((copyLoop_holds dst n.tmp g hd [] c).conseq (fun f h => ⟨h.1, h.2 ha⟩)
      (fun _ _ h => h) (fun f h => Or.inl h)) ?_
    intro ok
    simp only [List.nil_append]
    have tail : ∀ s : Bool, Holds e (fun f => Only dst n.tmp g f ∧
        (ok = true → (f dst).bind (·.get n.tmp) = some c))
        (do
          let k ← sysOk Call.close id
          if (ok && s && k) = true then sysOk Call.renameFile (moveFile dst n) else pure false)
        (fun b f => if b then ∃ c, (g src).bind (·.get n) = some c ∧ Put dst n c g f
          else Only dst n.tmp g f)
        (fun f => Only dst n.tmp g f ∨ ∃ c, (g src).bind (·.get n) = some c ∧ Put dst n c g f) := by
      intro s
      refine Holds.bind (Q := fun _ f => Only dst n.tmp g f ∧
          (ok = true → (f dst).bind (·.get n.tmp) = some c))
        (Holds.idle (fun f h => Or.inl h.1) (fun _ h => h) (fun _ h _ => h)) ?_
      intro k
      refine Holds.ite (fun hall => Holds.sysOk ?_ ?_) (fun _ => Holds.pure (fun f h => h.1))
      · intro f h
        have hok : ok = true := by
          cases ok <;> simp at hall ⊢
        have hp := moveFile_put h.1 (h.2 hok)
        exact ⟨Or.inr ⟨c, hc, hp⟩, ⟨c, hc, hp⟩⟩
      · intro f h _
        exact h.1
    refine Holds.ite (fun _ => ?_) (fun _ => tail true)
    exact Holds.bind (Q := fun _ f => Only dst n.tmp g f ∧
        (ok = true → (f dst).bind (·.get n.tmp) = some c))
      (Holds.idle (fun f h => Or.inl h.1) (fun _ h => h) (fun _ h _ => h)) tail

/-! ## Installing the files -/

/-- While the files are installed: only the directory of installed files
changes; each file is as before or new. `ns` are the files still to come. -/
def Inst (e : Env) (g f : FS) : Prop := Frame .inst g f ∧ FilesWhole e g f

/-- All the files of `ns` are new. -/
def Done (e : Env) (g : FS) (ns : List Name) (f : FS) : Prop :=
  ∀ n, n ∈ ns → ∀ c, Installs e g n c → installed f n = some c

theorem Inst.refl (e : Env) (g : FS) : Inst e g g := ⟨Frame.refl _ _, fun _ _ => Or.inl rfl⟩

theorem inst_only {e : Env} {g f f' : FS} {t : Name} (ht : t.tmps ≠ 0) (h : Inst e g f)
    (ho : Only .inst t f f') : Inst e g f' := by
  refine ⟨h.1.trans ho.1, ?_⟩
  intro n hn
  have : installed f' n = installed f n := ho.2.2 n (by rintro rfl; exact ht hn)
  rw [this]
  exact h.2 n hn

theorem inst_put {e : Env} {g f f' : FS} {n : Name} {c : Bytes} (h : Inst e g f)
    (hi : Installs e g n c) (hp : Put .inst n c f f') : Inst e g f' := by
  refine ⟨h.1.trans hp.1, ?_⟩
  intro m hm
  by_cases hmn : m = n
  · subst hmn; exact Or.inr ⟨c, hi, hp.2.1⟩
  · have : installed f' m = installed f m := by
      refine hp.2.2 m hmn ?_
      rintro rfl; simp [Name.tmp] at hm
    rw [this]; exact h.2 m hm

theorem mkpath_eq (f : FS) (n : Name) :
    installed (if (f .inst).isNone then f.set .inst (some []) else f) n = installed f n := by
  split
  · rename_i h
    unfold installed
    rw [set_same]
    cases hf : f .inst with
    | none => rfl
    | some d => rw [hf] at h; exact absurd h (by simp)
  · rfl

theorem inst_mkpath {e : Env} {g f : FS} (h : Inst e g f) :
    Inst e g (if (f .inst).isNone then f.set .inst (some []) else f) := by
  refine ⟨?_, ?_⟩
  · split
    · exact h.1.set _
    · exact h.1
  · intro n hn; rw [mkpath_eq]; exact h.2 n hn

theorem installAll_holds {e : Env} (hpl : PlainFinals e) (g : FS) (dn ns : List Name)
    (hsub : ∀ n ∈ dn ++ ns, n ∈ e.finals) :
    Holds e (fun f => Inst e g f ∧ Done e g dn f) (installAll ns)
      (fun b f => Inst e g f ∧ (b = true → Done e g (dn ++ ns) f)) (Inst e g) := by
  induction ns generalizing dn with
  | nil => exact Holds.pure (fun f h => ⟨h.1, fun _ => by simpa using h.2⟩)
  | cons n ns ih =>
    have hskip : ∀ {P : FS → Prop}, (∀ f, P f → Inst e g f ∧ Done e g dn f) →
        (∀ c, ¬ Installs e g n c) →
        Holds e P (installAll ns) (fun b f => Inst e g f ∧ (b = true → Done e g (dn ++ n :: ns) f))
          (Inst e g) := by
      intro P hP hno
      have := ih (dn ++ [n]) (by simpa using hsub)
      refine this.conseq ?_ ?_ (fun _ h => h)
      · intro f hf
        refine ⟨(hP f hf).1, ?_⟩
        intro m hm c hc
        rcases List.mem_append.1 hm with h | h
        · exact (hP f hf).2 m h c hc
        · simp only [List.mem_singleton] at h; subst h; exact absurd hc (hno c)
      · intro b f h
        simpa using h
    unfold installAll
    refine Holds.bind (Q := fun a f => a = e ∧ Inst e g f ∧ Done e g dn f)
      (Holds.ask (fun _ h => ⟨rfl, h⟩)) ?_
    intro a
    refine Holds.bind (Q := fun f0 f => f0 = f ∧ a = e ∧ Inst e g f ∧ Done e g dn f)
      (Holds.look (fun _ h => ⟨rfl, h⟩)) ?_
    intro f0
    refine Holds.each ?_
    rintro f ⟨rfl, rfl, hi, hd⟩
    have hft : f0 .ftmp = g .ftmp := hi.1 _ (by decide)
    rw [hft]
    refine Holds.ite (fun hn => hskip (by rintro f rfl; exact ⟨hi, hd⟩) ?_) (fun hn => ?_)
    · rintro c ⟨_, hc, _⟩
      rw [hc] at hn; exact absurd hn (by simp)
    refine Holds.ite (fun hh => hskip (by rintro f rfl; exact ⟨hi, hd⟩) ?_) (fun hh => ?_)
    · rintro c ⟨_, _, hc⟩
      simp only [Bool.and_eq_true, beq_iff_eq] at hh
      exact hc hh
    have hin : ∃ c, Installs a g n c := by
      cases hc : (g .ftmp).bind (·.get n) with
      | none => rw [hc] at hn; exact absurd rfl hn
      | some c =>
        refine ⟨c, hsub n (by simp), hc, ?_⟩
        simpa [Bool.and_eq_true, beq_iff_eq] using hh
    refine Holds.bind (Q := fun _ f => Inst a g f ∧ Done a g dn f)
      (Holds.sysOk ?_ ?_) ?_
    · rintro f rfl
      exact ⟨inst_mkpath hi, inst_mkpath hi, fun m hm c hc => by rw [mkpath_eq]; exact hd m hm c hc⟩
    · rintro f rfl _; exact ⟨hi, hd⟩
    intro b
    refine Holds.ite (fun _ => Holds.pure (fun f h => ⟨h.1, by simp⟩)) (fun _ => ?_)
    refine Holds.each ?_
    rintro f ⟨hi, hd⟩
    have hft : f .ftmp = g .ftmp := hi.1 _ (by decide)
    have hput : ∀ c f', (f .ftmp).bind (·.get n) = some c → Put .inst n c f f' →
        Inst a g f' ∧ Done a g (dn ++ [n]) f' := by
      intro c f' hc hp
      rw [hft] at hc
      obtain ⟨c', hc'⟩ := hin
      have : c' = c := by have := hc'.2.1; rw [hc] at this; simpa using this.symm
      subst this
      refine ⟨inst_put hi hc' hp, ?_⟩
      intro m hm k hk
      by_cases hmn : m = n
      · subst hmn
        have : k = c' := by have := hk.2.1; rw [hc] at this; simpa using this.symm
        subst this
        exact hp.2.1
      · rcases List.mem_append.1 hm with h | h
        · have : installed f' m = installed f m := by
            refine hp.2.2 m hmn ?_
            rintro rfl
            have := hpl _ hk.1
            simp [Name.tmp] at this
          rw [this]; exact hd m h k hk
        · simp only [List.mem_singleton] at h; exact absurd h hmn
    refine Holds.bind ((copyFile_holds .ftmp .inst n true f).conseq (fun _ h => h)
      (Q := fun b f => Inst a g f ∧ (b = true → Done a g (dn ++ [n]) f)) ?_ ?_) ?_
    · intro b f' h
      cases b with
      | true =>
        simp only [if_true] at h
        obtain ⟨c, hc, hp⟩ := h
        exact ⟨(hput c f' hc hp).1, fun _ => (hput c f' hc hp).2⟩
      | false => exact ⟨inst_only (by simp [Name.tmp]) hi h, by simp⟩
    · rintro f' (h | ⟨c, hc, hp⟩)
      · exact inst_only (by simp [Name.tmp]) hi h
      · exact (hput c f' hc hp).1
    intro b
    refine Holds.ite (fun _ => Holds.pure (fun f h => ⟨h.1, by simp⟩)) (fun hb => ?_)
    have hb : b = true := by simpa using hb
    refine (ih (dn ++ [n]) (by simpa using hsub)).conseq (fun f h => ⟨h.1, h.2 hb⟩) ?_ (fun _ h => h)
    intro b f h
    simpa using h

/-- The outcome of the installation. -/
theorem installFinal_holds {e : Env} (hpl : PlainFinals e) (g : FS) :
    Holds e (Inst e g) installFinal
      (fun b f => Inst e g f ∧ (b = true → Done e g e.finals f)) (Inst e g) := by
  unfold installFinal
  refine Holds.bind (Q := fun a f => a = e ∧ Inst e g f) (Holds.ask (fun _ h => ⟨rfl, h⟩)) ?_
  intro a
  refine Holds.each ?_
  rintro f0 ⟨rfl, hi⟩
  refine Holds.bind ((installAll_holds hpl g [] a.finals (by simp)).conseq
    (by rintro f rfl; exact ⟨hi, by intro n hn; exact absurd hn (by simp)⟩) (fun _ _ h => h) (fun _ h => h)) ?_
  intro b
  simp only [List.nil_append]
  refine Holds.ite (fun _ => Holds.pure (fun f h => ⟨h.1, by simp⟩)) (fun hb => ?_)
  have hb : b = true := by simpa using hb
  refine Holds.ite (fun _ => Holds.pure (fun f h => ⟨h.1, fun _ => h.2 hb⟩)) (fun _ => ?_)
  exact Holds.idle (fun f h => h.1) (fun f h => ⟨h.1, fun _ => h.2 hb⟩) (fun f h _ => ⟨h.1, by simp⟩)

theorem filesNew_of_done {e : Env} {g f : FS} (h : Inst e g f) (hd : Done e g e.finals f) :
    FilesNew e g f := by
  intro n hn
  refine ⟨fun c hc => hd n hc.1 c hc, fun hno => ?_⟩
  rcases h.2 n hn with h | ⟨c, hc, _⟩
  · exact h
  · exact absurd hc (hno c)

end Verif.Commit
