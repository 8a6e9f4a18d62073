import Verif.Client.Lemmas
import Verif.Context.Props

/-!
# C106, C107: the caches of a process do not show

`ops` is any history of calls, threads, processes, programs and changes of the daemon, from freshly started programs.
-/

namespace Verif.Client
open Verif.Context (b)

section
variable {k : Kernel} {w0 : World} {ops : List Op} {t : Nat} {th : Thread}

theorem inv_of (hf : Fresh w0) : Inv (daemons w0 ops) (sockets w0 ops) (run k w0 ops) := run_inv ops w0 (hf.inv ops) (envIn_of w0 ops)

theorem good_of (hf : Fresh w0) (hs : ∀ o ∈ ops, Steady k (daemons w0 ops) o) : Good (run k w0 ops) :=
  run_good ops w0 (hf.inv ops) (envIn_of w0 ops) hf.good hs

theorem getAttr_good (hg : GoodT th) (a : Attr) (io : Bool) : getAttr th a io = some (th.kern a) ∨ (io = false ∧ getAttr th a io = none) := by
  unfold getAttr cacheOf
  split
  · rename_i s h
    split at h
    · cases h
    · exact .inl (by rw [hg a (some s) h])
  · cases io
    · exact .inr ⟨rfl, rfl⟩
    · exact .inl rfl

/-- **C106**: `get*con_raw` gives what the kernel holds for the thread; it fails only if the file cannot be read. -/
theorem C106_get_partial (hf : Fresh w0) (hs : ∀ o ∈ ops, Steady k (daemons w0 ops) o) (ht : (run k w0 ops).thr t = some th)
    (a : Attr) (io : Bool) :
    (step k (run k w0 ops) (.getRaw t a io)).1 = run k w0 ops ∧
    ((step k (run k w0 ops) (.getRaw t a io)).2 = .val (th.kern a) ∨
      (io = false ∧ (step k (run k w0 ops) (.getRaw t a io)).2 = .fail)) := by
  simp only [step, ht]
  refine ⟨trivial, ?_⟩
  rcases getAttr_good (good_of hf hs t th ht) a io with e | ⟨h, e⟩
  · rw [e]; exact .inl rfl
  · rw [e]; exact .inr ⟨h, rfl⟩

/-- **C106**: `get*con` gives a translation of it, `NULL` for `NULL`. -/
theorem C106_get_translated_partial (hf : Fresh w0) (hs : ∀ o ∈ ops, Steady k (daemons w0 ops) o)
    (ht : (run k w0 ops).thr t = some th) (a : Attr) (io : Bool) :
    (∀ u, held (step k (run k w0 ops) (.get t a io)).1 u = held (run k w0 ops) u) ∧
    ((io = false ∧ (step k (run k w0 ops) (.get t a io)).2 = .fail) ∨
      (th.kern a = none ∧ (step k (run k w0 ops) (.get t a io)).2 = .val none) ∨
      ∃ s x, th.kern a = some s ∧ (step k (run k w0 ops) (.get t a io)).2 = .val (some x) ∧
        Answer (daemons w0 ops) (sockets w0 ops) .toTrans s x) := by
  simp only [step, ht]
  rcases getAttr_good (good_of hf hs t th ht) a io with e | ⟨h, e⟩
  · rw [e]
    have hi := trans_spec (r := .toTrans) (v := th.kern a) (inv_of (k := k) (ops := ops) hf) ht
    refine ⟨held_map hi.2.1, .inr ?_⟩
    cases e2 : th.kern a with
    | none => exact .inl ⟨rfl, rfl⟩
    | some s =>
      rw [e2] at hi
      rcases hi.2.2 with ⟨h, _⟩ | ⟨x, h1, h2⟩
      · cases h
      · exact .inr ⟨s, x, rfl, h1, h2⟩
  · rw [e]; exact ⟨fun _ => rfl, .inl ⟨h, rfl⟩⟩

/-- What a call that sets the attribute `a` of `t` to `v` does, from `w` to `w'` with the result `r`. -/
def SetTo (k : Kernel) (w w' : World) (t : Nat) (th : Thread) (a : Attr) (v : Option Bytes) (io : Bool) (r : Res) : Prop :=
  (∀ u, u ≠ t → held w' u = held w u) ∧
  ((r = .ok ∧ ∃ f, held w' t = some f ∧ f a = v ∧ ∀ x, x ≠ a → f x = th.kern x) ∨
    (r = .fail ∧ held w' t = some th.kern ∧ (io = false ∨ k.put a v = none)))

theorem setTo_of {w : World} {t th a v io} (hg : GoodT th) (hx : Exact k a v) :
    SetTo k w (w.put t (setAttr k th a v io).1) t th a v io (if (setAttr k th a v io).2 then .ok else .fail) := by
  obtain ⟨-, -, h3, h4, h5⟩ := setAttr_good (io := io) hg hx
  refine ⟨fun u hu => by simp [held, World.put, hu], ?_⟩
  cases e : (setAttr k th a v io).2 with
  | true => exact .inl ⟨rfl, _, by simp [held, World.put], h4 e, h3⟩
  | false => exact .inr ⟨rfl, by simp [held, World.put, (h5 e).1], (h5 e).2⟩

/-- **C106**: after `set*con_raw` succeeds the kernel holds what was given, although the call may have written nothing; it fails only if the file
cannot be written or the kernel refuses, and then nothing is changed.  Other attributes and threads are as before. -/
theorem C106_set_partial (hf : Fresh w0) (hs : ∀ o ∈ ops, Steady k (daemons w0 ops) o) (ht : (run k w0 ops).thr t = some th)
    {a : Attr} (ha : a ≠ .prev) {v : Option Bytes} (hv : Exact k a v) (io : Bool) :
    SetTo k (run k w0 ops) (step k (run k w0 ops) (.setRaw t a v io)).1 t th a v io (step k (run k w0 ops) (.setRaw t a v io)).2 := by
  simp only [step, ht, if_neg ha]
  exact setTo_of (good_of hf hs t th ht) hv

/-- **C106**: the same for `set*con` with what the context is translated to. -/
theorem C106_set_translated_partial (hf : Fresh w0) (hs : ∀ o ∈ ops, Steady k (daemons w0 ops) o)
    (ht : (run k w0 ops).thr t = some th) {a : Attr} (ha : a ≠ .prev) {v : Option Bytes} (io : Bool)
    (hv : Steady k (daemons w0 ops) (.set t a v io)) :
    ∃ c, (match v with | none => c = none | some s => ∃ x, c = some x ∧ Answer (daemons w0 ops) (sockets w0 ops) .toRaw s x) ∧
      SetTo k (run k w0 ops) (step k (run k w0 ops) (.set t a v io)).1 t th a c io (step k (run k w0 ops) (.set t a v io)).2 := by
  have hi := trans_spec (r := .toRaw) (v := v) (inv_of (k := k) (ops := ops) hf) ht
  have hg := (good_of hf hs).map hi.2.1
  have hheld := held_map hi.2.1
  simp only [step, ht, if_neg ha]
  generalize run k w0 ops = w at *
  have key : ∀ c w1, w.trans t th .toRaw v = (w1, .val c) → Exact k a c →
      SetTo k w (match w1.thr t with
        | none => (w1, Res.none)
        | some th1 => (w1.put t (setAttr k th1 a c io).1, if (setAttr k th1 a c io).2 then .ok else .fail)).1 t th a c io
        (match w1.thr t with
        | none => (w1, Res.none)
        | some th1 => (w1.put t (setAttr k th1 a c io).1, if (setAttr k th1 a c io).2 then .ok else .fail)).2 := by
    intro c w1 e hx
    rw [e] at hg hheld hi
    simp only at hg hheld hi
    obtain ⟨f, hf⟩ := hi.2.1 t
    rw [ht] at hf
    simp only [Option.map_some] at hf
    rw [hf]
    simp only
    obtain ⟨h1, h2⟩ := setTo_of (k := k) (w := w1) (t := t) (io := io) (hg t _ hf) hx
    exact ⟨fun u hu => (h1 u hu).trans (hheld u), h2⟩
  cases v with
  | none => exact ⟨none, rfl, key none w rfl hv.1⟩
  | some s =>
    rcases hi.2.2 with ⟨h, _⟩ | ⟨x, h1, h2⟩
    · cases h
    · refine ⟨some x, ⟨x, rfl, h2⟩, ?_⟩
      have e : w.trans t th .toRaw (some s) = ((w.trans t th .toRaw (some s)).1, .val (some x)) := Prod.ext rfl h1
      have := key (some x) _ e (set_exact hv rfl h2)
      rw [e]
      exact this

/-- **C107**: every translation a program is given is one that a daemon there was gave for this string, or else the string itself. -/
theorem C107_answer (hf : Fresh w0) (ht : (run k w0 ops).thr t = some th) (r : Req) (s : Bytes) :
    (∃ x, (step k (run k w0 ops) (.trans t r (some s))).2 = .val (some x) ∧ Answer (daemons w0 ops) (sockets w0 ops) r s x) ∨
    (r = .toColor ∧ (step k (run k w0 ops) (.trans t r (some s))).2 = .fail ∧ (run k w0 ops).daemon r s = none) := by
  have hi := trans_spec (r := r) (v := some s) (inv_of (k := k) (ops := ops) hf) ht
  simp only [step, ht]
  rcases hi.2.2 with h | h
  · exact .inr h
  · exact .inl h

/-- What a program expects of a translation: the answer of the daemon, else the string as it is, for colours a failure. -/
def expected (d : Daemon) (r : Req) (s : Bytes) : Res :=
  match d r s with
  | some x => .val (some x)
  | none => if r = .toColor then .fail else .val (some s)

theorem run_daemon_mem (hf : Fresh w0) : (run k w0 ops).daemon ∈ daemons w0 ops := (inv_of (k := k) (ops := ops) hf).dm

theorem daemons_const (hn : ∀ o ∈ ops, ∀ d b, o ≠ .env d b) : daemons w0 ops = [w0.daemon] ∧ sockets w0 ops = [w0.socket] := by
  have h1 : ops.filterMap daemonOf = [] := by
    rw [List.filterMap_eq_nil_iff]
    intro o ho
    cases o with
    | env d s => exact absurd rfl (hn _ ho d s)
    | _ => rfl
  have h2 : ops.filterMap socketOf = [] := by
    rw [List.filterMap_eq_nil_iff]
    intro o ho
    cases o with
    | env d s => exact absurd rfl (hn _ ho d s)
    | _ => rfl
  exact ⟨by rw [daemons, h1], by rw [sockets, h2]⟩

/-- **C107**: as long as the daemon is the same, what was kept does not show: each request gives what the daemon says. -/
theorem C107_constant_partial (hf : Fresh w0) (hn : ∀ o ∈ ops, ∀ d b, o ≠ .env d b) (hk : w0.socket = true)
    (ht : (run k w0 ops).thr t = some th) (r : Req) (s : Bytes) :
    (step k (run k w0 ops) (.trans t r (some s))).2 = expected w0.daemon r s := by
  have hd := run_daemon_mem (k := k) (ops := ops) hf
  have h := C107_answer hf ht r s
  rw [(daemons_const hn).1] at h hd
  rw [(daemons_const hn).2, hk] at h
  rw [List.mem_singleton] at hd
  rw [hd] at h
  rcases h with ⟨x, e, h⟩ | ⟨hr, e, h⟩
  · rw [e]
    rcases h with ⟨d, hd, h⟩ | ⟨hx, h | ⟨hr, d, hd, h⟩⟩
    · rw [List.mem_singleton] at hd; subst hd; simp [expected, h]
    · simp at h
    · rw [List.mem_singleton] at hd; subst hd; simp [expected, h, hr, hx]
  · subst hr; rw [e]; simp [expected, h]

theorem C107_no_daemon (hf : Fresh w0) (hn : ∀ o ∈ ops, ∀ d b, o ≠ .env d b) (hk : w0.socket = false) (hno : ∀ r s, w0.daemon r s = none)
    (ht : (run k w0 ops).thr t = some th) {r : Req} (hr : r ≠ .toColor) (s : Bytes) :
    (step k (run k w0 ops) (.trans t r (some s))).2 = .val (some s) := by
  have h := C107_answer hf ht r s
  rw [(daemons_const hn).1, (daemons_const hn).2, hk] at h
  rcases h with ⟨x, e, h⟩ | ⟨h, _⟩
  · rw [e]
    rcases h with ⟨d, hd, h⟩ | ⟨hx, _⟩
    · rw [List.mem_singleton] at hd; subst hd; rw [hno] at h; cases h
    · rw [hx]
  · exact absurd h hr

/-- **C107**: only the last string of each kind is kept: after another one the daemon is asked anew, in a process that found the socket. -/
theorem C107_current {w : World} (ht : w.thr t = some th) (hh : w.once th.pid = some true ∨ (w.once th.pid = none ∧ w.socket = true))
    (r : Req) {q s : Bytes} (hq : q ≠ s) (d : Daemon) (sock : Bool) :
    (step k (step k (step k w (.trans t r (some q))).1 (.env d sock)).1 (.trans t r (some s))).2 = expected d r s := by
  have hhas : w.has th.pid = true := by
    unfold World.has
    rcases hh with h | ⟨h, h'⟩
    · rw [h]; rfl
    · rw [h, h']; rfl
  have hkeep : ∀ p x, (translate w.daemon true th.tr r q).2 r = some (p, x) → p = q := by
    intro p x h
    have hask : (translate.ask w.daemon th.tr r q).2 r = some (p, x) → p = q := by
      intro h
      unfold translate.ask at h
      split at h
      · simp at h; exact h.1.symm
      · split at h
        · simp at h
        · simp at h; exact h.1.symm
    unfold translate at h
    simp only [if_true] at h
    split at h
    · rename_i q' x' e
      split at h
      · rename_i hq'
        simp only at h
        rw [e] at h
        cases h; exact hq'
      · exact hask h
    · exact hask h
  simp only [step, ht, World.trans, World.put, World.has, if_true, Option.getD_some]
  rw [show (w.once th.pid).getD w.socket = true from hhas]
  have hans : (translate d true (translate w.daemon true th.tr r q).2 r s).1 =
      (translate.ask d (translate w.daemon true th.tr r q).2 r s).1 := by
    rw [translate]
    simp only [if_true]
    cases e : (translate w.daemon true th.tr r q).2 r with
    | none => rfl
    | some px =>
      obtain ⟨p, x⟩ := px
      simp only
      rw [if_neg]
      rw [hkeep p x e]
      exact hq
  rw [hans]
  unfold translate.ask expected
  cases d r s with
  | some x => rfl
  | none =>
    by_cases hr : r = .toColor
    · simp [hr]
    · simp [hr]

/-- **C107**: `NULL` is translated to `NULL`, and is no context to have colours. -/
theorem C107_null {w : World} (ht : w.thr t = some th) (r : Req) :
    step k w (.trans t r none) = (w, if r = .toColor then .fail else .val none) := by
  simp only [step, ht, World.trans]

/-- **C106**: `getpidcon_raw` and `getpidprevcon_raw` give what the kernel holds, whatever happened before. -/
theorem C106_pid {w : World} {u : Nat} {thu : Thread} (ht : w.thr t = some th) (hu : w.thr u = some thu) {a : Attr}
    (ha : a = .current ∨ a = .prev) : step k w (.pidRaw t u a true) = (w, .val (thu.kern a)) := by
  simp only [step, ht, hu, if_pos ha, if_true]

end

/-! ## Examples -/

/-- A thread that runs as `u:r:t`. -/
def th0 : Thread :=
  { pid := 1, kern := fun a => if a = .current then some (b "u:r:t") else none, cache := fun _ => .unset, tr := fun _ => none }

def daemonA : Daemon := fun r s =>
  match r with
  | .toRaw => if s = b "u:r:t:Secret" then some (b "u:r:t:s1") else some s
  | .toTrans => if s = b "u:r:t:s1" then some (b "u:r:t:Secret") else some s
  | .toColor => none

def w1 : World := { thr := fun t => if t = 1 then some th0 else none, once := fun _ => none, daemon := daemonA, socket := true }

theorem w1_fresh : Fresh w1 := by
  refine ⟨fun _ => rfl, fun t th h => ?_⟩
  simp only [w1] at h
  split at h
  · cases h; exact ⟨fun _ => rfl, fun _ => rfl⟩
  · cases h

/-- A kernel that knows some contexts, shows `s0-s0` as `s0`, takes the empty string for no context, and refuses to clear the current context. -/
def kern1 : Kernel where
  put a v :=
    match v with
    | none => if a = .current then none else some none
    | some s =>
      if s = [] then (if a = .current then none else some none)
      else if s = b "u:r:t:s0-s0" then some (some (b "u:r:t:s0"))
      else if s = b "bad" then none
      else some (some s)

def ops1 : List Op :=
  [.set 1 .fscreate (some (b "u:r:t:Secret")) true, .clone 1 2, .fork 1 3 7, .setRaw 2 .fscreate none true, .exec 3 (some (b "u:r:x")),
   .setRaw 1 .fscreate (some (b "bad")) true]

theorem ops1_steady : ∀ o ∈ ops1, Steady kern1 (daemons w1 ops1) o := by
  intro o ho
  have hds : daemons w1 ops1 = [daemonA] := rfl
  rw [hds]
  simp only [ops1, List.mem_cons, List.not_mem_nil, or_false] at ho
  rcases ho with rfl | rfl | rfl | rfl | rfl | rfl
  · refine ⟨fun r h => ?_, fun s d x hs hd hx r h => ?_⟩
    · have : kern1.put .fscreate (some (b "u:r:t:Secret")) = some (some (b "u:r:t:Secret")) := by decide +kernel
      rw [this] at h; cases h; rfl
    · cases hs
      rw [List.mem_singleton] at hd; subst hd
      have h2 : daemonA .toRaw (b "u:r:t:Secret") = some (b "u:r:t:s1") := by decide +kernel
      rw [h2] at hx; cases hx
      have : kern1.put .fscreate (some (b "u:r:t:s1")) = some (some (b "u:r:t:s1")) := by decide +kernel
      rw [this] at h; cases h; rfl
  · trivial
  · trivial
  · intro r h
    have : kern1.put .fscreate none = some none := by decide +kernel
    rw [this] at h; cases h; rfl
  · trivial
  · intro r h
    have : kern1.put .fscreate (some (b "bad")) = none := by decide +kernel
    rw [this] at h; cases h

/-- The history has all of it: the first thread holds what was translated, the second none, the third is a new program. -/
example : ((run kern1 w1 ops1).thr 1).map (fun th => (th.kern .fscreate, th.cache .fscreate)) =
      some (some (b "u:r:t:s1"), .val (b "u:r:t:s1")) ∧
    ((run kern1 w1 ops1).thr 2).map (fun th => (th.kern .fscreate, th.cache .fscreate)) = some (none, .null) ∧
    ((run kern1 w1 ops1).thr 3).map (fun th => (th.kern .fscreate, th.cache .fscreate, th.kern .prev)) =
      some (none, .unset, some (b "u:r:t")) ∧
    (step kern1 (run kern1 w1 ops1) (.get 1 .fscreate false)).2 = .val (some (b "u:r:t:Secret")) ∧
    (step kern1 (run kern1 w1 ops1) (.setRaw 1 .fscreate (some (b "bad")) true)).2 = .fail := by decide +kernel

example : ∃ th, (run kern1 w1 ops1).thr 1 = some th ∧ step kern1 (run kern1 w1 ops1) (.getRaw 1 .fscreate true) =
    (run kern1 w1 ops1, .val (th.kern .fscreate)) := by
  have h : ((run kern1 w1 ops1).thr 1).isSome := by decide +kernel
  obtain ⟨th, ht⟩ := Option.isSome_iff_exists.mp h
  obtain ⟨h1, h2⟩ := C106_get_partial w1_fresh ops1_steady ht .fscreate true
  refine ⟨th, ht, Prod.ext h1 (h2.resolve_right fun h => nomatch h.1)⟩

/-- The hypotheses of C107 are met with strings kept by two threads, and the same daemon answers. -/
example : (∀ o ∈ ops1, ∀ d s, o ≠ .env d s) ∧
    (step kern1 (run kern1 w1 ops1) (.trans 1 .toRaw (some (b "u:r:t:Secret")))).2 = expected daemonA .toRaw (b "u:r:t:Secret") := by
  have hn : ∀ o ∈ ops1, ∀ d s, o ≠ .env d s := by
    intro o ho d s
    simp only [ops1, List.mem_cons, List.not_mem_nil, or_false] at ho
    rcases ho with rfl | rfl | rfl | rfl | rfl | rfl <;> simp
  refine ⟨hn, ?_⟩
  have h : ((run kern1 w1 ops1).thr 1).isSome := by decide +kernel
  obtain ⟨th, ht⟩ := Option.isSome_iff_exists.mp h
  exact C107_constant_partial w1_fresh hn rfl ht _ _

/-! ## What does not hold -/

/-- After `setfscreatecon_raw` with a context that the kernel writes in another way, `getfscreatecon_raw` does not give what the kernel holds. -/
theorem C106_canonical_refuted :
    (step kern1 w1 (.setRaw 1 .fscreate (some (b "u:r:t:s0-s0")) true)).2 = .ok ∧
    (held (run kern1 w1 [.setRaw 1 .fscreate (some (b "u:r:t:s0-s0")) true]) 1).map (· .fscreate) = some (some (b "u:r:t:s0")) ∧
    (step kern1 (run kern1 w1 [.setRaw 1 .fscreate (some (b "u:r:t:s0-s0")) true]) (.getRaw 1 .fscreate true)).2 =
      .val (some (b "u:r:t:s0-s0")) := by decide +kernel

/-- The empty string clears the attribute, but is given back as a context. -/
theorem C106_empty_refuted :
    (step kern1 w1 (.setRaw 1 .exec (some []) true)).2 = .ok ∧
    (held (run kern1 w1 [.setRaw 1 .exec (some []) true]) 1).map (· .exec) = some none ∧
    (step kern1 (run kern1 w1 [.setRaw 1 .exec (some []) true]) (.getRaw 1 .exec true)).2 = .val (some []) := by decide +kernel

/-- After the attribute was changed without the library, `setfscreatecon_raw` reports success although the kernel holds another value. -/
theorem C106_direct_refuted :
    let h : List Op := [.setRaw 1 .fscreate (some (b "u:r:t")) true, .direct 1 .fscreate (some (b "u:r:x"))]
    (step kern1 (run kern1 w1 h) (.setRaw 1 .fscreate (some (b "u:r:t")) true)).2 = .ok ∧
    (held (step kern1 (run kern1 w1 h) (.setRaw 1 .fscreate (some (b "u:r:t")) true)).1 1).map (· .fscreate) = some (some (b "u:r:x")) := by
  decide +kernel

/-- After a policy was loaded that does not know the context of the process, `getcon_raw` still gives what was set. -/
theorem C106_reload_refuted :
    let h : List Op := [.setRaw 1 .current (some (b "u:r:x")) true, .reload fun _ => b "unlabeled"]
    (step kern1 (run kern1 w1 h) (.getRaw 1 .current true)).2 = .val (some (b "u:r:x")) ∧
    (step kern1 (run kern1 w1 h) (.pidRaw 1 1 .current true)).2 = .val (some (b "unlabeled")) := by decide +kernel

/-- A daemon that did not answer once: the string is taken for its own translation from then on, although the daemon would answer. -/
theorem C107_failed_once_refuted :
    let h : List Op := [.env (fun _ _ => none) true, .trans 1 .toRaw (some (b "u:r:t:Secret")), .env daemonA true]
    (step kern1 (run kern1 w1 h) (.trans 1 .toRaw (some (b "u:r:t:Secret")))).2 = .val (some (b "u:r:t:Secret")) ∧
    (run kern1 w1 h).daemon .toRaw (b "u:r:t:Secret") = some (b "u:r:t:s1") := by decide +kernel

/-- A daemon that is started after the first translation of a program is never asked by it. -/
theorem C107_late_refuted :
    let h : List Op := [.env (fun _ _ => none) false, .trans 1 .toRaw (some (b "x")), .env daemonA true]
    (step kern1 (run kern1 w1 h) (.trans 1 .toRaw (some (b "u:r:t:Secret")))).2 = .val (some (b "u:r:t:Secret")) := by decide +kernel

/-- Without a daemon the colours of a context are the context itself, and the call succeeds. -/
theorem C107_colour_refuted :
    (step kern1 (run kern1 w1 [.env (fun _ _ => none) false]) (.trans 1 .toColor (some (b "u:r:t")))).2 = .val (some (b "u:r:t")) := by
  decide +kernel

end Verif.Client
