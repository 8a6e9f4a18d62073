import Verif.Login.Lemmas4

/-!
# Logins: the SELinux user, the contexts and the type of a login
-/

namespace Verif.Login
open Verif.Context

/-! ## C92: the SELinux user of a Linux user -/

/-- **C92** (whose entry).  For every file "seusers": the first entry of the user wins over all others, wherever it stands; without one,
the first entry of a group of the user; without one, the first entry `__default__`; otherwise, and without the file, the name itself
without a level, or a failure if an entry is required. -/
theorem C92_byname (require mls : Bool) (member : Bytes → Bool) (name : Bytes) :
    (∀ bs ls es, LinesOf bs ls → EntriesOf mls ls es →
      (∀ e, First (ForUser name) es e → getseuserbyname require mls member (some bs) name = some (e.seuser, e.level)) ∧
      ((∀ e ∈ es, ¬ ForUser name e) →
        (∀ e, First (ForGroup member) es e → getseuserbyname require mls member (some bs) name = some (e.seuser, e.level)) ∧
        ((∀ e ∈ es, ¬ ForGroup member e) →
          (∀ e, First ForOthers es e → getseuserbyname require mls member (some bs) name = some (e.seuser, e.level)) ∧
          ((∀ e ∈ es, ¬ ForOthers e) →
            getseuserbyname require mls member (some bs) name = if require then none else some (name, none))))) ∧
    getseuserbyname require mls member none name = (if require then none else some (name, none)) := by
  refine ⟨fun bs ls es hl he => ?_, rfl⟩
  rw [linesOf_iff] at hl
  subst hl
  have hp := seusersLoop_eq (member := member) (name := name) he none none
  have key : ∀ p, pick member name es none none = p → getseuserbyname require mls member (some bs) name =
      match p with
      | (some m, _, _) => some m
      | (none, some m, _) => some m
      | (none, none, some m) => some m
      | (none, none, none) => if require then none else some (name, none) := by
    intro p h
    unfold getseuserbyname
    simp only [hp, h]
    rfl
  have hu := pick_user (member := member) (name := name) (es := es) (g := none) (d := none)
  refine ⟨fun e h => ?_, fun hno => ?_⟩
  · obtain ⟨x, y, z, hc⟩ : ∃ x y z, pick member name es none none = (x, y, z) := ⟨_, _, _, rfl⟩
    have h1 := hu.1 e h
    rw [hc] at h1
    dsimp only at h1
    rw [key _ hc, h1]
  · have h1 := hu.2 hno
    obtain ⟨⟨-, h2⟩, ⟨-, h3⟩⟩ := pick_others (member := member) (name := name) (g := none) (d := none) hno
    obtain ⟨h4, h5⟩ := h2 rfl
    obtain ⟨h6, h7⟩ := h3 rfl
    obtain ⟨x, y, z, hc⟩ : ∃ x y z, pick member name es none none = (x, y, z) := ⟨_, _, _, rfl⟩
    rw [hc] at h1 h4 h5 h6 h7
    dsimp only at h1 h4 h5 h6 h7
    rw [key _ hc, h1]
    refine ⟨fun e h => by rw [h4 e h], fun hng => ?_⟩
    rw [h5 hng]
    refine ⟨fun e h => by rw [h6 e h], fun hnd => ?_⟩
    rw [h7 hnd]

/-- The entries of a file exist. -/
theorem C92_entries (mls : Bool) (bs : Bytes) : ∃ ls es, LinesOf bs ls ∧ EntriesOf mls ls es := by
  obtain ⟨es, h⟩ := entriesOf_exists mls (lines bs)
  exact ⟨lines bs, es, linesOf_iff.2 rfl, h⟩

/-- "__default__:user_u:s0\n%wheel:staff_u:s0-s1\n# x:y\njoe:joe_u:s2\n": the entry of the user is the last one. -/
example :
    let f := b "__default__:user_u:s0\n%wheel:staff_u:s0-s1\n# x:y\n joe:joe_u:s2 \njoe:other_u:s0\n"
    let m := fun g => g == b "wheel"
    getseuserbyname true true m (some f) (b "joe") = some (b "joe_u", some (b "s2")) ∧
    getseuserbyname true true m (some f) (b "ann") = some (b "staff_u", some (b "s0-s1")) ∧
    getseuserbyname true false (fun _ => false) (some f) (b "ann") = some (b "user_u", none) ∧
    getseuserbyname true true m (some (b "joe:joe_u:s0")) (b "x") = none := by decide +kernel

/-- That the lines of the example are entries. -/
example : IsEntry true (b " joe:joe_u:s2 \n") ⟨b "joe", b "joe_u", some (b "s2")⟩ := by
  refine ⟨b " joe:joe_u:s2 \n", b " ", b "joe_u:s2 \n", ⟨by decide +kernel, Or.inl rfl⟩, by decide +kernel, ?_, ?_, by decide +kernel,
    by decide +kernel, Or.inl ⟨b "s2 \n", by decide +kernel, by decide +kernel, Or.inr ⟨rfl, b "s2", by decide +kernel, ?_, rfl⟩⟩⟩
  · intro c hc
    have : c = 32 := by simpa [show b " " = [32] from by decide +kernel] using hc
    exact Or.inl this
  · intro c x hx
    have : c = 106 := by
      have h2 : (b "joe" ++ [58]) = [106, 111, 101, 58] := by decide +kernel
      rw [h2] at hx
      injection hx with h3
      exact h3.symm
    subst this
    exact ⟨by unfold Space; decide, by decide⟩
  · have h1 : b "s2 \n" = b "s2" ++ [32, 10] := by decide +kernel
    refine ⟨?_, [32, 10], h1, ?_⟩
    · intro c hc
      have : c = 115 ∨ c = 50 := by simpa [show b "s2" = [115, 50] from by decide +kernel] using hc
      rcases this with rfl | rfl <;> (unfold Space; decide)
    · intro c x hx
      injection hx with h3
      exact Or.inl h3.symm

/-- **C92** (services).  For every file of a user and every service without a colon that is not `*`: the first line of the service
decides, without one the last line `*`; if it is `service:seuser:level` that is the answer, in all other cases what `getseuserbyname`
says. -/
theorem C92_service_partial {bs service : Bytes} {ts : List Bytes} (byname : Option Mapped) (hts : TextsOf bs ts)
    (h58 : 58 ∉ service) (hs : service ≠ [42]) :
    (∀ t, First (ForService service) ts t →
      (∀ se le, Record service t se le → getseuser byname (some bs) (some service) = some (se, some le)) ∧
      ((∀ se le, ¬ Record service t se le) → getseuser byname (some bs) (some service) = byname)) ∧
    ((∀ x ∈ ts, ¬ ForService service x) →
      (∀ t, Last (ForService [42]) ts t →
        (∀ se le, Record [42] t se le → getseuser byname (some bs) (some service) = some (se, some le)) ∧
        ((∀ se le, ¬ Record [42] t se le) → getseuser byname (some bs) (some service) = byname)) ∧
      ((∀ x ∈ ts, ¬ ForService [42] x) → getseuser byname (some bs) (some service) = byname)) ∧
    getseuser byname none (some service) = byname := by
  have hend := texts_end hts
  obtain ⟨ls, hl, hf⟩ := hts
  rw [linesOf_iff] at hl
  subst hl
  obtain ⟨k1, k2⟩ := recLoop_some (r := none) h58 hs hf
  have fin : ∀ {sv t}, 58 ∉ sv → ForService sv t → t ∈ ts → recLoop (some service) (lines bs) none = some t →
      (∀ se le, Record sv t se le → getseuser byname (some bs) (some service) = some (se, some le)) ∧
      ((∀ se le, ¬ Record sv t se le) → getseuser byname (some bs) (some service) = byname) := by
    intro sv t h1 h2 h3 h4
    unfold getseuser
    simp only [Option.bind_some, h4]
    refine ⟨fun se le h => by rw [parseRec_of h1 h], fun h => ?_⟩
    cases hp : parseRec t with
    | none => rfl
    | some m =>
      obtain ⟨se, le, hr⟩ := of_parseRec h1 h2 (hend t h3) hp
      exact absurd hr (h se le)
  refine ⟨fun t ht => ?_, fun hno => ⟨fun t ht => ?_, fun hn => ?_⟩, rfl⟩
  · refine fin h58 ?_ ?_ (k1 t ht)
    · obtain ⟨pre, post, h1, h2, h3⟩ := ht; exact h2
    · obtain ⟨pre, post, h1, h2, h3⟩ := ht; rw [h1]; simp
  · refine fin (by decide) ?_ ?_ ((k2 hno).1 t ht)
    · obtain ⟨pre, post, h1, h2, h3⟩ := ht; exact h2
    · obtain ⟨pre, post, h1, h2, h3⟩ := ht; rw [h1]; simp
  · unfold getseuser
    simp only [Option.bind_some, (k2 hno).2 hn, Option.bind_none]

example :
    let f := b "*:a_u:s0\nsshd:b_u:s1:c1\n*:c_u:s2\ncron:bad\nsshd:d_u:s0"
    getseuser none (some f) (some (b "sshd")) = some (b "b_u", some (b "s1:c1")) ∧
    getseuser none (some f) (some (b "gdm")) = some (b "c_u", some (b "s2")) ∧
    getseuser none (some f) (some (b "cron")) = none := by decide +kernel

/-- **C92** (a service with a colon).  The first colon ends the name of the service when its line is read, so that `b` is the user. -/
theorem C92_colon_refuted :
    ∃ bs service se le, (∃ t ∈ lines bs, Record service t se le) ∧ (∀ t ∈ lines bs, ForService service t) ∧
      getseuser none (some bs) (some service) ≠ some (se, some le) :=
  ⟨b "a:b:c_u:s0", b "a:b", b "c_u", b "s0", ⟨b "a:b:c_u:s0", by decide +kernel, by decide +kernel, by decide +kernel, Or.inl (by decide +kernel)⟩,
    by
      intro t ht
      have h : lines (b "a:b:c_u:s0") = [b "a:b:c_u:s0"] := by decide +kernel
      rw [h, List.mem_singleton] at ht
      exact ⟨b "c_u:s0", by rw [ht]; decide +kernel⟩,
    by decide +kernel⟩

/-! ## C93: the contexts of a login -/

/-- The last resort as a list. -/
def lastResort (check : Bytes → Check) (file : Option Bytes) (user : Bytes) : Res (List Bytes) :=
  match failsafe check file user with
  | .ok c => .ok [c]
  | .err => .err
  | .ub => .ub

/-- **C93** (the list).  For all files, users without a colon and valid contexts `fromcon` with a role and a type: the list is made of the
contexts for the words of the line about this role and type in the file of the user and then of the one in the file of all users, in
this order, those that are valid, each once; they have the user and the level of `fromcon`.  If there are none, the last resort is
used. -/
theorem C93_list {check : Bytes → Check} {files : Files} {user fromcon u r t : Bytes} {g : Option Bytes} {w1 w2 : List Bytes}
    {os : List (Option Bytes)} (hu : 58 ∉ user) (hv : Valid fromcon) (hsp : Splits fromcon u r t g) (ht : g = none → t ≠ [])
    (h1 : Listed files.user r t w1) (h2 : Listed files.default r t w2)
    (hos : List.Forall₂ (fun w o => ∀ c, o = some c ↔ ContextFor user (g.bind orNull) w c) (w1 ++ w2) os) :
    let l := ((os.filterMap id).filter fun c => check c == .ok).eraseDups
    (l ≠ [] → getOrderedContextList check files user fromcon = .ok l) ∧
    (l = [] → getOrderedContextList check files user fromcon = lastResort check files.failsafe user) := by
  intro l
  obtain ⟨con, hcon⟩ := (C32_accept fromcon).1.2 hv
  obtain ⟨-, hr, hty, hg⟩ := C32_components _ _ _ _ _ _ _ _ hcon hsp
  have hty' : typeGet con = some t := by
    rw [hty]
    cases g with
    | none => simp [orNull, ht rfl]
    | some g => simp
  have hno : NoCtrl fromcon := by obtain ⟨_, _, _, _, _, h, _⟩ := hv; exact h
  have hl : ∀ x, rangeGet con = some x → NoCtrl x := by
    intro x hx
    rw [hg] at hx
    cases g with
    | none => cases hx
    | some g =>
      simp only [Option.bind_some, orNull] at hx
      split at hx
      · cases hx
      · injection hx with hx
        subst hx
        rw [hsp.eq] at hno
        unfold NoCtrl at hno ⊢
        simp only [List.mem_append, List.mem_cons, not_or] at hno
        exact ⟨hno.1.2.2, hno.2.1.2.2, hno.2.2.2.2⟩
  obtain ⟨o1, o2, rfl, f1, f2⟩ := forall₂_append_inv hos
  rw [← wordsFor_of_listed hsp.role hsp.type h1, ← hg] at f1
  rw [← wordsFor_of_listed hsp.role hsp.type h2, ← hg] at f2
  have e1 := getContextUser_eq (valid := fun c => check c == .ok) hu hl hr hty' [] f1
  have e2 := getContextUser_eq (valid := fun c => check c == .ok) hu hl hr hty' ((o1.filterMap id).filter fun c => check c == .ok) f2
  have e3 : ((o1.filterMap id).filter (fun c => check c == .ok) ++ (o2.filterMap id).filter fun c => check c == .ok).eraseDups = l := by
    show _ = (((o1 ++ o2).filterMap id).filter fun c => check c == .ok).eraseDups
    rw [List.filterMap_append, List.filter_append]
  rw [e3] at e2
  rw [List.nil_append, show ([] : List Bytes).eraseDups = [] from rfl] at e1
  have hcon' : contextNew true (fun _ => true) fromcon = .ok con := hcon
  have hfin : getOrderedContextList check files user fromcon = if l = [] then lastResort check files.failsafe user else .ok l := by
    unfold getOrderedContextList
    simp only [hcon', e1, e2]
    rfl
  rw [hfin]
  exact ⟨fun h => if_neg h, fun h => if_pos h⟩

/-- The hypotheses can be met: for all files and words there are the lists. -/
theorem C93_exist (files : Files) {user fromcon u r t : Bytes} {g : Option Bytes} (hu : 58 ∉ user) (hv : Valid fromcon)
    (hsp : Splits fromcon u r t g) : ∃ w1 w2 os, Listed files.user r t w1 ∧ Listed files.default r t w2 ∧
      List.Forall₂ (fun w o => ∀ c, o = some c ↔ ContextFor user (g.bind orNull) w c) (w1 ++ w2) os := by
  obtain ⟨w1, h1⟩ := listed_exists files.user r t
  obtain ⟨w2, h2⟩ := listed_exists files.default r t
  have hno : NoCtrl fromcon := by obtain ⟨_, _, _, _, _, h, _⟩ := hv; exact h
  obtain ⟨os, h3⟩ := candidates_exist (user := user) (level := g.bind orNull) hu (by
    intro x hx
    cases g with
    | none => cases hx
    | some g =>
      simp only [Option.bind_some, orNull] at hx
      split at hx
      · cases hx
      · injection hx with hx
        subst hx
        rw [hsp.eq] at hno
        unfold NoCtrl at hno ⊢
        simp only [List.mem_append, List.mem_cons, not_or] at hno
        exact ⟨hno.1.2.2, hno.2.1.2.2, hno.2.2.2.2⟩) (w1 ++ w2)
  exact ⟨w1, w2, os, h1, h2, h3⟩

/-- **C93** (the context that the caller is in has no type or is malformed).  The last resort is used. -/
theorem C93_malformed {check : Bytes → Check} {files : Files} {user fromcon : Bytes} (h : ¬ Valid fromcon ∨
    ∃ u r, Splits fromcon u r [] none) :
    getOrderedContextList check files user fromcon = lastResort check files.failsafe user := by
  have hacc := C32_accept fromcon
  unfold getOrderedContextList
  cases hc : contextNew true (fun _ => true) fromcon with
  | ub => exact absurd hc (hacc.2.2 _ _)
  | err => rfl
  | ok con =>
    rcases h with h | ⟨u, r, h⟩
    · exact absurd (hacc.1.1 ⟨con, hc⟩) h
    · obtain ⟨-, hr, hty, -⟩ := C32_components _ _ _ _ _ _ _ _ hc h
      have hty' : typeGet con = none := by rw [hty]; simp [orNull]
      have hg : ∀ f l, getContextUser (fun c => check c == .ok) f con user l = .ok l := by
        intro f l
        unfold getContextUser
        rw [hty']
        cases f <;> cases roleGet con <;> rfl
      simp only [hg]
      rfl

/-- The files of the examples. -/
def exFiles : Files :=
  ⟨some (b "system_r:sshd_t:s0 \tstaff_r:staff_t:s0 bad user_r:user_t\n"),
   some (b "# comment\nsystem_r:sshd_t user_r:user_t:s0 sysadm_r:sysadm_t:s0\nsystem_r:sshd_t x_r:x_t\n"), some (b "sysadm_r:sysadm_t:s0\n")⟩

example : getOrderedContextList (fun _ => .ok) exFiles (b "joe_u") (b "system_u:system_r:sshd_t:s0-s1") =
    .ok [b "joe_u:staff_r:staff_t:s0-s1", b "joe_u:user_r:user_t:s0-s1", b "joe_u:sysadm_r:sysadm_t:s0-s1"] := by decide +kernel

example : getOrderedContextList (fun c => if c = b "joe_u:user_r:user_t" then .ok else .bad) exFiles (b "joe_u") (b "system_u:system_r:sshd_t") =
    .ok [b "joe_u:user_r:user_t"] := by decide +kernel

example : getOrderedContextList (fun _ => .noent) exFiles (b "joe_u") (b "system_u:system_r:sshd_t:s0") =
    .ok [b "joe_u:sysadm_r:sysadm_t:s0"] := by decide +kernel

example : Valid (b "system_u:system_r:sshd_t:s0-s1") ∧ Splits (b "system_u:system_r:sshd_t:s0-s1") (b "system_u") (b "system_r") (b "sshd_t") (some (b "s0-s1")) := by
  have h : Splits (b "system_u:system_r:sshd_t:s0-s1") (b "system_u") (b "system_r") (b "sshd_t") (some (b "s0-s1")) :=
    ⟨by decide +kernel, by decide +kernel, by decide +kernel, by decide +kernel⟩
  refine ⟨⟨_, _, _, _, h, ⟨by decide +kernel, by decide +kernel, by decide +kernel⟩, by decide +kernel, by decide +kernel, by decide +kernel, ?_⟩, h⟩
  rintro x ⟨⟩
  decide +kernel

/-- A line `role:type` with nothing behind it is passed over, one with a blank behind it counts. -/
example :
    getOrderedContextList (fun _ => .ok) ⟨none, some (b "r:t\nr:t a:b:s0\n"), none⟩ (b "u") (b "x:r:t") = .ok [b "u:a:b"] ∧
    getOrderedContextList (fun _ => .ok) ⟨none, some (b "r:t \nr:t a:b:s0\n"), none⟩ (b "u") (b "x:r:t") = .err := by decide +kernel

/-- **C93** (the last resort).  If the first line of the file has at most 253 bytes besides the newline, is not empty or has a newline,
and has no NUL, then the context is the user and that line; it is given unless the kernel says that it is invalid. -/
theorem C93_failsafe_partial {check : Bytes → Check} {user l bs : Bytes} (hb : bs = l ∨ ∃ rest, bs = l ++ 10 :: rest) (h10 : 10 ∉ l)
    (h0 : 0 ∉ l) (hlen : l.length ≤ 253) (hne : bs ≠ []) :
    lastResort check (some bs) user = if check (user ++ 58 :: l) = .bad then .err else .ok [user ++ 58 :: l] := by
  have hcs : ∀ x : Bytes, 0 ∉ x → cstr x = x := by
    intro x hx
    have := takeWhile_eq (p := (· != 0)) (w := x) (r := []) (fun c hc => by simp; rintro rfl; exact hx hc) (by simp)
    unfold cstr
    simpa using this
  unfold lastResort failsafe
  dsimp only
  rw [if_neg hne]
  rcases hb with rfl | ⟨rest, rfl⟩
  · rw [fgets_last h10 (by omega), hcs _ h0, if_neg hne, if_neg (fun h => h10 (List.mem_of_getLast? h))]
    by_cases hb : check (user ++ 58 :: bs) = .bad
    · rw [if_pos hb, if_pos (show check (user ++ colon :: bs) = .bad from hb)]
    · rw [if_neg hb, if_neg (show ¬ check (user ++ colon :: bs) = .bad from hb)]
  · have hg : fgets 254 (l ++ 10 :: rest) = l ++ [10] := by rw [fgets_line h10 (by omega), if_neg (by omega)]
    rw [hg, hcs (l ++ [10]) (by simp [h0])]
    have e1 : ¬ (l ++ [10] = []) := by simp
    have e2 : (l ++ [10]).getLast? = some nl := by simp [nl]
    rw [if_neg e1, if_pos e2, List.dropLast_concat]
    by_cases hb : check (user ++ 58 :: l) = .bad
    · rw [if_pos hb, if_pos (show check (user ++ colon :: l) = .bad from hb)]
    · rw [if_neg hb, if_neg (show ¬ check (user ++ colon :: l) = .bad from hb)]

/-- Without a file, or with an empty one, there is no last resort. -/
theorem C93_failsafe_none (check : Bytes → Check) (user : Bytes) :
    lastResort check none user = .err ∧ lastResort check (some []) user = .err := ⟨rfl, rfl⟩

/-- **C93** (long lines of the last resort).  A longer line is cut off: the context has another range. -/
theorem C93_failsafe_refuted :
    ∃ l, 10 ∉ l ∧ 0 ∉ l ∧ l ≠ [] ∧ lastResort (fun _ => .ok) (some (l ++ [10])) (b "u") ≠ .ok [b "u" ++ 58 :: l] :=
  ⟨b "r:t:s0:c0.c1" ++ List.replicate 250 48, by decide +kernel, by decide +kernel, by decide +kernel, by decide +kernel⟩

/-- **C93** (a NUL).  A file that starts with a NUL makes the program use a byte in front of its buffer. -/
theorem C93_failsafe_ub (check : Bytes → Check) (user rest : Bytes) : lastResort check (some (0 :: rest)) user = .ub := by
  have : cstr (fgets 254 (0 :: rest)) = [] := by
    rw [show (254 : Nat) = 253 + 1 from rfl, fgets]
    rw [if_neg (by decide)]
    rfl
  unfold lastResort failsafe
  dsimp only
  rw [if_neg (by simp), this]
  rfl

theorem nodup_eraseDups : ∀ (n : Nat) (l : List Bytes), l.length = n → l.eraseDups.Nodup
  | 0, l, h => by rw [List.eq_nil_of_length_eq_zero h]; exact List.nodup_nil
  | n + 1, l, h => by
    rcases List.eq_nil_or_concat l with rfl | ⟨a, c, rfl⟩
    · exact List.nodup_nil
    · have ih := nodup_eraseDups n a (by simpa using h)
      rw [List.concat_eq_append, eraseDups_concat]
      split
      · exact ih
      · rename_i hc
        refine List.nodup_append.2 ⟨ih, by simp, ?_⟩
        intro x hx y hy
        rw [List.mem_singleton] at hy
        subst hy
        rintro rfl
        exact hc (List.mem_eraseDups.1 hx)

/-- **C93** (what can be relied on).  Every context of the list is valid, or the kernel cannot be asked and it is the only one; none is
there twice, there is at least one, and each is one of the user. -/
theorem C93_sound {check : Bytes → Check} {files : Files} {user fromcon : Bytes} {l : List Bytes} (hu : 58 ∉ user)
    (h : getOrderedContextList check files user fromcon = .ok l) :
    l ≠ [] ∧ l.Nodup ∧ (∀ c ∈ l, ∃ x, c = user ++ 58 :: x) ∧
      ((∀ c ∈ l, check c = .ok) ∨ ∃ c, l = [c] ∧ check c = .noent) := by
  have last : lastResort check files.failsafe user = .ok l → l ≠ [] ∧ l.Nodup ∧ (∀ c ∈ l, ∃ x, c = user ++ 58 :: x) ∧
      ((∀ c ∈ l, check c = .ok) ∨ ∃ c, l = [c] ∧ check c = .noent) := by
    intro h
    unfold lastResort at h
    cases hf : failsafe check files.failsafe user with
    | err => rw [hf] at h; cases h
    | ub => rw [hf] at h; cases h
    | ok c =>
      rw [hf] at h
      injection h with h
      subst h
      have hc : (∃ x, c = user ++ 58 :: x) ∧ check c ≠ .bad := by
        unfold failsafe at hf
        cases hfile : files.failsafe with
        | none => rw [hfile] at hf; cases hf
        | some bs =>
          rw [hfile] at hf
          dsimp only at hf
          split at hf
          · cases hf
          · split at hf
            · cases hf
            · generalize (if (cstr (fgets 254 bs)).getLast? = some nl then (cstr (fgets 254 bs)).dropLast else cstr (fgets 254 bs)) = y at hf
              split at hf
              · cases hf
              · rename_i hbad
                injection hf with hf
                subst hf
                exact ⟨⟨_, rfl⟩, hbad⟩
      refine ⟨by simp, by simp, by simpa using hc.1, ?_⟩
      cases hk : check c with
      | ok => exact Or.inl (by simp [hk])
      | noent => exact Or.inr ⟨c, rfl, hk⟩
      | bad => exact absurd hk hc.2
  by_cases hv : Valid fromcon
  · obtain ⟨u, r, t, g, hsp, hrest⟩ := id hv
    by_cases hne : g = none ∧ t = []
    · rw [C93_malformed (Or.inr ⟨u, r, hne.1 ▸ hne.2 ▸ hsp⟩)] at h
      exact last h
    · obtain ⟨w1, w2, os, h1, h2, h3⟩ := C93_exist files hu hv hsp
      have key := C93_list (check := check) hu hv hsp (fun hg ht => hne ⟨hg, ht⟩) h1 h2 h3
      dsimp only at key
      by_cases hl : ((os.filterMap id).filter fun c => check c == .ok).eraseDups = []
      · rw [key.2 hl] at h
        exact last h
      · rw [key.1 hl] at h
        injection h with h
        subst h
        have hmem : ∀ c, c ∈ ((os.filterMap id).filter fun c => check c == .ok).eraseDups → some c ∈ os ∧ check c = .ok := by
          intro c hc
          rw [List.mem_eraseDups, List.mem_filter] at hc
          obtain ⟨hc1, hc2⟩ := hc
          exact ⟨by simpa using hc1, by simpa using hc2⟩
        refine ⟨hl, nodup_eraseDups _ _ rfl, fun c hc => ?_, Or.inl fun c hc => (hmem c hc).2⟩
        have h4 := (hmem c hc).1
        have h5 : ∀ {ws : List Bytes} {os : List (Option Bytes)},
            List.Forall₂ (fun w o => ∀ c, o = some c ↔ ContextFor user (g.bind orNull) w c) ws os → some c ∈ os →
            ∃ w, ContextFor user (g.bind orNull) w c := by
          intro ws os hf
          induction hf with
          | nil => intro h; cases h
          | @cons w o ws os ho _ ih =>
            intro h
            rcases List.mem_cons.1 h with h | h
            · exact ⟨w, (ho c).1 h.symm⟩
            · exact ih h
        obtain ⟨w, -, r', t', g', -, rfl⟩ := h5 h3 h4
        have h6 : ∀ x : Bytes, (∃ y, x = user ++ 58 :: y) → ∀ o, ∃ y, withLevel x o = user ++ 58 :: y := by
          rintro x ⟨y, rfl⟩ o
          cases o with
          | none => exact ⟨y, rfl⟩
          | some z => exact ⟨y ++ 58 :: z, by simp [withLevel]⟩
        refine h6 _ ?_ _
        split
        · exact ⟨_, rfl⟩
        · exact ⟨_, rfl⟩
  · rw [C93_malformed (Or.inl hv)] at h
    exact last h

/-- **C93** (a level).  With a level (without tab, newline and carriage return) the list is that for the context with this level in the place of its own;
for a context that has a type. -/
theorem C93_level {check : Bytes → Check} {files : Files} {user level fromcon u r t : Bytes} {g : Option Bytes}
    (hv : Valid fromcon) (hsp : Splits fromcon u r t g) (ht : g = none → t ≠ []) (hl : NoCtrl level) :
    getOrderedContextListWithLevel check files user level fromcon =
      getOrderedContextList check files user (u ++ 58 :: (r ++ 58 :: (t ++ 58 :: level))) := by
  obtain ⟨u', r', t', g', h1, h2, h3, h4, h5, h6⟩ := hv
  obtain ⟨rfl, rfl, rfl, rfl⟩ := splits_unique hsp h1
  have hcon := contextNew_of_valid h1 h2 h3 h4 h5 h6
  have hset : setComp true (handleOf u r t g) 3 (some level) = ((handleOf u r t g).set 3 (some level), true) := by
    obtain ⟨k1, k2, -⟩ := compOk_arg 3 (some level) (handleOf u r t g) true (Or.inr rfl)
    have h7 : (setComp true (handleOf u r t g) 3 (some level)).2 = true := k1.2 fun s hs => by
      injection hs with hs; subst hs; exact ⟨hl, fun h => absurd rfl h⟩
    exact Prod.ext (k2 h7) h7
  have hstr : contextStr true ((handleOf u r t g).set 3 (some level)) = .ok (u ++ 58 :: (r ++ 58 :: (t ++ 58 :: level))) := by
    cases g with
    | none =>
      simp only [handleOf, List.set_cons_succ, List.set_cons_zero]
      rw [contextStr_some]
      simp [orNull, ht rfl, copyRest]
    | some g =>
      simp only [handleOf, List.set_cons_succ, List.set_cons_zero]
      rw [contextStr_some]
      simp [copyRest]
  unfold getOrderedContextListWithLevel
  simp only [hcon, hset, hstr]

/-- A level with a tab, newline or carriage return, or an invalid context, is an error. -/
theorem C93_level_bad {check : Bytes → Check} {files : Files} {user level fromcon : Bytes} (h : ¬ Valid fromcon ∨ ¬ NoCtrl level) :
    getOrderedContextListWithLevel check files user level fromcon = .err := by
  have hacc := C32_accept fromcon
  unfold getOrderedContextListWithLevel
  cases hc : contextNew true (fun _ => true) fromcon with
  | ub => exact absurd hc (hacc.2.2 _ _)
  | err => rfl
  | ok con =>
    rcases h with h | h
    · exact absurd (hacc.1.1 ⟨con, hc⟩) h
    · obtain ⟨k1, -, k3⟩ := compOk_arg 3 (some level) con true (Or.inr rfl)
      have h7 : (setComp true con 3 (some level)).2 = false := by
        rw [Bool.eq_false_iff]
        intro h7
        exact h (k1.1 h7 level rfl).1
      have : setComp true con 3 (some level) = (con, false) := Prod.ext (k3 h7) h7
      simp only [this]

example : getOrderedContextListWithLevel (fun _ => .ok) exFiles (b "joe_u") (b "s3") (b "system_u:system_r:sshd_t:s0-s1") =
    .ok [b "joe_u:staff_r:staff_t:s3", b "joe_u:user_r:user_t:s3", b "joe_u:sysadm_r:sysadm_t:s3"] := by decide +kernel

/-- A context with a role: `user:role:type` or `user:role:type:range`. -/
def HasRole (role c : Bytes) : Prop := Valid c ∧ ∃ u t g, Splits c u role t g

theorem withRole_spec (role : Bytes) : ∀ l : List Bytes,
    (∀ c, First (HasRole role) l c → withRole role l = some c) ∧ ((∀ c ∈ l, ¬ HasRole role c) → withRole role l = none)
  | [] => ⟨by rintro c ⟨pre, post, h, -⟩; simp at h, fun _ => rfl⟩
  | a :: l => by
    obtain ⟨i1, i2⟩ := withRole_spec role l
    have hacc := C32_accept a
    have hwc : withRole role (a :: l) = match contextNew true (fun _ => true) a with
      | .ok h => if roleGet h = some role then some a else withRole role l
      | _ => withRole role l := rfl
    have step : (HasRole role a → withRole role (a :: l) = some a) ∧ (¬ HasRole role a → withRole role (a :: l) = withRole role l) := by
      rw [hwc]
      cases hc : contextNew true (fun _ => true) a with
      | ub => exact absurd hc (hacc.2.2 _ _)
      | err =>
        refine ⟨fun h => ?_, fun _ => rfl⟩
        obtain ⟨x, hx⟩ := hacc.1.2 h.1
        have : Res.err = Res.ok x := hc.symm.trans hx
        cases this
      | ok con =>
        dsimp only
        have hva := hacc.1.1 ⟨con, hc⟩
        constructor
        · rintro ⟨-, u, t, g, hs⟩
          obtain ⟨-, hr, -⟩ := C32_components _ _ _ _ _ _ _ _ hc hs
          rw [if_pos hr]
        · intro hn
          obtain ⟨u, r, t, g, hs, -⟩ := id hva
          obtain ⟨-, hr, -⟩ := C32_components _ _ _ _ _ _ _ _ hc hs
          rw [if_neg]
          intro he
          rw [hr] at he
          injection he with he
          subst he
          exact hn ⟨hva, u, t, g, hs⟩
    constructor
    · rintro c ⟨pre, post, h1, h2, h3⟩
      cases pre with
      | nil =>
        simp at h1
        rw [← h1.1] at h2 ⊢
        exact step.1 h2
      | cons x pre =>
        simp at h1
        rw [step.2 (h1.1 ▸ h3 x (by simp))]
        exact i1 c ⟨pre, post, h1.2, h2, fun y hy => h3 y (List.mem_cons_of_mem _ hy)⟩
    · intro h
      rw [step.2 (h a (by simp))]
      exact i2 fun c hc => h c (List.mem_cons_of_mem _ hc)

/-- **C93** (the default).  The default context is the first of the list; with a role it is the first that has this role, and a failure
if none has. -/
theorem C93_default {check : Bytes → Check} {files : Files} {user fromcon : Bytes} {l : List Bytes} (hu : 58 ∉ user)
    (h : getOrderedContextList check files user fromcon = .ok l) :
    (∃ c rest, l = c :: rest ∧ getDefaultContext check files user fromcon = .ok c) ∧
    ∀ role, (∀ c, First (HasRole role) l c → getDefaultContextWithRole check files user role fromcon = .ok c) ∧
      ((∀ c ∈ l, ¬ HasRole role c) → getDefaultContextWithRole check files user role fromcon = .err) := by
  have hne := (C93_sound hu h).1
  constructor
  · cases l with
    | nil => exact absurd rfl hne
    | cons c rest => exact ⟨c, rest, rfl, by unfold getDefaultContext; rw [h]⟩
  · intro role
    obtain ⟨h1, h2⟩ := withRole_spec role l
    unfold getDefaultContextWithRole
    rw [h]
    exact ⟨fun c hc => by dsimp only; rw [h1 c hc], fun hn => by dsimp only; rw [h2 hn]⟩

example : getDefaultContextWithRole (fun _ => .ok) exFiles (b "joe_u") (b "user_r") (b "system_u:system_r:sshd_t:s0") =
      .ok (b "joe_u:user_r:user_t:s0") ∧
    getDefaultContext (fun _ => .ok) exFiles (b "joe_u") (b "system_u:system_r:sshd_t:s0") = .ok (b "joe_u:staff_r:staff_t:s0") ∧
    getDefaultContextWithRole (fun _ => .ok) exFiles (b "joe_u") (b "dbadm_r") (b "system_u:system_r:sshd_t:s0") = .err := by
  decide +kernel

/-! ## C94: the default type of a role -/

/-- **C94** (the type of the role).  For every file whose lines all have a newline and at most 248 bytes before it, and no NUL: the type is that
of the first line `role:type`, without the newline; if there is none, that is an error. -/
theorem C94_type_partial {bs role : Bytes} {ls : List Bytes} (hl : LinesOf bs ls) (ht : Tidy ls)
    (hr : ∀ c x, role = c :: x → ¬ Space c) :
    (∀ l type, First (fun l => ∃ x, TypeLine role l x) ls l → TypeLine role l type → getDefaultType (some bs) role = .ok type) ∧
    ((∀ l ∈ ls, ∀ x, ¬ TypeLine role l x) → getDefaultType (some bs) role = .err) := by
  show (∀ l type, First (fun l => ∃ x, TypeLine role l x) ls l → TypeLine role l type → findDefaultType role bs = .ok type) ∧
    ((∀ l ∈ ls, ∀ x, ¬ TypeLine role l x) → findDefaultType role bs = .err)
  induction hl with
  | nil =>
    refine ⟨by rintro l type ⟨pre, post, h, -⟩; simp at h, fun _ => ?_⟩
    rw [findDefaultType]
    rfl
  | @last l h1 h2 =>
    obtain ⟨⟨a, rfl⟩, -⟩ := ht l (by simp)
    simp at h2
  | @line a rest ls h1 _ ih =>
    obtain ⟨-, h3, h4⟩ := ht (a ++ [10]) (by simp)
    obtain ⟨i1, i2⟩ := ih fun l hl => ht l (List.mem_cons_of_mem _ hl)
    rw [findDefaultType_line h1 (fun h => h4 (by simp [h])) (by simpa using h3)]
    dsimp only
    by_cases hm : ∃ x, TypeLine role (a ++ [10]) x
    · obtain ⟨x, hx⟩ := hm
      have hx' := (typeLine_iff hr).1 hx
      dsimp only at hx'
      rw [if_pos hx'.1, ← hx'.2]
      refine ⟨?_, fun hn => absurd hx (hn _ (by simp) x)⟩
      rintro l type ⟨pre, post, e1, e2, e3⟩ htl
      cases pre with
      | nil =>
        simp at e1
        rw [← e1.1] at htl
        rw [((typeLine_iff hr).1 htl).2, ← hx'.2]
      | cons y pre =>
        simp at e1
        exact absurd ⟨x, e1.1 ▸ hx⟩ (e3 y (by simp))
    · rw [if_neg fun hc => hm ⟨_, (typeLine_iff hr).2 ⟨hc, rfl⟩⟩]
      refine ⟨?_, fun hn => i2 fun l hl x => hn l (List.mem_cons_of_mem _ hl) x⟩
      rintro l type ⟨pre, post, e1, e2, e3⟩ htl
      cases pre with
      | nil =>
        simp at e1
        exact absurd (e1.1 ▸ e2) hm
      | cons y pre =>
        simp at e1
        exact i1 l type ⟨pre, post, e1.2, e2, fun z hz => e3 z (List.mem_cons_of_mem _ hz)⟩ htl

/-- Without the file there is no type. -/
theorem C94_no_file (role : Bytes) : getDefaultType none role = .err := rfl

example : getDefaultType (some (b "auditadm_r:auditadm_t\n sysadm_r:sysadm_t\nsysadm_r:x\n")) (b "sysadm_r") = .ok (b "sysadm_t") ∧
    getDefaultType (some (b "sysadm_r2:sysadm_t\n")) (b "sysadm_r") = .err := by decide +kernel

/-- **C94** (a last line without a newline).  Its last character is lost: `r:user_t` gives the type `user_`. -/
theorem C94_last_line_refuted :
    getDefaultType (some (b "r:user_t")) (b "r") = .ok (b "user_") ∧ LinesOf (b "r:user_t") [b "r:user_t"] :=
  ⟨by decide +kernel, .last (by decide +kernel) (by decide +kernel)⟩

/-- **C94** (long lines).  A long line, here a comment, is taken for several: a part of it can be what is found. -/
theorem C94_long_line_refuted :
    ∃ l, l.head? = some 35 ∧ 10 ∉ l ∧ 0 ∉ l ∧ getDefaultType (some (l ++ [10])) (b "r") = .ok (b "x_t") :=
  ⟨b "#" ++ List.replicate 248 32 ++ b "r:x_t", by decide +kernel, by decide +kernel, by decide +kernel, by decide +kernel⟩

/-- **C94** (a NUL).  A line that starts with a NUL makes the program write in front of its buffer. -/
theorem C94_ub (role rest : Bytes) : getDefaultType (some (0 :: rest)) role = .ub := by
  show findDefaultType role (0 :: rest) = .ub
  have : cstr (fgets 249 (0 :: rest)) = [] := by
    rw [show (249 : Nat) = 248 + 1 from rfl, fgets]
    rw [if_neg (by decide)]
    rfl
  rw [findDefaultType, dif_neg (by simp)]
  simp only [this]
  rfl

end Verif.Login
