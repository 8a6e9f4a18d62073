import Verif.LocalFile.Lemmas3
import Verif.Login.Props
import Verif.Context.Props

/-!
# Theorems about the files of local customisations
-/

namespace Verif.LocalFile
open Verif.Context Verif.Login

/-! ## C95: local customisations are read back as they were written -/

/-- Logins. -/
theorem C95_seusers_partial {l : List Seuser} (h : ∀ r ∈ l, r.Good) : cache Seuser.parse (some (flush Seuser.print l)) = .ok l := roundtrip seuser_format h

/-- Booleans. -/
theorem C95_booleans_partial {l : List Boolean} (h : ∀ r ∈ l, r.Good) : cache Boolean.parse (some (flush Boolean.print l)) = .ok l := roundtrip boolean_format h

/-- Booleans whose values were written by hand in any of the ways that are allowed. -/
theorem C95_booleans_spelled_partial (sp : Boolean → Bytes) {l : List Boolean}
    (h : ∀ r ∈ l, r.Good ∧ ∃ t, Spells t r.value ∧ (sp r).map (·.toNat) = t.toList.map Char.toNat) :
    cache Boolean.parse (some (flush (fun r => r.name ++ 61 :: sp r) l)) = .ok l := roundtrip (boolean_format_spelled sp) h

/-- File contexts. -/
theorem C95_fcontexts_partial {l : List Fcontext} (h : ∀ r ∈ l, r.Good) : cache Fcontext.parse (some (flush Fcontext.print l)) = .ok l := roundtrip fcontext_format h

/-- Ports. -/
theorem C95_ports_partial {l : List Port} (h : ∀ r ∈ l, r.Good) : cache Port.parse (some (flush Port.print l)) = .ok l := roundtrip port_format h

/-- Network interfaces. -/
theorem C95_interfaces_partial {l : List Iface} (h : ∀ r ∈ l, r.Good) : cache Iface.parse (some (flush Iface.print l)) = .ok l := roundtrip iface_format h

/-- InfiniBand end ports. -/
theorem C95_ibendports_partial {l : List Ibendport} (h : ∀ r ∈ l, r.Good) : cache Ibendport.parse (some (flush Ibendport.print l)) = .ok l :=
  roundtrip ibendport_format h

/-- Nodes. -/
theorem C95_nodes_partial {A : Type} (f : Bool → AddrFns A) {l : List (Node A)} (h : ∀ r ∈ l, r.Good f) :
    cache (Node.parse f) (some (flush (Node.print f) l)) = .ok l := roundtrip (node_format f) h

/-- InfiniBand partition keys. -/
theorem C95_ibpkeys_partial {A : Type} (f : AddrFns A) {l : List (Ibpkey A)} (h : ∀ r ∈ l, r.Good f) :
    cache (Ibpkey.parse f) (some (flush (Ibpkey.print f) l)) = .ok l := roundtrip (ibpkey_format f) h

/-- Users. -/
theorem C95_users_partial {l : List User} (h : ∀ r ∈ l, r.Good) : cache User.parse (some (flush User.print l)) = .ok l := roundtrip user_format h

/-- Prefixes of users. -/
theorem C95_users_extra_partial {l : List UserExtra} (h : ∀ r ∈ l, r.Good) : cache UserExtra.parse (some (flush UserExtra.print l)) = .ok l :=
  roundtrip extra_format h

/-! ### The hypotheses are met -/

theorem word_of {s : Bytes} (h : (s ≠ [] ∧ ∀ c ∈ s, c ≠ 0 ∧ isSpace c = false)) : Word s :=
  ⟨h.1, fun c hc => ⟨(h.2 c hc).1, not_isSpace_iff.1 (h.2 c hc).2⟩⟩

theorem line_of {s : Bytes} (h : 0 ∉ s ∧ 10 ∉ s ∧ s.head?.map isSpace = some false) : Line s := by
  obtain ⟨h1, h2, h3⟩ := h
  cases s with
  | nil => cases h3
  | cons c x => exact ⟨h1, h2, c, x, rfl, not_isSpace_iff.1 (by simpa using h3)⟩

theorem noComment_of {s : Bytes} (h : s.head? ≠ some 35) : NoComment s := by
  rintro x rfl
  exact h rfl

example : cache Boolean.parse (some (flush (fun r : Boolean => r.name ++ 61 :: (if r.value = 1 then b "TRUE" else b "false")) [⟨b "x", 1⟩, ⟨b "y", 0⟩])) =
    .ok [⟨b "x", 1⟩, ⟨b "y", 0⟩] := by
  refine C95_booleans_spelled_partial (fun r => if r.value = 1 then b "TRUE" else b "false") ?_
  simp only [List.mem_cons, List.not_mem_nil, or_false]
  rintro r (rfl | rfl)
  · exact ⟨⟨word_of (by decide +kernel), by decide +kernel, noComment_of (by decide +kernel), Or.inr rfl⟩, _, .TRUE, by decide +kernel⟩
  · exact ⟨⟨word_of (by decide +kernel), by decide +kernel, noComment_of (by decide +kernel), Or.inl rfl⟩, _, .false, by decide +kernel⟩

theorem con_of {c : Con} (h : 58 ∉ c.user ∧ 58 ∉ c.role ∧ 58 ∉ c.type)
    (h2 : ∀ x ∈ c.user ++ c.role ++ c.type ++ c.mls.getD [], x ≠ 0 ∧ isSpace x = false) : c.Good := by
  refine ⟨h.1, h.2.1, h.2.2, ?_⟩
  intro s hs x hx
  have : x ∈ c.user ++ c.role ++ c.type ++ c.mls.getD [] := by
    rcases hs with rfl | rfl | rfl | hs
    · simp [hx]
    · simp [hx]
    · simp [hx]
    · simp [hs, hx]
  exact ⟨(h2 x this).1, not_isSpace_iff.1 (h2 x this).2⟩

/-- system_u:object_r:http_port_t:s0-s0:c0.c1023 -/
def con1 : Con := ⟨b "system_u", b "object_r", b "http_port_t", some (b "s0-s0:c0.c1023")⟩
/-- u:r:t -/
def con2 : Con := ⟨b "u", b "r", b "t", none⟩

theorem con1_good : con1.Good := con_of (by decide +kernel) (by decide +kernel)
theorem con2_good : con2.Good := con_of (by decide +kernel) (by decide +kernel)

example : (∀ r ∈ ([⟨b "__default__", b "user_u", some (b "s0-s0:c0.c1023")⟩, ⟨b "%wheel group", b "staff_u", none⟩] : List Seuser), r.Good) ∧
    flush Seuser.print [⟨b "__default__", b "user_u", some (b "s0-s0:c0.c1023")⟩, ⟨b "%wheel group", b "staff_u", none⟩] =
      header ++ b "%wheel group:staff_u\n__default__:user_u:s0-s0:c0.c1023\n" := by
  refine ⟨?_, by decide +kernel⟩
  intro r hr
  simp only [List.mem_cons, List.not_mem_nil, or_false] at hr
  rcases hr with rfl | rfl
  · refine ⟨line_of (by decide +kernel), by decide +kernel, noComment_of (by decide +kernel),
      line_of (by decide +kernel), by decide +kernel, ?_⟩
    rintro m ⟨⟩
    exact word_of (by decide +kernel)
  · refine ⟨line_of (by decide +kernel), by decide +kernel, noComment_of (by decide +kernel),
      line_of (by decide +kernel), by decide +kernel, by rintro m ⟨⟩⟩

example : (⟨b "httpd_enable_cgi", 1⟩ : Boolean).Good ∧ flush Boolean.print [⟨b "httpd_enable_cgi", 1⟩] = header ++ b "httpd_enable_cgi=1\n" := by
  exact ⟨⟨word_of (by decide +kernel), by decide +kernel, noComment_of (by decide +kernel), by decide⟩, by decide +kernel⟩

example : (⟨b "/srv/www(/.*)?", .all, some con1⟩ : Fcontext).Good ∧ (⟨b "/x", .dir, none⟩ : Fcontext).Good ∧
    flush Fcontext.print [⟨b "/srv/www(/.*)?", .all, some con2⟩, ⟨b "/x", .dir, none⟩] = header ++ b "/x -d <<none>>\n/srv/www(/.*)?    u:r:t\n" := by
  refine ⟨⟨word_of (by decide +kernel), noComment_of (by decide +kernel), by rintro c ⟨⟩; exact con1_good⟩, ⟨word_of (by decide +kernel), noComment_of (by decide +kernel), by rintro c ⟨⟩⟩,
    by decide +kernel⟩

example : (⟨.tcp, 80, 81, con1⟩ : Port).Good ∧ (⟨.sctp, 65535, 65535, con2⟩ : Port).Good ∧
    flush Port.print [⟨.tcp, 80, 81, con2⟩, ⟨.sctp, 65535, 65535, con2⟩] = header ++ b "portcon sctp 65535 u:r:t\nportcon tcp 80 - 81 u:r:t\n" := by
  refine ⟨⟨by decide, by unfold Num; decide, by unfold Num; decide, (by unfold NoDash; intro h; cases h), con1_good⟩,
    ⟨by decide, by unfold Num; decide, by unfold Num; decide, fun _ x hx => ?_, con2_good⟩, by decide +kernel⟩
  have : (b "u").head? = some 45 := by show con2.user.head? = _; rw [hx]; rfl
  exact absurd this (by decide +kernel)

example : (⟨b "eth0", con1, con2⟩ : Iface).Good ∧ (⟨b "mlx5_0", 1, con2⟩ : Ibendport).Good ∧
    flush Iface.print [⟨b "eth0", con2, con2⟩] = header ++ b "netifcon eth0 u:r:t u:r:t\n" ∧
    flush Ibendport.print [⟨b "mlx5_0", 1, con2⟩] = header ++ b "ibendportcon mlx5_0 1 u:r:t\n" :=
  ⟨⟨word_of (by decide +kernel), con1_good, con2_good⟩, ⟨word_of (by decide +kernel), by unfold Num; decide, con2_good⟩, by decide +kernel, by decide +kernel⟩

/-- Addresses that are their own texts. -/
def textAddr : AddrFns Bytes := ⟨fun s => some s, fun s => s⟩

example : (⟨false, b "10.0.0.0", b "255.0.0.0", con2⟩ : Node Bytes).Good (fun _ => textAddr) ∧
    (⟨b "fe80::", 1, 65535, con2⟩ : Ibpkey Bytes).Good textAddr ∧
    flush (Node.print fun _ => textAddr) [⟨false, b "10.0.0.0", b "255.0.0.0", con2⟩] = header ++ b "nodecon ipv4 10.0.0.0 255.0.0.0 u:r:t\n" ∧
    flush (Ibpkey.print textAddr) [⟨b "fe80::", 1, 65535, con2⟩] = header ++ b "ibpkeycon fe80:: 1 - 65535 u:r:t\n" :=
  ⟨⟨⟨word_of (by decide +kernel), rfl⟩, ⟨word_of (by decide +kernel), rfl⟩, con2_good⟩,
    ⟨⟨word_of (by decide +kernel), rfl⟩, by unfold Num; decide, by unfold Num; decide, (by unfold NoDash; intro h; cases h), con2_good⟩,
    by decide +kernel, by decide +kernel⟩

example : (⟨b "staff_u", [b "staff_r", b "sysadm_r"], some (b "s0"), some (b "s0 - s15:c0.c1023")⟩ : User).Good ∧
    (⟨b "u", [b "r"], none, none⟩ : User).Good ∧ (⟨b "staff_u", b "staff"⟩ : UserExtra).Good ∧
    flush User.print [⟨b "u", [b "r"], none, none⟩, ⟨b "staff_u", [b "staff_r", b "sysadm_r"], some (b "s0"), some (b "s0 - s15:c0.c1023")⟩] =
      header ++ b "user staff_u roles { staff_r sysadm_r } level s0 range s0 - s15:c0.c1023;\nuser u roles { r } ;\n" ∧
    flush UserExtra.print [⟨b "staff_u", b "staff"⟩] = header ++ b "user staff_u prefix staff;\n" := by
  refine ⟨⟨word_of (by decide +kernel), by simp, by decide +kernel, ?_, Or.inr ⟨_, _, rfl, rfl, word_of (by decide +kernel),
      line_of (by decide +kernel), by decide +kernel⟩⟩,
    ⟨word_of (by decide +kernel), by simp, by decide +kernel, ?_, Or.inl ⟨rfl, rfl⟩⟩,
    ⟨word_of (by decide +kernel), line_of (by decide +kernel), by decide +kernel⟩,
    by decide +kernel, by decide +kernel⟩
  · intro x hx
    simp only [List.mem_cons, List.not_mem_nil, or_false] at hx
    rcases hx with rfl | rfl
    · exact ⟨word_of (by decide +kernel), by decide +kernel, by decide +kernel⟩
    · exact ⟨word_of (by decide +kernel), by decide +kernel, by decide +kernel⟩
  · intro x hx
    simp only [List.mem_cons, List.not_mem_nil, or_false] at hx
    subst hx
    exact ⟨word_of (by decide +kernel), by decide +kernel, by decide +kernel⟩

/-! ### What is not read back -/

/-- A range with blanks, which is allowed elsewhere, makes the file of logins unreadable. -/
theorem C95_range_refuted : ∃ r : Seuser, Line r.name ∧ Line r.sename ∧ (∃ m, r.mls = some m ∧ Line m) ∧
    cache Seuser.parse (some (flush Seuser.print [r])) = .err :=
  ⟨⟨b "joe", b "user_u", some (b "s0 - s1")⟩, line_of (by decide +kernel),
    line_of (by decide +kernel),
    ⟨_, rfl, line_of (by decide +kernel)⟩, by decide +kernel⟩

/-- A login whose name starts with `#` is lost. -/
theorem C95_comment_refuted : cache Seuser.parse (some (flush Seuser.print [⟨b "#joe", b "user_u", none⟩, ⟨b "ann", b "user_u", none⟩])) =
    .ok [⟨b "ann", b "user_u", none⟩] := by decide +kernel

/-- A boolean with another value is written and makes the file unreadable; a great number is taken for another one. -/
theorem C95_value_refuted : cache Boolean.parse (some (flush Boolean.print [⟨b "x", 2⟩])) = .err ∧
    cache Boolean.parse (some (b "x=4294967297\n")) = .ok [⟨b "x", 1⟩] := by decide +kernel

/-- A user without roles is read back with a role whose name is empty. -/
theorem C95_no_roles_refuted : cache User.parse (some (flush User.print [⟨b "u", [], none, none⟩])) = .ok [⟨b "u", [[]], none, none⟩] := by decide +kernel

/-- A level without a range is lost. -/
theorem C95_level_refuted : cache User.parse (some (flush User.print [⟨b "u", [b "r"], some (b "s0"), none⟩])) = .ok [⟨b "u", [b "r"], none, none⟩] := by
  decide +kernel

/-- An expression with a blank makes the file unreadable. -/
theorem C95_blank_refuted : cache Fcontext.parse (some (flush Fcontext.print [⟨b "/my docs", .all, some con2⟩])) = .err := by decide +kernel

/-! ### Logins are found by libselinux -/

/-- What an entry of the file says. -/
def Seuser.entry (r : Seuser) : Entry := ⟨r.name, r.sename, r.mls⟩

theorem print_isEntry {r : Seuser} (h : r.Good) (hw : Word r.sename) : IsEntry true (r.print ++ [10]) r.entry := by
  obtain ⟨name, sename, mls⟩ := r
  obtain ⟨h1, h2, h3, h4, h5, h6⟩ := h
  dsimp only at *
  have hsp : Space 10 := by unfold Space; decide
  have h0 : ∀ m, mls = some m → 0 ∉ m := fun m hm hc => ((h6 m hm).2 0 hc).1 rfl
  have hfirst : ∀ c x, name ++ [58] = c :: x → ¬ Space c ∧ c ≠ 35 := by
    obtain ⟨-, -, c', x', rfl, hc'⟩ := h1
    intro c x hx
    simp at hx
    rw [← hx.1]
    exact ⟨hc', noComment_cons h3⟩
  cases mls with
  | none =>
    refine ⟨name ++ 58 :: (sename ++ [10]), [], sename ++ [10], ⟨?_, Or.inl ?_⟩, rfl, by simp, hfirst, h2, hw.1, Or.inr ⟨?_, ?_, rfl⟩⟩
    · simp [h1.1, h4.1]
    · unfold Seuser.print; simp [colon]
    · simp [h5]
    · exact ⟨fun c hc => (hw.2 c hc).2, [10], rfl, by rintro c x ⟨⟩; exact hsp⟩
  | some m =>
    have hm := h6 m rfl
    refine ⟨name ++ 58 :: (sename ++ 58 :: (m ++ [10])), [], sename ++ 58 :: (m ++ [10]), ⟨?_, Or.inl ?_⟩, rfl, by simp, hfirst, h2, hw.1,
      Or.inl ⟨m ++ [10], h5, rfl, Or.inr ⟨rfl, m, hm.1, ?_, rfl⟩⟩⟩
    · simp [h1.1, h4.1, h0 m rfl]
    · unfold Seuser.print; simp [colon]
    · exact ⟨fun c hc => (hm.2 c hc).2, [10], rfl, by rintro c x ⟨⟩; exact hsp⟩

theorem not_entry_comment {x : Bytes} : ∀ e, ¬ IsEntry true (35 :: x) e := by
  rintro e ⟨s, pre, rest, ⟨h0, ht⟩, hs, hp, hf, -⟩
  have h35 : ∃ y, s = 35 :: y := by
    cases s with
    | nil => simp at hs
    | cons c y =>
      rcases ht with ht | ⟨z, ht⟩
      · injection ht with a1 a2; exact ⟨y, by rw [← a1]⟩
      · injection ht with a1 a2; exact ⟨y, by rw [← a1]⟩
  obtain ⟨y, rfl⟩ := h35
  cases pre with
  | cons c pre =>
    injection hs with a1 a2
    have := hp c (by simp)
    rw [← a1] at this
    exact absurd this (by unfold Space; decide)
  | nil =>
    have : ∃ z, e.luser ++ [58] = 35 :: z := by
      cases hl : e.luser with
      | nil => rw [hl] at hs; injection hs with a1 a2; exact absurd a1 (by decide)
      | cons c l => rw [hl] at hs; injection hs with a1 a2; exact ⟨l ++ [58], by rw [← a1]; rfl⟩
    obtain ⟨z, hz⟩ := this
    exact (hf 35 z hz).2 rfl

theorem not_entry_empty : ∀ e, ¬ IsEntry true [10] e := by
  rintro e ⟨s, pre, rest, ⟨h0, ht⟩, hs, -⟩
  have h58 : (58 : UInt8) ∈ s := by rw [hs]; simp
  rcases ht with ht | ⟨z, ht⟩
  · rw [← ht] at h58
    exact absurd h58 (by decide)
  · have : (58 : UInt8) ∈ ([10] : Bytes) := by rw [ht]; simp [h58]
    exact absurd this (by decide)

theorem entries_of_prints : ∀ {rs : List Seuser}, (∀ r ∈ rs, r.Good ∧ Word r.sename) →
    EntriesOf true (rs.map fun r => r.print ++ [10]) (rs.map Seuser.entry)
  | [], _ => .nil
  | r :: rs, h => .entry (print_isEntry (h r (by simp)).1 (h r (by simp)).2) (entries_of_prints fun x hx => h x (List.mem_cons_of_mem _ hx))

theorem entries_of_flush {l : List Seuser} (h : ∀ r ∈ l, r.Good ∧ Word r.sename) :
    EntriesOf true (lines (flush Seuser.print l)) (l.reverse.map Seuser.entry) := by
  unfold flush
  rw [lines_append (Or.inr ⟨header.dropLast, by decide +kernel⟩)]
  have h2 := lines_prints (rest := []) (rs := l.reverse) (print := Seuser.print) fun r hr => (seuser_line r (h r (List.mem_reverse.1 hr)).1).1
  rw [List.append_nil] at h2
  rw [h2, show lines ([] : Bytes) = [] from rfl, List.append_nil]
  have hh : ∃ x y, lines header = [35 :: x, 35 :: y, [10]] := by
    have e : lines header = [(35 : UInt8) :: (lines header)[0]!.tail, (35 : UInt8) :: (lines header)[1]!.tail, [10]] := by decide +kernel
    exact ⟨_, _, e⟩
  obtain ⟨x, y, hh⟩ := hh
  rw [hh]
  exact .other not_entry_comment (.other not_entry_comment (.other not_entry_empty (entries_of_prints fun r hr => h r (List.mem_reverse.1 hr))))

/-- A login that libsemanage wrote is what libselinux finds for the user, if each name is there once. -/
theorem C95_login_partial {l : List Seuser} (h : ∀ r ∈ l, r.Good ∧ Word r.sename) (hnd : (l.map (·.name)).Nodup) {r : Seuser} (hr : r ∈ l)
    (require : Bool) (member : Bytes → Bool) :
    getseuserbyname require true member (some (flush Seuser.print l)) r.name = some (r.sename, r.mls) := by
  refine ((C92_byname require true member r.name).1 _ _ _ (linesOf_iff.2 rfl) (entries_of_flush h)).1 r.entry ?_
  obtain ⟨pre, post, hs⟩ := List.append_of_mem (List.mem_reverse.2 hr)
  refine ⟨pre.map Seuser.entry, post.map Seuser.entry, by rw [hs]; simp, rfl, ?_⟩
  intro e he hf
  obtain ⟨q, hq, rfl⟩ := List.mem_map.1 he
  have hnd' : ((pre ++ r :: post).map (·.name)).Nodup := by rw [← hs, List.map_reverse]; exact (List.reverse_perm _).nodup_iff.2 hnd
  rw [List.map_append, List.nodup_append] at hnd'
  exact hnd'.2.2 q.name (List.mem_map.2 ⟨q, hq, rfl⟩) r.name (by simp) hf

example : getseuserbyname true true (fun _ => false)
    (some (flush Seuser.print [⟨b "joe", b "joe_u", some (b "s0")⟩, ⟨b "ann", b "staff_u", some (b "s0-s1")⟩])) (b "ann") =
      some (b "staff_u", some (b "s0-s1")) := by decide +kernel

/-! ## C96: reading local customisations -/

/-- Whatever a file contains, these files are read without reading outside of a line. -/
theorem C96_safe_partial {A : Type} (f : Bool → AddrFns A) (g : AddrFns A) (file : Option Bytes) :
    cache Seuser.parse file ≠ .ub ∧ cache Fcontext.parse file ≠ .ub ∧ cache Port.parse file ≠ .ub ∧ cache Iface.parse file ≠ .ub ∧
    cache Ibendport.parse file ≠ .ub ∧ cache (Node.parse f) file ≠ .ub ∧ cache (Ibpkey.parse g) file ≠ .ub ∧ cache UserExtra.parse file ≠ .ub :=
  have C : Closed (fun {α} p => Safe (α := α) p) := safe_closed
  ⟨cache_safe (closed_seuser C) file, cache_safe (closed_fcontext C) file, cache_safe (closed_port C) file, cache_safe (closed_iface C) file,
    cache_safe (closed_ibendport C) file, cache_safe (closed_node C f) file, cache_safe (closed_ibpkey C g) file, cache_safe (closed_extra C) file⟩

/-- What is missing is false: a boolean without a value at the end of the file is read through a null pointer, and so is a user without a
semicolon there; behind a role at the end of a file without a last newline the parser leaves the buffer. -/
theorem C96_null_refuted : cache Boolean.parse (some (b "x=\n")) = .ub ∧ cache User.parse (some (b "user u roles r\n")) = .ub ∧
    cache User.parse (some (b "user u roles r")) = .ub := by decide +kernel

/-- The loops over records and roles end: more turns than there are bytes change nothing. -/
theorem C96_terminates {A : Type} (f : Bool → AddrFns A) (g : AddrFns A) (s : St) (n m : Nat) (hn : s.size < n) (hm : s.size < m) :
    (∀ acc, cacheLoop Seuser.parse n acc s = cacheLoop Seuser.parse m acc s) ∧ (∀ acc, cacheLoop Boolean.parse n acc s = cacheLoop Boolean.parse m acc s) ∧
    (∀ acc, cacheLoop Fcontext.parse n acc s = cacheLoop Fcontext.parse m acc s) ∧ (∀ acc, cacheLoop Port.parse n acc s = cacheLoop Port.parse m acc s) ∧
    (∀ acc, cacheLoop Iface.parse n acc s = cacheLoop Iface.parse m acc s) ∧ (∀ acc, cacheLoop Ibendport.parse n acc s = cacheLoop Ibendport.parse m acc s) ∧
    (∀ acc, cacheLoop (Node.parse f) n acc s = cacheLoop (Node.parse f) m acc s) ∧
    (∀ acc, cacheLoop (Ibpkey.parse g) n acc s = cacheLoop (Ibpkey.parse g) m acc s) ∧
    (∀ acc, cacheLoop User.parse n acc s = cacheLoop User.parse m acc s) ∧ (∀ acc, cacheLoop UserExtra.parse n acc s = cacheLoop UserExtra.parse m acc s) ∧
    (∀ islist roles, rolesLoop n islist roles s = rolesLoop m islist roles s) :=
  ⟨fun acc => cacheLoop_fuel takes_seuser n m acc s hn hm, fun acc => cacheLoop_fuel takes_boolean n m acc s hn hm,
    fun acc => cacheLoop_fuel takes_fcontext n m acc s hn hm, fun acc => cacheLoop_fuel takes_port n m acc s hn hm,
    fun acc => cacheLoop_fuel takes_iface n m acc s hn hm, fun acc => cacheLoop_fuel takes_ibendport n m acc s hn hm,
    fun acc => cacheLoop_fuel (takes_node f) n m acc s hn hm, fun acc => cacheLoop_fuel (takes_ibpkey g) n m acc s hn hm,
    fun acc => cacheLoop_fuel takes_user n m acc s hn hm, fun acc => cacheLoop_fuel takes_extra n m acc s hn hm,
    fun islist roles => rolesLoop_fuel n m islist roles s hn hm⟩

/-- A comment or an empty line between lines changes nothing, not even within a record. -/
theorem C96_comments {A : Type} (f : Bool → AddrFns A) (g : AddrFns A) {pre line post : Bytes} (hp : WholeLines pre) (hl : Idle line) :
    cache Seuser.parse (some (pre ++ line ++ post)) = cache Seuser.parse (some (pre ++ post)) ∧
    cache Boolean.parse (some (pre ++ line ++ post)) = cache Boolean.parse (some (pre ++ post)) ∧
    cache Fcontext.parse (some (pre ++ line ++ post)) = cache Fcontext.parse (some (pre ++ post)) ∧
    cache Port.parse (some (pre ++ line ++ post)) = cache Port.parse (some (pre ++ post)) ∧
    cache Iface.parse (some (pre ++ line ++ post)) = cache Iface.parse (some (pre ++ post)) ∧
    cache Ibendport.parse (some (pre ++ line ++ post)) = cache Ibendport.parse (some (pre ++ post)) ∧
    cache (Node.parse f) (some (pre ++ line ++ post)) = cache (Node.parse f) (some (pre ++ post)) ∧
    cache (Ibpkey.parse g) (some (pre ++ line ++ post)) = cache (Ibpkey.parse g) (some (pre ++ post)) ∧
    cache User.parse (some (pre ++ line ++ post)) = cache User.parse (some (pre ++ post)) ∧
    cache UserExtra.parse (some (pre ++ line ++ post)) = cache UserExtra.parse (some (pre ++ post)) :=
  have C : Closed (fun {α} p => Resp (α := α) p) := resp_closed
  have O : ∀ str : Bytes, 0 ∉ str → Resp (optionalStr str) := fun str _ => resp_optStr str
  have h := idle_lines (r := post) hp hl
  ⟨cache_resp (closed_seuser C) takes_seuser h, cache_resp (closed_boolean C O) takes_boolean h, cache_resp (closed_fcontext C) takes_fcontext h,
    cache_resp (closed_port C) takes_port h, cache_resp (closed_iface C) takes_iface h, cache_resp (closed_ibendport C) takes_ibendport h,
    cache_resp (closed_node C f) (takes_node f) h, cache_resp (closed_ibpkey C g) (takes_ibpkey g) h,
    cache_resp (closed_user C O resp_roles) takes_user h, cache_resp (closed_extra C) takes_extra h⟩

example : WholeLines (b "portcon tcp\n") ∧ Idle (b "  # web\n") ∧
    cache Port.parse (some (b "portcon tcp\n" ++ b "  # web\n" ++ b "80 u:r:t\n")) = .ok [⟨.tcp, 80, 80, con2⟩] :=
  ⟨Or.inr ⟨b "portcon tcp", by decide +kernel⟩, ⟨b "  # web", by decide +kernel, by decide +kernel, Or.inr ⟨[32, 32], b " web", by decide +kernel,
    fun c hc => isSpace_iff.1 (by revert c; decide)⟩⟩, by decide +kernel⟩

end Verif.LocalFile
