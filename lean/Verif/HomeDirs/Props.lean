import Verif.HomeDirs.Lemmas
import Verif.Config.Lemmas
/-! # Properties of the file contexts of home directories -/
namespace Verif.HomeDirs
open Verif.FileLabel (isspace)
open Verif.LabelObj (str drop_all drop_head take_all take_head mem_take)
open Spec

theorem space_iff (b : UInt8) : isspace b = true ↔ space b := Config.space_iff b

/-! ## C119: replacing -/

/-- `semanage_str_replace` gives the text with the occurrences replaced, as many as
asked for, and stays in its buffer. -/
theorem C119_replace (search repl src : Bytes) (lim : Nat) (hp : search ≠ []) (hs : Fits src) :
    ∃ out, Replaced search repl (if lim = 0 then none else some lim) src out ∧
      (∀ out', Replaced search repl (if lim = 0 then none else some lim) src out' → out' = out) ∧
      (Fits out → strReplace search repl src lim = .ok out) := by
  obtain ⟨m, _, h2, h3, h4⟩ := count_eq hp (lim := lim) (n := src.length + 1) (c := 0) (s := src) (by omega) (by omega)
  rw [Nat.zero_add] at h4
  have hr : Replaced search repl (if lim = 0 then none else some lim) src (reps search repl m src) := by
    split
    · rename_i hl
      exact reps_all h2 (h3 hl)
    · rename_i hl
      exact reps_some h2 (h4 hl).1 (h4 hl).2
  exact ⟨_, hr, fun out' h => replaced_unique h hr, fun ho => strReplace_ok hp hr hs ho⟩

example : strReplace (ascii "aa") (ascii "b") (ascii "xaaaay aa") 0 = .ok (ascii "xbby b") ∧
    strReplace (ascii "aa") (ascii "bcd") (ascii "xaaaay aa") 1 = .ok (ascii "xbcdaay aa") ∧
    strReplace (ascii "aa") [] (ascii "aaa") 3 = .ok (ascii "a") ∧ Fits (ascii "xaaaay aa") := by
  refine ⟨by decide +kernel, by decide +kernel, by decide +kernel, ?_⟩
  unfold Fits
  decide +kernel

/-! ## Lines -/

theorem extract_word {p w : Bytes} {c : UInt8} (hc : space c) (hw : Word w) : extractContext (p ++ [c] ++ w) = some w := by
  have hne := hw.1
  have hlast : ∀ x, w.reverse.head? = some x → isspace x = false := by
    intro x hx
    have hm : x ∈ w := List.mem_reverse.1 (List.mem_of_head? hx)
    have := hw.2 x hm
    rw [← space_iff] at this
    simpa using this
  have hrev : (p ++ [c] ++ w).reverse = w.reverse ++ c :: p.reverse := by simp
  have hhead : ∀ x, (w.reverse ++ c :: p.reverse).head? = some x → isspace x = false := by
    intro x hx
    cases hr : w.reverse with
    | nil => exact absurd (List.reverse_eq_nil_iff.1 hr) hne
    | cons y r =>
      rw [hr] at hx hlast
      exact hlast x hx
  unfold extractContext
  simp only [hrev, take_head hhead, drop_head hhead]
  rw [if_neg]
  · rw [take_all (fun x hx => by
        have := hw.2 x (List.mem_reverse.1 hx)
        rw [← space_iff] at this
        simpa using this), List.takeWhile_cons_of_neg (by simpa using (space_iff c).2 hc)]
    simp
  · have : 1 ≤ w.length := List.length_pos_iff.2 hne
    simp only [List.length_append, List.length_reverse, List.length_cons]
    omega

theorem writeAll_mem {f : Bytes → Out} {tpl out : List Bytes} (h : writeAll f tpl = some out) {t l : Bytes} (ht : t ∈ tpl)
    (hl : f t = .line l) : l ∈ out := by
  induction tpl generalizing out with
  | nil => cases ht
  | cons a tpl ih =>
    rw [writeAll] at h
    rcases List.mem_cons.1 ht with rfl | ht
    · rw [hl] at h
      dsimp only at h
      cases hw : writeAll f tpl with
      | none => rw [hw] at h; cases h
      | some o =>
        rw [hw] at h
        cases h
        exact List.mem_cons_self
    · cases ha : f a with
      | fail => rw [ha] at h; cases h
      | skip => rw [ha] at h; exact ih h ht
      | line x =>
        rw [ha] at h
        dsimp only at h
        cases hw : writeAll f tpl with
        | none => rw [hw] at h; cases h
        | some o =>
          rw [hw] at h
          cases h
          exact List.mem_cons_of_mem _ (ih hw ht)

theorem writeAll_from {f : Bytes → Out} {tpl out : List Bytes} (h : writeAll f tpl = some out) {l : Bytes} (hl : l ∈ out) :
    ∃ t ∈ tpl, f t = .line l := by
  induction tpl generalizing out with
  | nil => cases h; cases hl
  | cons a tpl ih =>
    rw [writeAll] at h
    cases ha : f a with
    | fail => rw [ha] at h; cases h
    | skip =>
      rw [ha] at h
      obtain ⟨t, ht, e⟩ := ih h hl
      exact ⟨t, List.mem_cons_of_mem _ ht, e⟩
    | line x =>
      rw [ha] at h
      dsimp only at h
      cases hw : writeAll f tpl with
      | none => rw [hw] at h; cases h
      | some o =>
        rw [hw] at h
        cases h
        rcases List.mem_cons.1 hl with rfl | hl
        · exact ⟨a, List.mem_cons_self, ha⟩
        · obtain ⟨t, ht, e⟩ := ih hw hl
          exact ⟨t, List.mem_cons_of_mem _ ht, e⟩

theorem andThen_some {a b : Option (List Bytes)} {out : List Bytes} (h : andThen a b = some out) :
    ∃ x y, a = some x ∧ b = some y ∧ out = x ++ y := by
  unfold andThen at h
  cases a with
  | none => cases h
  | some x =>
    cases b with
    | none => cases h
    | some y => cases h; exact ⟨x, y, rfl, rfl, rfl⟩

theorem forEach_some {α : Type} {f : α → Option (List Bytes)} {as : List α} {out : List Bytes} (h : forEach f as = some out) :
    (∀ a ∈ as, ∃ x, f a = some x ∧ ∀ l ∈ x, l ∈ out) ∧ ∀ l ∈ out, ∃ a ∈ as, ∃ x, f a = some x ∧ l ∈ x := by
  induction as generalizing out with
  | nil => cases h; simp
  | cons a as ih =>
    obtain ⟨x, y, hx, hy, rfl⟩ := andThen_some h
    obtain ⟨h1, h2⟩ := ih hy
    constructor
    · intro b hb
      rcases List.mem_cons.1 hb with rfl | hb
      · exact ⟨x, hx, fun l hl => List.mem_append_left _ hl⟩
      · obtain ⟨z, hz, hl⟩ := h1 b hb
        exact ⟨z, hz, fun l h => List.mem_append_right _ (hl l h)⟩
    · intro l hl
      rcases List.mem_append.1 hl with hl | hl
      · exact ⟨a, List.mem_cons_self, x, hx, hl⟩
      · obtain ⟨b, hb, z, hz, hl⟩ := h2 l hl
        exact ⟨b, List.mem_cons_of_mem _ hb, z, hz, hl⟩

theorem dir_ne : str "HOME_DIR" ≠ [] := by decide +kernel
theorem role_ne : str "ROLE" ≠ [] := by decide +kernel
theorem root_ne : str "HOME_ROOT" ≠ [] := by decide +kernel

theorem mentions {t pre post : Bytes} (h : t = pre ++ ascii "USER" ++ post) : isUser t = true ∨ isName t = true := by
  by_cases hn : isName t = true
  · exact Or.inr hn
  · left
    unfold isUser
    rw [if_neg hn]
    cases hs : strstr (str "USER") t with
    | none => exact absurd h (strstr_none hs pre post)
    | some i => rfl

/-- The line for a user, after replacing, if the context is not also part of the path. -/
theorem userLine_ctx {e : Env} {u : User} {repl : List (Bytes × Bytes)} {t r p w new : Bytes} {c : UInt8} (ha : replaceAll t repl = .ok r)
    (hr : r = p ++ [c] ++ w) (hc : space c) (hw : Word w) (hnone : w ≠ ascii "<<none>>")
    (hf : FirstAt w r (p ++ [c]) []) (hu : e.forUser u w = some new) (hnew : Word new) (hv : e.valid new = true)
    (f2 : Fits r) (f3 : Fits (p ++ [c] ++ new)) : userLine e u repl t = .line (p ++ [c] ++ new) := by
  have e3 : strReplace w new r 1 = .ok (p ++ [c] ++ new) := by
    have hrep : Replaced w new (some 1) r (p ++ [c] ++ new ++ []) := .some 0 _ _ _ _ hf (.stop _)
    rw [List.append_nil] at hrep
    exact strReplace_ok hw.1 hrep f2 f3
  unfold userLine
  simp only [ha]
  rw [hr, extract_word hc hw, ← hr]
  dsimp only
  rw [if_neg (show ¬ w = str "<<none>>" from hnone), hu]
  dsimp only
  rw [e3]
  dsimp only
  rw [if_pos]
  unfold checkLine
  rw [extract_word hc hnew]
  exact hv

theorem none_word : Word (ascii "<<none>>") := ⟨by decide +kernel, by unfold space; decide +kernel⟩

/-- A line without a context, after replacing. -/
theorem userLine_none {e : Env} {u : User} {repl : List (Bytes × Bytes)} {t r p : Bytes} {c : UInt8} (ha : replaceAll t repl = .ok r)
    (hr : r = p ++ [c] ++ ascii "<<none>>") (hc : space c) (hv : e.valid (ascii "<<none>>") = true) : userLine e u repl t = .line r := by
  unfold userLine
  simp only [ha]
  rw [hr, extract_word hc none_word]
  dsimp only
  rw [if_pos (show ascii "<<none>>" = str "<<none>>" from rfl), if_pos]
  unfold checkLine
  rw [extract_word hc none_word]
  exact hv

/-- The line for a user, if the context is not also part of the path. -/
theorem userLine_ok {e : Env} {u : User} {t r1 r p w new : Bytes} {c : UInt8} (h1 : Replaced (ascii "HOME_DIR") u.home none t r1)
    (h2 : Replaced (ascii "ROLE") u.pfx none r1 r) (hr : r = p ++ [c] ++ w) (hc : space c) (hw : Word w) (hnone : w ≠ ascii "<<none>>")
    (hf : FirstAt w r (p ++ [c]) []) (hu : e.forUser u w = some new) (hnew : Word new) (hv : e.valid new = true)
    (f0 : Fits t) (f1 : Fits r1) (f2 : Fits r) (f3 : Fits (p ++ [c] ++ new)) :
    userLine e u [(str "HOME_DIR", u.home), (str "ROLE", u.pfx)] t = .line (p ++ [c] ++ new) := by
  have e1 : strReplace (str "HOME_DIR") u.home t 0 = .ok r1 := strReplace_ok dir_ne h1 f0 f1
  have e2 : strReplace (str "ROLE") u.pfx r1 0 = .ok r := strReplace_ok role_ne h2 f1 f2
  exact userLine_ctx (by simp only [replaceAll, e1, e2]) hr hc hw hnone hf hu hnew hv f2 f3

/-! ## C119: the file -/

/-- Each user has each line for home directories, with the directory, the prefix and
the context of the user, if the new context is valid, the old one is not also in the
path, and some line of the template is for users. -/
theorem C119_home_partial (e : Env) (hs : List Bytes) (us : List User) (fb : User) (tpl out : List Bytes)
    (h : contextFile e hs us fb tpl = some out) (hne : hs ≠ []) (hm : ∃ t ∈ tpl, ∃ pre post, t = pre ++ ascii "USER" ++ post)
    (u : User) (hu : u ∈ us) (t rest : Bytes) (ht : t ∈ tpl) (hd : t = ascii "HOME_DIR" ++ rest)
    (r1 r p w new : Bytes) (c : UInt8) (h1 : Replaced (ascii "HOME_DIR") u.home none t r1)
    (h2 : Replaced (ascii "ROLE") u.pfx none r1 r) (hr : r = p ++ [c] ++ w) (hc : space c) (hw : Word w) (hnone : w ≠ ascii "<<none>>")
    (hf : FirstAt w r (p ++ [c]) []) (hctx : e.forUser u w = some new) (hnew : Word new) (hv : e.valid new = true)
    (f0 : Fits t) (f1 : Fits r1) (f2 : Fits r) (f3 : Fits (p ++ [c] ++ new)) :
    p ++ [c] ++ new ∈ out := by
  have hl := userLine_ok h1 h2 hr hc hw hnone hf hctx hnew hv f0 f1 f2 f3
  have hdir : t ∈ tpl.filter isDir := by
    rw [List.mem_filter]
    refine ⟨ht, ?_⟩
    unfold isDir
    rw [List.isPrefixOf_iff_prefix]
    exact ⟨rest, hd.symm⟩
  unfold contextFile at h
  dsimp only at h
  rw [if_neg (fun hh => hne hh.2)] at h
  obtain ⟨x, y, _, hy, rfl⟩ := andThen_some h
  have hus : tpl.filter isUser ≠ [] ∨ tpl.filter isName ≠ [] := by
    obtain ⟨t', ht', pre, post, e'⟩ := hm
    rcases mentions e' with hh | hh
    · exact Or.inl (List.ne_nil_of_mem (List.mem_filter.2 ⟨ht', hh⟩))
    · exact Or.inr (List.ne_nil_of_mem (List.mem_filter.2 ⟨ht', hh⟩))
  rw [if_pos hus] at hy
  obtain ⟨_, y1, _, hy1, rfl⟩ := andThen_some hy
  obtain ⟨_, y2, _, hy2, rfl⟩ := andThen_some hy1
  obtain ⟨z, hz, hzl⟩ := (forEach_some hy2).1 u hu
  obtain ⟨z1, z2, hz1, _, rfl⟩ := andThen_some hz
  have := writeAll_mem hz1 hdir hl
  simp only [List.mem_append]
  exact Or.inr (Or.inr (Or.inr (hzl _ (List.mem_append_left _ this))))

/-- Each directory of home directories has each line for them, with an expression for
all users. -/
theorem C119_fallback_partial (e : Env) (hs : List Bytes) (us : List User) (fb : User) (tpl out : List Bytes)
    (h : contextFile e hs us fb tpl = some out) (d : Bytes) (hd : d ∈ hs) (t rest : Bytes) (ht : t ∈ tpl) (hdir : t = ascii "HOME_DIR" ++ rest)
    (r1 r p w new : Bytes) (c : UInt8) (h1 : Replaced (ascii "HOME_DIR") (d ++ ascii "/[^/]+") none t r1)
    (h2 : Replaced (ascii "ROLE") fb.pfx none r1 r) (hr : r = p ++ [c] ++ w) (hc : space c) (hw : Word w) (hnone : w ≠ ascii "<<none>>")
    (hf : FirstAt w r (p ++ [c]) []) (hctx : e.forUser { fb with home := d ++ ascii "/[^/]+" } w = some new) (hnew : Word new)
    (hv : e.valid new = true) (f0 : Fits t) (f1 : Fits r1) (f2 : Fits r) (f3 : Fits (p ++ [c] ++ new)) :
    p ++ [c] ++ new ∈ out := by
  have hl := userLine_ok (u := { fb with home := d ++ ascii "/[^/]+" }) h1 h2 hr hc hw hnone hf hctx hnew hv f0 f1 f2 f3
  have hmem : t ∈ tpl.filter isDir := by
    rw [List.mem_filter]
    refine ⟨ht, ?_⟩
    unfold isDir
    rw [List.isPrefixOf_iff_prefix]
    exact ⟨rest, hdir.symm⟩
  unfold contextFile at h
  dsimp only at h
  rw [if_neg (fun hh => List.ne_nil_of_mem hd hh.2)] at h
  obtain ⟨x, y, hx, _, rfl⟩ := andThen_some h
  rw [if_pos (Or.inl (List.ne_nil_of_mem hmem))] at hx
  obtain ⟨z, hz, hzl⟩ := (forEach_some hx).1 d hd
  obtain ⟨z1, z2, hz1, _, rfl⟩ := andThen_some hz
  exact List.mem_append_left _ (hzl _ (List.mem_append_left _ (writeAll_mem hz1 hmem hl)))

/-- Each directory of home directories has each line for it, with its context. -/
theorem C119_root (e : Env) (hs : List Bytes) (us : List User) (fb : User) (tpl out : List Bytes)
    (h : contextFile e hs us fb tpl = some out) (d : Bytes) (hd : d ∈ hs) (t rest : Bytes) (ht : t ∈ tpl) (hroot : t = ascii "HOME_ROOT" ++ rest)
    (r p w : Bytes) (c : UInt8) (h1 : Replaced (ascii "HOME_ROOT") d none t r) (hr : r = p ++ [c] ++ w) (hc : space c) (hw : Word w)
    (hv : e.valid w = true) (f0 : Fits t) (f1 : Fits r) : r ∈ out := by
  have hl : replLine e [(str "HOME_ROOT", d)] t = .line r := by
    have e1 : strReplace (str "HOME_ROOT") d t 0 = .ok r := strReplace_ok root_ne h1 f0 f1
    unfold replLine
    simp only [replaceAll, e1]
    rw [if_pos]
    unfold checkLine
    rw [hr, extract_word hc hw]
    exact hv
  have hmem : t ∈ tpl.filter isRoot := by
    rw [List.mem_filter]
    refine ⟨ht, ?_⟩
    unfold isRoot
    rw [List.isPrefixOf_iff_prefix]
    exact ⟨rest, hroot.symm⟩
  unfold contextFile at h
  dsimp only at h
  rw [if_neg (fun hh => List.ne_nil_of_mem hd hh.2)] at h
  obtain ⟨x, y, hx, _, rfl⟩ := andThen_some h
  rw [if_pos (Or.inr (List.ne_nil_of_mem hmem))] at hx
  obtain ⟨z, hz, hzl⟩ := (forEach_some hx).1 d hd
  obtain ⟨z1, z2, _, hz2, rfl⟩ := andThen_some hz
  exact List.mem_append_left _ (hzl _ (List.mem_append_right _ (writeAll_mem hz2 hmem hl)))

theorem user_ne : str "USER" ≠ [] := by decide +kernel

/-- What is written for users. -/
theorem file_users {e : Env} {hs : List Bytes} {us : List User} {fb : User} {tpl out : List Bytes}
    (h : contextFile e hs us fb tpl = some out) (hd : hs ≠ [] ∨ ∀ t ∈ tpl, isDir t = false ∧ isRoot t = false)
    (hm : ∃ t ∈ tpl, isUser t = true ∨ isName t = true) (u : User) (hu : u ∈ us ∨ u = fb) :
    (∃ y, userCtx e (tpl.filter isUser) u = some y ∧ ∀ l ∈ y, l ∈ out) ∧
    ∃ y, userName e (tpl.filter isName) u = some y ∧ ∀ l ∈ y, l ∈ out := by
  unfold contextFile at h
  dsimp only at h
  rw [if_neg] at h
  · obtain ⟨x, y, _, hy, rfl⟩ := andThen_some h
    have hus : tpl.filter isUser ≠ [] ∨ tpl.filter isName ≠ [] := by
      obtain ⟨t', ht', hh | hh⟩ := hm
      · exact Or.inl (List.ne_nil_of_mem (List.mem_filter.2 ⟨ht', hh⟩))
      · exact Or.inr (List.ne_nil_of_mem (List.mem_filter.2 ⟨ht', hh⟩))
    rw [if_pos hus] at hy
    obtain ⟨y0, y1, hy0, hy1, rfl⟩ := andThen_some hy
    obtain ⟨y3, y2, hy3, hy2, rfl⟩ := andThen_some hy1
    rcases hu with hu | rfl
    · obtain ⟨z, hz, hzl⟩ := (forEach_some hy2).1 u hu
      obtain ⟨z1, z2, _, hz2, rfl⟩ := andThen_some hz
      obtain ⟨z3, z4, hz3, hz4, rfl⟩ := andThen_some hz2
      refine ⟨⟨z4, hz4, fun l hl => ?_⟩, z3, hz3, fun l hl => ?_⟩
      · simp only [List.mem_append]
        exact Or.inr (Or.inr (Or.inr (hzl l (List.mem_append_right _ (List.mem_append_right _ hl)))))
      · simp only [List.mem_append]
        exact Or.inr (Or.inr (Or.inr (hzl l (List.mem_append_right _ (List.mem_append_left _ hl)))))
    · refine ⟨⟨y3, hy3, fun l hl => ?_⟩, y0, hy0, fun l hl => ?_⟩
      · simp only [List.mem_append]
        exact Or.inr (Or.inr (Or.inl hl))
      · simp only [List.mem_append]
        exact Or.inr (Or.inl hl)
  · rintro ⟨hh, rfl⟩
    rcases hd with hd | hd
    · exact hd rfl
    · rcases hh with hh | hh <;> apply hh <;> rw [List.filter_eq_nil_iff] <;> intro t ht
      · simp [(hd t ht).1]
      · simp [(hd t ht).2]

/-- Each user, and the expression for all users, has each line that says `USER` (and
not one of the new names), with the name, the prefix and the context of the user. A
line without a context is written as it is. -/
theorem C119_user_partial (e : Env) (hs : List Bytes) (us : List User) (fb : User) (tpl out : List Bytes)
    (h : contextFile e hs us fb tpl = some out)
    (hd : hs ≠ [] ∨ ∀ t ∈ tpl, ∀ rest, t ≠ ascii "HOME_DIR" ++ rest ∧ t ≠ ascii "HOME_ROOT" ++ rest)
    (u : User) (hu : u ∈ us ∨ u = fb) (t : Bytes) (ht : t ∈ tpl) (hm : ∃ pre post, t = pre ++ ascii "USER" ++ post)
    (hn1 : ∀ pre post, t ≠ pre ++ ascii "%{USERNAME}" ++ post) (hn2 : ∀ pre post, t ≠ pre ++ ascii "%{USERID}" ++ post)
    (r1 r p w : Bytes) (c : UInt8) (h1 : Replaced (ascii "USER") u.name none t r1)
    (h2 : Replaced (ascii "ROLE") u.pfx none r1 r) (hr : r = p ++ [c] ++ w) (hc : space c) (f0 : Fits t) (f1 : Fits r1) (f2 : Fits r) :
    (∀ new, Word w → w ≠ ascii "<<none>>" → FirstAt w r (p ++ [c]) [] → e.forUser u w = some new → Word new → e.valid new = true →
      Fits (p ++ [c] ++ new) → p ++ [c] ++ new ∈ out) ∧
    (w = ascii "<<none>>" → e.valid w = true → r ∈ out) := by
  have e1 : strReplace (str "USER") u.name t 0 = .ok r1 := strReplace_ok user_ne h1 f0 f1
  have e2 : strReplace (str "ROLE") u.pfx r1 0 = .ok r := strReplace_ok role_ne h2 f1 f2
  have ha : replaceAll t [(str "USER", u.name), (str "ROLE", u.pfx)] = .ok r := by simp only [replaceAll, e1, e2]
  have hname : isName t = false := by
    have hno : ∀ pat : Bytes, (∀ pre post, t ≠ pre ++ pat ++ post) → (strstr pat t).isSome = false := by
      intro pat hp
      cases hs : strstr pat t with
      | none => rfl
      | some i => exact absurd (strstr_some hs).1.1 (hp _ _)
    unfold isName
    rw [hno (str "%{USERNAME}") hn1, hno (str "%{USERID}") hn2]; rfl
  obtain ⟨pre, post, hm⟩ := hm
  have hiu : isUser t = true := (mentions hm).elim id fun h => by rw [hname] at h; cases h
  have hd' : hs ≠ [] ∨ ∀ t ∈ tpl, isDir t = false ∧ isRoot t = false := hd.imp id fun hd t ht => by
    constructor
    · unfold isDir
      rw [← Bool.not_eq_true, List.isPrefixOf_iff_prefix]
      rintro ⟨rest, h⟩
      exact (hd t ht rest).1 h.symm
    · unfold isRoot
      rw [← Bool.not_eq_true, List.isPrefixOf_iff_prefix]
      rintro ⟨rest, h⟩
      exact (hd t ht rest).2 h.symm
  obtain ⟨y, hy, hyl⟩ := (file_users h hd' ⟨t, ht, Or.inl hiu⟩ u hu).1
  have hmem : t ∈ tpl.filter isUser := List.mem_filter.2 ⟨ht, hiu⟩
  constructor
  · intro new hw hnone hf hctx hnew hv f3
    exact hyl _ (writeAll_mem hy hmem (userLine_ctx ha hr hc hw hnone hf hctx hnew hv f2 f3))
  · rintro rfl hv
    exact hyl _ (writeAll_mem hy hmem (userLine_none ha hr hc hv))

theorem name_ne : str "%{USERNAME}" ≠ [] := by decide +kernel
theorem id_ne : str "%{USERID}" ≠ [] := by decide +kernel

/-- The same for each line that says `%{USERNAME}` or `%{USERID}`. -/
theorem C119_name_partial (e : Env) (hs : List Bytes) (us : List User) (fb : User) (tpl out : List Bytes)
    (h : contextFile e hs us fb tpl = some out)
    (hd : hs ≠ [] ∨ ∀ t ∈ tpl, ∀ rest, t ≠ ascii "HOME_DIR" ++ rest ∧ t ≠ ascii "HOME_ROOT" ++ rest)
    (u : User) (hu : u ∈ us ∨ u = fb) (t : Bytes) (ht : t ∈ tpl)
    (hm : ∃ pre post, t = pre ++ ascii "%{USERNAME}" ++ post ∨ t = pre ++ ascii "%{USERID}" ++ post)
    (r1 r2 r p w : Bytes) (c : UInt8) (h1 : Replaced (ascii "%{USERNAME}") u.name none t r1) (h2 : Replaced (ascii "%{USERID}") u.uid none r1 r2)
    (h3 : Replaced (ascii "ROLE") u.pfx none r2 r) (hr : r = p ++ [c] ++ w) (hc : space c)
    (f0 : Fits t) (f1 : Fits r1) (f2 : Fits r2) (f3 : Fits r) :
    (∀ new, Word w → w ≠ ascii "<<none>>" → FirstAt w r (p ++ [c]) [] → e.forUser u w = some new → Word new → e.valid new = true →
      Fits (p ++ [c] ++ new) → p ++ [c] ++ new ∈ out) ∧
    (w = ascii "<<none>>" → e.valid w = true → r ∈ out) := by
  have e1 : strReplace (str "%{USERNAME}") u.name t 0 = .ok r1 := strReplace_ok name_ne h1 f0 f1
  have e2 : strReplace (str "%{USERID}") u.uid r1 0 = .ok r2 := strReplace_ok id_ne h2 f1 f2
  have e3 : strReplace (str "ROLE") u.pfx r2 0 = .ok r := strReplace_ok role_ne h3 f2 f3
  have ha : replaceAll t [(str "%{USERNAME}", u.name), (str "%{USERID}", u.uid), (str "ROLE", u.pfx)] = .ok r := by
    simp only [replaceAll, e1, e2, e3]
  have hin : isName t = true := by
    obtain ⟨pre, post, hm⟩ := hm
    have hyes : ∀ pat : Bytes, t = pre ++ pat ++ post → (strstr pat t).isSome = true := by
      intro pat hp
      cases hs : strstr pat t with
      | none => exact absurd hp (strstr_none hs _ _)
      | some i => rfl
    unfold isName
    rw [Bool.or_eq_true]
    exact hm.imp (hyes _) (hyes _)
  have hd' : hs ≠ [] ∨ ∀ t ∈ tpl, isDir t = false ∧ isRoot t = false := hd.imp id fun hd t ht => by
    constructor
    · unfold isDir
      rw [← Bool.not_eq_true, List.isPrefixOf_iff_prefix]
      rintro ⟨rest, h⟩
      exact (hd t ht rest).1 h.symm
    · unfold isRoot
      rw [← Bool.not_eq_true, List.isPrefixOf_iff_prefix]
      rintro ⟨rest, h⟩
      exact (hd t ht rest).2 h.symm
  obtain ⟨y, hy, hyl⟩ := (file_users h hd' ⟨t, ht, Or.inr hin⟩ u hu).2
  have hmem : t ∈ tpl.filter isName := List.mem_filter.2 ⟨ht, hin⟩
  constructor
  · intro new hw hnone hf hctx hnew hv f4
    exact hyl _ (writeAll_mem hy hmem (userLine_ctx ha hr hc hw hnone hf hctx hnew hv f3 f4))
  · rintro rfl hv
    exact hyl _ (writeAll_mem hy hmem (userLine_none ha hr hc hv))

theorem replLine_valid {e : Env} {repl : List (Bytes × Bytes)} {t l : Bytes} (h : replLine e repl t = .line l) : checkLine e l = true := by
  unfold replLine at h
  split at h
  · split at h
    · cases h; assumption
    · cases h
  · cases h

theorem userLine_valid {e : Env} {u : User} {repl : List (Bytes × Bytes)} {t l : Bytes} (h : userLine e u repl t = .line l) :
    checkLine e l = true := by
  unfold userLine at h
  split at h
  · split at h
    · cases h
    · split at h
      · split at h
        · cases h; assumption
        · cases h
      · split at h
        · cases h
        · split at h
          · split at h
            · cases h; assumption
            · cases h
          · cases h
  · cases h

/-- Only lines whose last word is a valid context are written. -/
theorem C119_valid (e : Env) (hs : List Bytes) (us : List User) (fb : User) (tpl out : List Bytes)
    (h : contextFile e hs us fb tpl = some out) : ∀ l ∈ out, ∃ p w tr, l = p ++ w ++ tr ∧ Word w ∧ (∀ x ∈ tr, space x) ∧ e.valid (w ++ tr) = true := by
  have hdirs : ∀ tp u x, homeDir e tp u = some x → ∀ l ∈ x, checkLine e l = true := fun tp u x hx l hl => by
    obtain ⟨t, _, ht⟩ := writeAll_from hx hl
    exact userLine_valid ht
  have hroots : ∀ tp u x, homeRoot e tp u = some x → ∀ l ∈ x, checkLine e l = true := fun tp u x hx l hl => by
    obtain ⟨t, _, ht⟩ := writeAll_from hx hl
    exact replLine_valid ht
  have hnames : ∀ tp u x, userName e tp u = some x → ∀ l ∈ x, checkLine e l = true := fun tp u x hx l hl => by
    obtain ⟨t, _, ht⟩ := writeAll_from hx hl
    exact userLine_valid ht
  have husers : ∀ tp u x, userCtx e tp u = some x → ∀ l ∈ x, checkLine e l = true := fun tp u x hx l hl => by
    obtain ⟨t, _, ht⟩ := writeAll_from hx hl
    exact userLine_valid ht
  have key : ∀ l ∈ out, checkLine e l = true := by
    unfold contextFile at h
    dsimp only at h
    split at h
    · cases h; simp
    · obtain ⟨x, y, hx, hy, rfl⟩ := andThen_some h
      intro l hl
      rcases List.mem_append.1 hl with hl | hl
      · split at hx
        · obtain ⟨d, _, z, hz, hlz⟩ := (forEach_some hx).2 l hl
          obtain ⟨z1, z2, hz1, hz2, rfl⟩ := andThen_some hz
          rcases List.mem_append.1 hlz with hlz | hlz
          · exact hdirs _ _ _ hz1 l hlz
          · exact hroots _ _ _ hz2 l hlz
        · cases hx; cases hl
      · split at hy
        · obtain ⟨y0, y1, hy0, hy1, rfl⟩ := andThen_some hy
          rcases List.mem_append.1 hl with hl | hl
          · exact hnames _ _ _ hy0 l hl
          obtain ⟨y2, y3, hy2, hy3, rfl⟩ := andThen_some hy1
          rcases List.mem_append.1 hl with hl | hl
          · exact husers _ _ _ hy2 l hl
          obtain ⟨d, _, z, hz, hlz⟩ := (forEach_some hy3).2 l hl
          obtain ⟨z1, z2, hz1, hz2, rfl⟩ := andThen_some hz
          rcases List.mem_append.1 hlz with hlz | hlz
          · exact hdirs _ _ _ hz1 l hlz
          obtain ⟨z3, z4, hz3, hz4, rfl⟩ := andThen_some hz2
          rcases List.mem_append.1 hlz with hlz | hlz
          · exact hnames _ _ _ hz3 l hlz
          · exact husers _ _ _ hz4 l hlz
        · cases hy; cases hl
  intro l hl
  have hk := key l hl
  unfold checkLine extractContext at hk
  dsimp only at hk
  by_cases hb : (l.reverse.dropWhile isspace).length ≤ 1
  · rw [if_pos hb] at hk; cases hk
  · rw [if_neg hb] at hk
    refine ⟨((l.reverse.dropWhile isspace).dropWhile (fun b => !isspace b)).reverse, _, _, ?_, ⟨?_, ?_⟩, ?_, hk⟩
    · rw [← List.reverse_append, List.takeWhile_append_dropWhile, ← List.reverse_append, List.takeWhile_append_dropWhile, List.reverse_reverse]
    · intro hn
      rw [List.reverse_eq_nil_iff] at hn
      cases hd : l.reverse.dropWhile isspace with
      | nil => rw [hd] at hb; simp at hb
      | cons x s =>
        have hx := LabelObj.head_drop isspace l.reverse x (by rw [hd]; rfl)
        rw [hd, List.takeWhile_cons_of_pos (by simp [hx])] at hn
        cases hn
    · intro x hx
      have := mem_take x (List.mem_reverse.1 hx)
      rw [← space_iff]
      simpa using this
    · intro x hx
      exact (space_iff x).1 (mem_take x (List.mem_reverse.1 hx))

/-! ## Cases -/

def exEnv : Env := ⟨fun c => c != ascii "bad", fun u c => if c = ascii "s:o:t" then some (u.name ++ ascii ":o:t") else some c⟩
def exBob : User := ⟨ascii "bob", ascii "7", ascii "staff", ascii "/srv/bob"⟩
def exFb : User := ⟨ascii "[^/]+", ascii "[0-9]+", ascii "user", []⟩
def exTpl : List Bytes := [ascii "HOME_ROOT -d s:o:r", ascii "HOME_DIR/.+ s:o:t", ascii "HOME_DIR/x bad", ascii "/tmp/USER <<none>>"]

example : contextFile exEnv [ascii "/home"] [exBob] exFb exTpl =
    some [ascii "/home/[^/]+/.+ [^/]+:o:t", ascii "/home -d s:o:r", ascii "/tmp/[^/]+ <<none>>", ascii "/srv/bob/.+ bob:o:t",
      ascii "/tmp/bob <<none>>"] := by decide +kernel

example : contextFile exEnv [] [exBob] exFb [ascii "/run/%{USERID}/%{USERNAME}/ROLE s:o:t", ascii "/a/USER s:o:t"] =
    some [ascii "/run/[0-9]+/[^/]+/user [^/]+:o:t", ascii "/a/[^/]+ [^/]+:o:t", ascii "/run/7/bob/staff bob:o:t", ascii "/a/bob bob:o:t"] := by
  decide +kernel

/-- The hypotheses of the theorem for users hold for this user and line. -/
example : ∃ r1 r p w new, Replaced (ascii "HOME_DIR") exBob.home none (ascii "HOME_DIR/.+ s:o:t") r1 ∧
    Replaced (ascii "ROLE") exBob.pfx none r1 r ∧ r = p ++ [32] ++ w ∧ Word w ∧ exEnv.forUser exBob w = some new ∧ Word new ∧
    exEnv.valid new = true ∧ FirstAt w r (p ++ [32]) [] := by
  refine ⟨ascii "/srv/bob/.+ s:o:t", ascii "/srv/bob/.+ s:o:t", ascii "/srv/bob/.+", ascii "s:o:t", ascii "bob:o:t", ?_, ?_, by decide +kernel,
    ⟨by decide +kernel, by unfold space; decide +kernel⟩, by decide +kernel, ⟨by decide +kernel, by unfold space; decide +kernel⟩, by decide +kernel, ?_⟩
  · exact .all _ [] (ascii "/.+ s:o:t") (ascii "/.+ s:o:t") ⟨by decide +kernel, by simp⟩ (.none _ _ (strstr_none (by decide +kernel)))
  · exact .none _ _ (strstr_none (by decide +kernel))
  · have := (strstr_some (pat := ascii "s:o:t") (s := ascii "/srv/bob/.+ s:o:t") (i := 12) (by decide +kernel)).1
    have e1 : (ascii "/srv/bob/.+ s:o:t").take 12 = ascii "/srv/bob/.+" ++ [32] := by decide +kernel
    have e2 : (ascii "/srv/bob/.+ s:o:t").drop (12 + (ascii "s:o:t").length) = [] := by decide +kernel
    rw [e1, e2] at this
    exact this

/-- Without a line for users in the template, users whose home is elsewhere have no
lines at all. -/
theorem C119_nouser_refuted : contextFile exEnv [ascii "/home"] [exBob] exFb [ascii "HOME_DIR/.+ s:o:t"] =
    some [ascii "/home/[^/]+/.+ [^/]+:o:t"] := by decide +kernel

/-- If the path has the text of the context, the path is changed instead. -/
theorem C119_context_refuted : userLine exEnv exBob [(str "HOME_DIR", exBob.home), (str "ROLE", exBob.pfx)] (ascii "HOME_DIR/s:o:t s:o:t") =
    .line (ascii "/srv/bob/bob:o:t s:o:t") := by decide +kernel

/-- The name of a home directory is searched for placeholders as well. -/
theorem C119_order_refuted : contextFile exEnv [ascii "/home"] [{ exBob with home := ascii "/srv/ROLEX" }] exFb
    [ascii "HOME_DIR s:o:t", ascii "/tmp/USER <<none>>"] =
    some [ascii "/home/[^/]+ [^/]+:o:t", ascii "/tmp/[^/]+ <<none>>", ascii "/srv/staffX bob:o:t", ascii "/tmp/bob <<none>>"] := by decide +kernel

/-- A line for home directories that names the user is written once more, with its
placeholder. -/
theorem C119_both_refuted : ∃ out, contextFile exEnv [ascii "/home"] [exBob] exFb [ascii "HOME_DIR/USER s:o:t"] = some out ∧
    ascii "HOME_DIR/bob bob:o:t" ∈ out ∧ ascii "/srv/bob/USER bob:o:t" ∈ out ∧ ascii "/srv/bob/bob bob:o:t" ∉ out :=
  ⟨_, rfl, by decide +kernel, by decide +kernel, by decide +kernel⟩

end Verif.HomeDirs
