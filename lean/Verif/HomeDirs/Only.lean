import Verif.HomeDirs.Props
/-! # Only lines of the template are written -/
namespace Verif.HomeDirs
open Verif.FileLabel (isspace)
open Verif.LabelObj (str mem_take head_drop)
open Spec

theorem fill_ok {pat repl : Bytes} {size n c : Nat} {s out x : Bytes} (h : has pat (c + 1) s) (hn : c + 1 ≤ n)
    (hf : fill pat repl size n s out (c + 1) = .ok x) : x = out ++ reps pat repl (c + 1) s := by
  induction n generalizing s out c with
  | zero => omega
  | succ n ih =>
    obtain ⟨i, hi, h⟩ := h
    have e : reps pat repl (c + 1) s = s.take i ++ repl ++ reps pat repl c (s.drop (i + pat.length)) := by
      rw [reps, hi]
    rw [fill, hi] at hf
    dsimp only at hf
    split at hf
    · cases hf
    split at hf
    · cases hf
    cases c with
    | zero =>
      rw [if_pos rfl, finish] at hf
      split at hf
      · cases hf
      · cases hf
        rw [e]
        simp [reps]
    | succ c =>
      rw [if_neg (by omega), Nat.add_sub_cancel] at hf
      rw [ih h (by omega) hf, e]
      simp

theorem strReplace_inv {search repl src out : Bytes} {lim : Nat} (h : strReplace search repl src lim = .ok out) :
    search ≠ [] ∧ Replaced search repl (if lim = 0 then none else some lim) src out := by
  unfold strReplace at h
  split at h
  · cases h
  rename_i hp
  have hp : search ≠ [] := fun e => hp (by rw [e]; rfl)
  refine ⟨hp, ?_⟩
  obtain ⟨m, h1, h2, h3, h4⟩ := count_eq hp (lim := lim) (n := src.length + 1) (c := 0) (s := src) (by omega) (by omega)
  rw [Nat.zero_add] at h1 h4
  have hr : Replaced search repl (if lim = 0 then none else some lim) src (reps search repl m src) := by
    split
    · rename_i hl
      exact reps_all h2 (h3 hl)
    · rename_i hl
      exact reps_some h2 (h4 hl).1 (h4 hl).2
  dsimp only at h
  rw [h1] at h
  cases m with
  | zero =>
    rw [if_pos rfl] at h
    cases h
    exact hr
  | succ m =>
    rw [if_neg (by omega)] at h
    have hl := reps_length (repl := repl) h2
    have := fill_ok h2 (by
      have : 1 ≤ search.length := List.length_pos_iff.2 hp
      have := Nat.le_mul_of_pos_right (m + 1) this
      omega) h
    rw [this, List.nil_append]
    exact hr

theorem extract_inv {r old : Bytes} (h : extractContext r = some old) : ∃ p w tr, EndsWith r p w tr ∧ old = w ++ tr := by
  unfold extractContext at h
  dsimp only at h
  by_cases hb : (r.reverse.dropWhile isspace).length ≤ 1
  · rw [if_pos hb] at h; cases h
  · rw [if_neg hb] at h
    refine ⟨((r.reverse.dropWhile isspace).dropWhile (fun b => !isspace b)).reverse, _, _, ⟨?_, ⟨?_, ?_⟩, ?_, ?_⟩, (Option.some.inj h).symm⟩
    · rw [← List.reverse_append, List.takeWhile_append_dropWhile, ← List.reverse_append, List.takeWhile_append_dropWhile, List.reverse_reverse]
    · intro hn
      rw [List.reverse_eq_nil_iff] at hn
      cases hd : r.reverse.dropWhile isspace with
      | nil => rw [hd] at hb; simp at hb
      | cons x s =>
        have hx := head_drop isspace r.reverse x (by rw [hd]; rfl)
        rw [hd, List.takeWhile_cons_of_pos (by simp [hx])] at hn
        cases hn
    · intro x hx
      have := mem_take x (List.mem_reverse.1 hx)
      rw [← space_iff]
      simpa using this
    · intro x hx
      exact (space_iff x).1 (mem_take x (List.mem_reverse.1 hx))
    · intro x hx
      rw [List.getLast?_reverse] at hx
      have := head_drop (fun b => !isspace b) _ x hx
      rw [← space_iff]
      simpa using this

theorem userLine_inv {e : Env} {u : User} {repl : List (Bytes × Bytes)} {t l : Bytes} (h : userLine e u repl t = .line l) :
    ∃ r, replaceAll t repl = .ok r ∧ WithContext (e.forUser u) r l := by
  unfold userLine at h
  split at h
  · rename_i r hr
    refine ⟨r, hr, ?_⟩
    split at h
    · cases h
    · rename_i old ho
      obtain ⟨p, w, tr, hw, e1⟩ := extract_inv ho
      split at h
      · rename_i hnone
        split at h
        · cases h
          exact ⟨p, w, tr, hw, Or.inl ⟨e1.symm.trans hnone, rfl⟩⟩
        · cases h
      · rename_i hnone
        split at h
        · cases h
        · rename_i new hnew
          split at h
          · rename_i l' hl'
            split at h
            · cases h
              rw [e1] at hl' hnew hnone
              exact ⟨p, w, tr, hw, Or.inr ⟨new, hnone, hnew, (strReplace_inv hl').2⟩⟩
            · cases h
          · cases h
  · cases h

theorem replLine_inv {e : Env} {repl : List (Bytes × Bytes)} {t l : Bytes} (h : replLine e repl t = .line l) : replaceAll t repl = .ok l := by
  unfold replLine at h
  split at h
  · rename_i r hr
    split at h
    · cases h; exact hr
    · cases h
  · cases h

theorem one_inv {t l a b : Bytes} (h : replaceAll t [(a, b)] = .ok l) : Replaced a b none t l := by
  rw [replaceAll] at h
  split at h
  · rename_i s hs
    cases h
    exact (strReplace_inv hs).2
  · rename_i r hno
    exact absurd h (hno l)

theorem step_inv {t l a b : Bytes} {ps : List (Bytes × Bytes)} (h : replaceAll t ((a, b) :: ps) = .ok l) :
    ∃ s, Replaced a b none t s ∧ replaceAll s ps = .ok l := by
  rw [replaceAll] at h
  split at h
  · rename_i s hs
    exact ⟨s, (strReplace_inv hs).2, h⟩
  · rename_i r hno
    exact absurd h (hno l)

theorem two_inv {t l a b a' b' : Bytes} (h : replaceAll t [(a, b), (a', b')] = .ok l) : ∃ s, Replaced a b none t s ∧ Replaced a' b' none s l := by
  obtain ⟨s, h1, h2⟩ := step_inv h
  exact ⟨s, h1, one_inv h2⟩

/-- A line of a home directory: of a user, or for all users in a directory. -/
def OfHome (e : Env) (tpl : List Bytes) (u : User) (l : Bytes) : Prop :=
  ∃ t ∈ tpl, ∃ rest r1 r, t = ascii "HOME_DIR" ++ rest ∧ Replaced (ascii "HOME_DIR") u.home none t r1 ∧
    Replaced (ascii "ROLE") u.pfx none r1 r ∧ WithContext (e.forUser u) r l

/-- A line that names a user. -/
def OfUser (e : Env) (tpl : List Bytes) (u : User) (l : Bytes) : Prop :=
  ∃ t ∈ tpl, ∃ pre post r1 r, t = pre ++ ascii "USER" ++ post ∧ Replaced (ascii "USER") u.name none t r1 ∧
    Replaced (ascii "ROLE") u.pfx none r1 r ∧ WithContext (e.forUser u) r l

/-- A line with a new placeholder. -/
def OfName (e : Env) (tpl : List Bytes) (u : User) (l : Bytes) : Prop :=
  ∃ t ∈ tpl, ∃ pre post r1 r2 r, (t = pre ++ ascii "%{USERNAME}" ++ post ∨ t = pre ++ ascii "%{USERID}" ++ post) ∧
    Replaced (ascii "%{USERNAME}") u.name none t r1 ∧ Replaced (ascii "%{USERID}") u.uid none r1 r2 ∧
    Replaced (ascii "ROLE") u.pfx none r2 r ∧ WithContext (e.forUser u) r l

theorem dir_rest {t : Bytes} {s : String} (h : (str s).isPrefixOf t = true) : ∃ rest, t = ascii s ++ rest := by
  rw [List.isPrefixOf_iff_prefix] at h
  obtain ⟨rest, h⟩ := h
  exact ⟨rest, h.symm⟩

theorem home_from {e : Env} {tpl x : List Bytes} {u : User} {l : Bytes} (hx : homeDir e (tpl.filter isDir) u = some x) (hl : l ∈ x) :
    OfHome e tpl u l := by
  obtain ⟨t, ht, hf⟩ := writeAll_from hx hl
  obtain ⟨r, hr, hc⟩ := userLine_inv hf
  obtain ⟨r1, h1, h2⟩ := two_inv hr
  obtain ⟨ht, hd⟩ := List.mem_filter.1 ht
  obtain ⟨rest, hd⟩ := dir_rest hd
  exact ⟨t, ht, rest, r1, r, hd, h1, h2, hc⟩

theorem user_from {e : Env} {tpl x : List Bytes} {u : User} {l : Bytes} (hx : userCtx e (tpl.filter isUser) u = some x) (hl : l ∈ x) :
    OfUser e tpl u l := by
  obtain ⟨t, ht, hf⟩ := writeAll_from hx hl
  obtain ⟨r, hr, hc⟩ := userLine_inv hf
  obtain ⟨r1, h1, h2⟩ := two_inv hr
  obtain ⟨ht, hd⟩ := List.mem_filter.1 ht
  unfold isUser at hd
  split at hd
  · cases hd
  obtain ⟨i, hi⟩ := Option.isSome_iff_exists.1 hd
  exact ⟨t, ht, _, _, r1, r, (strstr_some hi).1.1, h1, h2, hc⟩

theorem name_from {e : Env} {tpl x : List Bytes} {u : User} {l : Bytes} (hx : userName e (tpl.filter isName) u = some x) (hl : l ∈ x) :
    OfName e tpl u l := by
  obtain ⟨t, ht, hf⟩ := writeAll_from hx hl
  obtain ⟨r, hr, hc⟩ := userLine_inv hf
  obtain ⟨r1, h1, h⟩ := step_inv hr
  obtain ⟨r2, h2, h3⟩ := two_inv h
  obtain ⟨ht, hd⟩ := List.mem_filter.1 ht
  unfold isName at hd
  rw [Bool.or_eq_true] at hd
  rcases hd with hd | hd
  · obtain ⟨i, hi⟩ := Option.isSome_iff_exists.1 hd
    exact ⟨t, ht, _, _, r1, r2, r, Or.inl (strstr_some hi).1.1, h1, h2, h3, hc⟩
  · obtain ⟨i, hi⟩ := Option.isSome_iff_exists.1 hd
    exact ⟨t, ht, _, _, r1, r2, r, Or.inr (strstr_some hi).1.1, h1, h2, h3, hc⟩

/-- Each line that is written is a line of the template for a directory, a user or
the expression for all users. -/
theorem C119_only (e : Env) (hs : List Bytes) (us : List User) (fb : User) (tpl out : List Bytes)
    (h : contextFile e hs us fb tpl = some out) : ∀ l ∈ out,
      (∃ d ∈ hs, ∃ t ∈ tpl, ∃ rest, t = ascii "HOME_ROOT" ++ rest ∧ Replaced (ascii "HOME_ROOT") d none t l) ∨
      (∃ d ∈ hs, OfHome e tpl { fb with home := d ++ ascii "/[^/]+" } l) ∨
      (∃ u ∈ us, OfHome e tpl u l) ∨
      (∃ u, (u ∈ us ∨ u = fb) ∧ (OfUser e tpl u l ∨ OfName e tpl u l)) := by
  unfold contextFile at h
  dsimp only at h
  split at h
  · cases h; simp
  · obtain ⟨x, y, hx, hy, rfl⟩ := andThen_some h
    intro l hl
    rcases List.mem_append.1 hl with hl | hl
    · split at hx
      · obtain ⟨d, hd, z, hz, hlz⟩ := (forEach_some hx).2 l hl
        obtain ⟨z1, z2, hz1, hz2, rfl⟩ := andThen_some hz
        rcases List.mem_append.1 hlz with hlz | hlz
        · exact Or.inr (Or.inl ⟨d, hd, home_from hz1 hlz⟩)
        · obtain ⟨t, ht, hf⟩ := writeAll_from hz2 hlz
          obtain ⟨ht, hr⟩ := List.mem_filter.1 ht
          obtain ⟨rest, hr⟩ := dir_rest hr
          exact Or.inl ⟨d, hd, t, ht, rest, hr, one_inv (replLine_inv hf)⟩
      · cases hx; cases hl
    · split at hy
      · obtain ⟨y0, y1, hy0, hy1, rfl⟩ := andThen_some hy
        rcases List.mem_append.1 hl with hl | hl
        · exact Or.inr (Or.inr (Or.inr ⟨fb, Or.inr rfl, Or.inr (name_from hy0 hl)⟩))
        obtain ⟨y2, y3, hy2, hy3, rfl⟩ := andThen_some hy1
        rcases List.mem_append.1 hl with hl | hl
        · exact Or.inr (Or.inr (Or.inr ⟨fb, Or.inr rfl, Or.inl (user_from hy2 hl)⟩))
        obtain ⟨u, hu, z, hz, hlz⟩ := (forEach_some hy3).2 l hl
        obtain ⟨z1, z2, hz1, hz2, rfl⟩ := andThen_some hz
        rcases List.mem_append.1 hlz with hlz | hlz
        · exact Or.inr (Or.inr (Or.inl ⟨u, hu, home_from hz1 hlz⟩))
        obtain ⟨z3, z4, hz3, hz4, rfl⟩ := andThen_some hz2
        rcases List.mem_append.1 hlz with hlz | hlz
        · exact Or.inr (Or.inr (Or.inr ⟨u, Or.inl hu, Or.inr (name_from hz3 hlz)⟩))
        · exact Or.inr (Or.inr (Or.inr ⟨u, Or.inl hu, Or.inl (user_from hz4 hlz)⟩))
      · cases hy; cases hl

/-- A file with lines of each kind. -/
example : ∃ out, contextFile exEnv [ascii "/home"] [exBob] exFb (exTpl ++ [ascii "/run/%{USERID} s:o:t"]) = some out ∧ out.length = 7 :=
  ⟨_, rfl, by decide +kernel⟩

end Verif.HomeDirs
