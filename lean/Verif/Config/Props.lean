import Verif.Config.Lemmas
/-! # Properties of the configuration file -/
namespace Verif.Config
open Verif.FileLabel (isspace)
open Verif.FileLabel.Spec (text)
open Verif.LabelObj (str cstr)
open Spec

/-! ## C118: the mode -/

theorem findSome_iff {f : Bytes → Option Int} {ls : List Bytes} {m : Int} : ls.findSome? f = some m ↔
    ∃ pre l post, ls = pre ++ l :: post ∧ f l = some m ∧ ∀ l' ∈ pre, f l' = none := by
  induction ls with
  | nil => simp
  | cons l ls ih =>
    rw [List.findSome?_cons]
    cases h : f l with
    | some n =>
      constructor
      · intro e
        exact ⟨[], l, ls, rfl, h.trans e, by simp⟩
      · rintro ⟨pre, l', post, e, hf, hp⟩
        cases pre with
        | nil =>
          have : l = l' := by simpa using congrArg List.head? e
          subst this
          rw [h] at hf; exact hf
        | cons x pre =>
          have : l = x := by simpa using congrArg List.head? e
          subst this
          rw [hp l List.mem_cons_self] at h; cases h
    | none =>
      constructor
      · intro e
        obtain ⟨pre, l', post, e', hf, hp⟩ := ih.1 e
        refine ⟨l :: pre, l', post, by rw [e']; rfl, hf, fun x hx => ?_⟩
        rcases List.mem_cons.1 hx with rfl | hx
        · exact h
        · exact hp x hx
      · rintro ⟨pre, l', post, e, hf, hp⟩
        cases pre with
        | nil =>
          have : l = l' := by simpa using congrArg List.head? e
          subst this
          rw [h] at hf; cases hf
        | cons x pre =>
          rw [List.cons_append, List.cons.injEq] at e
          exact ih.2 ⟨pre, l', post, e.2, hf, fun y hy => hp y (List.mem_cons_of_mem _ hy)⟩

theorem findSome_lines {k : Nat} {ls : List Bytes} {last : Bytes}
    (hl : ∀ l ∈ ls, (10 : UInt8) ∉ l ∧ l.length < k) (hlast : (10 : UInt8) ∉ last ∧ last.length ≤ k) :
    (pieces k (fileOf ls last).length (fileOf ls last)).findSome? modeLine = (ls ++ [last]).findSome? modeLine := by
  rw [pieces_file (Nat.le_refl _) hl hlast]
  have h0 : modeLine [] = none := by decide +kernel
  rw [List.findSome?_append, List.findSome?_append]
  congr 1
  · induction ls with
    | nil => rfl
    | cons l ls ih =>
      rw [List.map_cons, List.findSome?_cons, List.findSome?_cons, modeLine_snoc,
        ih fun l' h' => hl l' (List.mem_cons_of_mem _ h')]
  · split
    · rename_i e
      subst e
      rw [List.findSome?_singleton, h0]; rfl
    · rfl

/-- The mode is that of the first line that says one, and there is an error if no line
does, for lines that fit into a page. -/
theorem C118_mode_partial (page : Nat) (ls : List Bytes) (last : Bytes)
    (hl : ∀ l ∈ ls, (10 : UInt8) ∉ l ∧ l.length + 1 < page) (hlast : (10 : UInt8) ∉ last ∧ last.length < page) :
    (∀ m, getEnforceMode page (some (fileOf ls last)) = some m ↔
      ∃ pre l post, ls ++ [last] = pre ++ l :: post ∧ SetsMode (text l) m ∧ ∀ l' ∈ pre, ∀ m', ¬ SetsMode (text l') m') ∧
    (getEnforceMode page (some (fileOf ls last)) = none ↔ ∀ l ∈ ls ++ [last], ∀ m, ¬ SetsMode (text l) m) ∧
    getEnforceMode page none = none := by
  have hnone : ∀ l, modeLine l = none ↔ ∀ m, ¬ SetsMode (text l) m := by
    intro l
    rw [Option.eq_none_iff_forall_ne_some]
    exact ⟨fun h m hm => h m ((modeLine_text l m).2 hm), fun h m hm => h m ((modeLine_text l m).1 hm)⟩
  have e : getEnforceMode page (some (fileOf ls last)) = (ls ++ [last]).findSome? modeLine :=
    findSome_lines (fun l h => ⟨(hl l h).1, by have := (hl l h).2; omega⟩) ⟨hlast.1, by omega⟩
  rw [e]
  refine ⟨fun m => ?_, ?_, rfl⟩
  · rw [findSome_iff]
    simp only [modeLine_text, hnone]
  · rw [List.findSome?_eq_none_iff]
    simp only [hnone]

/-- A comment, a line for another setting, and two lines for the mode. -/
def exFile : List Bytes := [ascii "# SELINUX=disabled", ascii "SELINUXTYPE=mls", ascii "SELINUX= Permissive", ascii "SELINUX=enforcing"]

example : (∀ l ∈ exFile, (10 : UInt8) ∉ l ∧ l.length + 1 < 4096) ∧ getEnforceMode 4096 (some (fileOf exFile [])) = some 0 := by
  decide +kernel

/-- A line that does not fit into a page is read as two, and the second may say a mode
although the line is a comment. -/
theorem C118_long_refuted : ∃ l : Bytes, (10 : UInt8) ∉ l ∧ (0 : UInt8) ∉ l ∧ l.head? = some 35 ∧
    getEnforceMode 4096 (some (fileOf [l] [])) = some (-1) :=
  ⟨List.replicate 4095 35 ++ ascii "SELINUX=disabled", by decide +kernel, by decide +kernel, by decide +kernel, by decide +kernel⟩

/-- Settings as they are written in selinux_config(5), with white space before the
equals sign, are not found. -/
theorem C118_spaces_refuted :
    getEnforceMode 4096 (some (fileOf [ascii "SELINUX = enforcing", ascii "SELINUXTYPE = mls"] [])) = none ∧
    (initConfig (some (fileOf [ascii "SELINUX = enforcing", ascii "SELINUXTYPE = mls"] []))).1 = ascii "targeted" := by
  decide +kernel

/-! ## C118: the type -/

theorem fold_type {ls : List Bytes} {st : St} : (ls.foldl confLine st).type =
    (ls.reverse.findSome? (fun l => typeOf (cstr (chop l)))).or st.type := by
  induction ls generalizing st with
  | nil => rfl
  | cons l ls ih =>
    rw [List.foldl_cons, ih, List.reverse_cons, List.findSome?_append, List.findSome?_singleton, confLine_eq, Option.or_assoc]

theorem fold_lines {ls : List Bytes} {last : Bytes} {st : St} (hl : ∀ l ∈ ls, (10 : UInt8) ∉ l) (hlast : (10 : UInt8) ∉ last) :
    (pieces (fileOf ls last).length (fileOf ls last).length (fileOf ls last)).foldl confLine st = (ls ++ [last]).foldl confLine st := by
  have hlen : ∀ l ∈ ls, l.length < (fileOf ls last).length := by
    intro l h
    unfold fileOf
    have : (l ++ [10]).length ≤ ((ls.map (· ++ [10])).flatten).length := by
      have hm : l ++ [10] ∈ ls.map (· ++ [10]) := List.mem_map.2 ⟨l, h, rfl⟩
      exact (List.sublist_flatten_of_mem hm).length_le
    rw [List.length_append] at this ⊢
    simp only [List.length_cons, List.length_nil] at this
    omega
  rw [pieces_file (Nat.le_refl _) (fun l h => ⟨hl l h, hlen l h⟩) ⟨hlast, by unfold fileOf; rw [List.length_append]; omega⟩]
  rw [List.foldl_append, List.foldl_append]
  have e : ∀ st, (ls.map (· ++ [10])).foldl confLine st = ls.foldl confLine st := by
    clear hlen
    induction ls with
    | nil => intro st; rfl
    | cons l ls ih =>
      intro st
      have hc := text_chop (hl l List.mem_cons_self)
      have : confLine st (l ++ [10]) = confLine st l := by unfold confLine; rw [hc.1, hc.2]
      rw [List.map_cons, List.foldl_cons, List.foldl_cons, this, ih fun l' h' => hl l' (List.mem_cons_of_mem _ h')]
  rw [e]
  split
  · rename_i h
    subst h
    generalize ls.foldl confLine st = s
    rfl
  · rfl

theorem findSome_rev {α : Type} {f : Bytes → Option α} {ls : List Bytes} :
    (∃ pre l post w, ls = pre ++ l :: post ∧ f l = some w ∧ (∀ l' ∈ post, f l' = none) ∧ ls.reverse.findSome? f = some w) ∨
    ((∀ l ∈ ls, f l = none) ∧ ls.reverse.findSome? f = none) := by
  induction ls with
  | nil => exact Or.inr ⟨by simp, rfl⟩
  | cons l ls ih =>
    rw [List.reverse_cons, List.findSome?_append, List.findSome?_singleton]
    rcases ih with ⟨pre, l', post, w, e, hf, hp, h⟩ | ⟨hp, h⟩
    · exact Or.inl ⟨l :: pre, l', post, w, by rw [e]; rfl, hf, hp, by rw [h]; rfl⟩
    · cases hl : f l with
      | some w => exact Or.inl ⟨[], l, ls, w, rfl, hl, hp, by rw [h]; rfl⟩
      | none =>
        refine Or.inr ⟨fun x hx => ?_, by rw [h]; rfl⟩
        rcases List.mem_cons.1 hx with rfl | hx
        · exact hl
        · exact hp x hx

/-- The type is that of the last line that says one, or `targeted`, and the policy root
is its directory. -/
theorem C118_type (ls : List Bytes) (last : Bytes) (hl : ∀ l ∈ ls, (10 : UInt8) ∉ l) (hlast : (10 : UInt8) ∉ last) :
    ((∃ pre l post, ls ++ [last] = pre ++ l :: post ∧ SetsType (text l) (initConfig (some (fileOf ls last))).1 ∧
        ∀ l' ∈ post, ∀ w, ¬ SetsType (text l') w) ∨
      ((∀ l ∈ ls ++ [last], ∀ w, ¬ SetsType (text l) w) ∧ (initConfig (some (fileOf ls last))).1 = ascii "targeted")) ∧
    (initConfig (some (fileOf ls last))).2.1 = ascii "/etc/selinux/" ++ (initConfig (some (fileOf ls last))).1 := by
  have hall : ∀ l ∈ ls ++ [last], (10 : UInt8) ∉ l := by
    intro l h
    rcases List.mem_append.1 h with h | h
    · exact hl l h
    · rw [List.mem_singleton.1 h]; exact hlast
  have ht : ∀ l ∈ ls ++ [last], ∀ w, typeOf (cstr (chop l)) = some w ↔ SetsType (text l) w := by
    intro l h w
    rw [(text_chop (hall l h)).1, typeOf_iff, LabelObj.text_cstr]
  have hn : ∀ l ∈ ls ++ [last], typeOf (cstr (chop l)) = none ↔ ∀ w, ¬ SetsType (text l) w := by
    intro l h
    rw [Option.eq_none_iff_forall_ne_some]
    exact ⟨fun g m hm => g m ((ht l h m).2 hm), fun g m hm => g m ((ht l h m).1 hm)⟩
  refine ⟨?_, rfl⟩
  have e : (initConfig (some (fileOf ls last))).1 =
      (((ls ++ [last]).reverse.findSome? (fun l => typeOf (cstr (chop l)))).or none).getD (ascii "targeted") := by
    rw [← fold_type (st := ⟨none, 0⟩), ← fold_lines hl hlast]; rfl
  rw [e]
  rcases findSome_rev (f := fun l => typeOf (cstr (chop l))) (ls := ls ++ [last]) with ⟨pre, l, post, w, e', hf, hp, h⟩ | ⟨hp, h⟩
  · have hm : ∀ x ∈ l :: post, x ∈ ls ++ [last] := fun x hx => by rw [e']; exact List.mem_append_right _ hx
    rw [h]
    exact Or.inl ⟨pre, l, post, e', (ht l (hm l List.mem_cons_self) w).1 hf,
      fun l' h' => (hn l' (hm l' (List.mem_cons_of_mem _ h'))).1 (hp l' h')⟩
  · rw [h]
    exact Or.inr ⟨fun l h' => (hn l h').1 (hp l h'), rfl⟩

/-- If there is no file, the type is `targeted`. -/
theorem C118_no_file : initConfig none = (ascii "targeted", ascii "/etc/selinux/targeted", 0) := by decide +kernel

/-- No line says more than one type. -/
theorem C118_one_type (l w w' : Bytes) (h : SetsType l w) (h' : SetsType l w') : w = w' :=
  Option.some.inj (((typeOf_iff l w).2 h).symm.trans ((typeOf_iff l w').2 h'))

example : (initConfig (some (fileOf [ascii "SELINUXTYPE=targeted", ascii "  SelinuxType= mls \t"] []))).2.1 = ascii "/etc/selinux/mls" ∧
    (initConfig (some (fileOf [ascii "SELINUXTYPE=targeted"] (ascii "SELINUXTYPE=")))).1 = [] := by decide +kernel

/-! ## C118: whether `seusers` is required -/

theorem fold_req {ls : List Bytes} {st : St} : (ls.foldl confLine st).require =
    ls.foldl (fun r l => match reqOf (cstr (chop l)) with | some v => reqVal r v | none => r) st.require := by
  induction ls generalizing st with
  | nil => rfl
  | cons l ls ih =>
    rw [List.foldl_cons, ih, List.foldl_cons, confLine_eq]
    rfl

/-- `REQUIRESEUSERS=0` and `=1`, in the last line for it, are used; without a line it
is not required. -/
theorem C118_require_partial (ls : List Bytes) (last : Bytes) (hl : ∀ l ∈ ls, (10 : UInt8) ∉ l) (hlast : (10 : UInt8) ∉ last) :
    (∀ pre l post d v, ls ++ [last] = pre ++ l :: post → SetsRequire (text l) (d :: v) → (∀ l' ∈ post, ∀ w, ¬ SetsRequire (text l') w) →
      (∀ x, v.head? = some x → ¬ (48 ≤ x ∧ x ≤ 57)) →
      (d = 48 → (initConfig (some (fileOf ls last))).2.2 = 0) ∧ (d = 49 → (initConfig (some (fileOf ls last))).2.2 = 1)) ∧
    ((∀ l ∈ ls ++ [last], ∀ w, ¬ SetsRequire (text l) w) → (initConfig (some (fileOf ls last))).2.2 = 0) := by
  have hall : ∀ l ∈ ls ++ [last], (10 : UInt8) ∉ l := by
    intro l h
    rcases List.mem_append.1 h with h | h
    · exact hl l h
    · rw [List.mem_singleton.1 h]; exact hlast
  have ht : ∀ l ∈ ls ++ [last], ∀ w, reqOf (cstr (chop l)) = some w ↔ SetsRequire (text l) w := by
    intro l h w
    rw [(text_chop (hall l h)).1, reqOf_iff, LabelObj.text_cstr]
  have e : (initConfig (some (fileOf ls last))).2.2 = ((ls ++ [last]).foldl
      (fun r l => match reqOf (cstr (chop l)) with | some v => reqVal r v | none => r) 0) := by
    rw [← fold_req (st := ⟨none, 0⟩), ← fold_lines hl hlast]; rfl
  have hskip : ∀ (post : List Bytes) (r : Int), (∀ l ∈ post, l ∈ ls ++ [last]) → (∀ l ∈ post, ∀ w, ¬ SetsRequire (text l) w) →
      post.foldl (fun r l => match reqOf (cstr (chop l)) with | some v => reqVal r v | none => r) r = r := by
    intro post
    induction post with
    | nil => intro r _ _; rfl
    | cons l post ih =>
      intro r hm hn
      have : reqOf (cstr (chop l)) = none := by
        rw [Option.eq_none_iff_forall_ne_some]
        exact fun w hw => hn l List.mem_cons_self w ((ht l (hm l List.mem_cons_self) w).1 hw)
      rw [List.foldl_cons]
      simp only [this]
      exact ih r (fun x hx => hm x (List.mem_cons_of_mem _ hx)) fun x hx => hn x (List.mem_cons_of_mem _ hx)
  rw [e]
  constructor
  · intro pre l post d v e' hs hp hv
    rw [e'] at ht hskip ⊢
    have hr := (ht l (by simp) _).2 hs
    rw [List.foldl_append, List.foldl_cons]
    simp only [hr]
    have hpost := fun r => hskip post r (fun x hx => List.mem_append_right _ (List.mem_cons_of_mem _ hx)) hp
    simp only [hpost]
    have hv' : v.takeWhile isdigit = [] := LabelObj.take_head fun x hx => by
      have := hv x hx
      rw [UInt8.le_iff_toNat_le, UInt8.le_iff_toNat_le] at this
      have e48 : (48 : UInt8).toNat = 48 := rfl
      have e57 : (57 : UInt8).toNat = 57 := rfl
      rw [e48, e57] at this
      unfold isdigit
      rw [Bool.and_eq_false_iff]
      simp only [decide_eq_false_iff_not]
      omega
    constructor
    · rintro rfl
      unfold reqVal atoi
      rw [if_pos (show Option.map isdigit (List.head? (48 :: v)) = some true from rfl), List.takeWhile_cons_of_pos (by decide), hv']
      decide
    · rintro rfl
      unfold reqVal atoi
      rw [if_pos (show Option.map isdigit (List.head? (49 :: v)) = some true from rfl), List.takeWhile_cons_of_pos (by decide), hv']
      decide
  · intro hn
    exact hskip _ 0 (fun _ h => h) hn

example : SetsRequire (ascii "REQUIRESEUSERS= 1") (49 :: []) ∧
    (initConfig (some (fileOf [ascii "REQUIRESEUSERS=0", ascii "REQUIRESEUSERS= 1"] []))).2.2 = 1 := by
  refine ⟨(reqOf_iff _ _).1 (by decide +kernel), by decide +kernel⟩

/-- `true` and `false` are read the other way round. -/
theorem C118_require_refuted :
    (initConfig (some (fileOf [ascii "REQUIRESEUSERS=true"] []))).2.2 = 0 ∧
    (initConfig (some (fileOf [ascii "REQUIRESEUSERS=false"] []))).2.2 = 1 := by decide +kernel

end Verif.Config
