import Verif.FileLabel.Search
/-!
# The newest match, and the tree of a list of specifications
-/
namespace Verif.FileLabel
open Spec

/-- An earlier place. -/
def Old (a b : Re) : Prop := a.inputno < b.inputno ∨ a.inputno = b.inputno ∧ a.lineno < b.lineno

theorem Old.trans {a b c : Re} (h1 : Old a b) (h2 : Old b c) : Old a c := by unfold Old at *; omega
theorem Old.irrefl (a : Re) : ¬ Old a a := by unfold Old; omega

/-- A match. -/
def M (eng : Engine) (key : Bytes) (kind : Nat) (r : Re) : Prop :=
  kindOk kind r.kind = true ∧ eng r.regexStr key false = .full

theorem reLoop_spec (eng : Engine) (key : Bytes) (kind : Nat) (ch : Option Re) (rs : List Re)
    (hord : rs.Pairwise (fun a b => Old b a))
    (hne : ∀ r ∈ rs, eng r.regexStr key false = .full ∨ eng r.regexStr key false = .no) :
    match reLoop eng false key kind ch rs with
    | .ok none => ch = none ∧ ∀ r ∈ rs, ¬ M eng key kind r
    | .ok (some w) =>
      (w ∈ rs ∧ M eng key kind w ∧ w.ctx ≠ none_ ∧ (∀ c, ch = some c → ¬ Old w c) ∧
        (∀ r ∈ rs, M eng key kind r → r = w ∨ Old r w)) ∨
      (ch = some w ∧ ∀ r ∈ rs, M eng key kind r → Old r w)
    | .error e => e = .noent ∧ ∃ w ∈ rs, M eng key kind w ∧ w.ctx = none_ ∧ (∀ c, ch = some c → ¬ Old w c) ∧
        (∀ r ∈ rs, M eng key kind r → r = w ∨ Old r w) := by
  induction rs with
  | nil =>
    rw [reLoop]
    cases ch with
    | none => simp
    | some c => right; simp
  | cons r rs ih =>
    have hcons := List.pairwise_cons.1 hord
    have ih := ih hcons.2 (fun x hx => hne x (List.mem_cons_of_mem _ hx))
    rw [reLoop]
    by_cases hstop : ch.any (fun c => decide (r.inputno < c.inputno) || (r.inputno == c.inputno && decide (r.lineno < c.lineno))) = true
    · rw [if_pos hstop]
      cases ch with
      | none => simp at hstop
      | some c =>
        have hrc : Old r c := by
          simp only [Option.any_some, Bool.or_eq_true, decide_eq_true_eq, Bool.and_eq_true, beq_iff_eq] at hstop
          exact hstop
        right
        refine ⟨rfl, ?_⟩
        intro x hx _
        rcases List.mem_cons.1 hx with rfl | hx
        · exact hrc
        · exact (hcons.1 x hx).trans hrc
    · rw [if_neg hstop]
      have hnold : ∀ c, ch = some c → ¬ Old r c := by
        rintro c rfl ho
        apply hstop
        simp only [Option.any_some, Bool.or_eq_true, decide_eq_true_eq, Bool.and_eq_true, beq_iff_eq]
        exact ho
      have hskip : ¬ M eng key kind r →
          (match reLoop eng false key kind ch rs with
          | .ok none => ch = none ∧ ∀ x ∈ r :: rs, ¬ M eng key kind x
          | .ok (some w) =>
            (w ∈ r :: rs ∧ M eng key kind w ∧ w.ctx ≠ none_ ∧ (∀ c, ch = some c → ¬ Old w c) ∧
              (∀ x ∈ r :: rs, M eng key kind x → x = w ∨ Old x w)) ∨
            (ch = some w ∧ ∀ x ∈ r :: rs, M eng key kind x → Old x w)
          | .error e => e = .noent ∧ ∃ w ∈ r :: rs, M eng key kind w ∧ w.ctx = none_ ∧ (∀ c, ch = some c → ¬ Old w c) ∧
              (∀ x ∈ r :: rs, M eng key kind x → x = w ∨ Old x w)) := by
        intro hnm
        revert ih
        cases reLoop eng false key kind ch rs with
        | error e =>
          rintro ⟨he, w, hw, h1, h2, h3, h4⟩
          refine ⟨he, w, List.mem_cons_of_mem _ hw, h1, h2, h3, ?_⟩
          intro x hx hm
          rcases List.mem_cons.1 hx with rfl | hx
          · exact absurd hm hnm
          · exact h4 x hx hm
        | ok o =>
          cases o with
          | none =>
            rintro ⟨h1, h2⟩
            refine ⟨h1, ?_⟩
            intro x hx
            rcases List.mem_cons.1 hx with rfl | hx
            · exact hnm
            · exact h2 x hx
          | some w =>
            rintro (⟨hw, h1, h2, h3, h4⟩ | ⟨h1, h2⟩)
            · refine Or.inl ⟨List.mem_cons_of_mem _ hw, h1, h2, h3, ?_⟩
              intro x hx hm
              rcases List.mem_cons.1 hx with rfl | hx
              · exact absurd hm hnm
              · exact h4 x hx hm
            · refine Or.inr ⟨h1, ?_⟩
              intro x hx hm
              rcases List.mem_cons.1 hx with rfl | hx
              · exact absurd hm hnm
              · exact h2 x hx hm
      have hall : ∀ x ∈ r :: rs, M eng key kind x → x = r ∨ Old x r := by
        intro x hx _
        rcases List.mem_cons.1 hx with rfl | hx
        · exact Or.inl rfl
        · exact Or.inr (hcons.1 x hx)
      by_cases hk : kindOk kind r.kind = true
      · rw [hk]
        simp only [Bool.not_true, Bool.false_eq_true, if_false]
        rcases hne r List.mem_cons_self with he | he
        · rw [he]
          simp only
          by_cases hn : r.ctx = none_
          · rw [if_pos hn]
            exact ⟨rfl, r, List.mem_cons_self, ⟨hk, he⟩, hn, hnold, hall⟩
          · rw [if_neg hn]
            exact Or.inl ⟨List.mem_cons_self, ⟨hk, he⟩, hn, hnold, hall⟩
        · rw [he]
          simp only
          exact hskip (fun hm => by have := hm.2; rw [he] at this; simp at this)
      · have hk' : kindOk kind r.kind = false := by simpa using hk
        rw [hk']
        simp only [Bool.not_false, if_true]
        exact hskip (fun hm => hk hm.1)

/-- The match found so far and the nodes still to be searched. -/
theorem nodesLoop_spec (eng : Engine) (key : Bytes) (kind : Nat) (ch : Option Re) (done : List Re) (ns : List Node)
    (hord : ∀ n ∈ ns, n.res.Pairwise Old)
    (hne : ∀ n ∈ ns, ∀ r ∈ n.res, eng r.regexStr key false = .full ∨ eng r.regexStr key false = .no)
    (htri : ∀ a b, (a ∈ done ∨ ∃ n ∈ ns, a ∈ n.res) → (b ∈ done ∨ ∃ n ∈ ns, b ∈ n.res) → a = b ∨ Old a b ∨ Old b a)
    (hdone : match ch with
      | none => ∀ r ∈ done, ¬ M eng key kind r
      | some c => c ∈ done ∧ M eng key kind c ∧ c.ctx ≠ none_ ∧ ∀ r ∈ done, M eng key kind r → r = c ∨ Old r c)
    (hnone : ns.Pairwise (fun n m => ∀ r ∈ n.res, ∀ w ∈ m.res,
      M eng key kind r → r.ctx = none_ → M eng key kind w → ¬ Old r w)) :
    match nodesLoop eng false key kind ch ns with
    | .ok none => ∀ r, (r ∈ done ∨ ∃ n ∈ ns, r ∈ n.res) → ¬ M eng key kind r
    | .ok (some w) => (w ∈ done ∨ ∃ n ∈ ns, w ∈ n.res) ∧ M eng key kind w ∧ w.ctx ≠ none_ ∧
        ∀ r, (r ∈ done ∨ ∃ n ∈ ns, r ∈ n.res) → M eng key kind r → r = w ∨ Old r w
    | .error e => e = .noent ∧ ∃ w, (w ∈ done ∨ ∃ n ∈ ns, w ∈ n.res) ∧ M eng key kind w ∧ w.ctx = none_ ∧
        ∀ r, (r ∈ done ∨ ∃ n ∈ ns, r ∈ n.res) → M eng key kind r → r = w ∨ Old r w := by
  induction ns generalizing ch done with
  | nil =>
    rw [nodesLoop]
    cases ch with
    | none => simpa using hdone
    | some c => simpa using hdone
  | cons n ns ih =>
    rw [nodesLoop]
    have hrev : n.res.reverse.Pairwise (fun a b => Old b a) := by
      rw [List.pairwise_reverse]; exact hord n List.mem_cons_self
    have hl := reLoop_spec eng key kind ch n.res.reverse hrev
      (fun r hr => hne n List.mem_cons_self r (by simpa using hr))
    simp only [List.mem_reverse] at hl
    have hin : ∀ r, (r ∈ done ∨ ∃ m ∈ n :: ns, r ∈ m.res) ↔ (r ∈ done ++ n.res ∨ ∃ m ∈ ns, r ∈ m.res) := by
      intro r
      simp only [List.mem_cons, List.mem_append]
      constructor
      · rintro (h | ⟨m, rfl | hm, h⟩)
        · exact Or.inl (Or.inl h)
        · exact Or.inl (Or.inr h)
        · exact Or.inr ⟨m, hm, h⟩
      · rintro ((h | h) | ⟨m, hm, h⟩)
        · exact Or.inl h
        · exact Or.inr ⟨n, Or.inl rfl, h⟩
        · exact Or.inr ⟨m, Or.inr hm, h⟩
    have hn0 : ∀ r ∈ n.res, (r ∈ done ∨ ∃ m ∈ n :: ns, r ∈ m.res) :=
      fun r hr => Or.inr ⟨n, List.mem_cons_self, hr⟩
    simp only [hin] at htri ⊢
    have hnone' := List.pairwise_cons.1 hnone
    have step := ih (hord := fun m hm => hord m (List.mem_cons_of_mem _ hm))
      (hne := fun m hm => hne m (List.mem_cons_of_mem _ hm)) (hnone := hnone'.2)
    -- an entry that is newer than those of the node is newer than those before
    have hup : ∀ w ∈ n.res, M eng key kind w → (∀ c, ch = some c → ¬ Old w c) →
        (∀ r ∈ n.res, M eng key kind r → r = w ∨ Old r w) →
        ∀ r ∈ done ++ n.res, M eng key kind r → r = w ∨ Old r w := by
      intro w hw hwm hwc hwn r hr hm
      rcases List.mem_append.1 hr with hr | hr
      · cases ch with
        | none => exact absurd hm (hdone r hr)
        | some c =>
          have hcw : c = w ∨ Old c w := by
            rcases htri w c (Or.inl (by simp [hw])) (Or.inl (by simp [hdone.1])) with h | h | h
            · exact Or.inl h.symm
            · exact absurd h (hwc c rfl)
            · exact Or.inr h
          rcases hdone.2.2.2 r hr hm with rfl | h
          · exact hcw
          · rcases hcw with rfl | h'
            · exact Or.inr h
            · exact Or.inr (h.trans h')
      · exact hwn r hr hm
    revert hl
    cases hre : reLoop eng false key kind ch n.res.reverse with
    | error e =>
      rintro ⟨rfl, w, hw, hwm, hwn, hwc, hwall⟩
      refine ⟨rfl, w, Or.inl (by simp [hw]), hwm, hwn, ?_⟩
      rintro r (hr | ⟨m, hm, hr⟩) hrm
      · exact hup w hw hwm hwc hwall r hr hrm
      · rcases htri r w (Or.inr ⟨m, hm, hr⟩) (Or.inl (by simp [hw])) with h | h | h
        · exact Or.inl h
        · exact Or.inr h
        · exact absurd h (hnone'.1 m hm w hw r hr hwm hwn hrm)
    | ok o =>
      cases o with
      | none =>
        rintro ⟨rfl, hnm⟩
        simp only
        refine step none (done ++ n.res) htri ?_
        intro r hr
        rcases List.mem_append.1 hr with hr | hr
        · exact hdone r hr
        · exact hnm r hr
      | some w =>
        rintro (⟨hw, hwm, hwn, hwc, hwall⟩ | ⟨rfl, hall⟩)
        · exact step (some w) (done ++ n.res) htri
            ⟨by simp [hw], hwm, hwn, hup w hw hwm hwc hwall⟩
        · refine step (some w) (done ++ n.res) htri
            ⟨by simp [hdone.1], hdone.2.1, hdone.2.2.1, ?_⟩
          intro r hr hm
          rcases List.mem_append.1 hr with hr | hr
          · exact hdone.2.2.2 r hr hm
          · exact Or.inr (hall r hr hm)

/-! ## Lines -/

theorem entriesLoop_short {items : Nat} {args : List Bytes} {s : Bytes} {n : Nat} {out : List Bytes}
    (ha : ∀ a ∈ args, a.length < 65535) (h : entriesLoop items args s = .ok n out) : ∀ a ∈ out, a.length < 65535 := by
  induction hk : 3 - args.length using Nat.strongRecOn generalizing items args s with
  | _ k ih =>
    rw [entriesLoop] at h
    split at h
    · simp only [Items.ok.injEq] at h; rw [← h.2]; exact ha
    · split at h
      · simp at h
      · split at h
        · simp only [Items.ok.injEq] at h; rw [← h.2]; exact ha
        · split at h
          · simp at h
          · rename_i h2 _ _ e s' hr
            refine ih (3 - (args ++ [e]).length) (by simp only [List.length_append, List.length_singleton]; omega) ?_ h rfl
            intro a haa
            rcases List.mem_append.1 haa with haa | haa
            · exact ha a haa
            · simp only [List.mem_singleton] at haa
              subst haa
              unfold readEntry at hr
              simp only at hr
              split at hr
              · simp at hr
              · split at hr
                · simp at hr
                · simp only [Option.some.injEq, Prod.mk.injEq] at hr
                  rw [← hr.1]; omega

theorem parseLine_short {l r c : Bytes} {k : Nat} (h : parseLine l = .spec r k c) : r.length < 65535 := by
  have hall : ∀ n args, readEntries l = .ok n args → ∀ a ∈ args, a.length < 65535 := by
    intro n args hr
    unfold readEntries at hr
    simp only at hr
    split at hr
    · simp only [Items.ok.injEq] at hr; rw [← hr.2]; simp
    · split at hr
      · simp only [Items.ok.injEq] at hr; rw [← hr.2]; simp
      · exact entriesLoop_short (by simp) hr
  have hget : ∀ args : List Bytes, (∀ a ∈ args, a.length < 65535) → (args.getD 0 []).length < 65535 := by
    intro args ha
    cases args with
    | nil => simp
    | cons a as => exact ha a List.mem_cons_self
  unfold parseLine at h
  split at h
  · simp at h
  · simp at h
  · simp at h
  · simp at h
  · rename_i args hr
    simp only [Line.spec.injEq] at h
    rw [← h.1]; exact hget args (hall _ _ hr)
  · rename_i n args h0 h1 h2 hr
    split at h
    · simp at h
    · simp only [Line.spec.injEq] at h
      rw [← h.1]; exact hget args (hall _ _ hr)

/-! ## The tree of the specifications -/

/-- The regular expression of a specification. -/
def toRe (e : Entry) : Re := ⟨e.ctx, e.regex, (hasMeta e.regex 0).2, e.kind, e.input, e.line⟩

/-- The literal of a specification. -/
def toLit (e : Entry) : Lit :=
  ⟨e.ctx, e.regex, (plain e.regex).getD [], (hasMeta e.regex 0).2, e.kind, e.line⟩

/-- The stems of a literal. -/
def litPath (t : Bytes) : List Bytes :=
  if t.head? = some slash then ((parts (t.drop 1)).filter (· ≠ [])).take 3 else []

/-- What the tree holds. -/
structure Holds (es : List Entry) (n : Node) : Prop where
  wf : WF n
  res : ∀ p, obsAt Node.res n p = (es.filter (fun e => (plain e.regex).isNone && decide (leading e.regex = p))).map toRe
  lits : ∀ p, obsAt Node.lits n p =
    (es.filter (fun e => (plain e.regex).any (fun t => decide (litPath t = p)))).map toLit
  depth : ∀ p, (at_ n p).isSome = true → p.length ≤ 3

theorem holds_new : Holds [] (.new []) where
  wf := wf_new []
  res := by intro p; simp only [obsAt, at_new]; split <;> simp [Node.new, Node.res]
  lits := by intro p; simp only [obsAt, at_new]; split <;> simp [Node.new, Node.lits]
  depth := by
    intro p hp
    rw [at_new] at hp
    split at hp
    · rename_i h; simp [h]
    · simp at hp

theorem leading_length (r : Bytes) : (leading r).length ≤ 3 := by
  unfold leading; simp only [List.length_take]; omega

theorem litPath_length (t : Bytes) : (litPath t).length ≤ 3 := by
  unfold litPath; split
  · simp only [List.length_take]; omega
  · simp

theorem leading_eq (r : Bytes) : leading r = (leads r).take 3 := rfl

theorem insert_holds {es : List Entry} {d : Data} (h : Holds es d.root) (e : Entry) (hl : e.regex.length < 65535) :
    ∃ d', insertSpec none d e.regex e.kind e.ctx e.input e.line = some d' ∧ Holds (es ++ [e]) d'.root := by
  unfold insertSpec
  have hm := hasMeta_plain e.regex 0
  simp only
  cases hp : plain e.regex with
  | none =>
    rw [hp] at hm
    simp only [Option.isNone_none] at hm
    rw [if_pos hm, reStems_eq 0 e.regex hl]
    refine ⟨_, rfl, ?_⟩
    simp only
    have hpath : (leads e.regex).take (3 - 0) = leading e.regex := (leading_eq _).symm
    rw [hpath]
    refine ⟨upd_wf (addRe_local _) _ h.wf, ?_, ?_, ?_⟩
    · intro p
      rw [obsAt_upd (addRe_local _) [toRe e] (by intro n; cases n; rfl) (by intro s; rfl) (by intros; rfl), h.res, h.res]
      rw [List.filter_append, List.map_append]
      by_cases hpp : p = leading e.regex
      · subst hpp; simp [hp]
      · have : ¬ leading e.regex = p := fun x => hpp x.symm
        simp [hpp, this]
    · intro p
      rw [obsAt_upd (addRe_local _) [] (by intro n; cases n; simp [addRe, Node.lits]) (by intro s; rfl) (by intros; rfl)]
      rw [List.filter_append, List.map_append]
      simp only [List.append_nil, List.filter_cons, hp, Option.any_none, Bool.false_eq_true, if_false, List.filter_nil,
        List.map_nil, ← h.lits]
      split
      · rename_i hh; rw [hh]
      · rfl
    · intro p hpp
      rcases (isSome_upd (addRe_local _) _ _ _).1 hpp with h1 | h1
      · exact h.depth p h1
      · have := h1.length_le
        have := leading_length e.regex
        omega
  | some t =>
    rw [hp] at hm
    simp only [Option.isNone_some] at hm
    rw [if_neg (by rw [hm]; exact Bool.false_ne_true), simplify_plain, hp]
    simp only
    rw [litStems_eq]
    refine ⟨_, rfl, ?_⟩
    simp only
    have hpath : (if t.head? = some slash then ((parts (t.drop 1)).filter (· ≠ [])).take (3 - 0) else []) = litPath t := rfl
    rw [hpath]
    have hlit : toLit e = ⟨e.ctx, e.regex, t, (hasMeta e.regex 0).2, e.kind, e.line⟩ := by
      simp [toLit, hp]
    refine ⟨upd_wf (addLit_local _) _ h.wf, ?_, ?_, ?_⟩
    · intro p
      rw [obsAt_upd (addLit_local _) [] (by intro n; cases n; simp [addLit, Node.res]) (by intro s; rfl) (by intros; rfl)]
      rw [List.filter_append, List.map_append]
      simp only [List.append_nil, List.filter_cons, hp, Option.isNone_some, Bool.false_and, Bool.false_eq_true,
        if_false, List.filter_nil, List.map_nil, ← h.res]
      split
      · rename_i hh; rw [hh]
      · rfl
    · intro p
      rw [obsAt_upd (addLit_local _) [toLit e] (by intro n; rw [hlit]; cases n; rfl) (by intro s; rfl) (by intros; rfl), h.lits, h.lits]
      rw [List.filter_append, List.map_append]
      by_cases hpp : p = litPath t
      · subst hpp; simp [hp]
      · have : ¬ litPath t = p := fun x => hpp x.symm
        simp [hpp, this, hp]
    · intro p hpp
      rcases (isSome_upd (addLit_local _) _ _ _).1 hpp with h1 | h1
      · exact h.depth p h1
      · have := h1.length_le
        have := litPath_length t
        omega

theorem processLines_holds {inputno : Nat} {ls : List Bytes} {lineno : Nat} {d d' : Data} {es : List Entry}
    (h : Holds es d.root) (hp : processLines none inputno lineno ls d = some d') :
    Holds (es ++ entriesFrom inputno lineno ls) d'.root := by
  induction ls generalizing lineno d es with
  | nil => simp only [processLines, Option.some.injEq] at hp; subst hp; simpa [entriesFrom] using h
  | cons l ls ih =>
    rw [processLines] at hp
    rw [entriesFrom]
    cases hl : parseLine l with
    | ub => rw [hl] at hp; simp at hp
    | err => rw [hl] at hp; simp at hp
    | skip => rw [hl] at hp; exact ih h hp
    | spec r k c =>
      rw [hl] at hp
      simp only at hp ⊢
      obtain ⟨d1, hd1, hh⟩ := insert_holds h ⟨r, k, c, inputno, lineno + 1⟩ (parseLine_short hl)
      simp only at hd1
      rw [hd1] at hp
      simp only at hp
      have := ih hh hp
      rw [List.append_assoc, List.singleton_append] at this
      exact this

theorem processFiles_holds {i : Nat} {fs : List (List Bytes)} {d d' : Data} {es : List Entry}
    (h : Holds es d.root) (hp : processFiles none i fs d = some d') : Holds (es ++ entries i fs) d'.root := by
  induction fs generalizing i d es with
  | nil => simp only [processFiles, Option.some.injEq] at hp; subst hp; simpa [entries] using h
  | cons f fs ih =>
    rw [processFiles] at hp
    rw [entries]
    cases hf : processLines none i 0 f d with
    | none => rw [hf] at hp; simp at hp
    | some d1 =>
      rw [hf] at hp
      simp only at hp
      have := ih (processLines_holds h hf) hp
      rw [List.append_assoc] at this
      exact this

theorem processLines_num {inputno : Nat} {ls : List Bytes} {lineno : Nat} {d d' : Data}
    (hp : processLines none inputno lineno ls d = some d') :
    d'.num = d.num + (entriesFrom inputno lineno ls).length := by
  induction ls generalizing lineno d with
  | nil => simp only [processLines, Option.some.injEq] at hp; subst hp; simp [entriesFrom]
  | cons l ls ih =>
    rw [processLines] at hp
    rw [entriesFrom]
    cases hl : parseLine l with
    | ub => rw [hl] at hp; simp at hp
    | err => rw [hl] at hp; simp at hp
    | skip => rw [hl] at hp; exact ih hp
    | spec r k c =>
      rw [hl] at hp
      simp only at hp ⊢
      cases hi : insertSpec none d r k c inputno (lineno + 1) with
      | none => rw [hi] at hp; simp at hp
      | some d1 =>
        rw [hi] at hp
        simp only at hp
        rw [ih hp, List.length_cons]
        have : d1.num = d.num + 1 := by
          unfold insertSpec at hi
          simp only at hi
          split at hi
          · rw [reStems_eq 0 r (parseLine_short hl)] at hi
            simp only [Option.some.injEq] at hi
            rw [← hi]
          · split at hi
            · simp at hi
            · rw [litStems_eq] at hi
              simp only [Option.some.injEq] at hi
              rw [← hi]
        omega

theorem processFiles_num {i : Nat} {fs : List (List Bytes)} {d d' : Data}
    (hp : processFiles none i fs d = some d') : d'.num = d.num + (entries i fs).length := by
  induction fs generalizing i d with
  | nil => simp only [processFiles, Option.some.injEq] at hp; subst hp; simp [entries]
  | cons f fs ih =>
    rw [processFiles] at hp
    rw [entries]
    cases hf : processLines none i 0 f d with
    | none => rw [hf] at hp; simp at hp
    | some d1 =>
      rw [hf] at hp
      simp only at hp
      rw [ih hp, processLines_num hf, List.length_append]
      omega

/-! ## The order of the specifications -/

theorem entriesFrom_mem {input n : Nat} {ls : List Bytes} {e : Entry} (h : e ∈ entriesFrom input n ls) :
    e.input = input ∧ n < e.line := by
  induction ls generalizing n with
  | nil => simp [entriesFrom] at h
  | cons l ls ih =>
    rw [entriesFrom] at h
    split at h
    · rcases List.mem_cons.1 h with rfl | h
      · exact ⟨rfl, Nat.lt_succ_self _⟩
      · have := ih h; exact ⟨this.1, by omega⟩
    · have := ih h; exact ⟨this.1, by omega⟩

theorem entriesFrom_sorted (input n : Nat) (ls : List Bytes) : (entriesFrom input n ls).Pairwise Older := by
  induction ls generalizing n with
  | nil => simp [entriesFrom]
  | cons l ls ih =>
    rw [entriesFrom]
    split
    · refine List.pairwise_cons.2 ⟨?_, ih _⟩
      intro e he
      have := entriesFrom_mem he
      exact Or.inr ⟨this.1.symm, this.2⟩
    · exact ih _

theorem entries_mem {i : Nat} {fs : List (List Bytes)} {e : Entry} (h : e ∈ entries i fs) : i ≤ e.input := by
  induction fs generalizing i with
  | nil => simp [entries] at h
  | cons f fs ih =>
    rw [entries] at h
    rcases List.mem_append.1 h with h | h
    · exact Nat.le_of_eq (entriesFrom_mem h).1.symm
    · have := ih h; omega

theorem entries_sorted (i : Nat) (fs : List (List Bytes)) : (entries i fs).Pairwise Older := by
  induction fs generalizing i with
  | nil => simp [entries]
  | cons f fs ih =>
    rw [entries]
    refine List.pairwise_append.2 ⟨entriesFrom_sorted _ _ _, ih _, ?_⟩
    intro a ha b hb
    have h1 := (entriesFrom_mem ha).1
    have h2 := entries_mem hb
    exact Or.inl (by omega)

theorem entries_tri {i : Nat} {fs : List (List Bytes)} {a b : Entry} (ha : a ∈ entries i fs) (hb : b ∈ entries i fs) :
    a = b ∨ Older a b ∨ Older b a := by
  obtain ⟨x, hx, rfl⟩ := List.getElem_of_mem ha
  obtain ⟨y, hy, rfl⟩ := List.getElem_of_mem hb
  have h := List.pairwise_iff_getElem.1 (entries_sorted i fs)
  rcases Nat.lt_trichotomy x y with hlt | heq | hgt
  · exact Or.inr (Or.inl (h x y hx hy hlt))
  · subst heq; exact Or.inl rfl
  · exact Or.inr (Or.inr (h y x hy hx hgt))

end Verif.FileLabel
