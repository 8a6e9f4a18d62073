import Verif.Login.Model
import Verif.Login.Spec
import Verif.Context.Props
import Verif.Prelude

namespace Verif.Login
open Verif.Context

/-! ## Text -/

theorem isSpace_iff {b : UInt8} : isSpace b = true ↔ Space b := by
  unfold isSpace Space
  simp

theorem not_isSpace_iff {b : UInt8} : isSpace b = false ↔ ¬ Space b := by
  rw [← isSpace_iff]; simp

theorem takeWhile_eq {p : UInt8 → Bool} : ∀ {w r : Bytes}, (∀ c ∈ w, p c = true) → (∀ c x, r = c :: x → p c = false) →
    (w ++ r).takeWhile p = w
  | [], [], _, _ => rfl
  | [], c :: r, _, hr => by simp [hr c r rfl]
  | a :: w, r, hw, hr => by
    rw [List.cons_append, List.takeWhile_cons, if_pos (hw a (by simp)), takeWhile_eq (fun c hc => hw c (List.mem_cons_of_mem _ hc)) hr]

theorem dropWhile_eq {p : UInt8 → Bool} : ∀ {w r : Bytes}, (∀ c ∈ w, p c = true) → (∀ c x, r = c :: x → p c = false) →
    (w ++ r).dropWhile p = r
  | [], [], _, _ => rfl
  | [], c :: r, _, hr => by simp [hr c r rfl]
  | a :: w, r, hw, hr => by
    rw [List.cons_append, List.dropWhile_cons, if_pos (hw a (by simp)), dropWhile_eq (fun c hc => hw c (List.mem_cons_of_mem _ hc)) hr]

theorem span_spec (p : UInt8 → Bool) : ∀ s : Bytes, ∃ w r, s = w ++ r ∧ (∀ c ∈ w, p c = true) ∧ (∀ c x, r = c :: x → p c = false) ∧
    s.takeWhile p = w ∧ s.dropWhile p = r
  | [] => ⟨[], [], rfl, by simp, by simp, rfl, rfl⟩
  | a :: s => by
    by_cases h : p a = true
    · obtain ⟨w, r, h1, h2, h3, h4, h5⟩ := span_spec p s
      refine ⟨a :: w, r, by rw [h1]; rfl, ?_, h3, by simp [h, h4], by simp [h, h5]⟩
      intro c hc
      rcases List.mem_cons.1 hc with rfl | hc
      · exact h
      · exact h2 c hc
    · refine ⟨[], a :: s, rfl, by simp, ?_, by simp [h], by simp [h]⟩
      rintro c x ⟨⟩
      simpa using h

theorem textOf_iff {line s : Bytes} : TextOf line s ↔ s = cstr line := by
  unfold TextOf cstr
  constructor
  · rintro ⟨h0, rfl | ⟨x, rfl⟩⟩
    · have := takeWhile_eq (p := (· != 0)) (w := line) (r := []) (by
        intro c hc; simp; rintro rfl; exact h0 hc) (by simp)
      simpa using this.symm
    · exact (takeWhile_eq (by intro c hc; simp; rintro rfl; exact h0 hc) (by rintro c y ⟨⟩; rfl)).symm
  · rintro rfl
    obtain ⟨w, r, h1, h2, h3, h4, h5⟩ := span_spec (· != 0) line
    rw [h4]
    refine ⟨fun hm => by simpa using h2 0 hm, ?_⟩
    cases r with
    | nil => left; simpa using h1
    | cons c r =>
      right
      have := h3 c r rfl
      simp at this
      exact ⟨r, by rw [h1, this]⟩

theorem firstWord_iff {s w : Bytes} : FirstWord s w ↔ w = s.takeWhile fun c => !isSpace c := by
  unfold FirstWord
  constructor
  · rintro ⟨h1, r, rfl, h2⟩
    exact (takeWhile_eq (by intro c hc; simp [not_isSpace_iff.2 (h1 c hc)])
      (by rintro c x rfl; simp [isSpace_iff.2 (h2 c x rfl)])).symm
  · rintro rfl
    obtain ⟨w, r, h1, h2, h3, h4, -⟩ := span_spec (fun c => !isSpace c) s
    rw [h4]
    exact ⟨fun c hc => not_isSpace_iff.1 (by simpa using h2 c hc), r, h1, fun c x hx => isSpace_iff.1 (by simpa using h3 c x hx)⟩

/-! ## Lines -/

theorem lines_cons (b : UInt8) (bs : Bytes) : lines (b :: bs) =
    if b = nl then [b] :: lines bs
    else match lines bs with
      | [] => [[b]]
      | l :: ls => (b :: l) :: ls := rfl

theorem lines_line : ∀ {l rest : Bytes}, 10 ∉ l → lines (l ++ 10 :: rest) = (l ++ [10]) :: lines rest
  | [], rest, _ => by simp [lines]
  | b :: l, rest, h => by
    rw [List.mem_cons, not_or] at h
    rw [List.cons_append, lines_cons]
    rw [if_neg (fun hb => h.1 hb.symm), lines_line h.2]
    rfl

theorem lines_last : ∀ {l : Bytes}, l ≠ [] → 10 ∉ l → lines l = [l]
  | [b], _, h => by
    unfold lines
    rw [if_neg (by rintro rfl; simp at h)]
    rfl
  | b :: c :: l, _, h => by
    rw [List.mem_cons, not_or] at h
    unfold lines
    rw [if_neg (fun hb => h.1 hb.symm), lines_last (by simp) h.2]

theorem linesOf_lines : ∀ (n : Nat) (bs : Bytes), bs.length ≤ n → LinesOf bs (lines bs)
  | n, [], _ => .nil
  | 0, _ :: _, h => by simp at h
  | n + 1, b :: bs, h => by
    obtain ⟨w, r, h1, h2, h3, -, -⟩ := span_spec (· != 10) (b :: bs)
    have hw : (10 : UInt8) ∉ w := fun hm => by simpa using h2 10 hm
    cases r with
    | nil =>
      rw [List.append_nil] at h1
      rw [h1, lines_last (by rw [← h1]; simp) hw]
      exact .last (by rw [← h1]; simp) hw
    | cons c r =>
      have hc := h3 c r rfl
      simp at hc
      subst hc
      rw [h1, lines_line hw]
      refine .line hw (linesOf_lines n r ?_)
      have := congrArg List.length h1
      simp at this h
      omega

theorem linesOf_iff {bs : Bytes} {ls : List Bytes} : LinesOf bs ls ↔ ls = lines bs := by
  constructor
  · intro h
    induction h with
    | nil => rfl
    | last h1 h2 => exact (lines_last h1 h2).symm
    | line h1 _ ih => rw [lines_line h1, ih]
  · rintro rfl
    exact linesOf_lines _ _ (Nat.le_refl _)

/-! ## Entries -/

theorem drop_length_append {w r : Bytes} : (w ++ r).drop w.length = r := by simp

theorem processSeusers_entry {mls : Bool} {line : Bytes} {e : Entry} (h : IsEntry mls line e) :
    processSeusers mls line = .entry e.luser e.seuser e.level := by
  obtain ⟨s, pre, rest, hs, he, hp, hl, h58, hne, hr⟩ := h
  rw [textOf_iff] at hs
  have hstart : (cstr line).dropWhile isSpace = e.luser ++ 58 :: rest := by
    rw [← hs, he, List.append_assoc]
    refine dropWhile_eq (fun c hc => isSpace_iff.2 (hp c hc)) ?_
    intro c x hx
    cases hlu : e.luser with
    | nil =>
      rw [hlu] at hx
      simp at hx
      exact not_isSpace_iff.2 (hl c [] (by rw [hlu]; simp [hx.1])).1
    | cons a l =>
      rw [hlu] at hx
      simp at hx
      exact not_isSpace_iff.2 (hl c (l ++ [58]) (by rw [hlu]; simp [hx.1])).1
  have hhead : ¬ ((e.luser ++ 58 :: rest).head? = some 35 ∨ e.luser ++ 58 :: rest = []) := by
    rintro (h | h)
    · cases hlu : e.luser with
      | nil => rw [hlu] at h; simp at h
      | cons a l =>
        rw [hlu] at h
        simp at h
        exact (hl a (l ++ [58]) (by rw [hlu]; rfl)).2 h
    · simp at h
  have hlu : (e.luser ++ 58 :: rest).takeWhile (· != colon) = e.luser :=
    takeWhile_eq (by intro c hc; simp; rintro rfl; exact h58 hc) (by rintro c x ⟨⟩; rfl)
  unfold processSeusers
  simp only [hstart, hlu, drop_length_append, if_neg hhead]
  rw [if_neg (by simp)]
  simp only [List.drop_succ_cons, List.drop_zero]
  rcases hr with ⟨more, g1, rfl, g3⟩ | ⟨g1, g2, g3⟩
  · have hf : (e.seuser ++ 58 :: more).contains colon = true := by simp
    have hse : (e.seuser ++ 58 :: more).takeWhile (· != colon) = e.seuser :=
      takeWhile_eq (by intro c hc; simp; rintro rfl; exact g1 hc) (by rintro c x ⟨⟩; rfl)
    have hdr : (e.seuser ++ 58 :: more).drop (e.seuser.length + 1) = more := by
      rw [show e.seuser ++ 58 :: more = (e.seuser ++ [58]) ++ more by simp, ← List.length_singleton (a := (58 : UInt8)),
        ← List.length_append]
      exact drop_length_append
    simp only [hf, hse, if_true, hdr]
    rw [if_neg hne]
    rcases g3 with ⟨rfl, g4⟩ | ⟨rfl, l, g4, g5, g6⟩
    · simp [g4]
    · rw [firstWord_iff] at g5
      rw [← g5]
      simp [g4, g6]
  · have hf : rest.contains colon = false := by
      rw [← Bool.not_eq_true, List.contains_iff_mem]; exact g1
    rw [firstWord_iff] at g2
    rw [hf]
    simp only [Bool.false_eq_true, if_false, ← g2]
    rw [if_neg hne]
    simp [g3]

theorem entry_of_processSeusers {mls : Bool} {line a b : Bytes} {c : Option Bytes}
    (h : processSeusers mls line = .entry a b c) : IsEntry mls line ⟨a, b, c⟩ := by
  unfold processSeusers at h
  obtain ⟨pre, st, p1, p2, p3, -, p5⟩ := span_spec isSpace (cstr line)
  obtain ⟨lu, af, q1, q2, q3, q4, -⟩ := span_spec (· != colon) st
  simp only [p5, q4] at h
  rw [q1, drop_length_append, ← q1] at h
  split at h
  · cases h
  · rename_i hh
    rw [not_or] at hh
    split at h
    · cases h
    · rename_i haf
      cases af with
      | nil => exact absurd rfl haf
      | cons x rest =>
        have hx := q3 x rest rfl
        simp at hx
        subst hx
        simp only [List.drop_succ_cons, List.drop_zero] at h
        have hlu : (58 : UInt8) ∉ lu := fun hm => by simpa using q2 58 hm
        have base : ∀ (se : Bytes) (le : Option Bytes), se ≠ [] →
            ((∃ more, 58 ∉ se ∧ rest = se ++ 58 :: more ∧
              (mls = false ∧ le = none ∨ mls = true ∧ ∃ l, l ≠ [] ∧ FirstWord more l ∧ le = some l)) ∨
             (58 ∉ rest ∧ FirstWord rest se ∧ le = none)) → IsEntry mls line ⟨lu, se, le⟩ := by
          intro se le hne hr
          refine ⟨cstr line, pre, rest, textOf_iff.2 rfl, by rw [p1, q1]; simp, fun c hc => isSpace_iff.1 (p2 c hc), ?_, hlu, hne, hr⟩
          intro c x hx
          have : ∃ y, st = c :: y := by
            rw [q1]
            cases lu with
            | nil => simp at hx; exact ⟨rest, by simp [hx.1]⟩
            | cons d l => simp at hx; exact ⟨l ++ 58 :: rest, by simp [hx.1]⟩
          obtain ⟨y, hy⟩ := this
          refine ⟨not_isSpace_iff.1 (p3 c y hy), ?_⟩
          rintro rfl
          exact hh.1 (by rw [hy]; rfl)
        by_cases hf : rest.contains colon = true
        · obtain ⟨se, af, r1, r2, r3, r4, -⟩ := span_spec (· != colon) rest
          simp only [hf, if_true, r4] at h
          have hse : (58 : UInt8) ∉ se := fun hm => by simpa using r2 58 hm
          cases af with
          | nil =>
            rw [List.contains_iff_mem, r1] at hf
            simp at hf
            exact absurd hf hse
          | cons y more =>
            have hy := r3 y more rfl
            simp at hy
            subst hy
            split at h
            · cases h
            · rename_i hne
              split at h
              · rename_i hm
                simp at hm
                obtain ⟨rfl, rfl, rfl⟩ := by simpa using h
                exact base _ _ hne (Or.inl ⟨more, hse, r1, Or.inl ⟨hm, rfl⟩⟩)
              · rename_i hm
                simp at hm
                have hdr : rest.drop (se.length + 1) = more := by
                  rw [r1, show se ++ 58 :: more = (se ++ [58]) ++ more by simp, ← List.length_singleton (a := (58 : UInt8)),
                    ← List.length_append]
                  exact drop_length_append
                rw [hdr] at h
                split at h
                · cases h
                · rename_i hl
                  obtain ⟨rfl, rfl, rfl⟩ := by simpa using h
                  exact base _ _ hne (Or.inl ⟨more, hse, r1, Or.inr ⟨hm, _, hl, firstWord_iff.2 rfl, rfl⟩⟩)
        · have hf' : rest.contains colon = false := by simpa using hf
          rw [hf'] at h
          simp only [Bool.false_eq_true, if_false] at h
          split at h
          · cases h
          · rename_i hne
            simp at h
            obtain ⟨rfl, rfl, rfl⟩ := h
            exact base _ _ hne (Or.inr ⟨fun hm => hf (List.contains_iff_mem.2 hm), firstWord_iff.2 rfl, rfl⟩)

theorem isEntry_unique {mls : Bool} {line : Bytes} {e e' : Entry} (h : IsEntry mls line e) (h' : IsEntry mls line e') : e = e' := by
  have := (processSeusers_entry h).symm.trans (processSeusers_entry h')
  cases e; cases e'
  simpa using this

theorem entriesOf_exists (mls : Bool) : ∀ ls, ∃ es, EntriesOf mls ls es
  | [] => ⟨[], .nil⟩
  | l :: ls => by
    obtain ⟨es, h⟩ := entriesOf_exists mls ls
    by_cases he : ∃ e, IsEntry mls l e
    · obtain ⟨e, he⟩ := he
      exact ⟨e :: es, .entry he h⟩
    · exact ⟨es, .other (fun e h => he ⟨e, h⟩) h⟩

/-! ## The choice of an entry -/

/-- The loop over entries. -/
def pick (member : Bytes → Bool) (name : Bytes) : List Entry → Option Mapped → Option Mapped → Option Mapped × Option Mapped × Option Mapped
  | [], g, d => (none, g, d)
  | e :: es, g, d =>
    if e.luser = name then (some (e.seuser, e.level), g, d)
    else if e.luser.head? = some 37 ∧ g = none ∧ member (e.luser.drop 1) = true then pick member name es (some (e.seuser, e.level)) d
    else if d = none ∧ e.luser = defaultName then pick member name es g (some (e.seuser, e.level))
    else pick member name es g d

theorem seusersLoop_eq {mls : Bool} {member : Bytes → Bool} {name : Bytes} {ls : List Bytes} {es : List Entry} (h : EntriesOf mls ls es) :
    ∀ g d, seusersLoop mls member name ls g d = pick member name es g d := by
  induction h with
  | nil => intro g d; rfl
  | entry he _ ih =>
    intro g d
    unfold seusersLoop pick
    rw [processSeusers_entry he]
    simp only [ih]
  | other hn _ ih =>
    intro g d
    unfold seusersLoop
    split
    · exact ih g d
    · exact ih g d
    · rename_i a b c hp
      exact absurd (entry_of_processSeusers hp) (hn _)

theorem defaultName_eq : defaultName = "__default__".toUTF8.toList := by decide +kernel

theorem forGroup_iff {member : Bytes → Bool} {e : Entry} : ForGroup member e ↔ e.luser.head? = some 37 ∧ member (e.luser.drop 1) = true := by
  unfold ForGroup
  cases h : e.luser with
  | nil => simp
  | cons a l =>
    simp only [List.cons.injEq, List.head?_cons, Option.some.injEq, List.drop_succ_cons, List.drop_zero]
    constructor
    · rintro ⟨g, ⟨h1, rfl⟩, h2⟩
      exact ⟨h1, h2⟩
    · rintro ⟨h1, h2⟩
      exact ⟨l, ⟨h1, rfl⟩, h2⟩

/-- The value of the entry that was chosen before or of the first that qualifies. -/
def OrFirst (p : Entry → Prop) (es : List Entry) (old new : Option Mapped) : Prop :=
  (∀ m, old = some m → new = some m) ∧
  (old = none → (∀ e, First p es e → new = some (e.seuser, e.level)) ∧ ((∀ e ∈ es, ¬ p e) → new = none))

theorem first_cons_neg {p : Entry → Prop} {a e : Entry} {es : List Entry} (ha : ¬ p a) (h : First p (a :: es) e) : First p es e := by
  obtain ⟨pre, post, h1, h2, h3⟩ := h
  cases pre with
  | nil => simp at h1; rw [h1.1] at ha; exact absurd h2 ha
  | cons b pre =>
    simp at h1
    exact ⟨pre, post, h1.2, h2, fun x hx => h3 x (List.mem_cons_of_mem _ hx)⟩

theorem first_cons_pos {p : Entry → Prop} {a e : Entry} {es : List Entry} (ha : p a) (h : First p (a :: es) e) : e = a := by
  obtain ⟨pre, post, h1, h2, h3⟩ := h
  cases pre with
  | nil => simp at h1; exact h1.1.symm
  | cons b pre =>
    simp at h1
    exact absurd ha (h1.1 ▸ h3 b (by simp))

theorem pick_user {member : Bytes → Bool} {name : Bytes} : ∀ {es : List Entry} {g d : Option Mapped},
    (∀ e, First (ForUser name) es e → (pick member name es g d).1 = some (e.seuser, e.level)) ∧
    ((∀ e ∈ es, ¬ ForUser name e) → (pick member name es g d).1 = none)
  | [], g, d => ⟨by rintro e ⟨pre, post, h, -⟩; simp at h, fun _ => rfl⟩
  | a :: es, g, d => by
    unfold pick
    by_cases ha : a.luser = name
    · rw [if_pos ha]
      refine ⟨fun e he => ?_, fun h => absurd ha (h a (by simp))⟩
      rw [first_cons_pos (p := ForUser name) ha he]
    · rw [if_neg ha]
      have key : ∀ g d, (∀ e, First (ForUser name) (a :: es) e → (pick member name es g d).1 = some (e.seuser, e.level)) ∧
          ((∀ e ∈ a :: es, ¬ ForUser name e) → (pick member name es g d).1 = none) := fun g d =>
        ⟨fun e he => (pick_user (es := es)).1 e (first_cons_neg (p := ForUser name) ha he),
          fun h => (pick_user (es := es)).2 fun e he => h e (List.mem_cons_of_mem _ he)⟩
      split
      · exact key _ _
      · split
        · exact key _ _
        · exact key _ _

theorem pick_others {member : Bytes → Bool} {name : Bytes} : ∀ {es : List Entry} {g d : Option Mapped}, (∀ e ∈ es, ¬ ForUser name e) →
    OrFirst (ForGroup member) es g (pick member name es g d).2.1 ∧
    OrFirst (fun e => ForOthers e) es d (pick member name es g d).2.2
  | [], g, d, _ => by
    constructor
    · exact ⟨fun m h => h, fun h => ⟨by rintro e ⟨pre, post, h, -⟩; simp at h, fun _ => h⟩⟩
    · exact ⟨fun m h => h, fun h => ⟨by rintro e ⟨pre, post, h, -⟩; simp at h, fun _ => h⟩⟩
  | a :: es, g, d, hu => by
    have hu' : ∀ e ∈ es, ¬ ForUser name e := fun e he => hu e (List.mem_cons_of_mem _ he)
    unfold pick
    rw [if_neg (show ¬ a.luser = name from hu a (by simp))]
    have hgo : ForGroup member a → ¬ ForOthers a := by
      rintro ⟨x, h1, -⟩ h2
      rw [ForOthers, ← defaultName_eq, h1] at h2
      simp [defaultName] at h2
    -- how the two parts move
    have keep : ∀ {p : Entry → Prop} {old new : Option Mapped}, (¬ p a ∨ old ≠ none) → OrFirst p es old new → OrFirst p (a :: es) old new := by
      intro p old new ho h
      refine ⟨h.1, fun hn => ?_⟩
      have ha : ¬ p a := by rcases ho with h | h; exact h; exact absurd hn h
      refine ⟨fun e he => (h.2 hn).1 e (first_cons_neg ha he), fun hall => (h.2 hn).2 fun e he => hall e (List.mem_cons_of_mem _ he)⟩
    have take : ∀ {p : Entry → Prop} {new : Option Mapped}, p a → OrFirst p es (some (a.seuser, a.level)) new → OrFirst p (a :: es) none new := by
      intro p new ha h
      refine ⟨by simp, fun _ => ⟨fun e he => ?_, fun hall => absurd ha (hall a (by simp))⟩⟩
      rw [first_cons_pos ha he]
      exact h.1 _ rfl
    split
    · rename_i hc
      obtain ⟨c1, rfl, c3⟩ := hc
      have hg : ForGroup member a := forGroup_iff.2 ⟨c1, c3⟩
      obtain ⟨i1, i2⟩ := pick_others (es := es) (member := member) (name := name) (g := some (a.seuser, a.level)) (d := d) hu'
      exact ⟨take hg i1, keep (Or.inl (hgo hg)) i2⟩
    · rename_i hc
      have hg : ¬ ForGroup member a ∨ g ≠ none := by
        rw [forGroup_iff]
        by_contra hcon
        rw [not_or] at hcon
        have h1 := hcon.1
        have h2 := hcon.2
        rw [Classical.not_not] at h1 h2
        exact hc ⟨h1.1, h2, h1.2⟩
      split
      · rename_i hd
        obtain ⟨rfl, d2⟩ := hd
        obtain ⟨i1, i2⟩ := pick_others (es := es) (member := member) (name := name) (g := g) (d := some (a.seuser, a.level)) hu'
        exact ⟨keep hg i1, take (show ForOthers a by rw [ForOthers, ← defaultName_eq]; exact d2) i2⟩
      · rename_i hd
        obtain ⟨i1, i2⟩ := pick_others (es := es) (member := member) (name := name) (g := g) (d := d) hu'
        refine ⟨keep hg i1, keep ?_ i2⟩
        by_contra hcon
        rw [not_or] at hcon
        have h1 := hcon.1
        have h2 := hcon.2
        rw [Classical.not_not] at h1 h2
        exact hd ⟨h2, by rw [ForOthers, ← defaultName_eq] at h1; exact h1⟩

end Verif.Login
