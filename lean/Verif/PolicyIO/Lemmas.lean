import Verif.PolicyIO.Spec
import Verif.Ebitmap.Props
import Verif.Validate.Props
import Verif.Prelude

/-! # Reading back what was written: the parts -/

namespace Verif.PolicyIO
open Verif.Policy Verif.Services Verif.Validate

/-- `r` reads `a` back from the bytes `b`, whatever follows. -/
def Inv {α : Type} (r : Rd α) (b : Bytes) (a : α) : Prop := ∀ rest, r (b ++ rest) = some (a, rest)

theorem inv_bind {α β : Type} {r : Rd α} {f : α → Rd β} {b b' : Bytes} {a : α} {c : β} (h : Inv r b a) (h' : Inv (f a) b' c) :
    Inv (r >>= f) (b ++ b') c := by
  intro rest
  show (r (b ++ b' ++ rest)).bind _ = _
  rw [List.append_assoc, h]
  exact h' rest

theorem inv_pure {α : Type} (a : α) : Inv (Rd.pure a) [] a := fun _ => rfl

theorem inv_last {α β : Type} {r : Rd α} {g : α → β} {b : Bytes} {a : α} (h : Inv r b a) : Inv (r >>= fun x => Rd.pure (g x)) b (g a) := by
  intro rest
  show (r (b ++ rest)).bind _ = _
  rw [h]; rfl

theorem inv_reject {β : Type} {f : Unit → Rd β} {c : Bool} {b : Bytes} {x : β} (hc : c = false) (h : Inv (f ()) b x) :
    Inv (Rd.reject c >>= f) b x := by
  subst hc; exact h

theorem inv_skip {α β : Type} {f : α → Rd β} {a : α} {b : Bytes} {x : β} (h : Inv (f a) b x) : Inv (Rd.pure a >>= f) b x := h

theorem inv_congr {α : Type} {r : Rd α} {b b' : Bytes} {a a' : α} (h : Inv r b a) (hb : b' = b) (ha : a' = a) : Inv r b' a' := by
  subst hb; subst ha; exact h

theorem inv_ite {α : Type} {c : Prop} [Decidable c] {r r' : Rd α} {b : Bytes} {x : α} (h : c → Inv r b x) (h' : ¬ c → Inv r' b x) :
    Inv (if c then r else r') b x := by
  split
  · exact h ‹_›
  · exact h' ‹_›

theorem inv_u32 {n : Nat} (h : Word n) : Inv u32 (w32 n) n := fun rest => nextLE_leBytes 4 n rest (by simpa [Word] using h)

theorem inv_u64 {n : Nat} (h : n < 2 ^ 64) : Inv u64 (leBytes 8 n) n := fun rest => nextLE_leBytes 8 n rest (by simpa using h)

theorem inv_ebm {e : Ebitmap.Ebitmap} (h : Ebitmap.WF e) : Inv ebm (Ebitmap.write e) e := fun rest => Ebitmap.C05_round_trip h rest

theorem inv_raw {bs : Bytes} {n : Nat} (h : bs.length = n) : Inv (raw n) bs bs := by
  intro rest
  unfold raw
  rw [if_neg (by simp; omega)]
  subst h
  simp

theorem wf_init : Ebitmap.WF Ebitmap.init := (Ebitmap.wf_iff_inv _).2 Ebitmap.inv_init

theorem cstr_strBytes {s : Str} (h : ∀ c ∈ s, 1 ≤ c.toNat ∧ c.toNat < 256) : cstr (strBytes s) = s := by
  unfold cstr strBytes
  induction s with
  | nil => rfl
  | cons c s ih =>
    have hc := h c (by simp)
    have h1 : (UInt8.ofNat c.toNat).toNat = c.toNat := by simp; omega
    have hb : (UInt8.ofNat c.toNat != 0) = true := by
      rw [bne_iff_ne]
      intro h0
      have h2 := congrArg UInt8.toNat h0
      rw [h1] at h2
      simp at h2
      omega
    rw [List.map_cons, List.takeWhile_cons, if_pos hb, List.map_cons, ih fun x hx => h x (List.mem_cons_of_mem _ hx), h1]
    congr 1
    exact Char.ofNat_toNat c

theorem strBytes_length (s : Str) : (strBytes s).length = s.length := by simp [strBytes]

theorem inv_str {s : Str} (h : GoodName s) : Inv (strRead s.length) (strBytes s) s := by
  unfold strRead
  refine inv_reject ?_ ?_
  · have := h.1
    simp only [beq_eq_false_iff_ne, ne_eq, List.length_eq_zero_iff]; exact this
  · exact inv_congr (inv_last (g := cstr) (inv_raw (strBytes_length s))) rfl (cstr_strBytes h.2.2).symm

theorem word_len {s : Str} (h : GoodName s) : Word s.length := h.2.1

theorem w32_length (n : Nat) : (w32 n).length = 4 := leBytes_length 4 n

/-! ## Loops -/

theorem inv_times {α β : Type} {r : Rd β} {w : α → Bytes} {g : α → β} : ∀ {l : List α}, (∀ a ∈ l, Inv r (w a) (g a)) →
    Inv (times r l.length) (l.flatMap w) (l.map g)
  | [], _ => inv_pure _
  | a :: l, h => by
    rw [List.flatMap_cons]
    exact inv_bind (h a (by simp)) (inv_last (g := fun l => g a :: l) (inv_times fun x hx => h x (List.mem_cons_of_mem _ hx)))

theorem inv_timesId {α : Type} {r : Rd α} {w : α → Bytes} {l : List α} (h : ∀ a ∈ l, Inv r (w a) a) :
    Inv (times r l.length) (l.flatMap w) l := by
  have := inv_times (g := id) h
  rwa [List.map_id] at this

/-- What can be written is read back. -/
theorem wAll_times {α β : Type} {r : Rd β} {w : α → Option Bytes} {g : α → β} : ∀ {l : List α},
    (∀ a ∈ l, ∃ b, w a = some b ∧ Inv r b (g a)) → ∃ b, wAll w l = some b ∧ Inv (times r l.length) b (l.map g)
  | [], _ => ⟨[], rfl, inv_pure _⟩
  | a :: l, h => by
    obtain ⟨b, h1, h2⟩ := h a (by simp)
    obtain ⟨bs, h3, h4⟩ := wAll_times (l := l) fun x hx => h x (List.mem_cons_of_mem _ hx)
    exact ⟨b ++ bs, by simp [wAll, h1, h3], inv_bind h2 (inv_last (g := fun l => g a :: l) h4)⟩

theorem wAll_some {α : Type} {w : α → Bytes} (l : List α) : wAll (fun a => some (w a)) l = some (l.flatMap w) := by
  induction l with
  | nil => rfl
  | cons a l ih => simp [wAll, ih]

theorem readTable_none {κ δ : Type} [DecidableEq κ] {r : Rd (Option (κ × δ))} (n : Nat) (t : List (κ × δ)) {b rest : Bytes}
    (h : r b = some (none, rest)) : readTable r (n + 1) t b = readTable r n t rest := by
  show (r b).bind _ = _
  rw [h]; rfl

theorem readTable_some {κ δ : Type} [DecidableEq κ] {r : Rd (Option (κ × δ))} (n : Nat) (t : List (κ × δ)) {b rest : Bytes} {e : κ × δ}
    (h : r b = some (some e, rest)) : readTable r (n + 1) t b =
      if t.any (fun y => y.1 == e.1) then none else readTable r n (t ++ [e]) rest := by
  show (r b).bind _ = _
  rw [h]
  show (Rd.reject (t.any fun y => y.1 == e.1) >>= fun _ => readTable r n (t ++ [e])) rest = _
  cases t.any fun y => y.1 == e.1 <;> rfl

/-- Reading a table whose entries have different keys. -/
theorem inv_table {α κ δ : Type} [DecidableEq κ] {r : Rd (Option (κ × δ))} {w : α → Bytes} {g : α → Option (κ × δ)} :
    ∀ {l : List α} {t : List (κ × δ)}, (∀ a ∈ l, Inv r (w a) (g a)) → ((t ++ l.filterMap g).map (·.1)).Nodup →
    Inv (readTable r l.length t) (l.flatMap w) (t ++ l.filterMap g)
  | [], t, _, _ => by rw [List.filterMap_nil, List.append_nil]; exact inv_pure t
  | a :: l, t, h, hn => by
    intro rest
    rw [List.flatMap_cons, List.append_assoc]
    show readTable r (l.length + 1) t _ = _
    have ha := h a (by simp) (l.flatMap w ++ rest)
    have hl : ∀ x ∈ l, Inv r (w x) (g x) := fun x hx => h x (List.mem_cons_of_mem _ hx)
    cases hg : g a with
    | none =>
      rw [hg] at ha
      rw [readTable_none _ _ ha]
      rw [List.filterMap_cons_none hg] at hn ⊢
      exact inv_table hl hn rest
    | some e =>
      rw [hg] at ha
      rw [readTable_some _ _ ha]
      rw [List.filterMap_cons_some hg] at hn ⊢
      rw [if_neg]
      · have : t ++ e :: l.filterMap g = (t ++ [e]) ++ l.filterMap g := by simp
        rw [this] at hn ⊢
        exact inv_table hl hn rest
      · intro hc
        rw [List.any_eq_true] at hc
        obtain ⟨y, hy, hye⟩ := hc
        have hye := eq_of_beq hye
        rw [List.map_append, List.nodup_append] at hn
        exact hn.2.2 y.1 (List.mem_map_of_mem hy) e.1 (by simp) hye

/-- Tables without entries that are skipped. -/
theorem inv_tableAll {κ δ ε : Type} [DecidableEq κ] {r : Rd (Option (κ × δ))} {w : κ × ε → Bytes} {g : ε → δ} {l : List (κ × ε)}
    (h : ∀ a ∈ l, Inv r (w a) (some (a.1, g a.2))) (hn : (l.map (·.1)).Nodup) :
    Inv (readTable r l.length []) (l.flatMap w) (l.map fun a => (a.1, g a.2)) := by
  have := inv_table (r := r) (w := w) (g := fun a : κ × ε => some (a.1, g a.2)) (l := l) (t := []) h (by
    simpa [List.filterMap_eq_map', List.map_map, Function.comp_def] using hn)
  simpa [List.filterMap_eq_map'] using this

/-! ## Levels, ranges, contexts -/

theorem inv_level {l : Level} (h : LevelFits l) : Inv readLevel (writeLevel l) l :=
  inv_bind (inv_u32 h.1) (inv_last (g := fun c => (⟨l.sens, c⟩ : Level)) (inv_ebm h.2))

theorem levelEq_iff {a b : Level} (ha : LevelFits a) (hb : LevelFits b) : levelEq a b = true ↔ a = b := by
  unfold levelEq
  rw [Bool.and_eq_true, beq_iff_eq]
  constructor
  · rintro ⟨h1, h2⟩
    obtain ⟨s, c⟩ := a
    obtain ⟨s', c'⟩ := b
    have := Ebitmap.C03_canonical ha.2 hb.2 ((Ebitmap.C03_relations ha.2 hb.2).1.1 h2)
    simp only at h1 this
    rw [h1, this]
  · rintro rfl
    exact ⟨rfl, (Ebitmap.C03_relations ha.2 ha.2).1.2 fun _ => rfl⟩

theorem inv_range {r : Range} (h : RangeFits r) : Inv readRange (writeRange r) r := by
  unfold writeRange readRange
  split
  · rename_i he
    have he := (levelEq_iff h.2 h.1).1 he
    refine inv_bind (inv_u32 (n := 1) (by unfold Word; decide)) ?_
    refine inv_reject rfl ?_
    refine inv_bind (inv_u32 h.1.1) ?_
    refine inv_skip ?_
    have : r = ⟨⟨r.low.sens, r.low.cat⟩, ⟨r.low.sens, Ebitmap.cpy r.low.cat⟩⟩ := by
      rw [Ebitmap.cpy_eq]
      obtain ⟨l, hh⟩ := r
      simp only at he ⊢
      rw [he]
    rw [this]
    exact inv_last (g := fun c => (⟨⟨r.low.sens, c⟩, ⟨r.low.sens, Ebitmap.cpy c⟩⟩ : Range)) (inv_ebm h.1.2)
  · refine inv_bind (inv_u32 (n := 2) (by unfold Word; decide)) ?_
    refine inv_reject rfl ?_
    refine inv_bind (inv_u32 h.1.1) ?_
    refine inv_bind (inv_u32 h.2.1) ?_
    refine inv_bind (inv_ebm h.1.2) ?_
    exact inv_last (g := fun c => (⟨⟨r.low.sens, r.low.cat⟩, ⟨r.high.sens, c⟩⟩ : Range)) (inv_ebm h.2.2)

theorem inv_context {valid : Context → Bool} {c : Context} (h : ContextFits c) (hv : valid c = true) :
    Inv (readContext valid) (writeContext c) c := by
  unfold readContext writeContext
  refine inv_bind (inv_u32 h.1) ?_
  refine inv_bind (inv_u32 h.2.1) ?_
  refine inv_bind (inv_u32 h.2.2.1) ?_
  have := inv_bind (f := fun range => (do
    Rd.reject (!valid ⟨c.user, c.role, c.type, range⟩)
    Rd.pure (⟨c.user, c.role, c.type, range⟩ : Context))) (b' := []) (inv_range h.2.2.2)
    (inv_reject (by rw [show (⟨c.user, c.role, c.type, c.range⟩ : Context) = c from rfl, hv]; rfl) (inv_pure c))
  rwa [List.append_nil] at this

theorem inv_typeSet {s : TypeSet} (h1 : Ebitmap.WF s.types) (h2 : Ebitmap.WF s.negset) (h3 : Word s.flags) :
    Inv readTypeSet (writeTypeSet s) s :=
  inv_bind (inv_ebm h1) (inv_bind (inv_ebm h2) (inv_last (g := fun f => (⟨s.types, s.negset, f⟩ : TypeSet)) (inv_u32 h3)))

/-! ## Symbols -/

theorem inv_perm {nprim : Nat} (hnp : nprim ≤ 32) {e : Str × Nat} (hn : GoodName e.1) (hv : 1 ≤ e.2 ∧ e.2 ≤ nprim) :
    Inv (readPerm nprim) (writePerm e) (some e) := by
  unfold readPerm writePerm
  refine inv_bind (inv_u32 (word_len hn)) ?_
  refine inv_bind (inv_u32 (by unfold Word; omega)) ?_
  have := inv_bind (f := fun key => (do
    Rd.reject (!valueIsValid e.2 nprim)
    Rd.pure (some (key, e.2)) : Rd (Option (Str × Nat)))) (b' := []) (inv_str hn)
    (inv_reject (by rw [valueIsValid_iff.2 hv]; rfl) (inv_pure (some e)))
  rwa [List.append_nil] at this

theorem inv_perms {t : Symtab Nat} (h : PermsFit t) :
    Inv (readTable (readPerm t.nprim) t.entries.length []) (t.entries.flatMap writePerm) t.entries := by
  have := inv_tableAll (r := readPerm t.nprim) (w := writePerm) (g := id) (l := t.entries)
    (fun a ha => inv_perm h.2.1 (h.1.1 a ha) (h.2.2.2 a ha)) h.1.2
  simpa using this

theorem inv_common {e : Str × CommonD} (hn : GoodName e.1) (hv : Word e.2.value) (hp : PermsFit e.2.perms) :
    Inv readCommon (writeCommon e) (some e) := by
  unfold readCommon writeCommon
  refine inv_bind (inv_u32 (word_len hn)) ?_
  refine inv_bind (inv_u32 hv) ?_
  refine inv_bind (inv_u32 (by have := hp.2.1; unfold Word; omega)) ?_
  refine inv_bind (inv_u32 hp.2.2.1) ?_
  refine inv_bind (inv_str hn) ?_
  refine inv_reject (by have := hp.2.1; simp; omega) ?_
  exact inv_last (g := fun perms => some (e.1, (⟨e.2.value, ⟨perms, e.2.perms.nprim⟩⟩ : CommonD))) (inv_perms hp)

theorem inv_type {e : Str × TypeD} (hn : GoodName e.1) (hv : Word e.2.value) (hb : Word e.2.bounds) :
    Inv readType (writeType e) (some (e.1, heldType e.2)) := by
  unfold readType writeType
  refine inv_bind (inv_u32 (word_len hn)) ?_
  refine inv_bind (inv_u32 hv) ?_
  refine inv_bind (inv_u32 (by unfold Word; split <;> split <;> omega)) ?_
  refine inv_bind (inv_u32 hb) ?_
  refine inv_congr (inv_last (g := fun key => some (key, _)) (inv_str hn)) rfl ?_
  unfold heldType
  obtain ⟨s, ⟨value, primary, flavor, types, flags, bounds⟩⟩ := e
  simp only
  by_cases h1 : primary = 0 <;> by_cases h2 : flavor = 1 <;> simp [h1, h2] <;> decide

theorem inv_user {e : Str × UserD} (hn : GoodName e.1) (hv : Word e.2.value) (hb : Word e.2.bounds) (hr : Ebitmap.WF e.2.roles.roles)
    (hrg : RangeFits e.2.expRange) (hl : LevelFits e.2.expDfltlevel) : Inv readUser (writeUser e) (some (e.1, heldUser e.2)) := by
  unfold readUser writeUser
  refine inv_bind (inv_u32 (word_len hn)) ?_
  refine inv_bind (inv_u32 hv) ?_
  refine inv_bind (inv_u32 hb) ?_
  refine inv_bind (inv_str hn) ?_
  refine inv_bind (inv_ebm hr) ?_
  refine inv_bind (inv_range hrg) ?_
  exact inv_last (g := fun l => some (e.1, (⟨e.2.value, ⟨e.2.roles.roles, 0⟩, emptySem, emptySem, emptySem, e.2.expRange, l, e.2.bounds⟩ : UserD)))
    (inv_level hl)

theorem inv_bool {e : Str × BoolD} (hn : GoodName e.1) (hv : Word e.2.value) (hs : e.2.state = 0 ∨ e.2.state = 1) :
    Inv readBool (writeBool e) (some (e.1, { e.2 with flags := 0 })) := by
  unfold readBool writeBool
  refine inv_bind (inv_u32 hv) ?_
  have h1 : ∃ n : Nat, (n = 0 ∨ n = 1) ∧ int32 e.2.state = n ∧ e.2.state = n := by
    rcases hs with h | h <;> rw [h]
    · exact ⟨0, Or.inl rfl, by decide, rfl⟩
    · exact ⟨1, Or.inr rfl, by decide, rfl⟩
  obtain ⟨n, hn1, hn2, hn3⟩ := h1
  rw [hn2]
  refine inv_bind (inv_u32 (by unfold Word; omega)) ?_
  refine inv_bind (inv_u32 (word_len hn)) ?_
  refine inv_reject (by rcases hn1 with h | h <;> rw [h] <;> rfl) ?_
  refine inv_congr (inv_last (g := fun key => some (key, (⟨e.2.value, (n : Int), 0⟩ : BoolD))) (inv_str hn)) rfl ?_
  rw [← hn3]

theorem inv_sens {e : Str × LevelD} (hn : GoodName e.1) (hl : LevelFits e.2.level) :
    Inv readSens (writeSens e) (some (e.1, { e.2 with notdefined := 0 })) := by
  unfold readSens writeSens
  refine inv_bind (inv_u32 (word_len hn)) ?_
  refine inv_bind (inv_u32 (by unfold Word; split <;> omega)) ?_
  refine inv_bind (inv_str hn) ?_
  refine inv_congr (inv_last (g := fun l => some (e.1, (⟨l, _, 0⟩ : LevelD))) (inv_level hl)) rfl ?_
  obtain ⟨s, ⟨v, a, d⟩⟩ := e
  cases a <;> rfl

theorem inv_cat {e : Str × CatD} (hn : GoodName e.1) (hv : Word e.2.value) : Inv readCat (writeCat e) (some e) := by
  unfold readCat writeCat
  refine inv_bind (inv_u32 (word_len hn)) ?_
  refine inv_bind (inv_u32 hv) ?_
  refine inv_bind (inv_u32 (by unfold Word; split <;> omega)) ?_
  refine inv_congr (inv_last (g := fun key => some (key, (⟨e.2.value, _⟩ : CatD))) (inv_str hn)) rfl ?_
  obtain ⟨s, ⟨v, a⟩⟩ := e
  cases a <;> rfl

theorem inv_role {e : Str × RoleD} (hn : GoodName e.1) (hv : Word e.2.value) (hb : Word e.2.bounds) (hd : Ebitmap.WF e.2.dominates)
    (ht : Ebitmap.WF e.2.types.types) (ho : e.1 = objectR ↔ e.2.value = 1) (hf : e.2.flavor ≠ 1) :
    Inv readRole (writeRole e) (if e.1 = objectR then none else some (e.1, heldRole e.2)) := by
  unfold readRole writeRole
  rw [if_neg hf]
  refine inv_bind (inv_u32 (word_len hn)) ?_
  refine inv_bind (inv_u32 hv) ?_
  refine inv_bind (inv_u32 hb) ?_
  refine inv_bind (inv_str hn) ?_
  refine inv_bind (inv_ebm hd) ?_
  by_cases h1 : e.2.value = 1
  · rw [if_pos h1, if_pos (ho.2 h1)]
    have := inv_bind (f := fun types => (if e.1 = objectR then do
        Rd.reject (e.2.value != 1)
        Rd.pure none
      else Rd.pure (some (e.1, ⟨e.2.value, e.2.dominates, ⟨types, Ebitmap.init, 0⟩, e.2.bounds, Ebitmap.init, 0⟩)) : Rd (Option (Str × RoleD))))
      (b' := []) (inv_ebm wf_init) (c := none) (by
        rw [if_pos (ho.2 h1)]
        exact inv_reject (by rw [h1]; rfl) (inv_pure none))
    rwa [List.append_nil] at this
  · have h2 : ¬ e.1 = objectR := fun h => h1 (ho.1 h)
    rw [if_neg h1, if_neg h2]
    have := inv_bind (f := fun types => (if e.1 = objectR then do
        Rd.reject (e.2.value != 1)
        Rd.pure none
      else Rd.pure (some (e.1, ⟨e.2.value, e.2.dominates, ⟨types, Ebitmap.init, 0⟩, e.2.bounds, Ebitmap.init, 0⟩)) : Rd (Option (Str × RoleD))))
      (b' := []) (inv_ebm ht) (c := some (e.1, heldRole e.2)) (by
        rw [if_neg h2]
        exact inv_pure _)
    rwa [List.append_nil] at this

/-! ## The tables -/

theorem flatMap_length {α : Type} (w : α → Bytes) (n : Nat) : ∀ (l : List α), (∀ a ∈ l, n ≤ (w a).length) → n * l.length ≤ (l.flatMap w).length
  | [], _ => by simp
  | a :: l, h => by
    have h1 := h a (by simp)
    have h2 := flatMap_length w n l fun x hx => h x (List.mem_cons_of_mem _ hx)
    rw [List.flatMap_cons, List.length_append, List.length_cons, Nat.mul_add]
    omega

theorem inv_sym {δ : Type} {r : Rd (Option (Str × δ))} {t es : List (Str × δ)} {nprim n : Nat} {bs : Bytes} (hr : Inv (readTable r n t) bs es)
    (h1 : nprim ≤ 2 ^ 32 - 64) (h2 : Word n) (h3 : nprim ≤ n) (h4 : nprim = 0 → n = 0) (h5 : 12 * n ≤ bs.length) :
    Inv (readSym r t) (w32 nprim ++ (w32 n ++ bs)) ⟨es, nprim⟩ := by
  unfold readSym
  refine inv_bind (inv_u32 (by unfold Word; omega)) ?_
  refine inv_bind (inv_u32 h2) ?_
  refine inv_reject (by simp; omega) ?_
  intro rest
  show ((Rd.reject (decide (nprim * 12 > (bs ++ rest).length)) (bs ++ rest)).bind _) = _
  rw [show decide (nprim * 12 > (bs ++ rest).length) = false by simp; omega]
  refine inv_reject (β := Symtab δ) (f := fun _ => readTable r n t >>= fun entries => Rd.pure ⟨entries, nprim⟩) ?_
    (inv_last (g := fun es => (⟨es, nprim⟩ : Symtab δ)) hr) rest
  cases hn : n with
  | zero => rfl
  | succ m =>
    have : nprim ≠ 0 := fun h => by have := h4 h; omega
    simp [this]

end Verif.PolicyIO
