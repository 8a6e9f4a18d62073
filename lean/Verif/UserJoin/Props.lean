import Verif.Prelude
import Verif.UserJoin.Spec
import Verif.FileLabel.Search
/-! # Properties of the joined database of users -/
namespace Verif.UserJoin
open Verif.FileLabel (strcmp strcmp_eq strcmp_anti strcmp_lt_trans strcmp_flip)
open Spec

def StrictB (l : List Base) : Prop := l.Pairwise (fun a b => strcmp a.name b.name < 0)
def StrictE (l : List Extra) : Prop := l.Pairwise (fun a b => strcmp a.name b.name < 0)

theorem ne_of_lt {a b : Bytes} (h : strcmp a b < 0) : a ≠ b := by
  rintro rfl
  have := strcmp_eq.2 (rfl : a = a)
  omega

theorem join_both {b : Base} {e : Extra} (h : b.name = e.name) : join (some b) (some e) = ⟨b.name, b, e⟩ := by
  obtain ⟨n, p⟩ := e
  simp only at h
  subst h
  rfl

theorem join_base (b : Base) : join (some b) none = ⟨b.name, b, ⟨b.name, [117, 115, 101, 114]⟩⟩ := rfl

theorem join_extra (e : Extra) : join none (some e) = ⟨e.name, ⟨e.name, [], none, none⟩, e⟩ := rfl

theorem mem_merge {bs : List Base} {es : List Extra} (hb : StrictB bs) (he : StrictE es) (u : User) :
    u ∈ merge bs es ↔ Joined bs es u := by
  fun_induction merge bs es with
  | case1 =>
    constructor
    · simp
    · intro h; cases h with
      | both b e hb => simp at hb
      | base b hb => simp at hb
      | extra e he => simp at he
  | case2 e es ih =>
    have he' := List.pairwise_cons.1 he
    rw [List.mem_cons, ih hb he'.2, join_extra]
    constructor
    · rintro (rfl | h)
      · exact .extra e List.mem_cons_self (by simp)
      · cases h with
        | both b e hb => simp at hb
        | base b hb => simp at hb
        | extra e he => exact .extra e (List.mem_cons_of_mem _ he) (by simp)
    · intro h
      cases h with
      | both b e hb => simp at hb
      | base b hb => simp at hb
      | extra e he =>
        rcases List.mem_cons.1 he with rfl | he
        · exact Or.inl rfl
        · exact Or.inr (.extra e he (by simp))
  | case3 b bs ih =>
    have hb' := List.pairwise_cons.1 hb
    rw [List.mem_cons, ih hb'.2 he, join_base]
    constructor
    · rintro (rfl | h)
      · exact .base b List.mem_cons_self (by simp)
      · cases h with
        | both b e hb he => simp at he
        | base b hb => exact .base b (List.mem_cons_of_mem _ hb) (by simp)
        | extra e he => simp at he
    · intro h
      cases h with
      | both b e hb he => simp at he
      | base b hb =>
        rcases List.mem_cons.1 hb with rfl | hb
        · exact Or.inl rfl
        · exact Or.inr (.base b hb (by simp))
      | extra e he => simp at he
  | case4 b bs e es hlt ih =>
    have hb' := List.pairwise_cons.1 hb
    have he' := List.pairwise_cons.1 he
    have hne : ∀ x ∈ b :: bs, x.name ≠ e.name := by
      intro x hx
      rcases List.mem_cons.1 hx with rfl | hx
      · exact (ne_of_lt hlt).symm
      · exact (ne_of_lt (strcmp_lt_trans hlt (Int.le_of_lt (hb'.1 x hx)))).symm
    rw [List.mem_cons, ih hb he'.2, join_extra]
    constructor
    · rintro (rfl | h)
      · exact .extra e List.mem_cons_self hne
      · cases h with
        | both x y hx hy hxy => exact .both x y hx (List.mem_cons_of_mem _ hy) hxy
        | base x hx h =>
          refine .base x hx ?_
          intro y hy
          rcases List.mem_cons.1 hy with rfl | hy
          · exact (hne x hx).symm
          · exact h y hy
        | extra y hy h => exact .extra y (List.mem_cons_of_mem _ hy) h
    · intro h
      cases h with
      | both x y hx hy hxy =>
        rcases List.mem_cons.1 hy with rfl | hy
        · exact absurd hxy (hne x hx)
        · exact Or.inr (.both x y hx hy hxy)
      | base x hx h => exact Or.inr (.base x hx fun y hy => h y (List.mem_cons_of_mem _ hy))
      | extra y hy h =>
        rcases List.mem_cons.1 hy with rfl | hy
        · exact Or.inl rfl
        · exact Or.inr (.extra y hy h)
  | case5 b bs e es _ hgt ih =>
    have hb' := List.pairwise_cons.1 hb
    have he' := List.pairwise_cons.1 he
    have hlt : strcmp b.name e.name < 0 := strcmp_flip.1 hgt
    have hne : ∀ y ∈ e :: es, y.name ≠ b.name := by
      intro x hx
      rcases List.mem_cons.1 hx with rfl | hx
      · exact (ne_of_lt hlt).symm
      · exact (ne_of_lt (strcmp_lt_trans hlt (Int.le_of_lt (he'.1 x hx)))).symm
    rw [List.mem_cons, ih hb'.2 he, join_base]
    constructor
    · rintro (rfl | h)
      · exact .base b List.mem_cons_self hne
      · cases h with
        | both x y hx hy hxy => exact .both x y (List.mem_cons_of_mem _ hx) hy hxy
        | base x hx h => exact .base x (List.mem_cons_of_mem _ hx) h
        | extra y hy h =>
          refine .extra y hy ?_
          intro x hx
          rcases List.mem_cons.1 hx with rfl | hx
          · exact (hne y hy).symm
          · exact h x hx
    · intro h
      cases h with
      | both x y hx hy hxy =>
        rcases List.mem_cons.1 hx with rfl | hx
        · exact absurd hxy.symm (hne y hy)
        · exact Or.inr (.both x y hx hy hxy)
      | base x hx h =>
        rcases List.mem_cons.1 hx with rfl | hx
        · exact Or.inl rfl
        · exact Or.inr (.base x hx h)
      | extra y hy h => exact Or.inr (.extra y hy fun x hx => h x (List.mem_cons_of_mem _ hx))
  | case6 b bs e es h1 h2 ih =>
    have hb' := List.pairwise_cons.1 hb
    have he' := List.pairwise_cons.1 he
    have heq : b.name = e.name := (strcmp_eq.1 (by omega)).symm
    have hnb : ∀ x ∈ bs, x.name ≠ e.name := fun x hx => by rw [← heq]; exact (ne_of_lt (hb'.1 x hx)).symm
    have hne : ∀ y ∈ es, y.name ≠ b.name := fun y hy => by rw [heq]; exact (ne_of_lt (he'.1 y hy)).symm
    rw [List.mem_cons, ih hb'.2 he'.2, join_both heq]
    constructor
    · rintro (rfl | h)
      · exact .both b e List.mem_cons_self List.mem_cons_self heq
      · cases h with
        | both x y hx hy hxy => exact .both x y (List.mem_cons_of_mem _ hx) (List.mem_cons_of_mem _ hy) hxy
        | base x hx h =>
          refine .base x (List.mem_cons_of_mem _ hx) ?_
          intro y hy
          rcases List.mem_cons.1 hy with rfl | hy
          · exact (hnb x hx).symm
          · exact h y hy
        | extra y hy h =>
          refine .extra y (List.mem_cons_of_mem _ hy) ?_
          intro x hx
          rcases List.mem_cons.1 hx with rfl | hx
          · exact (hne y hy).symm
          · exact h x hx
    · intro h
      cases h with
      | both x y hx hy hxy =>
        rcases List.mem_cons.1 hx with rfl | hx
        · rcases List.mem_cons.1 hy with rfl | hy
          · exact Or.inl rfl
          · exact absurd hxy.symm (hne y hy)
        · rcases List.mem_cons.1 hy with rfl | hy
          · exact absurd hxy (hnb x hx)
          · exact Or.inr (.both x y hx hy hxy)
      | base x hx h =>
        rcases List.mem_cons.1 hx with rfl | hx
        · exact absurd heq.symm (h e List.mem_cons_self)
        · exact Or.inr (.base x hx fun y hy => h y (List.mem_cons_of_mem _ hy))
      | extra y hy h =>
        rcases List.mem_cons.1 hy with rfl | hy
        · exact absurd heq (h b List.mem_cons_self)
        · exact Or.inr (.extra y hy fun x hx => h x (List.mem_cons_of_mem _ hx))

theorem joined_name {bs : List Base} {es : List Extra} {u : User} (h : Joined bs es u) :
    (∃ b ∈ bs, b.name = u.name) ∨ (∃ e ∈ es, e.name = u.name) := by
  cases h with
  | both b e hb => exact Or.inl ⟨b, hb, rfl⟩
  | base b hb => exact Or.inl ⟨b, hb, rfl⟩
  | extra e he => exact Or.inr ⟨e, he, rfl⟩

theorem merge_strict {bs : List Base} {es : List Extra} (hb : StrictB bs) (he : StrictE es) :
    (merge bs es).Pairwise (fun u v => strcmp u.name v.name < 0) := by
  have key : ∀ (n : Bytes) (bs : List Base) (es : List Extra), StrictB bs → StrictE es → (∀ b ∈ bs, strcmp n b.name < 0) →
      (∀ e ∈ es, strcmp n e.name < 0) → ∀ u ∈ merge bs es, strcmp n u.name < 0 := by
    intro n bs es hb he h1 h2 u hu
    rcases joined_name ((mem_merge hb he u).1 hu) with ⟨b, hb, e⟩ | ⟨e, he, e'⟩
    · rw [← e]; exact h1 b hb
    · rw [← e']; exact h2 e he
  fun_induction merge bs es with
  | case1 => exact List.Pairwise.nil
  | case2 e es ih =>
    have he' := List.pairwise_cons.1 he
    exact List.pairwise_cons.2 ⟨key e.name [] es hb he'.2 (by simp) he'.1, ih hb he'.2⟩
  | case3 b bs ih =>
    have hb' := List.pairwise_cons.1 hb
    exact List.pairwise_cons.2 ⟨key b.name bs [] hb'.2 he hb'.1 (by simp), ih hb'.2 he⟩
  | case4 b bs e es hlt ih =>
    have hb' := List.pairwise_cons.1 hb
    have he' := List.pairwise_cons.1 he
    refine List.pairwise_cons.2 ⟨key e.name (b :: bs) es hb he'.2 ?_ he'.1, ih hb he'.2⟩
    intro x hx
    rcases List.mem_cons.1 hx with rfl | hx
    · exact hlt
    · exact strcmp_lt_trans hlt (Int.le_of_lt (hb'.1 x hx))
  | case5 b bs e es _ hgt ih =>
    have hb' := List.pairwise_cons.1 hb
    have he' := List.pairwise_cons.1 he
    have hlt : strcmp b.name e.name < 0 := strcmp_flip.1 hgt
    refine List.pairwise_cons.2 ⟨key b.name bs (e :: es) hb'.2 he hb'.1 ?_, ih hb'.2 he⟩
    intro x hx
    rcases List.mem_cons.1 hx with rfl | hx
    · exact hlt
    · exact strcmp_lt_trans hlt (Int.le_of_lt (he'.1 x hx))
  | case6 b bs e es h1 h2 ih =>
    have hb' := List.pairwise_cons.1 hb
    have he' := List.pairwise_cons.1 he
    have heq : b.name = e.name := (strcmp_eq.1 (by omega)).symm
    refine List.pairwise_cons.2 ⟨?_, ih hb'.2 he'.2⟩
    exact key b.name bs es hb'.2 he'.2 hb'.1 (fun y hy => by rw [heq]; exact he'.1 y hy)

theorem strict_of {α : Type} {name : α → Bytes} {q : List α → List α} (hq : SortsBy name q) {l : List α} (hn : (l.map name).Nodup) :
    (if l.length > 1 then q l else l).Perm l ∧
    (if l.length > 1 then q l else l).Pairwise (fun a b => strcmp (name a) (name b) < 0) := by
  split
  · refine ⟨hq.perm l, ?_⟩
    have h1 : ((q l).map name).Nodup := (((hq.perm l).map name).nodup_iff).2 hn
    have h2 := hq.sorted l
    unfold List.Nodup at h1
    rw [List.pairwise_map] at h1
    refine (h1.and h2).imp ?_
    rintro a b ⟨h, h'⟩
    have : strcmp (name a) (name b) ≠ 0 := fun e => h (strcmp_eq.1 e)
    omega
  · rename_i h
    refine ⟨List.Perm.refl _, ?_⟩
    rcases l with _ | ⟨a, _ | ⟨b, l⟩⟩
    · exact List.Pairwise.nil
    · simp
    · simp at h

theorem joined_perm {bs bs' : List Base} {es es' : List Extra} (hb : bs.Perm bs') (he : es.Perm es') {u : User} (h : Joined bs es u) :
    Joined bs' es' u := by
  cases h with
  | both b e h1 h2 h3 => exact .both b e (hb.mem_iff.1 h1) (he.mem_iff.1 h2) h3
  | base b h1 h2 => exact .base b (hb.mem_iff.1 h1) fun e h => h2 e (he.mem_iff.2 h)
  | extra e h1 h2 => exact .extra e (he.mem_iff.1 h1) fun b h => h2 b (hb.mem_iff.2 h)

theorem flushFrom_eq (us : List User) (bs : List Base) (es : List Extra) :
    flushFrom bs es us = (bs ++ us.map User.base, es ++ us.map User.extra) := by
  induction us generalizing bs es with
  | nil => simp [flushFrom]
  | cons u us ih => rw [flushFrom, ih]; simp [split]

/-! ## C117: the database of users -/

/-- If no name is there twice in a file, the users are those of both files, each
once and in the order of their names, with the parts of their name. -/
theorem C117_join_partial (q1 : List Base → List Base) (q2 : List Extra → List Extra) (h1 : SortsBy Base.name q1)
    (h2 : SortsBy Extra.name q2) (bs : List Base) (es : List Extra) (hb : (bs.map Base.name).Nodup)
    (he : (es.map Extra.name).Nodup) :
    (cache q1 q2 bs es).Pairwise (fun u v => strcmp u.name v.name < 0) ∧
    ∀ u, u ∈ cache q1 q2 bs es ↔ Joined bs es u := by
  obtain ⟨pb, sb⟩ := strict_of h1 hb
  obtain ⟨pe, se⟩ := strict_of h2 he
  refine ⟨merge_strict sb se, fun u => ?_⟩
  unfold cache
  rw [mem_merge sb se]
  exact ⟨joined_perm pb pe, joined_perm pb.symm pe.symm⟩

/-- Users that are written are read back, whatever was there before. -/
theorem C117_written (q1 : List Base → List Base) (q2 : List Extra → List Extra) (h1 : SortsBy Base.name q1)
    (h2 : SortsBy Extra.name q2) (us : List User) (hn : (us.map User.name).Nodup)
    (hc : ∀ u ∈ us, u.base.name = u.name ∧ u.extra.name = u.name) (bs : List Base) (es : List Extra) :
    (cache q1 q2 (flush true us bs es).1 (flush true us bs es).2).Perm us := by
  unfold flush
  rw [if_pos rfl, flushFrom_eq, List.nil_append, List.nil_append]
  have e1 : (us.map User.base).map Base.name = us.map User.name := by
    rw [List.map_map]; exact List.map_congr_left fun u hu => (hc u hu).1
  have e2 : (us.map User.extra).map Extra.name = us.map User.name := by
    rw [List.map_map]; exact List.map_congr_left fun u hu => (hc u hu).2
  obtain ⟨hs, hm⟩ := C117_join_partial q1 q2 h1 h2 (us.map User.base) (us.map User.extra) (by rw [e1]; exact hn) (by rw [e2]; exact hn)
  have hinj : ∀ u ∈ us, ∀ v ∈ us, u.name = v.name → u = v := by
    intro u hu v hv h
    exact List.inj_on_of_nodup_map hn hu hv h
  refine (List.perm_ext_iff_of_nodup ?_ ?_).2 ?_
  · refine hs.imp ?_
    intro u v h e
    rw [e] at h
    exact ne_of_lt h rfl
  · exact List.Nodup.of_map _ hn
  · intro u
    rw [hm]
    constructor
    · intro h
      cases h with
      | both b e hb he h =>
        obtain ⟨v, hv, rfl⟩ := List.mem_map.1 hb
        obtain ⟨w, hw, rfl⟩ := List.mem_map.1 he
        rw [(hc v hv).1, (hc w hw).2] at h
        have := hinj v hv w hw h
        subst this
        rw [(hc v hv).1]
        exact hv
      | base b hb h =>
        obtain ⟨v, hv, rfl⟩ := List.mem_map.1 hb
        exact absurd ((hc v hv).2.trans (hc v hv).1.symm) (h _ (List.mem_map.2 ⟨v, hv, rfl⟩))
      | extra e he h =>
        obtain ⟨v, hv, rfl⟩ := List.mem_map.1 he
        exact absurd ((hc v hv).1.trans (hc v hv).2.symm) (h _ (List.mem_map.2 ⟨v, hv, rfl⟩))
    · intro hu
      have := Joined.both (bs := us.map User.base) (es := us.map User.extra) u.base u.extra (List.mem_map.2 ⟨u, hu, rfl⟩)
        (List.mem_map.2 ⟨u, hu, rfl⟩) ((hc u hu).1.trans (hc u hu).2.symm)
      rw [(hc u hu).1] at this
      exact this

/-- Users that are read have their name in both parts, so that they can be written. -/
theorem C117_consistent (q1 : List Base → List Base) (q2 : List Extra → List Extra) (bs : List Base) (es : List Extra) :
    ∀ u ∈ cache q1 q2 bs es, u.base.name = u.name ∧ u.extra.name = u.name := by
  have key : ∀ (bs : List Base) (es : List Extra), ∀ u ∈ merge bs es, u.base.name = u.name ∧ u.extra.name = u.name := by
    intro bs es
    fun_induction merge bs es <;> intro u hu
    · simp at hu
    all_goals
      rename_i ih
      rcases List.mem_cons.1 hu with rfl | hu
      · exact ⟨rfl, rfl⟩
      · exact ih u hu
  exact key _ _

/-- A user that is given a name has it in both parts, with its other data as before. -/
theorem C117_named (u : User) (n : Bytes) : (setName u n).name = n ∧ (setName u n).base = ⟨n, u.base.roles, u.base.level, u.base.range⟩ ∧
    (setName u n).extra = ⟨n, u.extra.pfx⟩ := ⟨rfl, rfl, rfl⟩

/-- Nothing is written if nothing was changed. -/
theorem C117_unmodified (us : List User) (bs : List Base) (es : List Extra) : flush false us bs es = (bs, es) := rfl

/-- A user whose first part is there twice is there twice, and only one has the
second part. -/
theorem C117_twice_refuted : ∃ (bs : List Base) (es : List Extra) (e : Extra) (u v : User),
    (∀ b ∈ bs, b.name = e.name) ∧ es = [e] ∧ cache id id bs es = [u, v] ∧ u.name = v.name ∧ u.extra = e ∧ v.extra ≠ e := by
  refine ⟨[⟨[97], [[98]], none, none⟩, ⟨[97], [[99]], none, none⟩], [⟨[97], [120]⟩], ⟨[97], [120]⟩,
    ⟨[97], ⟨[97], [[98]], none, none⟩, ⟨[97], [120]⟩⟩, ⟨[97], ⟨[97], [[99]], none, none⟩, ⟨[97], dfltPrefix⟩⟩, ?_, rfl, ?_, rfl, rfl, ?_⟩ <;>
    decide +kernel

/-- There are correct sorts. -/
theorem mergeSort_sorts {α : Type} (name : α → Bytes) :
    SortsBy name (fun l => l.mergeSort (fun a b => decide (strcmp (name a) (name b) ≤ 0))) := by
  refine ⟨fun l => List.mergeSort_perm _ _, fun l => ?_⟩
  refine (List.pairwise_mergeSort ?_ ?_ l).imp ?_
  · intro a b c h1 h2
    simp only [decide_eq_true_eq] at *
    exact FileLabel.strcmp_trans _ _ _ h1 h2
  · intro a b
    simp only [Bool.or_eq_true, decide_eq_true_eq]
    have := strcmp_anti (name b) (name a)
    omega
  · intro a b h; simpa using h

/-- Users that can be written and are read back. -/
example : ([⟨[98], ⟨[98], [[99]], none, none⟩, ⟨[98], [120]⟩⟩, ⟨[97], ⟨[97], [], none, some [49]⟩, ⟨[97], [121]⟩⟩] : List User).map
    User.name |>.Nodup := by decide +kernel

/-- A user in both files, one only in the first and one only in the second. -/
example : cache id id [⟨[97], [[98]], none, none⟩, ⟨[99], [], some [1], none⟩] [⟨[98], [120]⟩, ⟨[99], [121]⟩] =
    [⟨[97], ⟨[97], [[98]], none, none⟩, ⟨[97], dfltPrefix⟩⟩, ⟨[98], ⟨[98], [], none, none⟩, ⟨[98], [120]⟩⟩,
      ⟨[99], ⟨[99], [], some [1], none⟩, ⟨[99], [121]⟩⟩] := by decide +kernel

end Verif.UserJoin
