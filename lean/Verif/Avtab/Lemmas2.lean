import Verif.Avtab.Lemmas

/-! # The binary format of access vector tables -/

namespace Verif.Avtab

/-- A rule the version-20+ format can represent: 16-bit numbers, exactly one known
kind (plus possibly the enabled flag), and eight words of extended permissions
exactly for extended permission rules. -/
structure Storable (n : Node) : Prop where
  source : n.key.source < 2 ^ 16
  target : n.key.target < 2 ^ 16
  cls : n.key.cls < 2 ^ 16
  known : n.key.specified &&& ~~~ (AV ||| TYPE ||| XPERMS ||| ENABLED) = 0#16
  single : popcount (n.key.specified &&& ~~~ ENABLED) = 1
  perms : isXperm n.key = true → ∃ x, n.datum.xperms = some x ∧ x.perms.length = 8
  noperms : isXperm n.key = false → n.datum.xperms = none

/-- What a round trip keeps of a rule: everything, except that the `data` word of
extended permission rules (unused at run time, avtab.c:115-119) is not stored. -/
def onDisk (n : Node) : Node :=
  if isXperm n.key then { n with datum := { n.datum with data := 0#32 } } else n

theorem singleKind_of_popcount {s : BitVec 16} (h : popcount (s &&& ~~~ ENABLED) = 1) :
    SingleKind s := by
  unfold popcount at h
  rw [List.countP_eq_length_filter, List.length_eq_one_iff] at h
  obtain ⟨i, hi⟩ := h
  have hmem : ∀ j, j < 16 ∧ (s &&& ~~~ ENABLED).getLsbD j = true ↔ j = i := by
    intro j
    have : j ∈ List.filter (fun i => (s &&& ~~~ENABLED).getLsbD i) (List.range 16) ↔ j ∈ [i] := by
      rw [hi]
    simpa only [List.mem_filter, List.mem_range, List.mem_singleton] using this
  have hbit : ∀ j, j < 16 → ((s &&& ~~~ ENABLED).getLsbD j = true ↔ s.getLsbD j = true ∧ j ≠ 15) := by
    intro j hj
    simp only [BitVec.getLsbD_and, BitVec.getLsbD_not, enabled_bit j hj]
    simp [hj]
  have hi1 := (hmem i).2 rfl
  have hi2 := (hbit i hi1.1).1 hi1.2
  refine ⟨i, by omega, ?_⟩
  intro j hj
  constructor
  · intro hs
    exact (hmem j).1 ⟨by omega, (hbit j (by omega)).2 ⟨hs, by omega⟩⟩
  · rintro rfl
    exact hi2.1

theorem nextWords_putWords (ws : List (BitVec 32)) (rest : Bytes) :
    nextWords ws.length (putWords ws ++ rest) = some (ws, rest) := by
  induction ws with
  | nil => rfl
  | cons w ws ih =>
    have hw : w.toNat < 256 ^ 4 := by have := w.isLt; omega
    simp only [List.length_cons, nextWords, putWords, List.flatMap_cons, List.append_assoc]
    rw [nextLE_leBytes 4 _ _ hw]
    simp only [Option.bind_eq_bind, Option.bind_some]
    have : nextWords ws.length (List.flatMap (fun w => leBytes 4 w.toNat) ws ++ rest) = some (ws, rest) := ih
    rw [this]
    simp

theorem readItem_writeItem (vers : Nat) (n : Node) (hn : Storable n) (hv : isXperm n.key = true → VERSION_XPERMS_IOCTL ≤ vers)
    (rest : Bytes) : ∃ b, writeItem vers n = some b ∧ 12 ≤ b.length ∧
      readItem vers (b ++ rest) = some (((onDisk n).key, (onDisk n).datum), rest) := by
  have h1 : n.key.source < 256 ^ 2 := by have := hn.source; omega
  have h2 : n.key.target < 256 ^ 2 := by have := hn.target; omega
  have h3 : n.key.cls < 256 ^ 2 := by have := hn.cls; omega
  have h4 : n.key.specified.toNat < 256 ^ 2 := by have := n.key.specified.isLt; omega
  have hk := hn.known
  have hp := hn.single
  by_cases hx : isXperm n.key = true
  · have hv := hv hx
    obtain ⟨x, hxp, hlen⟩ := hn.perms hx
    have h5 : x.specified.toNat < 256 ^ 1 := by have := x.specified.isLt; omega
    have h6 : x.driver.toNat < 256 ^ 1 := by have := x.driver.isLt; omega
    refine ⟨_, by unfold writeItem; rw [if_neg (by omega), if_pos hx, hxp], ?_, ?_⟩
    · have : ∀ ws : List (BitVec 32), (putWords ws).length = 4 * ws.length := by
        intro ws
        induction ws with
        | nil => rfl
        | cons w ws ih => simp only [putWords, List.flatMap_cons, List.length_append, leBytes_length] at *
                          simp only [List.length_cons]; omega
      simp only [List.length_append, leBytes_length, this, hlen]
      omega
    · unfold readItem
      simp only [List.append_assoc]
      rw [nextLE_leBytes 2 _ _ h1]
      simp only [Option.bind_eq_bind, Option.bind_some]
      rw [nextLE_leBytes 2 _ _ h2]
      simp only [Option.bind_some]
      rw [nextLE_leBytes 2 _ _ h3]
      simp only [Option.bind_some]
      rw [nextLE_leBytes 2 _ _ h4]
      simp only [Option.bind_some, BitVec.ofNat_toNat, BitVec.setWidth_eq]
      have hxx : n.key.specified &&& XPERMS ≠ 0#16 := by simpa [isXperm] using hx
      rw [if_neg (by simp [hk]), if_neg (by simp [hp]), if_neg (by omega), if_pos hxx]
      rw [nextLE_leBytes 1 _ _ h5]
      simp only [Option.bind_some]
      rw [nextLE_leBytes 1 _ _ h6]
      simp only [Option.bind_some]
      have hnw := nextWords_putWords x.perms rest
      rw [hlen] at hnw
      rw [hnw]
      simp [onDisk, hx, hxp]
  · have hx' : isXperm n.key = false := by simpa using hx
    have h5 : n.datum.data.toNat < 256 ^ 4 := by have := n.datum.data.isLt; omega
    refine ⟨_, by unfold writeItem; rw [if_neg (by simp [hx']), if_neg hx], ?_, ?_⟩
    · simp only [List.length_append, leBytes_length]; omega
    · unfold readItem
      simp only [List.append_assoc]
      rw [nextLE_leBytes 2 _ _ h1]
      simp only [Option.bind_eq_bind, Option.bind_some]
      rw [nextLE_leBytes 2 _ _ h2]
      simp only [Option.bind_some]
      rw [nextLE_leBytes 2 _ _ h3]
      simp only [Option.bind_some]
      rw [nextLE_leBytes 2 _ _ h4]
      simp only [Option.bind_some, BitVec.ofNat_toNat, BitVec.setWidth_eq]
      have hxx : ¬ (n.key.specified &&& XPERMS ≠ 0#16) := by simpa [isXperm] using hx'
      rw [if_neg (by simp [hk]), if_neg (by simp [hp]), if_neg (by tauto), if_neg hxx]
      rw [nextLE_leBytes 4 _ _ h5]
      have := hn.noperms hx'
      simp [onDisk, hx', ← this]

/-- Inserting a list of rules one after the other. -/
def insertAll (a : Avtab) : List Node → Option Avtab
  | [] => some a
  | n :: ns => match insert a n.key n.datum with
    | (a', .ok) => insertAll a' ns
    | (_, _) => none

theorem writeItems_readLoop (vers : Nat) (l : List Node)
    (hl : ∀ n ∈ l, Storable n ∧ (isXperm n.key = true → VERSION_XPERMS_IOCTL ≤ vers)) : ∃ b, writeItems vers l = some b ∧ 12 * l.length ≤ b.length ∧
      ∀ a rest, readLoop vers l.length a (b ++ rest)
        = (insertAll a (l.map onDisk)).map (fun a => (a, rest)) := by
  induction l with
  | nil => exact ⟨[], rfl, by simp, fun a rest => rfl⟩
  | cons n l ih =>
    obtain ⟨b, hb, hlen, hr⟩ := ih (fun m hm => hl m (by simp [hm]))
    obtain ⟨c, hc, hclen, hcr⟩ := readItem_writeItem vers n (hl n (by simp)).1 (hl n (by simp)).2 []
    refine ⟨c ++ b, by simp [writeItems, hc, hb], by simp only [List.length_append, List.length_cons]; omega, ?_⟩
    intro a rest
    obtain ⟨c', hc', _, hcr'⟩ := readItem_writeItem vers n (hl n (by simp)).1 (hl n (by simp)).2 (b ++ rest)
    rw [hc] at hc'
    obtain rfl : c = c' := by simpa using hc'
    simp only [List.length_cons, readLoop, List.append_assoc, hcr', List.map_cons, insertAll]
    split
    · rename_i a' heq; simp only [heq]; exact hr a' rest
    · rename_i r hne heq
      rw [heq]
      cases r <;> simp_all

/-- No two non-xperm rules in the list answer each other. -/
def Unique (l : List Node) : Prop :=
  l.Pairwise (fun a b => isXperm a.key = false → ¬ Answers a.key b)

theorem answers_comm {a b : Node} (h : Answers a.key b) : Answers b.key a := by
  obtain ⟨h1, h2, h3, i, hi, h4, h5⟩ := h
  exact ⟨h1.symm, h2.symm, h3.symm, i, hi, h5, h4⟩

theorem onDisk_key (n : Node) : (onDisk n).key = n.key := by unfold onDisk; split <;> rfl

theorem answers_onDisk (k : Key) (n : Node) : Answers k (onDisk n) ↔ Answers k n := by
  unfold Answers; rw [onDisk_key]

theorem single_iff_xperm {s t : BitVec 16} {i : Nat} (hi : i < 15) (hs : SingleKind s) (ht : SingleKind t)
    (h1 : s.getLsbD i = true) (h2 : t.getLsbD i = true) :
    ((s &&& XPERMS) != 0#16) = ((t &&& XPERMS) != 0#16) := by
  have key : ∀ s : BitVec 16, SingleKind s → s.getLsbD i = true →
      ((s &&& XPERMS) != 0#16) = XPERMS.getLsbD i := by
    intro s ⟨i0, hi0, hs⟩ h
    have h0 := (hs i hi).1 h
    subst h0
    cases hx : XPERMS.getLsbD i
    · simp only [bne_eq_false_iff_eq]
      apply BitVec.eq_of_getLsbD_eq
      intro j hj
      simp only [BitVec.getLsbD_and, BitVec.getLsbD_zero]
      by_cases h15 : j = 15
      · subst h15
        have : XPERMS.getLsbD 15 = false := by decide
        rw [this, Bool.and_false]
      · cases hsj : s.getLsbD j
        · rfl
        · have := (hs j (by omega)).1 hsj
          rw [this, hx]; rfl
    · rw [bne_iff_ne]
      intro hc
      have := congrArg (fun v => v.getLsbD i) hc
      simp only [BitVec.getLsbD_and, BitVec.getLsbD_zero, h, hx] at this
      exact absurd this (by decide)
  rw [key s hs h1, key t ht h2]

theorem unique_perm {l l' : List Node} (hk : ∀ n ∈ l, SingleKind n.key.specified)
    (hp : l.Perm l') (hu : Unique l) : Unique l' := by
  have hu' : l.Pairwise (fun a b => (SingleKind a.key.specified ∧ SingleKind b.key.specified) ∧
      (isXperm a.key = false → ¬ Answers a.key b)) := by
    refine List.Pairwise.imp_of_mem ?_ hu
    intro a b ha hb h
    exact ⟨⟨hk a ha, hk b hb⟩, h⟩
  have hsymm : ∀ {a b : Node}, ((SingleKind a.key.specified ∧ SingleKind b.key.specified) ∧
      (isXperm a.key = false → ¬ Answers a.key b)) →
      ((SingleKind b.key.specified ∧ SingleKind a.key.specified) ∧
      (isXperm b.key = false → ¬ Answers b.key a)) := by
    intro a b ⟨⟨h1, h2⟩, h⟩
    refine ⟨⟨h2, h1⟩, ?_⟩
    intro hb hc
    have hc' := answers_comm hc
    refine h ?_ hc'
    obtain ⟨_, _, _, i, hi, h3, h4⟩ := hc'
    rw [isXperm, single_iff_xperm hi h1 h2 h3 h4]
    exact hb
  exact (hp.pairwise hu' hsymm).imp (fun h => h.2)

theorem insertAll_ok (l : List Node) : ∀ (a : Avtab) (log : List Node), Rel a log →
    (∀ n ∈ l, SingleKind n.key.specified) → (∀ n ∈ log, SingleKind n.key.specified) →
    (∀ n ∈ l, stored n.key n.datum = n) →
    Unique (log ++ l) → ∃ a', insertAll a l = some a' ∧ Rel a' (l.reverse ++ log) := by
  induction l with
  | nil => intro a log hr _ _ _ _; exact ⟨a, rfl, by simpa using hr⟩
  | cons n l ih =>
    intro a log hr hk hk' hst hu
    have hkall : ∀ m ∈ log ++ n :: l, SingleKind m.key.specified := by
      intro m hm
      rcases List.mem_append.1 hm with h | h
      · exact hk' m h
      · exact hk m h
    have hno : ¬ (isXperm n.key = false ∧ ∃ r ∈ log, Answers n.key r) := by
      rintro ⟨hx, r, hr', ha⟩
      have hperm : (log ++ n :: l).Perm (n :: log ++ l) := by simpa using List.perm_middle
      have hu2 := unique_perm hkall hperm hu
      exact (List.pairwise_cons.1 hu2).1 r (by simp [hr']) hx ha
    obtain ⟨h1, h2⟩ := insert_cases hr n.key n.datum
    rw [if_neg hno] at h1
    have hlog : logStep log (.insert n.key n.datum) = n :: log := by
      dsimp only [logStep]
      rw [if_neg hno, hst n (by simp)]
    rw [hlog] at h2
    have hu2 : Unique ((n :: log) ++ l) := by
      have hperm : (log ++ n :: l).Perm (n :: log ++ l) := by simpa using List.perm_middle
      exact unique_perm hkall hperm hu
    obtain ⟨a', ha', hr'⟩ := ih (insert a n.key n.datum).1 (n :: log) h2
      (fun m hm => hk m (by simp [hm]))
      (by intro m hm
          rcases List.mem_cons.1 hm with rfl | hm
          · exact hk _ (by simp)
          · exact hk' m hm)
      (fun m hm => hst m (by simp [hm])) hu2
    refine ⟨a', ?_, by simpa using hr'⟩
    unfold insertAll
    have : insert a n.key n.datum = ((insert a n.key n.datum).1, .ok) := by
      rw [← h1]
    rw [this]
    exact ha'

theorem storable_stored {n : Node} (h : Storable n) : stored (onDisk n).key (onDisk n).datum = onDisk n := by
  unfold stored
  by_cases hx : isXperm n.key = true
  · obtain ⟨x, h1, h2⟩ := h.perms hx
    simp [onDisk, hx, h1]
  · simp [onDisk, hx]

theorem write_read (vers : Nat) (h : Avtab) (log : List Node)
    (hr : Rel h log) (hst0 : ∀ n ∈ log, Storable n ∧ (isXperm n.key = true → VERSION_XPERMS_IOCTL ≤ vers)) (hu : Unique log)
    (hne : log ≠ []) (hsz : log.length < 2 ^ 32 - 1) :
    ∃ b h', write vers h = some b ∧ (∀ rest, read vers (b ++ rest) = some (h', rest)) ∧
      ∃ log', log'.Perm (log.map onDisk) ∧ Rel h' log' := by
  have hp := nodes_perm hr
  have hst : ∀ n ∈ log, Storable n := fun n hn => (hst0 n hn).1
  obtain ⟨b, hb, hlen, hrd⟩ := writeItems_readLoop vers (nodes h)
    (fun n hn => hst0 n (hp.mem_iff.1 hn))
  have hnl : h.nel = (nodes h).length := by rw [hr.nel, hp.length_eq]
  have hlen0 : (nodes h).length ≠ 0 := by
    rw [hp.length_eq]; intro h0; exact hne (List.length_eq_zero_iff.1 h0)
  have hsz' : (nodes h).length < 2 ^ 32 - 1 := by rw [hp.length_eq]; exact hsz
  have hkall : ∀ n ∈ (nodes h), SingleKind n.key.specified := fun n hn =>
    singleKind_of_popcount (hst n (hp.mem_iff.1 hn)).single
  have hun : Unique (nodes h) := unique_perm
    (fun n hn => singleKind_of_popcount (hst n hn).single) hp.symm hu
  have hun' : Unique ((nodes h).map onDisk) := by
    unfold Unique
    rw [List.pairwise_map]
    refine List.Pairwise.imp ?_ hun
    intro a b hab
    rw [onDisk_key, answers_onDisk]
    exact hab
  obtain ⟨h', hh', hr'⟩ := insertAll_ok ((nodes h).map onDisk) (alloc init h.nel) []
    (rel_alloc _ (by omega))
    (by intro n hn; obtain ⟨m, hm, rfl⟩ := List.mem_map.1 hn; rw [onDisk_key]; exact hkall m hm)
    (by simp)
    (by intro n hn; obtain ⟨m, hm, rfl⟩ := List.mem_map.1 hn
        exact storable_stored (hst m (hp.mem_iff.1 hm)))
    (by simpa using hun')
  refine ⟨leBytes 4 h.nel ++ b, h', by simp [write, hb], ?_, _, ?_, hr'⟩
  · intro rest
    unfold read
    rw [List.append_assoc, nextLE_leBytes 4 _ _ (by omega)]
    simp only []
    rw [if_neg (by simp only [List.length_append]; omega), hnl, hrd, ← hnl, hh']
    rfl
  · rw [List.append_nil]
    exact (List.reverse_perm _).trans (hp.map onDisk)

open Classical in
theorem enumerate_of_rel {h : Avtab} {log : List Node} (hr : Rel h log) (k : Key) :
    (enumerate h k).Perm (log.filter (fun r => decide (Answers k r))) := by
  obtain ⟨tb, htb, hs, hp⟩ := hr.tb
  have hfil : (enumerate h k) =
      (tb (hash k h.mask)).filter (fun n => hits k n.key) := by
    unfold enumerate searchNode
    simp only [htb]
    cases hsc : searchChain k (tb (hash k h.mask)) with
    | none =>
      have := searchChain_eq k _ (hs (hash k h.mask))
      rw [hsc] at this
      have hd : (tb (hash k h.mask)).dropWhile (fun n => !hits k n.key) = [] := by
        revert this
        cases List.dropWhile (fun n => !hits k n.key) (tb (hash k h.mask)) <;> simp
      rw [← filter_dropWhile (fun n : Node => hits k n.key), hd]
      rfl
    | some s => exact enumFrom_eq k _ s (hs _) hsc
  rw [hfil]
  refine ((hp _).filter _).trans ?_
  rw [List.filter_filter]
  apply List.Perm.of_eq
  apply List.filter_congr
  intro n _
  by_cases h : hits k n.key = true
  · simp [h, (hits_iff k n).1 h, hash_triple (hits_triple h)]
  · have : ¬ Answers k n := fun hc => h ((hits_iff k n).2 hc)
    simp [h, this]

/-! ### reading arbitrary bytes -/

theorem nextWords_length (n : Nat) : ∀ bs ws r, nextWords n bs = some (ws, r) → ws.length = n := by
  induction n with
  | zero => intro bs ws r h; simp [nextWords] at h; simp [← h.1]
  | succ n ih =>
    intro bs ws r h
    simp only [nextWords, Option.bind_eq_bind, Option.bind_eq_some_iff] at h
    obtain ⟨⟨w, bs1⟩, _, ⟨ws1, bs2⟩, h2, h3⟩ := h
    simp at h3
    rw [← h3.1]; simp [ih _ _ _ h2]

theorem readItem_storable (vers : Nat) (bs : Bytes) (k d r) (h : readItem vers bs = some ((k, d), r)) :
    Storable ⟨k, d⟩ := by
  unfold readItem at h
  simp only [Option.bind_eq_bind, Option.bind_eq_some_iff] at h
  obtain ⟨⟨s, b1⟩, h1, ⟨t, b2⟩, h2, ⟨c, b3⟩, h3, ⟨sp, b4⟩, h4, h⟩ := h
  have l1 := nextLE_lt h1
  have l2 := nextLE_lt h2
  have l3 := nextLE_lt h3
  simp only at h
  split at h
  · cases h
  · rename_i hk
    split at h
    · cases h
    · rename_i hp
      split at h
      · cases h
      · split at h
        · rename_i hx
          simp only [Option.bind_eq_some_iff] at h
          obtain ⟨⟨xs, b5⟩, _, ⟨dr, b6⟩, _, ⟨ws, b7⟩, h7, h⟩ := h
          simp only [Option.some.injEq, Prod.mk.injEq] at h
          obtain ⟨⟨rfl, rfl⟩, rfl⟩ := h
          refine ⟨by show s < _; omega, by show t < _; omega, by show c < _; omega, by simpa using hk,
            by simpa using hp, fun _ => ⟨_, rfl, nextWords_length _ _ _ _ h7⟩, ?_⟩
          intro hc
          exfalso
          simp only [isXperm, bne_eq_false_iff_eq] at hc
          exact hx hc
        · rename_i hx
          simp only [Option.bind_eq_some_iff] at h
          obtain ⟨⟨dd, b5⟩, _, h⟩ := h
          simp only [Option.some.injEq, Prod.mk.injEq] at h
          obtain ⟨⟨rfl, rfl⟩, rfl⟩ := h
          refine ⟨by show s < _; omega, by show t < _; omega, by show c < _; omega, by simpa using hk,
            by simpa using hp, ?_, fun _ => rfl⟩
          intro hc
          exfalso
          simp only [isXperm, bne_iff_ne] at hc
          exact hx hc

theorem readLoop_run (vers : Nat) (n : Nat) : ∀ (a : Avtab) (bs : Bytes) (a' : Avtab) (r : Bytes),
    readLoop vers n a bs = some (a', r) →
    ∃ rules : List (Key × Datum), rules.length = n ∧ (∀ q ∈ rules, Storable ⟨q.1, q.2⟩) ∧
      a' = (rules.map (fun q => Op.insert q.1 q.2)).foldl step a ∧
      a'.nel = a.nel + n := by
  induction n with
  | zero => intro a bs a' r h; simp [readLoop] at h; exact ⟨[], rfl, by simp, by simp [h.1], by simp [h.1]⟩
  | succ n ih =>
    intro a bs a' r h
    unfold readLoop at h
    split at h
    · cases h
    · rename_i k d b1 hi
      split at h
      · rename_i a1 heq
        obtain ⟨rules, h1, h2, h3, h4⟩ := ih _ _ _ _ h
        have hstep : step a (.insert k d) = a1 := by simp [step, heq]
        have hnel : a1.nel = a.nel + 1 := by
          unfold insert at heq
          split at heq
          · simp at heq
          · split at heq
            · simp at heq
            · simp only [Prod.mk.injEq, and_true] at heq
              rw [← heq]
        refine ⟨(k, d) :: rules, by simp [h1], ?_, ?_, by omega⟩
        · intro q hq
          rcases List.mem_cons.1 hq with rfl | hq
          · exact readItem_storable _ _ _ _ _ hi
          · exact h2 q hq
        · simp only [List.map_cons, List.foldl_cons, hstep]; exact h3
      · cases h

end Verif.Avtab
