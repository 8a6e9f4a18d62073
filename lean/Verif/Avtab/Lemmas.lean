import Verif.Avtab.Spec

namespace Verif.Avtab

/-- Chain order: no later node sorts strictly before an earlier one. -/
def Sorted (l : List Node) : Prop := l.Pairwise (fun a b => before b.key a.key = false)

theorem hits_triple {k c : Key} (h : hits k c = true) :
    k.source = c.source ∧ k.target = c.target ∧ k.cls = c.cls := by
  simp [hits] at h; tauto

theorem hash_triple {k c : Key} (h : k.source = c.source ∧ k.target = c.target ∧ k.cls = c.cls)
    (m : Nat) : hash k m = hash c m := by
  obtain ⟨h1, h2, h3⟩ := h
  unfold hash
  rw [h1, h2, h3]

theorem hash_le (k : Key) (m : Nat) (hm : m < 2 ^ 32) : hash k m ≤ m := by
  unfold hash
  simp only [BitVec.toNat_and, BitVec.toNat_ofNat]
  rw [Nat.mod_eq_of_lt hm]
  exact Nat.and_le_right

theorem enabled_bit : ∀ i < 16, ENABLED.getLsbD i = decide (i = 15) := by decide

theorem hits_iff (k : Key) (n : Node) : hits k n.key = true ↔ Answers k n := by
  have key : ∀ a b : BitVec 16, ((kindMask a &&& b) != 0#16) = true ↔
      ∃ i < 15, a.getLsbD i = true ∧ b.getLsbD i = true := by
    intro a b
    rw [bne_iff_ne]
    constructor
    · intro h
      by_contra hc
      push Not at hc
      apply h
      apply BitVec.eq_of_getLsbD_eq
      intro i hi
      simp only [kindMask, BitVec.getLsbD_and, BitVec.getLsbD_not, BitVec.getLsbD_zero, enabled_bit i hi]
      by_cases h15 : i = 15
      · simp [h15]
      · have := hc i (by omega)
        cases ha : a.getLsbD i <;> simp_all
    · rintro ⟨i, hi, ha, hb⟩ h
      have h2 := congrArg (fun v => v.getLsbD i) h
      simp only [kindMask, BitVec.getLsbD_and, BitVec.getLsbD_not, BitVec.getLsbD_zero, ha, hb,
        enabled_bit i (by omega)] at h2
      have h15 : i ≠ 15 := by omega
      have h16 : i < 16 := by omega
      simp [h15, h16] at h2
  unfold hits Answers
  rw [Bool.and_eq_true, Bool.and_eq_true, Bool.and_eq_true, beq_iff_eq, beq_iff_eq, beq_iff_eq, key]
  constructor
  · rintro ⟨⟨⟨a, b⟩, c⟩, d⟩; exact ⟨a, b, c, d⟩
  · rintro ⟨a, b, c, d⟩; exact ⟨⟨⟨a, b⟩, c⟩, d⟩

theorem isXperm_mask (k : Key) :
    isXperm ⟨k.source, k.target, k.cls, kindMask k.specified⟩ = isXperm k := by
  have : ∀ s : BitVec 16, (kindMask s &&& XPERMS) = s &&& XPERMS := by
    intro s
    have h : ~~~ENABLED &&& XPERMS = XPERMS := by decide
    simp only [kindMask, BitVec.and_assoc, h]
  simp [isXperm, this]

theorem before_trans_eq {a b : Key} (h : a.source = b.source ∧ a.target = b.target ∧ a.cls = b.cls)
    (c : Key) : before c a = before c b ∧ before a c = before b c := by
  obtain ⟨h1, h2, h3⟩ := h; simp [before, h1, h2, h3]

/-- If the walk would leave at `c`, then no node behind `c` in a sorted chain hits. -/
theorem no_hit_after {k : Key} {c : Node} {cs : List Node} (hs : Sorted (c :: cs))
    (hb : before k c.key = true) : ∀ n ∈ c :: cs, hits k n.key = false := by
  intro n hn
  by_contra hc
  have hh := hits_triple (by simpa using hc)
  rcases List.mem_cons.1 hn with rfl | hn
  · simp [before, hh] at hb
  · have := (List.pairwise_cons.1 hs).1 n hn
    simp [before] at this hb
    omega

theorem dropWhile_nil {α} (p : α → Bool) (l : List α) :
    l.dropWhile (fun n => !p n) = [] ↔ ∀ n ∈ l, p n = false := by
  induction l with
  | nil => simp
  | cons a l ih => by_cases h : p a = true <;> simp_all

theorem searchChain_eq (k : Key) (l : List Node) (hs : Sorted l) :
    searchChain k l = (match l.dropWhile (fun n => !hits k n.key) with
      | [] => none
      | s => some s) := by
  induction l with
  | nil => rfl
  | cons c cs ih =>
    unfold searchChain
    by_cases hh : hits k c.key = true
    · simp [hh]
    · rw [if_neg hh]
      have hh' : hits k c.key = false := by simpa using hh
      by_cases hb : before k c.key = true
      · rw [if_pos hb]
        have hn := no_hit_after hs hb
        have : (c :: cs).dropWhile (fun n => !hits k n.key) = [] := by
          rw [dropWhile_nil]
          intro n hm; exact hn n hm
        rw [this]
      · rw [if_neg hb, ih (List.pairwise_cons.1 hs).2]
        simp [hh']

theorem dropWhile_head_filter {α} (p : α → Bool) (l : List α) :
    (l.dropWhile (fun n => !p n)).head? = l.find? p := by
  induction l with
  | nil => rfl
  | cons a l ih => by_cases h : p a = true <;> simp_all [List.find?]

theorem search_find (k : Key) (l : List Node) (hs : Sorted l) :
    (searchChain k l).bind (fun s => s.head?.map Node.datum)
      = (l.find? (fun n => hits k n.key)).map Node.datum := by
  rw [searchChain_eq k l hs, ← dropWhile_head_filter]
  cases h : List.dropWhile (fun n => !hits k n.key) l <;> simp

theorem sorted_suffix {l s : List Node} (hs : Sorted l) (h : s <:+ l) : Sorted s :=
  List.Pairwise.sublist h.sublist hs

theorem filter_dropWhile {α} (p : α → Bool) (l : List α) :
    (l.dropWhile (fun n => !p n)).filter p = l.filter p := by
  induction l with
  | nil => rfl
  | cons a l ih => by_cases h : p a = true <;> simp_all

theorem dropWhile_hd {α} (p : α → Bool) (l : List α) (a : α) (s : List α)
    (h : l.dropWhile (fun n => !p n) = a :: s) : p a = true := by
  induction l with
  | nil => simp at h
  | cons b l ih =>
    by_cases hb : p b = true
    · simp [hb] at h; simp [← h.1, hb]
    · simp [hb] at h; exact ih h

theorem hits_key_congr {k k' : Key} (h : k.source = k'.source ∧ k.target = k'.target ∧ k.cls = k'.cls)
    (n : Node) : hits { k' with specified := k.specified } n.key = hits k n.key := by
  obtain ⟨h1, h2, h3⟩ := h
  simp [hits, h1, h2, h3]

theorem enumFrom_eq (k : Key) (l s : List Node) (hs : Sorted l)
    (h : searchChain k l = some s) : enumFrom s k.specified = l.filter (fun n => hits k n.key) := by
  induction hl : l.length using Nat.strongRecOn generalizing l s with
  | _ len ih =>
    have hse := searchChain_eq k l hs
    rw [h] at hse
    have hd : l.dropWhile (fun n => !hits k n.key) = s := by
      revert hse
      cases List.dropWhile (fun n => !hits k n.key) l <;> simp
      intro h; exact h.symm
    have hsl := searchChain_length k l s h
    obtain ⟨a, s', rfl⟩ : ∃ a s', s = a :: s' := by
      cases s with
      | nil => exact absurd rfl hsl.2
      | cons a s' => exact ⟨a, s', rfl⟩
    have ha := dropWhile_hd (fun n => hits k n.key) l a s' hd
    have hsuf : (a :: s') <:+ l := by rw [← hd]; exact List.dropWhile_suffix _
    have hsorted := sorted_suffix hs hsuf
    have hfil : l.filter (fun n => hits k n.key) = a :: s'.filter (fun n => hits k n.key) := by
      rw [← filter_dropWhile (fun n => hits k n.key) l, hd]
      simp [ha]
    have hcg := fun n => hits_key_congr (hits_triple ha) n
    rw [hfil]
    unfold enumFrom
    have hss : Sorted s' := (List.pairwise_cons.1 hsorted).2
    have hnx : searchNodeNext (a :: s') k.specified = searchChain k s' := by
      simp only [searchNodeNext]
      have hbt := hits_triple ha
      have : ∀ l, searchChain { a.key with specified := k.specified } l = searchChain k l := by
        intro l
        induction l with
        | nil => rfl
        | cons c cs ih2 =>
          simp only [searchChain, hcg c, ih2]
          have : before { a.key with specified := k.specified } c.key = before k c.key := by
            simp [before, hbt]
          rw [this]
      exact this s'
    split
    · rename_i hn
      rw [hnx] at hn
      have := searchChain_eq k s' hss
      rw [hn] at this
      have hd' : s'.dropWhile (fun n => !hits k n.key) = [] := by
        revert this
        cases List.dropWhile (fun n => !hits k n.key) s' <;> simp
      have := filter_dropWhile (fun n => hits k n.key) s'
      rw [hd'] at this
      simp [← this]
    · rename_i s2 hn
      rw [hnx] at hn
      have hlt : s'.length < len := by
        have := hsl.1; simp at this; omega
      rw [ih s'.length hlt s' s2 hss hn rfl]

/-! ### insertion -/

theorem insertNonuniqueChain_perm (k n l) : (insertNonuniqueChain k n l).Perm (n :: l) := by
  induction l with
  | nil => exact List.Perm.refl _
  | cons c cs ih =>
    unfold insertNonuniqueChain
    split
    · exact List.Perm.refl _
    · split
      · exact List.Perm.refl _
      · exact (List.Perm.cons c ih).trans (List.Perm.swap n c cs)

theorem insertChain_eq (k n l) :
    ∀ l', insertChain k n l = some l' → l' = insertNonuniqueChain k n l := by
  induction l with
  | nil => intro l' h; simp [insertChain] at h; simp [insertNonuniqueChain, h]
  | cons c cs ih =>
    intro l' h
    unfold insertChain at h
    unfold insertNonuniqueChain
    split at h
    · split at h
      · simp_all
      · cases h
    · rename_i hh
      rw [if_neg hh]
      split at h
      · rename_i hb; rw [if_pos hb]; simpa using h.symm
      · rename_i hb
        rw [if_neg hb]
        rw [Option.map_eq_some_iff] at h
        obtain ⟨l2, h2, rfl⟩ := h
        rw [ih l2 h2]

theorem insertChain_none (k n l) (hs : Sorted l) :
    insertChain k n l = none ↔ isXperm k = false ∧ ∃ c ∈ l, hits k c.key = true := by
  induction l with
  | nil => simp [insertChain]
  | cons c cs ih =>
    unfold insertChain
    rw [isXperm_mask]
    by_cases hh : hits k c.key = true
    · simp [hh]
    · rw [if_neg hh]
      by_cases hb : before k c.key = true
      · have hn := no_hit_after hs hb
        rw [if_pos hb]
        simp only [reduceCtorEq, false_iff, not_and, not_exists]
        intro _ x hx; simp [hn x hx]
      · rw [if_neg hb, Option.map_eq_none_iff, ih (List.pairwise_cons.1 hs).2]
        simp [hh]

theorem insertNonuniqueChain_sorted (k : Key) (n : Node)
    (hn : n.key.source = k.source ∧ n.key.target = k.target ∧ n.key.cls = k.cls)
    (l : List Node) (hs : Sorted l) : Sorted (insertNonuniqueChain k n l) := by
  induction l with
  | nil => simp [insertNonuniqueChain, Sorted]
  | cons c cs ih =>
    have hs' := List.pairwise_cons.1 hs
    unfold insertNonuniqueChain
    split
    · rename_i hh
      have ht := hits_triple hh
      refine List.pairwise_cons.2 ⟨?_, hs⟩
      intro x hx
      have hcn : n.key.source = c.key.source ∧ n.key.target = c.key.target ∧ n.key.cls = c.key.cls := by
        simp [hn, ht]
      rw [(before_trans_eq hcn x.key).1]
      rcases List.mem_cons.1 hx with rfl | hx
      · simp [before]
      · exact hs'.1 x hx
    · split
      · rename_i hb
        refine List.pairwise_cons.2 ⟨?_, hs⟩
        intro x hx
        rw [(before_trans_eq hn x.key).1]
        rcases List.mem_cons.1 hx with rfl | hx
        · simp [before] at hb ⊢; omega
        · have := hs'.1 x hx
          simp [before] at hb this ⊢; omega
      · rename_i hh hb
        refine List.pairwise_cons.2 ⟨?_, ih hs'.2⟩
        intro x hx
        have hx' := (insertNonuniqueChain_perm k n cs).mem_iff.1 hx
        rcases List.mem_cons.1 hx' with rfl | hx'
        · rw [(before_trans_eq hn c.key).2]; simpa using hb
        · exact hs'.1 x hx'

/-- Single kinds: the new node becomes the first answer to its own kind, and other
queries keep their first answer. -/
theorem find_insertNonunique (k q : Key) (n : Node) (l : List Node)
    (hn : n.key = k) (hq : SingleKind q.specified) (hk : SingleKind k.specified) :
    (insertNonuniqueChain k n l).find? (fun x => hits q x.key)
      = if hits q n.key then some n else l.find? (fun x => hits q x.key) := by
  have hqk : ∀ c : Node, hits q n.key = true → hits q c.key = true → hits k c.key = true := by
    intro c h1 h2
    rw [hits_iff] at *
    subst hn
    obtain ⟨a1, a2, a3, i, hi, h4, h5⟩ := h1
    obtain ⟨b1, b2, b3, j, hj, h6, h7⟩ := h2
    obtain ⟨i0, hi0, hq⟩ := hq
    have := (hq i hi).1 h4
    have := (hq j hj).1 h6
    refine ⟨by omega, by omega, by omega, i, hi, h5, ?_⟩
    have : i = j := by omega
    rw [this]; exact h7
  induction l with
  | nil => simp only [insertNonuniqueChain, List.find?]; split <;> simp_all
  | cons c cs ih =>
    unfold insertNonuniqueChain
    split
    · by_cases h : hits q n.key = true <;> simp [List.find?, h]
    · rename_i hh
      split
      · by_cases h : hits q n.key = true <;> simp [List.find?, h]
      · by_cases h : hits q n.key = true
        · have : hits q c.key = false := by
            by_contra hc
            exact hh (hqk c h (by simpa using hc))
          simp [List.find?, this, ih, h]
        · by_cases hc : hits q c.key = true <;> simp [List.find?, hc, ih, h]

/-! ### the table -/

theorem slotsFor_pos (n : Nat) : 0 < slotsFor n ∧ slotsFor n ≤ 2 ^ 20 := by
  unfold slotsFor MAX_BUCKETS
  constructor
  · simp only [Nat.lt_min]; exact ⟨Nat.pow_pos (by decide), by decide⟩
  · exact Nat.min_le_right _ _

/-- The refinement relation between a table and the log of accepted rules. -/
structure Rel (h : Avtab) (log : List Node) : Prop where
  tb : ∃ tb, h.htable = some tb ∧ (∀ i, Sorted (tb i)) ∧
        (∀ i, (tb i).Perm (log.filter (fun n => hash n.key h.mask == i)))
  mask : h.mask + 1 = h.nslot
  small : h.nslot ≤ 2 ^ 20
  nel : h.nel = log.length

theorem rel_alloc (nrules : Nat) (h : nrules ≠ 0) : Rel (alloc init nrules) [] := by
  unfold alloc
  rw [if_neg h]
  have := slotsFor_pos nrules
  exact ⟨⟨fun _ => [], rfl, fun _ => List.Pairwise.nil, fun _ => by simp⟩,
    by show slotsFor nrules - 1 + 1 = slotsFor nrules; omega, this.2, rfl⟩

theorem mkNode_eq (k : Key) (d : Datum) : mkNode k d = stored k d := by
  unfold mkNode stored; split <;> rfl

theorem stored_key (k : Key) (d : Datum) : (stored k d).key = k := rfl

theorem rel_push {h : Avtab} {log : List Node} (hr : Rel h log) (tb) (htb : h.htable = some tb)
    (k : Key) (d : Datum) :
    Rel { h with
      htable := some (setBucket tb (hash k h.mask)
        (insertNonuniqueChain k (mkNode k d) (tb (hash k h.mask))))
      nel := h.nel + 1 } (stored k d :: log) := by
  obtain ⟨⟨tb', htb', hs, hp⟩, hm, hsm, hn⟩ := hr
  rw [htb] at htb'
  obtain rfl : tb = tb' := by simpa using htb'
  refine ⟨⟨_, rfl, ?_, ?_⟩, hm, hsm, by simp [hn]⟩
  · intro i
    unfold setBucket
    split
    · exact insertNonuniqueChain_sorted _ _ (by simp [mkNode_eq, stored_key]) _ (hs _)
    · exact hs i
  · intro i
    show (setBucket tb _ _ i).Perm _
    unfold setBucket
    split
    · rename_i hi
      subst hi
      refine (insertNonuniqueChain_perm _ _ _).trans ?_
      rw [List.filter_cons_of_pos (by simp [stored_key])]
      rw [mkNode_eq]
      exact List.Perm.cons _ (hp _)
    · rename_i hi
      rw [List.filter_cons_of_neg]
      · exact hp i
      · simp [stored_key]; omega

theorem mem_bucket {h : Avtab} {log : List Node} {tb : Nat → List Node} (k : Key)
    (hp : ∀ i, (tb i).Perm (log.filter (fun n => hash n.key h.mask == i))) (P : Node → Prop)
    (hP : ∀ n, P n → hits k n.key = true) :
    (∃ n ∈ tb (hash k h.mask), P n) ↔ ∃ n ∈ log, P n := by
  constructor
  · rintro ⟨n, hn, hP'⟩
    have := (hp _).mem_iff.1 hn
    simp at this
    exact ⟨n, this.1, hP'⟩
  · rintro ⟨n, hn, hP'⟩
    refine ⟨n, (hp _).mem_iff.2 ?_, hP'⟩
    simp [hn, hash_triple (hits_triple (hP n hP')) h.mask]

open Classical in
theorem insert_cases {h : Avtab} {log : List Node} (hr : Rel h log) (k : Key) (d : Datum) :
    (if isXperm k = false ∧ (∃ r ∈ log, Answers k r) then insert h k d = (h, .eexist)
     else (insert h k d).2 = .ok) ∧ Rel (insert h k d).1 (logStep log (.insert k d)) := by
  obtain ⟨tb, htb, hs, hp⟩ := hr.tb
  have hnone := insertChain_none k (mkNode k d) (tb (hash k h.mask)) (hs _)
  rw [mem_bucket (log := log) k hp (fun c => hits k c.key = true) (fun _ h => h)] at hnone
  simp only [hits_iff] at hnone
  dsimp only [logStep]
  by_cases hc : isXperm k = false ∧ ∃ r ∈ log, Answers k r
  · have := hnone.2 hc
    have hi : insert h k d = (h, .eexist) := by
      unfold insert; simp only [htb, this]
    rw [if_pos hc, if_pos hc, hi]
    exact ⟨rfl, hr⟩
  · have hne : insertChain k (mkNode k d) (tb (hash k h.mask)) ≠ none := fun h => hc (hnone.1 h)
    obtain ⟨l, hl⟩ := Option.ne_none_iff_exists'.1 hne
    have hle := insertChain_eq _ _ _ _ hl
    have hi : insert h k d = ({ h with htable := some (setBucket tb (hash k h.mask) l), nel := h.nel + 1 }, .ok) := by
      unfold insert; simp only [htb, hl]
    rw [if_neg hc, if_neg hc, hi]
    refine ⟨rfl, ?_⟩
    rw [hle]
    exact rel_push hr tb htb k d

theorem rel_step {h : Avtab} {log : List Node} (hr : Rel h log) (op : Op) :
    Rel (step h op) (logStep log op) := by
  cases op with
  | insert k d => exact (insert_cases hr k d).2
  | insertNonunique k d =>
    obtain ⟨tb, htb, hs, hp⟩ := hr.tb
    have : step h (.insertNonunique k d) = { h with
      htable := some (setBucket tb (hash k h.mask)
        (insertNonuniqueChain k (mkNode k d) (tb (hash k h.mask))))
      nel := h.nel + 1 } := by
      simp [step, insertNonunique, htb]
    rw [this]
    exact rel_push hr tb htb k d

theorem rel_foldl (ops : List Op) : ∀ {h log}, Rel h log →
    Rel (ops.foldl step h) (ops.foldl logStep log) := by
  induction ops with
  | nil => intro h log hr; exact hr
  | cons op ops ih => intro h log hr; exact ih (rel_step hr op)

theorem rel_run (nrules : Nat) (hn : nrules ≠ 0) (ops : List Op) :
    Rel (run nrules ops) (logOf ops) := rel_foldl ops (rel_alloc nrules hn)

/-! ### most recent answer, single-kind rules -/

/-- Every bucket's first answer is the log's first answer. -/
def Latest (h : Avtab) (log : List Node) : Prop :=
  ∃ tb, h.htable = some tb ∧ ∀ q : Key, SingleKind q.specified →
    (tb (hash q h.mask)).find? (fun x => hits q x.key) = log.find? (fun x => hits q x.key)

theorem latest_push {h : Avtab} {log : List Node} (hl : Latest h log) (tb) (htb : h.htable = some tb)
    (k : Key) (d : Datum) (hk : SingleKind k.specified) :
    Latest { h with
      htable := some (setBucket tb (hash k h.mask)
        (insertNonuniqueChain k (mkNode k d) (tb (hash k h.mask))))
      nel := h.nel + 1 } (stored k d :: log) := by
  obtain ⟨tb', htb', hl⟩ := hl
  rw [htb] at htb'
  obtain rfl : tb = tb' := by simpa using htb'
  refine ⟨_, rfl, ?_⟩
  intro q hq
  show (setBucket tb _ _ (hash q h.mask)).find? _ = _
  have hpush : (stored k d :: log).find? (fun x => hits q x.key)
      = if hits q (stored k d).key then some (stored k d) else log.find? (fun x => hits q x.key) := by
    by_cases h : hits q (stored k d).key = true <;> simp [List.find?, h]
  rw [hpush]
  unfold setBucket
  split
  · rename_i hi
    rw [find_insertNonunique k q _ _ (by simp [mkNode_eq, stored_key]) hq hk, mkNode_eq]
    rw [← hi, hl q hq]
  · rename_i hi
    have : hits q (stored k d).key = false := by
      by_contra hc
      exact hi (hash_triple (hits_triple (by rw [stored_key] at hc; simpa using hc)) _)
    rw [if_neg (by simp [this]), hl q hq]

theorem latest_step {h : Avtab} {log : List Node} (hr : Rel h log) (hl : Latest h log) (op : Op)
    (hk : SingleKind op.key.specified) : Latest (step h op) (logStep log op) := by
  obtain ⟨tb, htb, hs, hp⟩ := hr.tb
  cases op with
  | insert k d =>
    have hnone := insertChain_none k (mkNode k d) (tb (hash k h.mask)) (hs _)
    rw [mem_bucket (log := log) k hp (fun c => hits k c.key = true) (fun _ h => h)] at hnone
    simp only [hits_iff] at hnone
    unfold logStep step
    by_cases hc : isXperm k = false ∧ ∃ r ∈ log, Answers k r
    · have := (insert_cases hr k d).1
      rw [if_pos hc] at this
      simp only [this]
      rw [if_pos hc]; exact hl
    · have hne : insertChain k (mkNode k d) (tb (hash k h.mask)) ≠ none := fun h => hc (hnone.1 h)
      obtain ⟨l, hll⟩ := Option.ne_none_iff_exists'.1 hne
      have hle := insertChain_eq _ _ _ _ hll
      have hi : insert h k d = ({ h with htable := some (setBucket tb (hash k h.mask) l), nel := h.nel + 1 }, .ok) := by
        unfold insert; simp only [htb, hll]
      simp only [hi]
      rw [if_neg hc, hle]
      exact latest_push hl tb htb k d hk
  | insertNonunique k d =>
    have : step h (.insertNonunique k d) = { h with
      htable := some (setBucket tb (hash k h.mask)
        (insertNonuniqueChain k (mkNode k d) (tb (hash k h.mask))))
      nel := h.nel + 1 } := by
      simp [step, insertNonunique, htb]
    rw [this]
    exact latest_push hl tb htb k d hk

theorem latest_foldl (ops : List Op) (hk : ∀ op ∈ ops, SingleKind op.key.specified) :
    ∀ {h log}, Rel h log → Latest h log → Latest (ops.foldl step h) (ops.foldl logStep log) := by
  induction ops with
  | nil => intro h log _ hl; exact hl
  | cons op ops ih =>
    intro h log hr hl
    exact ih (fun o ho => hk o (by simp [ho])) (rel_step hr op)
      (latest_step hr hl op (hk op (by simp)))

theorem latest_run (nrules : Nat) (hn : nrules ≠ 0) (ops : List Op)
    (hk : ∀ op ∈ ops, SingleKind op.key.specified) : Latest (run nrules ops) (logOf ops) := by
  refine latest_foldl ops hk (rel_alloc nrules hn) ?_
  unfold alloc
  rw [if_neg hn]
  exact ⟨_, rfl, fun q _ => rfl⟩

/-! ### all nodes -/

theorem flatMap_filter_perm {α} (f : α → Nat) (n : Nat) (l : List α) (h : ∀ a ∈ l, f a < n) :
    ((List.range n).flatMap (fun i => l.filter (fun a => f a == i))).Perm l := by
  induction l with
  | nil => simp
  | cons a l ih =>
    have ih' := ih (fun b hb => h b (by simp [hb]))
    have ha := h a (by simp)
    have key : ∀ m : List Nat, m.Nodup → f a ∈ m →
        (m.flatMap (fun i => (a :: l).filter (fun b => f b == i))).Perm
          (a :: m.flatMap (fun i => l.filter (fun b => f b == i))) := by
      intro m
      induction m with
      | nil => intro _ h; simp at h
      | cons i m ihm =>
        intro hnd hmem
        have hnd' := List.nodup_cons.1 hnd
        by_cases hi : f a = i
        · subst hi
          simp only [List.flatMap_cons]
          have hrest : m.flatMap (fun i => (a :: l).filter (fun b => f b == i))
              = m.flatMap (fun i => l.filter (fun b => f b == i)) := by
            simp only [List.flatMap]
            congr 1
            apply List.map_congr_left
            intro j hj
            rw [List.filter_cons_of_neg]
            simp only [beq_iff_eq]
            intro h; subst h; exact hnd'.1 hj
          rw [hrest]
          simp
        · have hmem' : f a ∈ m := by
            rcases List.mem_cons.1 hmem with h | h
            · exact absurd h hi
            · exact h
          have := ihm hnd'.2 hmem'
          simp only [List.flatMap_cons]
          rw [List.filter_cons_of_neg (by simpa using hi)]
          refine (List.Perm.append_left _ this).trans ?_
          exact List.perm_middle
    exact (key (List.range n) List.nodup_range (by simpa using ha)).trans (List.Perm.cons a ih')

theorem flatMap_perm {α β} (l : List α) (f g : α → List β) (h : ∀ a, (f a).Perm (g a)) :
    (l.flatMap f).Perm (l.flatMap g) := by
  induction l with
  | nil => exact List.Perm.refl _
  | cons a l ih => simp only [List.flatMap_cons]; exact (h a).append ih

theorem nodes_perm {h : Avtab} {log : List Node} (hr : Rel h log) : (nodes h).Perm log := by
  obtain ⟨tb, htb, hs, hp⟩ := hr.tb
  have hm := hr.mask
  have hsm := hr.small
  unfold nodes
  simp only [htb]
  have h1 : ((List.range h.nslot).flatMap tb).Perm
      ((List.range h.nslot).flatMap (fun i => log.filter (fun n => hash n.key h.mask == i))) := by
    exact flatMap_perm _ _ _ hp
  refine h1.trans (flatMap_filter_perm (fun n => hash n.key h.mask) h.nslot log ?_)
  intro a _
  have := hash_le a.key h.mask (by omega)
  omega

end Verif.Avtab
