import Verif.PolicyIO.Sound

/-! # What is known of the rules that are read -/

namespace Verif.PolicyIO
open Verif.Policy Verif.Services Verif.Validate

theorem sound_words : ∀ n, Sound (Avtab.nextWords n : Rd (List (BitVec 32))) fun _ => True
  | 0 => sound_pure trivial
  | n + 1 => by
    show Sound ((nextLE 4 : Rd Nat) >>= fun w => (Avtab.nextWords n : Rd _) >>= fun ws => Rd.pure (BitVec.ofNat 32 w :: ws)) _
    exact sound_bind (sound_nextLE 4) fun _ => sound_bind (sound_words n) fun _ => sound_pure fun _ _ => trivial

theorem sound_item (vers : Nat) : Sound (Avtab.readItem vers : Rd (Avtab.Key × Avtab.Datum)) fun kd => Avtab.Storable ⟨kd.1, kd.2⟩ := by
  have h : Sound (Avtab.readItem vers : Rd (Avtab.Key × Avtab.Datum)) fun _ => True := by
    show Sound ((nextLE 2 : Rd Nat) >>= fun s => (nextLE 2 : Rd Nat) >>= fun t => (nextLE 2 : Rd Nat) >>= fun c => (nextLE 2 : Rd Nat) >>= fun sp =>
      (fun bs => if BitVec.ofNat 16 sp &&& ~~~ (Avtab.AV ||| Avtab.TYPE ||| Avtab.XPERMS ||| Avtab.ENABLED) ≠ 0#16 then Rd.fail bs
        else (fun bs => if Avtab.popcount (BitVec.ofNat 16 sp &&& ~~~ Avtab.ENABLED) ≠ 1 then Rd.fail bs
          else (fun bs => if vers < Avtab.VERSION_XPERMS_IOCTL ∧ BitVec.ofNat 16 sp &&& Avtab.XPERMS ≠ 0#16 then Rd.fail bs
            else (fun bs => if BitVec.ofNat 16 sp &&& Avtab.XPERMS ≠ 0#16 then
              ((nextLE 1 : Rd Nat) >>= fun xs => (nextLE 1 : Rd Nat) >>= fun dr => (Avtab.nextWords 8 : Rd _) >>= fun ws => Rd.pure
                ((⟨s, t, c, BitVec.ofNat 16 sp⟩ : Avtab.Key), (⟨0#32, some ⟨BitVec.ofNat 8 xs, BitVec.ofNat 8 dr, ws⟩⟩ : Avtab.Datum)) : Rd _) bs
              else ((nextLE 4 : Rd Nat) >>= fun d => Rd.pure ((⟨s, t, c, BitVec.ofNat 16 sp⟩ : Avtab.Key), (⟨BitVec.ofNat 32 d, none⟩ : Avtab.Datum)) : Rd _) bs)
            bs) bs) bs : Rd (Avtab.Key × Avtab.Datum))) _
    refine sound_bind (sound_nextLE 2) fun _ => sound_bind (sound_nextLE 2) fun _ => sound_bind (sound_nextLE 2) fun _ => sound_bind (sound_nextLE 2) fun _ => ?_
    refine sound_iteAt (fun _ => sound_fail) fun _ => sound_iteAt (fun _ => sound_fail) fun _ => sound_iteAt (fun _ => sound_fail) fun _ =>
      sound_iteAt (fun _ => ?_) fun _ => ?_
    · exact sound_bind (sound_nextLE 1) fun _ => sound_bind (sound_nextLE 1) fun _ => sound_bind (sound_words 8) fun _ =>
        sound_pure fun _ _ _ _ _ _ _ => trivial
    · exact sound_bind (sound_nextLE 4) fun _ => sound_pure fun _ _ _ _ _ => trivial
  intro bs a rest hr
  obtain ⟨-, h2, h3⟩ := h bs a rest hr
  exact ⟨fun _ => Avtab.readItem_storable vers bs a.1 a.2 rest hr, h2, h3⟩

theorem sound_avLoop' (vers : Nat) : ∀ n a, Sound (Avtab.readLoop vers n a : Rd Avtab.Avtab) fun _ => True
  | 0, a => sound_pure trivial
  | n + 1, a => by
    have h : (Avtab.readLoop vers (n + 1) a : Rd Avtab.Avtab) = ((Avtab.readItem vers : Rd (Avtab.Key × Avtab.Datum)) >>= fun kd =>
        match Avtab.insert a kd.1 kd.2 with
        | (a', .ok) => (Avtab.readLoop vers n a' : Rd Avtab.Avtab)
        | (_, _) => Rd.fail : Rd Avtab.Avtab) := by
      funext bs
      show _ = Rd.bind (Avtab.readItem vers) _ bs
      unfold Avtab.readLoop Rd.bind
      cases Avtab.readItem vers bs with
      | none => rfl
      | some x =>
        obtain ⟨⟨k, d⟩, b1⟩ := x
        simp only [Option.bind_some]
        cases hi : Avtab.insert a k d with
        | mk a' r => cases r <;> rfl
    rw [h]
    refine sound_bind (sound_item vers) fun kd => ?_
    cases hi : Avtab.insert a kd.1 kd.2 with
    | mk a' r => cases r <;> first | exact sound_mono (sound_avLoop' vers n a') fun _ _ _ => trivial | exact sound_fail

/-- The rules have been put into the table one by one. -/
def Loaded (t : Avtab.Avtab) : Prop :=
  ∃ rules : List (Avtab.Key × Avtab.Datum), rules ≠ [] ∧ (∀ q ∈ rules, Avtab.Storable ⟨q.1, q.2⟩) ∧
      t = Avtab.run rules.length (rules.map (fun q => .insert q.1 q.2)) ∧
      (Avtab.logOf (rules.map (fun q => .insert q.1 q.2))).length = rules.length ∧ t.nel = rules.length

theorem sound_avtab (vers : Nat) : Sound (Avtab.read vers : Rd Avtab.Avtab) Loaded := by
  intro bs a rest hr
  refine ⟨fun _ => Avtab.C41_read_sound vers bs a rest hr, ?_⟩
  have hr' := hr
  unfold Avtab.read at hr
  cases hn : nextLE 4 bs with
  | none => rw [hn] at hr; cases hr
  | some x =>
    obtain ⟨nel, b1⟩ := x
    rw [hn] at hr
    obtain ⟨-, ⟨c, hc⟩, hx⟩ := sound_nextLE 4 bs nel b1 hn
    simp only at hr
    split at hr
    · cases hr
    · rename_i hcond
      obtain ⟨-, ⟨c', hc'⟩, hx'⟩ := sound_avLoop' vers nel (Avtab.alloc Avtab.init nel) b1 a rest hr
      refine ⟨⟨c ++ c', by rw [hc, hc', List.append_assoc]⟩, fun x => ?_⟩
      unfold Avtab.read
      rw [hx x]
      simp only
      rw [if_neg (by rw [List.length_append]; omega)]
      exact hx' x

theorem rel_of_loaded {t : Avtab.Avtab} (h : Loaded t) : (∃ lt, Avtab.Rel t lt) ∧ t.nel ≠ 0 := by
  obtain ⟨rules, h1, _, h3, _, h5⟩ := h
  have : rules.length ≠ 0 := fun h => h1 (List.length_eq_zero_iff.1 h)
  refine ⟨⟨Avtab.logOf (rules.map (fun q => .insert q.1 q.2)), ?_⟩, by omega⟩
  rw [h3]
  exact Avtab.rel_run _ this _

theorem stored_of_storable {k : Avtab.Key} {d : Avtab.Datum} (h : Avtab.Storable ⟨k, d⟩) : Avtab.stored k d = ⟨k, d⟩ := by
  unfold Avtab.stored
  by_cases hx : Avtab.isXperm k = true
  · obtain ⟨x, h1, _⟩ := h.perms hx
    have h1 : d.xperms = some x := h1
    rw [if_pos hx, h1]
    obtain ⟨d1, d2⟩ := d
    simp only at h1
    rw [h1]; rfl
  · rw [if_neg hx]

/-- No rule answers when none is found. -/
theorem answers_none {t : Avtab.Avtab} {log : List Avtab.Node} (hr : Avtab.Rel t log) {k : Avtab.Key} (h : Avtab.searchNode t k = none) :
    ∀ r ∈ log, ¬ Avtab.Answers k r := by
  classical
  intro r hr' ha
  have he := Avtab.enumerate_of_rel hr k
  have hE : Avtab.enumerate t k = [] := by unfold Avtab.enumerate; rw [h]
  rw [hE] at he
  have : r ∈ log.filter fun r => decide (Avtab.Answers k r) := List.mem_filter.2 ⟨hr', decide_eq_true ha⟩
  have := he.mem_iff.2 this
  cases this

theorem searchNode_of_search {t : Avtab.Avtab} {log : List Avtab.Node} (hr : Avtab.Rel t log) {k : Avtab.Key} (h : Avtab.search t k = none) :
    Avtab.searchNode t k = none := by
  obtain ⟨tb, htb, _, _⟩ := hr.tb
  unfold Avtab.search at h
  unfold Avtab.searchNode
  simp only [htb] at h ⊢
  cases hs : Avtab.searchChain k (tb (Avtab.hash k t.mask)) with
  | none => rfl
  | some s =>
    have := (Avtab.searchChain_length _ _ _ hs).2
    rw [hs] at h
    cases s with
    | nil => exact absurd rfl this
    | cons a l => simp at h

theorem searchNode_next {t : Avtab.Avtab} {log : List Avtab.Node} (hr : Avtab.Rel t log) {k : Avtab.Key} {n : Avtab.Node} {l : List Avtab.Node}
    (h : Avtab.searchNode t k = some (n :: l)) (h' : Avtab.searchNodeNext (n :: l) k.specified = none) :
    (log.filter fun r => Avtab.hits k r.key) = [n] := by
  classical
  have he := Avtab.enumerate_of_rel hr k
  have hd : log.filter (fun r => decide (Avtab.Answers k r)) = log.filter fun n => Avtab.hits k n.key := by
    apply List.filter_congr
    intro n _
    by_cases h : Avtab.hits k n.key = true
    · rw [h]; exact decide_eq_true ((Avtab.hits_iff k n).1 h)
    · rw [Bool.not_eq_true] at h
      rw [h]
      exact decide_eq_false fun hc => by rw [(Avtab.hits_iff k n).2 hc] at h; cases h
  rw [hd] at he
  have hE : Avtab.enumerate t k = [n] := by
    unfold Avtab.enumerate
    rw [h]
    show Avtab.enumFrom (n :: l) k.specified = _
    rw [Avtab.enumFrom]
    split
    · rfl
    · rename_i s hs; rw [h'] at hs; cases hs
  rw [hE] at he
  exact List.perm_singleton.1 he.symm

/-- What is known when a rule of a conditional has been accepted. -/
theorem condInsert_inv {te tc tc' : Avtab.Avtab} {lt log other : List Avtab.Node} (ht : Avtab.Rel te lt) (hc : Avtab.Rel tc log) {k : Avtab.Key}
    {d : Avtab.Datum} {n : Avtab.Node} (hs : Avtab.Storable ⟨k, d⟩) (h : condInsert te tc other k d = some (tc', n)) :
    n = ⟨k, d⟩ ∧ Avtab.Rel tc' (n :: log) ∧ (k.specified &&& Avtab.TYPE ≠ 0#16 → (∀ r ∈ lt, ¬ Avtab.Answers k r) ∧
      (∀ r ∈ log, Avtab.Answers k r → r ∈ other) ∧ (log.filter fun n => Avtab.hits k n.key).length ≤ 1) := by
  obtain ⟨tb, htb, _, _⟩ := hc.tb
  have hpush := Avtab.rel_push hc tb htb k d
  unfold condInsert at h
  have hins : Avtab.insertNonunique tc k d = some { tc with
      htable := some (Avtab.setBucket tb (Avtab.hash k tc.mask)
        (Avtab.insertNonuniqueChain k (Avtab.mkNode k d) (tb (Avtab.hash k tc.mask))))
      nel := tc.nel + 1 } := by
    unfold Avtab.insertNonunique
    simp only [htb]
  rw [hins, Option.map_some, Avtab.mkNode_eq, stored_of_storable hs] at h
  rw [stored_of_storable hs, Avtab.mkNode_eq, stored_of_storable hs] at hpush
  obtain ⟨c1, h⟩ := Option.ite_none_left_eq_some.1 h
  obtain ⟨c2, h⟩ := Option.ite_none_left_eq_some.1 h
  rw [Option.some.injEq, Prod.mk.injEq] at h
  obtain ⟨h1, rfl⟩ := h
  refine ⟨rfl, by rw [← h1]; exact hpush, fun hk => ?_⟩
  have hkb : (k.specified &&& Avtab.TYPE != 0) = true := by rw [bne_iff_ne]; exact hk
  rw [hkb, Bool.true_and, Bool.not_eq_true, Option.isSome_eq_false_iff, Option.isNone_iff_eq_none] at c1
  rw [hkb, Bool.true_and, Bool.not_eq_true, Bool.not_eq_false'] at c2
  have g1 := answers_none ht (searchNode_of_search ht c1)
  refine ⟨g1, ?_⟩
  by_cases ho : other = []
  · subst ho
    rw [if_pos (by rfl), Option.isNone_iff_eq_none] at c2
    have g2 := answers_none hc (searchNode_of_search hc c2)
    refine ⟨fun r hr ha => absurd ha (g2 r hr), ?_⟩
    rw [filter_nil g2]; simp
  · rw [if_neg (by rw [List.isEmpty_iff]; exact ho)] at c2
    cases hs : Avtab.searchNode tc k with
    | none =>
      have g2 := answers_none hc hs
      refine ⟨fun r hr ha => absurd ha (g2 r hr), ?_⟩
      rw [filter_nil g2]; simp
    | some l =>
      rw [hs] at c2
      simp only [Bool.and_eq_true, Option.isNone_iff_eq_none] at c2
      cases l with
      | nil => exact absurd c2.2 (by simp)
      | cons m l =>
        have hf := searchNode_next hc hs c2.1
        have hm : m ∈ other := by
          have := c2.2
          simpa [List.contains_eq_mem] using this
        refine ⟨fun r hr ha => ?_, by rw [hf]; simp⟩
        have : r ∈ log.filter fun r => Avtab.hits k r.key := List.mem_filter.2 ⟨hr, (Avtab.hits_iff k r).2 ha⟩
        rw [hf, List.mem_singleton] at this
        rw [this]; exact hm

/-- What is known of the rules of a branch that has been read. -/
def BranchRead (lt log other l : List Avtab.Node) : Prop :=
  ∀ pre n post, l = pre ++ n :: post → IsTypeRule n → (∀ r ∈ lt, ¬ Avtab.Answers n.key r) ∧
    (∀ r ∈ pre.reverse ++ log, Avtab.Answers n.key r → r ∈ other) ∧
    ((pre.reverse ++ log).filter fun r => Avtab.hits n.key r.key).length ≤ 1

theorem sound_avLoop {version : Nat} {te : Avtab.Avtab} {lt other : List Avtab.Node} (ht : Avtab.Rel te lt) : ∀ (n : Nat) (tc : Avtab.Avtab)
    (log : List Avtab.Node), Avtab.Rel tc log → Sound (readAvLoop version te other n tc) fun r =>
      Avtab.Rel r.1 (r.2.reverse ++ log) ∧ (∀ m ∈ r.2, Avtab.Storable m) ∧ BranchRead lt log other r.2
  | 0, tc, log, hc => sound_pure ⟨hc, by simp, fun pre n post h => by simp at h⟩
  | n + 1, tc, log, hc => by
    -- the part that does not depend on the contents
    have key : ∀ n tc, Sound (readAvLoop version te other n tc) fun _ => True := by
      intro n
      induction n with
      | zero => exact fun tc => sound_pure trivial
      | succ n ih =>
        intro tc
        unfold readAvLoop
        refine sound_bind (sound_item version) fun kd => ?_
        cases condInsert te tc other kd.1 kd.2 with
        | none => exact sound_fail
        | some r => exact sound_bind (ih r.1) fun s => sound_pure fun _ _ => trivial
    intro bs a rest hr
    obtain ⟨-, k2, k3⟩ := key (n + 1) tc bs a rest hr
    refine ⟨fun hl => ?_, k2, k3⟩
    rw [readAvLoop] at hr
    have hr : ((Avtab.readItem version : Rd _) bs).bind _ = some (a, rest) := hr
    obtain ⟨⟨kd, b1⟩, i1, hr⟩ := Option.bind_eq_some_iff.1 hr
    obtain ⟨p1, ⟨c1, e1⟩, -⟩ := sound_item version bs kd b1 i1
    have hst := p1 hl
    have hl1 : b1.length ≤ maxLen := by rw [e1, List.length_append] at hl; omega
    cases hi : condInsert te tc other kd.1 kd.2 with
    | none => simp only [hi] at hr; cases hr
    | some r =>
      obtain ⟨tc1, m⟩ := r
      obtain ⟨rfl, hrel, hty⟩ := condInsert_inv ht hc hst hi
      simp only [hi] at hr
      have hr : (readAvLoop version te other n tc1 b1).bind _ = some (a, rest) := hr
      obtain ⟨⟨s, b2⟩, j1, hr⟩ := Option.bind_eq_some_iff.1 hr
      obtain ⟨q1, -, -⟩ := sound_avLoop ht n tc1 _ hrel b1 s b2 j1
      obtain ⟨r1, r2, r3⟩ := q1 hl1
      have hr : some ((s.1, (⟨kd.1, kd.2⟩ : Avtab.Node) :: s.2), b2) = some (a, rest) := hr
      rw [Option.some.injEq, Prod.mk.injEq] at hr
      obtain ⟨rfl, -⟩ := hr
      refine ⟨by simpa using r1, ?_, ?_⟩
      · intro x hx
        rcases List.mem_cons.1 hx with rfl | hx
        · exact hst
        · exact r2 x hx
      · intro pre x post he hx
        cases pre with
        | nil =>
          simp only [List.nil_append, List.cons.injEq] at he
          obtain ⟨rfl, _⟩ := he
          exact hty hx
        | cons y pre =>
          simp only [List.cons_append, List.cons.injEq] at he
          obtain ⟨rfl, he⟩ := he
          have := r3 pre x post he hx
          simpa using this

theorem sound_avList {version : Nat} {te tc : Avtab.Avtab} {lt other log : List Avtab.Node} (ht : Avtab.Rel te lt) (hc : Avtab.Rel tc log) :
    Sound (readAvList version te other tc) fun r => Avtab.Rel r.1 (r.2.reverse ++ log) ∧ (∀ m ∈ r.2, Avtab.Storable m) ∧ BranchRead lt log other r.2 :=
  sound_bind sound_u32 fun n => sound_mono (sound_avLoop ht n tc log hc) fun _ h _ => h

theorem sound_condTok (nbools : Nat) : Sound (readCondTok nbools) fun _ => True := by
  unfold readCondTok
  exact sound_bind sound_u32 fun _ => sound_bind sound_u32 fun _ => sound_reject (sound_reject (sound_pure fun _ _ _ _ => trivial))

/-- What is read first may be assumed of what follows. -/
theorem sound_bind' {α β : Type} {r : Rd α} {f : α → Rd β} {P : α → Prop} {Q : β → Prop} (h : Sound r P)
    (h' : ∀ a, Sound (f a) fun _ => True) (h'' : ∀ a, P a → Sound (f a) Q) : Sound (r >>= f) Q := by
  intro bs b rest hr
  obtain ⟨-, k2, k3⟩ := sound_bind (Q := fun _ => True) h (fun a => sound_mono (h' a) fun _ _ _ => trivial) bs b rest hr
  refine ⟨fun hl => ?_, k2, k3⟩
  have hr : (r bs).bind (fun x => f x.1 x.2) = some (b, rest) := hr
  obtain ⟨⟨a, bs1⟩, h1, h2⟩ := Option.bind_eq_some_iff.1 hr
  obtain ⟨p1, ⟨c1, e1⟩, -⟩ := h bs a bs1 h1
  exact (h'' a (p1 hl) bs1 b rest h2).1 (by rw [e1, List.length_append] at hl; omega)

theorem ext_avList (version : Nat) (te : Avtab.Avtab) (other : List Avtab.Node) (tc : Avtab.Avtab) :
    Sound (readAvList version te other tc) fun _ => True := by
  have key : ∀ n tc, Sound (readAvLoop version te other n tc) fun _ => True := by
    intro n
    induction n with
    | zero => exact fun tc => sound_pure trivial
    | succ n ih =>
      intro tc
      unfold readAvLoop
      refine sound_bind (sound_item version) fun kd => ?_
      cases condInsert te tc other kd.1 kd.2 with
      | none => exact sound_fail
      | some r => exact sound_bind (ih r.1) fun s => sound_pure fun _ _ => trivial
  exact sound_bind sound_u32 fun n => sound_mono (key n tc) fun _ _ _ => trivial

/-- What is known of a conditional that has been read. -/
structure CondRead (lt log : List Avtab.Node) (c : CondD) : Prop where
  storable : ∀ n ∈ c.trueList ++ c.falseList, Avtab.Storable n
  outside : ∀ n ∈ c.trueList ++ c.falseList, IsTypeRule n → ∀ r ∈ lt ++ log, ¬ Avtab.Answers n.key r
  true_ : c.trueList.Pairwise fun a b => IsTypeRule b → ¬ Avtab.Answers b.key a
  false_ : c.falseList.Pairwise fun a b => IsTypeRule b → ¬ Avtab.Answers b.key a

theorem pairwise_of_split {α : Type} {R : α → α → Prop} : ∀ {l : List α}, (∀ pre n post, l = pre ++ n :: post → ∀ a ∈ pre, R a n) → l.Pairwise R
  | [], _ => List.Pairwise.nil
  | x :: l, h => by
    rw [List.pairwise_cons]
    refine ⟨fun y hy => ?_, pairwise_of_split fun pre n post he a ha => h (x :: pre) n post (by rw [he]; rfl) a (List.mem_cons_of_mem _ ha)⟩
    obtain ⟨pre, post, he⟩ := List.append_of_mem hy
    exact h (x :: pre) y post (by rw [he]; rfl) x (by simp)

theorem two_le_filter {l1 l2 : List Avtab.Node} {k : Avtab.Key} {a : Avtab.Node} (h1 : a ∈ l1) (h2 : a ∈ l2) (ha : Avtab.Answers k a) :
    2 ≤ ((l1 ++ l2).filter fun r => Avtab.hits k r.key).length := by
  have g1 : a ∈ l1.filter fun r => Avtab.hits k r.key := List.mem_filter.2 ⟨h1, (Avtab.hits_iff k a).2 ha⟩
  have g2 : a ∈ l2.filter fun r => Avtab.hits k r.key := List.mem_filter.2 ⟨h2, (Avtab.hits_iff k a).2 ha⟩
  have := List.length_pos_of_mem g1
  have := List.length_pos_of_mem g2
  rw [List.filter_append, List.length_append]
  omega

theorem condRead_of {lt log t f : List Avtab.Node} (h1 : ∀ m ∈ t, Avtab.Storable m) (h2 : BranchRead lt log [] t) (h3 : ∀ m ∈ f, Avtab.Storable m)
    (h4 : BranchRead lt (t.reverse ++ log) t f) (s : Int) (e : List CondTok) (fl : Nat) : CondRead lt log ⟨s, e, t, f, fl⟩ := by
  refine ⟨?_, ?_, ?_, ?_⟩
  · intro n hn
    rcases List.mem_append.1 hn with h | h
    · exact h1 n h
    · exact h3 n h
  · intro n hn hty r hr ha
    rcases List.mem_append.1 hn with h | h
    · obtain ⟨pre, post, he⟩ := List.append_of_mem h
      obtain ⟨g1, g2, -⟩ := h2 pre n post he hty
      rcases List.mem_append.1 hr with hr | hr
      · exact g1 r hr ha
      · cases g2 r (List.mem_append_right _ hr) ha
    · obtain ⟨pre, post, he⟩ := List.append_of_mem h
      obtain ⟨g1, g2, g3⟩ := h4 pre n post he hty
      rcases List.mem_append.1 hr with hr | hr
      · exact g1 r hr ha
      · have hm := g2 r (List.mem_append_right _ (List.mem_append_right _ hr)) ha
        have h2 := two_le_filter (List.mem_reverse.2 hm) hr ha
        rw [List.filter_append, List.length_append] at g3
        omega
  · refine pairwise_of_split fun pre n post he a ha hty hans => ?_
    cases (h2 pre n post he hty).2.1 a (List.mem_append_left _ (List.mem_reverse.2 ha)) hans
  · refine pairwise_of_split fun pre n post he a ha hty hans => ?_
    obtain ⟨g1, g2, g3⟩ := h4 pre n post he hty
    have hm := g2 a (List.mem_append_left _ (List.mem_reverse.2 ha)) hans
    have := two_le_filter (List.mem_reverse.2 ha) (List.mem_append_left log (List.mem_reverse.2 hm)) hans
    omega

theorem ext_cond (version nbools : Nat) (te tc : Avtab.Avtab) : Sound (readCond version nbools te tc) fun _ => True := by
  unfold readCond
  exact sound_bind sound_u32 fun _ => sound_bind sound_u32 fun n => sound_bind (sound_times (sound_condTok nbools) n) fun _ =>
    sound_bind (ext_avList _ _ _ _) fun _ => sound_bind (ext_avList _ _ _ _) fun _ => sound_pure fun _ _ _ _ _ => trivial

theorem sound_cond {version nbools : Nat} {te tc : Avtab.Avtab} {lt log : List Avtab.Node} (ht : Avtab.Rel te lt) (hc : Avtab.Rel tc log) :
    Sound (readCond version nbools te tc) fun r =>
      Avtab.Rel r.1 (r.2.falseList.reverse ++ (r.2.trueList.reverse ++ log)) ∧ CondRead lt log r.2 := by
  unfold readCond
  refine sound_bind sound_u32 fun s => sound_bind sound_u32 fun n => sound_bind (sound_times (sound_condTok nbools) n) fun e => ?_
  refine sound_bind' (sound_avList ht hc) (fun t => sound_bind (ext_avList _ _ _ _) fun _ => sound_pure fun _ => trivial) fun t h => ?_
  refine sound_bind (sound_avList ht h.1) fun f => sound_pure fun g _ _ _ => ?_
  exact ⟨g.1, condRead_of h.2.1 h.2.2 g.2.1 g.2.2 _ _ _⟩

theorem ext_condLoop (version nbools : Nat) (te : Avtab.Avtab) : ∀ n tc, Sound (readCondLoop version nbools te n tc) fun _ => True
  | 0, tc => sound_pure trivial
  | n + 1, tc => sound_bind (ext_cond version nbools te tc) fun r => sound_bind (ext_condLoop version nbools te n r.1) fun _ => sound_pure fun _ _ => trivial

/-- What is known of the conditionals that have been read. -/
structure CondsRead (lt log : List Avtab.Node) (l : List CondD) : Prop where
  storable : ∀ c ∈ l, ∀ n ∈ c.trueList ++ c.falseList, Avtab.Storable n
  outside : ∀ c ∈ l, ∀ n ∈ c.trueList ++ c.falseList, IsTypeRule n → ∀ r ∈ lt ++ log, ¬ Avtab.Answers n.key r
  branch : ∀ c ∈ l, (c.trueList.Pairwise fun a b => IsTypeRule b → ¬ Avtab.Answers b.key a) ∧
    (c.falseList.Pairwise fun a b => IsTypeRule b → ¬ Avtab.Answers b.key a)
  across : l.Pairwise fun c d => ∀ a ∈ c.trueList ++ c.falseList, ∀ b ∈ d.trueList ++ d.falseList, IsTypeRule b → ¬ Avtab.Answers b.key a

theorem sound_condLoop {version nbools : Nat} {te : Avtab.Avtab} {lt : List Avtab.Node} (ht : Avtab.Rel te lt) : ∀ (n : Nat) (tc : Avtab.Avtab)
    (log : List Avtab.Node), Avtab.Rel tc log → Sound (readCondLoop version nbools te n tc) fun l => CondsRead lt log l
  | 0, tc, log, hc => sound_pure ⟨by simp, by simp, by simp, List.Pairwise.nil⟩
  | n + 1, tc, log, hc => by
    refine sound_bind' (sound_cond ht hc) (fun r => sound_bind (ext_condLoop version nbools te n r.1) fun _ => sound_pure fun _ => trivial) fun r h => ?_
    refine sound_bind (sound_condLoop ht n r.1 _ h.1) fun l => sound_pure fun g => ?_
    have hc := h.2
    refine ⟨?_, ?_, ?_, ?_⟩
    · intro c hc'
      rcases List.mem_cons.1 hc' with rfl | hc'
      · exact hc.storable
      · exact g.storable c hc'
    · intro c hc' m hm hty x hx
      rcases List.mem_cons.1 hc' with rfl | hc'
      · exact hc.outside m hm hty x hx
      · refine g.outside c hc' m hm hty x ?_
        rcases List.mem_append.1 hx with h | h
        · exact List.mem_append_left _ h
        · exact List.mem_append_right _ (List.mem_append_right _ (List.mem_append_right _ h))
    · intro c hc'
      rcases List.mem_cons.1 hc' with rfl | hc'
      · exact ⟨hc.true_, hc.false_⟩
      · exact g.branch c hc'
    · rw [List.pairwise_cons]
      refine ⟨fun d hd a ha b hb hty => ?_, g.across⟩
      refine g.outside d hd b hb hty a (List.mem_append_right _ ?_)
      rcases List.mem_append.1 ha with h | h
      · exact List.mem_append_right _ (List.mem_append_left _ (List.mem_reverse.2 h))
      · exact List.mem_append_left _ (List.mem_reverse.2 h)

theorem ext_conds (version nbools : Nat) (te : Avtab.Avtab) : Sound (readConds version nbools te) fun _ => True :=
  sound_bind sound_u32 fun n => sound_mono (ext_condLoop version nbools te n _) fun _ _ _ => trivial

theorem sound_conds {version nbools : Nat} {te : Avtab.Avtab} (h : Loaded te) :
    Sound (readConds version nbools te) fun l => CondsRead (Avtab.nodes te) [] l := by
  obtain ⟨⟨lt, ht⟩, hn⟩ := rel_of_loaded h
  refine sound_bind sound_u32 fun n => sound_mono (sound_condLoop ht n _ _ (Avtab.rel_alloc _ hn)) fun l g _ => ?_
  refine ⟨g.storable, fun c hc m hm hty r hr => ?_, g.branch, g.across⟩
  rw [List.append_nil] at hr
  exact g.outside c hc m hm hty r (List.mem_append_left _ ((Avtab.nodes_perm ht).mem_iff.1 hr))

end Verif.PolicyIO
