import Verif.Hashtab.Lemmas

/-!
# C24: symbol tables are maps, across every resize and every allocation failure
-/

namespace Verif.Hashtab

variable {κ δ : Type} {o : Ops κ}

theorem represents_iff (ok : OpsOk o) {h : Tab κ δ} (hi : Inv o h) (m : Map κ δ) :
    Represents h m ↔ ∀ k, search o h k = m k := by
  have hs : ∀ k d, search o h k = some d ↔ (k, d) ∈ nodes h := fun k d => by
    rw [mem_nodes ok hi]; exact searchChain_spec ok k (hi.sorted _) d
  constructor
  · intro hr k
    cases hm : m k with
    | some d => exact (hs k d).mpr ((hr.bindings k d).mpr hm)
    | none =>
      cases hk : search o h k with
      | none => rfl
      | some d =>
        have := (hr.bindings k d).mp ((hs k d).mp hk)
        rw [hm] at this; cases this
  · intro he
    refine ⟨fun k d => ?_, nodes_nodup ok hi, hi.count⟩
    rw [← hs, he]

theorem inv_run (ok : OpsOk o) {size : Nat} (hp : 0 < size) (h2 : size < 2 ^ 32) (ops : List (Op κ δ)) : Inv o (run o size ops) := by
  unfold run
  generalize hg : (create size : Tab κ δ) = h
  have hi : Inv o h := hg ▸ inv_create hp h2
  clear hg
  induction ops generalizing h with
  | nil => exact hi
  | cons op ops ih =>
    refine ih _ ?_
    cases op with
    | insert ok1 ok2 k d => exact (insert_spec ok ok1 ok2 k d hi).1
    | remove k => exact (remove_spec ok k hi).1

/-- C24 (search): after every history of insertions and removals, with any pattern of failing allocations and so of resizes,
there is one map that the table represents, and a search returns what the map holds. -/
theorem C24_table_is_map (ok : OpsOk o) {size : Nat} (hp : 0 < size) (h2 : size < 2 ^ 32) (ops : List (Op κ δ)) :
    Represents (run o size ops) (search o (run o size ops)) :=
  (represents_iff ok (inv_run ok hp h2 ops) _).mpr (fun _ => rfl)

/-- C24 (new table): empty. -/
theorem C24_create (ok : OpsOk o) {size : Nat} (hp : 0 < size) (h2 : size < 2 ^ 32) : Represents (create size : Tab κ δ) (fun _ => none) :=
  (represents_iff ok (inv_create hp h2) _).mpr (fun _ => rfl)

/-- C24 (insert): for every table reached by a history and the map it represents, an insertion
* succeeds exactly when the key is unbound, memory for a node is available and the table is not full, and then binds the key,
* answers "exists" exactly when the key is bound (and the table is not full), and changes no binding,
* otherwise answers "no memory" and changes no binding;
whether the table is resized on the way makes no difference. -/
theorem C24_insert (ok : OpsOk o) {size : Nat} (hp : 0 < size) (h2 : size < 2 ^ 32) (ops : List (Op κ δ)) (m : Map κ δ)
    (hm : Represents (run o size ops) m) (ok1 ok2 : Bool) (k : κ) (d : δ) :
    ((insert o ok1 ok2 k d (run o size ops)).2 = .ok ↔ m k = none ∧ ok2 = true ∧ (run o size ops).nel ≠ 2 ^ 32 - 1) ∧
    ((insert o ok1 ok2 k d (run o size ops)).2 = .exist ↔ m k ≠ none ∧ (run o size ops).nel ≠ 2 ^ 32 - 1) ∧
    ((insert o ok1 ok2 k d (run o size ops)).2 = .ok →
      Represents (insert o ok1 ok2 k d (run o size ops)).1 (m.set k (some d))) ∧
    ((insert o ok1 ok2 k d (run o size ops)).2 ≠ .ok → Represents (insert o ok1 ok2 k d (run o size ops)).1 m) := by
  have hi := inv_run ok hp h2 ops
  generalize run o size ops = h at hm hi
  have hb : (∀ d', (k, d') ∉ nodes h) ↔ m k = none := by
    cases hk : m k with
    | none => simp only [hm.bindings, hk]; simp
    | some d' =>
      simp only [reduceCtorEq, iff_false, Classical.not_forall, Classical.not_not]
      exact ⟨d', (hm.bindings k d').mpr hk⟩
  have hb' : (∃ d', (k, d') ∈ nodes h) ↔ m k ≠ none := by
    rw [ne_eq, ← hb]; simp
  obtain ⟨iv, hc⟩ := insert_spec ok ok1 ok2 k d hi
  have same : (nodes (insert o ok1 ok2 k d h).1).Perm (nodes h) → Represents (insert o ok1 ok2 k d h).1 m := fun hp =>
    ⟨fun k d => by rw [hp.mem_iff]; exact hm.bindings k d, nodes_nodup ok iv, iv.count⟩
  rcases hc with ⟨c, p, u, f, a⟩ | ⟨c, p, u, f⟩ | ⟨c, p, u⟩
  · refine ⟨⟨fun _ => ⟨hb.mp u, a, f⟩, fun _ => c⟩, ⟨fun h => (by rw [c] at h; cases h), fun h => absurd (hb.mp u) h.1⟩, fun _ => ?_,
      fun h => absurd c h⟩
    refine ⟨fun k' d' => ?_, nodes_nodup ok iv, iv.count⟩
    rw [p.mem_iff, List.mem_cons, Prod.mk.injEq]
    unfold Map.set
    by_cases hk : k' = k
    · subst hk
      rw [if_pos rfl]
      constructor
      · rintro (⟨_, rfl⟩ | h)
        · rfl
        · exact absurd h (u d')
      · intro h; cases h; exact .inl ⟨rfl, rfl⟩
    · rw [if_neg hk, ← hm.bindings]
      constructor
      · rintro (⟨h, _⟩ | h)
        · exact absurd h hk
        · exact h
      · exact .inr
  · refine ⟨⟨fun h => (by rw [c] at h; cases h), fun h => absurd h.1 (hb'.mp u)⟩, ⟨fun _ => ⟨hb'.mp u, f⟩, fun _ => c⟩,
      fun h => (by rw [c] at h; cases h), fun _ => same p⟩
  · refine ⟨⟨fun h => (by rw [c] at h; cases h), fun h => ?_⟩, ⟨fun h => (by rw [c] at h; cases h), fun h => ?_⟩,
      fun h => (by rw [c] at h; cases h), fun _ => same p⟩
    · rcases u with u | ⟨u, _⟩
      · exact absurd u h.2.2
      · rw [u] at h; cases h.2.1
    · rcases u with u | ⟨_, u⟩
      · exact absurd u h.2
      · exact absurd (hb.mp u) h.1

/-- C24 (remove): removal of a bound key succeeds, hands over the binding and unbinds exactly that key; removal of an unbound
key answers "no entry" and leaves the table as it is. -/
theorem C24_remove (ok : OpsOk o) {size : Nat} (hp : 0 < size) (h2 : size < 2 ^ 32) (ops : List (Op κ δ)) (m : Map κ δ)
    (hm : Represents (run o size ops) m) (k : κ) :
    (∀ d, m k = some d → (remove o k (run o size ops)).2 = (.ok, some (k, d))) ∧
    (m k = none → remove o k (run o size ops) = (run o size ops, .noent, none)) ∧
    Represents (remove o k (run o size ops)).1 (m.set k none) := by
  have hi := inv_run ok hp h2 ops
  generalize run o size ops = h at hm hi
  obtain ⟨iv, hc⟩ := remove_spec ok k hi
  rcases hc with ⟨d, c, p⟩ | ⟨c, e, u⟩
  · have hk : m k = some d := (hm.bindings k d).mp (p.mem_iff.mpr (by simp))
    refine ⟨fun d' h => ?_, fun h => ?_, ?_⟩
    · rw [hk] at h; cases h; exact c
    · rw [hk] at h; cases h
    · refine ⟨fun k' d' => ?_, nodes_nodup ok iv, iv.count⟩
      have hn := (p.map (·.1)).nodup_iff.mp hm.once
      rw [List.map_cons, List.nodup_cons] at hn
      have hmem : (k', d') ∈ nodes h ↔ (k', d') ∈ (k, d) :: nodes (remove o k h).1 := p.mem_iff
      rw [hm.bindings, List.mem_cons, Prod.mk.injEq] at hmem
      unfold Map.set
      by_cases hkk : k' = k
      · subst hkk
        rw [if_pos rfl]
        simp only [reduceCtorEq, iff_false]
        exact fun h => hn.1 (List.mem_map.mpr ⟨_, h, rfl⟩)
      · rw [if_neg hkk, hmem]
        constructor
        · exact .inr
        · rintro (⟨h, _⟩ | h)
          · exact absurd h hkk
          · exact h
  · have hk : m k = none := by
      cases hk : m k with
      | none => rfl
      | some d => exact absurd ((hm.bindings k d).mpr hk) (u d)
    refine ⟨fun d h => (by rw [hk] at h; cases h), fun _ => Prod.ext e c, ?_⟩
    rw [e]
    have : m.set k none = m := by
      funext k'
      unfold Map.set
      split
      · rename_i h; rw [h, hk]
      · rfl
    rw [this]; exact hm

/-- The state after `apply` has run over a list, ignoring its result. -/
def visitAll {σ : Type} (apply : κ → δ → σ → Int × σ) (l : List (κ × δ)) (s : σ) : σ := l.foldl (fun s x => (apply x.1 x.2 s).2) s

/-- C24 (map): `apply` is called on every binding exactly once, in one order; or it is called up to and including the first
binding on which it returns non-zero, and that value is returned. -/
theorem C24_map (ok : OpsOk o) {size : Nat} (hp : 0 < size) (h2 : size < 2 ^ 32) (ops : List (Op κ δ)) (m : Map κ δ)
    (hm : Represents (run o size ops) m) {σ : Type} (apply : κ → δ → σ → Int × σ) (s : σ) :
    ∃ l : List (κ × δ), (∀ k d, (k, d) ∈ l ↔ m k = some d) ∧ (l.map (·.1)).Nodup ∧
      ∃ pre post, l = pre ++ post ∧
        (hmap apply (run o size ops) s).2 = visitAll apply pre s ∧
        ((hmap apply (run o size ops) s).1 = 0 → post = []) ∧
        ((hmap apply (run o size ops) s).1 ≠ 0 → ∃ pre' x, pre = pre' ++ [x] ∧
          (apply x.1 x.2 (visitAll apply pre' s)).1 = (hmap apply (run o size ops) s).1) := by
  have hi := inv_run ok hp h2 ops
  generalize run o size ops = h at hm hi
  refine ⟨nodes h, hm.bindings, hm.once, ?_⟩
  unfold hmap
  generalize nodes h = l
  induction l generalizing s with
  | nil => exact ⟨[], [], rfl, rfl, fun _ => rfl, fun h => absurd rfl h⟩
  | cons x l ih =>
    by_cases hr : (apply x.1 x.2 s).1 ≠ 0
    · have he : mapNodes apply (x :: l) s = apply x.1 x.2 s := by
        show (if (apply x.1 x.2 s).1 ≠ 0 then _ else _) = _
        rw [if_pos hr]
      rw [he]
      exact ⟨[x], l, rfl, rfl, fun h => absurd h hr, fun _ => ⟨[], x, rfl, rfl⟩⟩
    · have he : mapNodes apply (x :: l) s = mapNodes apply l (apply x.1 x.2 s).2 := by
        show (if (apply x.1 x.2 s).1 ≠ 0 then _ else _) = _
        rw [if_neg hr]
      rw [he]
      obtain ⟨pre, post, h1, h2, h3, h4⟩ := ih (apply x.1 x.2 s).2
      refine ⟨x :: pre, post, by rw [h1]; rfl, h2, h3, fun h => ?_⟩
      obtain ⟨pre', y, h5, h6⟩ := h4 h
      exact ⟨x :: pre', y, by rw [h5]; rfl, h6⟩

theorem growSize_exit (nel : Nat) : ∀ fuel size, fuel ≤ 32 → 2 ^ (32 - fuel) ∣ size → 0 < size → size < 2 ^ 32 →
    ¬ (growSize nel fuel size ≤ nel ∧ growSize nel fuel size * 2 % 2 ^ 32 ≠ 0) := by
  intro fuel
  induction fuel with
  | zero =>
    intro size _ hd h1 h2
    have := Nat.le_of_dvd h1 hd
    omega
  | succ fuel ih =>
    intro size hf hd h1 h2
    unfold growSize
    split
    · rename_i h
      refine ih _ (by omega) ?_ (Nat.pos_of_ne_zero h.2) (Nat.mod_lt _ (by decide))
      obtain ⟨c, rfl⟩ := hd
      have e : 2 ^ (32 - (fuel + 1)) * c * 2 = 2 ^ (32 - fuel) * c := by
        have : 32 - fuel = (32 - (fuel + 1)) + 1 := by omega
        rw [this, Nat.pow_succ, Nat.mul_assoc, Nat.mul_assoc, Nat.mul_comm c 2]
      rw [e]
      refine (Nat.dvd_mod_iff ?_).mpr (Nat.dvd_mul_right _ _)
      exact Nat.pow_dvd_pow 2 (by omega)
    · assumption

/-- C24 (load): when the memory for it is available, a table in which something was inserted has at least as many slots as
entries, unless it has 2^31 slots or more. -/
theorem C24_load (ok : OpsOk o) {size : Nat} (hp : 0 < size) (h2 : size < 2 ^ 32) (ops : List (Op κ δ)) (ok2 : Bool) (k : κ) (d : δ)
    (hr : (insert o true ok2 k d (run o size ops)).2 = .ok) :
    (insert o true ok2 k d (run o size ops)).1.nel ≤ (insert o true ok2 k d (run o size ops)).1.size ∨
      2 ^ 31 ≤ (insert o true ok2 k d (run o size ops)).1.size := by
  have hi := inv_run ok hp h2 ops
  generalize run o size ops = h at hi hr ⊢
  have hg : (checkResize o true h).size = growSize h.nel 32 h.size := by
    unfold checkResize
    dsimp only
    split
    · assumption
    · rfl
  have hn := (checkResize_spec ok true hi).2.2
  have ci := (checkResize_spec ok true hi).1
  have hx := growSize_exit h.nel 32 h.size (Nat.le_refl _) (by simp) hi.pos hi.small
  have hlt := (growSize_spec h.nel 32 h.size hi.pos hi.small).2
  rw [← hg] at hx hlt
  unfold insert at hr ⊢
  split at hr
  · cases hr
  · rename_i hf
    rw [if_neg hf]
    dsimp only at hr ⊢
    generalize checkResize o true h = g at hr hn hx hlt ci ⊢
    cases hc : insertChain o (k, d) (g.htable (o.hash g.size k)) with
    | none => rw [hc] at hr; cases hr
    | some l =>
      rw [hc] at hr
      dsimp only at hr ⊢
      split at hr
      · cases hr
      · rename_i h2
        rw [if_neg h2]
        show g.nel + 1 ≤ g.size ∨ 2 ^ 31 ≤ g.size
        rcases Nat.lt_or_ge h.nel g.size with hlt | hge
        · omega
        · have : g.size * 2 % 2 ^ 32 = 0 := Classical.not_not.mp fun hne => hx ⟨hge, hne⟩
          have := ci.pos
          omega

/-! ## The tables of the library -/

theorem spaceship_zero (a b : Nat) : spaceship a b = 0 ↔ a = b := by
  unfold spaceship; repeat' split
  all_goals constructor <;> intro h <;> omega
theorem spaceship_swap (a b : Nat) : spaceship a b > 0 ↔ spaceship b a < 0 := by
  unfold spaceship; repeat' split
  all_goals omega
theorem spaceship_neg (a b : Nat) : spaceship a b < 0 ↔ a < b := by
  unfold spaceship; repeat' split
  all_goals constructor <;> intro h <;> omega

theorem strcmp_zero : ∀ a b, strcmp a b = 0 ↔ a = b
  | [], [] => by simp [strcmp]
  | [], _ :: _ => by simp [strcmp]
  | _ :: _, [] => by simp [strcmp]
  | a :: s, b :: t => by
    unfold strcmp
    rw [List.cons.injEq, BitVec.toNat_inj.symm]
    split
    · constructor
      · intro h; cases h
      · intro h; omega
    · split
      · constructor
        · intro h; cases h
        · intro h; omega
      · rw [strcmp_zero s t]
        constructor
        · intro h; exact ⟨by omega, h⟩
        · exact fun h => h.2

theorem strcmp_swap : ∀ a b, strcmp a b > 0 ↔ strcmp b a < 0
  | [], [] => by simp [strcmp]
  | [], _ :: _ => by simp [strcmp]
  | _ :: _, [] => by simp [strcmp]
  | a :: s, b :: t => by
    unfold strcmp
    by_cases h1 : a.toNat < b.toNat
    · rw [if_pos h1, if_neg (by omega), if_pos h1]; simp
    · rw [if_neg h1]
      by_cases h2 : b.toNat < a.toNat
      · rw [if_pos h2, if_pos h2]; simp
      · rw [if_neg h2, if_neg h2, if_neg h1]
        exact strcmp_swap s t

theorem strcmp_trans : ∀ a b c, strcmp a b < 0 → strcmp b c < 0 → strcmp a c < 0
  | [], [], _ => fun h => by simp [strcmp] at h
  | [], _ :: _, [] => fun _ h => by simp [strcmp] at h
  | [], _ :: _, _ :: _ => fun _ _ => by simp [strcmp]
  | _ :: _, [], _ => fun h => by simp [strcmp] at h
  | _ :: _, _ :: _, [] => fun _ h => by simp [strcmp] at h
  | a :: s, b :: t, c :: u => fun h1 h2 => by
    unfold strcmp at *
    by_cases ab : a.toNat < b.toNat
    · by_cases bc : b.toNat < c.toNat
      · rw [if_pos (by omega)]; decide
      · rw [if_neg bc] at h2
        by_cases cb : c.toNat < b.toNat
        · rw [if_pos cb] at h2; omega
        · rw [if_pos (by omega)]; decide
    · rw [if_neg ab] at h1
      by_cases ba : b.toNat < a.toNat
      · rw [if_pos ba] at h1; omega
      · rw [if_neg ba] at h1
        by_cases bc : b.toNat < c.toNat
        · rw [if_pos (by omega)]; decide
        · rw [if_neg bc] at h2
          by_cases cb : c.toNat < b.toNat
          · rw [if_pos cb] at h2; omega
          · rw [if_neg cb] at h2
            rw [if_neg (by omega), if_neg (by omega)]
            exact strcmp_trans s t u h1 h2

theorem mask_lt (x : BitVec 32) {size : Nat} (hp : 0 < size) (h2 : size < 2 ^ 32) :
    (x &&& (BitVec.ofNat 32 size - 1#32)).toNat < size := by
  have hm : (BitVec.ofNat 32 size - 1#32).toNat = size - 1 := by
    rw [BitVec.toNat_sub, BitVec.toNat_ofNat]
    show (2 ^ 32 - 1 + size % 2 ^ 32) % 2 ^ 32 = _
    rw [Nat.mod_eq_of_lt h2]
    omega
  rw [BitVec.toNat_and, hm]
  have := @Nat.and_le_right x.toNat (size - 1)
  omega

theorem mask_lt64 (x : BitVec 64) {size : Nat} (hp : 0 < size) (h2 : size < 2 ^ 32) :
    (x &&& (BitVec.ofNat 32 size - 1#32).setWidth 64).toNat < size := by
  have hm : ((BitVec.ofNat 32 size - 1#32).setWidth 64).toNat = size - 1 := by
    rw [BitVec.toNat_setWidth, BitVec.toNat_sub, BitVec.toNat_ofNat]
    show ((2 ^ 32 - 1 + size % 2 ^ 32) % 2 ^ 32) % 2 ^ 64 = _
    rw [Nat.mod_eq_of_lt h2]
    omega
  rw [BitVec.toNat_and, hm]
  have := @Nat.and_le_right x.toNat (size - 1)
  omega

/-- C24 (symbol tables): the identifier tables meet the requirements. -/
theorem C24_symtab : OpsOk symOps where
  slot := fun _ _ hp h2 => mask_lt _ hp h2
  zero := strcmp_zero
  swap := strcmp_swap
  trans := strcmp_trans

/-- Lexicographic combination, as the comparison functions write it. -/
theorem lex_ok {α β : Type} (f : κ → α) (g : κ → β) (c1 : α → α → Int) (c2 : β → β → Int)
    (z1 : ∀ a b, c1 a b = 0 ↔ a = b) (s1 : ∀ a b, c1 a b > 0 ↔ c1 b a < 0) (t1 : ∀ a b c, c1 a b < 0 → c1 b c < 0 → c1 a c < 0)
    (z2 : ∀ a b, c2 a b = 0 ↔ a = b) (s2 : ∀ a b, c2 a b > 0 ↔ c2 b a < 0) (t2 : ∀ a b c, c2 a b < 0 → c2 b c < 0 → c2 a c < 0)
    (inj : ∀ a b, f a = f b → g a = g b → a = b) :
    (∀ a b, (if c1 (f a) (f b) ≠ 0 then c1 (f a) (f b) else c2 (g a) (g b)) = 0 ↔ a = b) ∧
    (∀ a b, (if c1 (f a) (f b) ≠ 0 then c1 (f a) (f b) else c2 (g a) (g b)) > 0 ↔
      (if c1 (f b) (f a) ≠ 0 then c1 (f b) (f a) else c2 (g b) (g a)) < 0) ∧
    (∀ a b c, (if c1 (f a) (f b) ≠ 0 then c1 (f a) (f b) else c2 (g a) (g b)) < 0 →
      (if c1 (f b) (f c) ≠ 0 then c1 (f b) (f c) else c2 (g b) (g c)) < 0 →
      (if c1 (f a) (f c) ≠ 0 then c1 (f a) (f c) else c2 (g a) (g c)) < 0) := by
  refine ⟨fun a b => ?_, fun a b => ?_, fun a b c => ?_⟩
  · by_cases h : c1 (f a) (f b) ≠ 0
    · rw [if_pos h]
      exact ⟨fun h' => absurd h' h, fun h' => absurd ((z1 _ _).mpr (by rw [h'])) h⟩
    · rw [if_neg h, z2]
      exact ⟨fun h' => inj _ _ ((z1 _ _).mp (Classical.not_not.mp h)) h', fun h' => by rw [h']⟩
  · by_cases h : c1 (f a) (f b) ≠ 0
    · have h' : c1 (f b) (f a) ≠ 0 := fun e => h ((z1 _ _).mpr ((z1 _ _).mp e).symm)
      rw [if_pos h, if_pos h']; exact s1 _ _
    · have h' : ¬ c1 (f b) (f a) ≠ 0 := fun e => e ((z1 _ _).mpr ((z1 _ _).mp (Classical.not_not.mp h)).symm)
      rw [if_neg h, if_neg h']; exact s2 _ _
  · intro hab hbc
    by_cases h1 : c1 (f a) (f b) ≠ 0
    · rw [if_pos h1] at hab
      by_cases h2 : c1 (f b) (f c) ≠ 0
      · rw [if_pos h2] at hbc
        have := t1 _ _ _ hab hbc
        rw [if_pos (by omega)]; exact this
      · rw [(z1 _ _).mp (Classical.not_not.mp h2)] at hab h1
        rw [if_pos h1]; exact hab
    · rw [if_neg h1] at hab
      have e := (z1 _ _).mp (Classical.not_not.mp h1)
      rw [← e] at hbc
      by_cases h2 : c1 (f a) (f c) ≠ 0
      · rw [if_pos h2] at hbc ⊢; exact hbc
      · rw [if_neg h2] at hbc ⊢; exact t2 _ _ _ hab hbc

/-- Comparison of two numbers. -/
def cmp32 (a b : BitVec 32) : Int := spaceship a.toNat b.toNat

theorem cmp32_zero (a b : BitVec 32) : cmp32 a b = 0 ↔ a = b := by unfold cmp32; rw [spaceship_zero, BitVec.toNat_inj]
theorem cmp32_swap (a b : BitVec 32) : cmp32 a b > 0 ↔ cmp32 b a < 0 := spaceship_swap _ _
theorem cmp32_trans (a b c : BitVec 32) : cmp32 a b < 0 → cmp32 b c < 0 → cmp32 a c < 0 := by
  unfold cmp32; simp only [spaceship_neg]; omega

/-- C24 (range transitions): the table of range transition rules meets the requirements. -/
theorem C24_range_tr : OpsOk rangetrOps := by
  obtain ⟨z2, s2, t2⟩ := lex_ok (fun k : BitVec 32 × BitVec 32 => k.1) (fun k => k.2) cmp32 cmp32 cmp32_zero cmp32_swap cmp32_trans cmp32_zero cmp32_swap cmp32_trans
    (fun a b h1 h2 => Prod.ext h1 h2)
  obtain ⟨z, s, t⟩ := lex_ok (fun k : RangeTrans => k.source) (fun k : RangeTrans => (k.target, k.cls)) cmp32
    (fun a b : BitVec 32 × BitVec 32 => if cmp32 a.1 b.1 ≠ 0 then cmp32 a.1 b.1 else cmp32 a.2 b.2)
    cmp32_zero cmp32_swap cmp32_trans z2 s2 t2 (fun a b h1 h2 => by cases a; cases b; cases h1; cases h2; rfl)
  exact ⟨fun _ _ hp h2 => mask_lt _ hp h2, z, s, t⟩

/-- C24 (name transitions): the table of name-based transition rules meets the requirements. -/
theorem C24_filename_trans : OpsOk filenametrOps := by
  obtain ⟨z2, s2, t2⟩ := lex_ok (fun k : BitVec 32 × List (BitVec 8) => k.1) (fun k => k.2) cmp32 strcmp cmp32_zero cmp32_swap cmp32_trans
    strcmp_zero strcmp_swap strcmp_trans (fun a b h1 h2 => Prod.ext h1 h2)
  obtain ⟨z, s, t⟩ := lex_ok (fun k : FilenameKey => k.ttype) (fun k : FilenameKey => (k.tclass, k.name)) cmp32
    (fun a b : BitVec 32 × List (BitVec 8) => if cmp32 a.1 b.1 ≠ 0 then cmp32 a.1 b.1 else strcmp a.2 b.2)
    cmp32_zero cmp32_swap cmp32_trans z2 s2 t2 (fun a b h1 h2 => by cases a; cases b; cases h1; cases h2; rfl)
  exact ⟨fun _ _ hp h2 => mask_lt64 _ hp h2, z, s, t⟩

/-- Not vacuous: a symbol table of two slots into which five names go (one allocation of a bigger table fails, one name is there
already, one is taken out again) ends with four slots and three entries. -/
def exOps : List (Op (List (BitVec 8)) Nat) :=
  [.insert true true [97#8] 1, .insert true true [98#8] 2, .insert false true [99#8] 3, .insert true true [98#8] 9,
   .insert true true [97#8, 98#8] 4, .remove [97#8]]

example : (run symOps 2 exOps).size = 4 ∧ (run symOps 2 exOps).nel = 3 ∧ search symOps (run symOps 2 exOps) [98#8] = some 2 ∧
    search symOps (run symOps 2 exOps) [97#8] = none ∧ search symOps (run symOps 2 exOps) [97#8, 98#8] = some 4 ∧
    (nodes (run symOps 2 exOps)).map (·.2) = [4, 3, 2] := by decide +kernel

example : (insert symOps true true [100#8] 5 (run symOps 2 exOps)).2 = .ok ∧
    (insert symOps true true [99#8] 5 (run symOps 2 exOps)).2 = .exist ∧
    (insert symOps true false [100#8] 5 (run symOps 2 exOps)).2 = .nomem ∧
    (remove symOps [99#8] (run symOps 2 exOps)).2 = (.ok, some ([99#8], 3)) ∧
    (remove symOps [97#8] (run symOps 2 exOps)).2 = (.noent, none) := by decide +kernel

/-- A visit that stops at the value 3. -/
example : hmap (fun _ d (s : List Nat) => (if d = 3 then 7 else 0, s ++ [d])) (run symOps 2 exOps) [] = (7, [4, 3]) := by decide +kernel

end Verif.Hashtab
