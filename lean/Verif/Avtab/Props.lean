import Verif.Avtab.Lemmas2

/-!
# C06, C07, C40, C41: access vector tables

`run nrules ops` is the table after `avtab_alloc(nrules)` and the updates `ops`;
`logOf ops` is the list of rules a client would expect to be stored (Spec.lean).
-/

namespace Verif.Avtab

/-- C06 (return code).  In every reachable table, `avtab_insert` refuses (EEXIST,
table unchanged) exactly the rules without extended permissions for which a
stored rule with the same source, target and class has a kind in common; every
other insertion succeeds. -/
theorem C06_insert (nrules : Nat) (hn : nrules ≠ 0) (ops : List Op) (k : Key) (d : Datum) :
    ((isXperm k = false ∧ ∃ r ∈ logOf ops, Answers k r) →
        insert (run nrules ops) k d = (run nrules ops, .eexist)) ∧
    (¬ (isXperm k = false ∧ ∃ r ∈ logOf ops, Answers k r) →
        (insert (run nrules ops) k d).2 = .ok) := by
  have h := (insert_cases (rel_run nrules hn ops) k d).1
  constructor
  · intro hc; rwa [if_pos hc] at h
  · intro hc; rwa [if_neg hc] at h

/-- C06 (search).  After any history, `avtab_search` finds nothing exactly when no
stored rule answers the key, and otherwise returns the datum of one that does. -/
theorem C06_search (nrules : Nat) (hn : nrules ≠ 0) (ops : List Op) (k : Key) :
    (search (run nrules ops) k = none ↔ ∀ r ∈ logOf ops, ¬ Answers k r) ∧
    (∀ d, search (run nrules ops) k = some d → ∃ r ∈ logOf ops, Answers k r ∧ r.datum = d) := by
  have hr := rel_run nrules hn ops
  obtain ⟨tb, htb, hs, hp⟩ := hr.tb
  have hsf : search (run nrules ops) k =
      ((tb (hash k (run nrules ops).mask)).find? (fun n => hits k n.key)).map Node.datum := by
    unfold search; simp only [htb]; exact search_find k _ (hs _)
  have hmem := fun P hP => mem_bucket (log := logOf ops) (h := run nrules ops) k hp P hP
  constructor
  · rw [hsf, Option.map_eq_none_iff, List.find?_eq_none]
    have := hmem (fun c => hits k c.key = true) (fun _ h => h)
    simp only [hits_iff] at this
    constructor
    · intro h r hr ha
      obtain ⟨n, hn, ha'⟩ := this.2 ⟨r, hr, ha⟩
      exact h n hn ((hits_iff k n).2 ha')
    · intro h n hn ha
      obtain ⟨r, hr, ha'⟩ := this.1 ⟨n, hn, (hits_iff k n).1 ha⟩
      exact h r hr ha'
  · intro d hd
    rw [hsf, Option.map_eq_some_iff] at hd
    obtain ⟨n, hf, rfl⟩ := hd
    have h1 := List.find?_some hf
    have h2 := List.mem_of_find?_eq_some hf
    have := (hmem (fun c => c = n) (by rintro _ rfl; exact h1)).1 ⟨n, h2, rfl⟩
    obtain ⟨r, hr, rfl⟩ := this
    exact ⟨r, hr, (hits_iff k r).1 h1, rfl⟩

open Classical in
/-- C06 (which rule).  If all rules and the query have a single kind, the datum
returned is that of the most recently accepted answering rule (the log is most
recent first). -/
theorem C06_search_latest (nrules : Nat) (hn : nrules ≠ 0) (ops : List Op)
    (hk : ∀ op ∈ ops, SingleKind op.key.specified) (k : Key) (hq : SingleKind k.specified) :
    search (run nrules ops) k = ((logOf ops).find? (fun r => Answers k r)).map Node.datum := by
  obtain ⟨tb, htb, hl⟩ := latest_run nrules hn ops hk
  obtain ⟨tb', htb', hs, _⟩ := (rel_run nrules hn ops).tb
  rw [htb] at htb'
  obtain rfl : tb = tb' := by simpa using htb'
  have hsf : search (run nrules ops) k =
      ((tb (hash k (run nrules ops).mask)).find? (fun n => hits k n.key)).map Node.datum := by
    unfold search; simp only [htb]; exact search_find k _ (hs _)
  rw [hsf, hl k hq]
  congr 2
  funext r
  by_cases h : hits k r.key = true
  · simp [h, (hits_iff k r).1 h]
  · have : ¬ Answers k r := fun hc => h ((hits_iff k r).2 hc)
    simp [h, this]

/-- C06 (uniqueness).  If every update is `avtab_insert`, no two accepted rules
without extended permissions have the same source, target, class and a common
kind: the table is a map, so "the" stored datum is well defined. -/
theorem C06_unique (ops : List (Key × Datum)) (hk : ∀ q ∈ ops, SingleKind q.1.specified) :
    (logOf (ops.map (fun q => .insert q.1 q.2))).Pairwise
      (fun a b => isXperm a.key = false → ¬ Answers a.key b) := by
  suffices h : ∀ log : List Node, Unique log →
      Unique ((ops.map (fun q => Op.insert q.1 q.2)).foldl logStep log) from h [] List.Pairwise.nil
  clear hk
  induction ops with
  | nil => intro log h; exact h
  | cons q ops ih =>
    intro log hu
    simp only [List.map_cons, List.foldl_cons]
    apply ih
    dsimp only [logStep]
    split
    · exact hu
    · rename_i hc
      refine List.pairwise_cons.2 ⟨?_, hu⟩
      intro r hr hx ha
      exact hc ⟨hx, r, hr, ha⟩

/-- C06 (unallocated table).  With no buckets allocated (`avtab_alloc(0)` after
`avtab_init`) every insertion is refused and every search finds nothing. -/
theorem C06_unallocated (k : Key) (d : Datum) :
    insert (alloc init 0) k d = (alloc init 0, .enomem) ∧
    insertNonunique (alloc init 0) k d = none ∧ search (alloc init 0) k = none :=
  ⟨rfl, rfl, rfl⟩

open Classical in
/-- C07.  `avtab_search_node` followed by `avtab_search_node_next` enumerates exactly
the stored rules that answer the key, each as often as it is stored. -/
theorem C07_enumerate (nrules : Nat) (hn : nrules ≠ 0) (ops : List Op) (k : Key) :
    (enumerate (run nrules ops) k).Perm ((logOf ops).filter (fun r => Answers k r)) :=
  enumerate_of_rel (rel_run nrules hn ops) k

/-- C07 (whole table).  `avtab_map` with a callback that returns 0 hands it every
stored rule exactly once, and the element count is the number of stored rules. -/
theorem C07_map (nrules : Nat) (hn : nrules ≠ 0) (ops : List Op) :
    (∃ visited, map (run nrules ops) (fun n acc => (0, acc ++ [n])) [] = (0, visited) ∧
      visited.Perm (logOf ops)) ∧
    (run nrules ops).nel = (logOf ops).length := by
  have hr := rel_run nrules hn ops
  refine ⟨⟨nodes (run nrules ops), ?_, nodes_perm hr⟩, hr.nel⟩
  have : ∀ (l acc : List Node), mapNodes (fun n (acc : List Node) => ((0 : Int), acc ++ [n])) l acc
      = (0, acc ++ l) := by
    intro l
    induction l with
    | nil => intro acc; simp [mapNodes]
    | cons n l ih => intro acc; simp [mapNodes, ih]
  simpa [map] using this (nodes (run nrules ops)) []

/-- The log of storable rules that are inserted. -/
theorem log_storable (vers : Nat) (rules : List (Key × Datum)) (hs : ∀ q ∈ rules, Storable ⟨q.1, q.2⟩)
    (hv : ∀ q ∈ rules, isXperm q.1 = true → 30 ≤ vers) : ∀ (log : List Node), (∀ n ∈ log, Storable n ∧ (isXperm n.key = true → 30 ≤ vers)) →
    (∀ n ∈ (rules.map (fun q => Op.insert q.1 q.2)).foldl logStep log, Storable n ∧ (isXperm n.key = true → 30 ≤ vers)) ∧
    ((rules.map (fun q => Op.insert q.1 q.2)).foldl logStep log).length ≤ log.length + rules.length ∧
    (log ≠ [] ∨ rules ≠ [] → (rules.map (fun q => Op.insert q.1 q.2)).foldl logStep log ≠ []) := by
  induction rules with
  | nil => intro log hl; exact ⟨hl, by simp, by simp⟩
  | cons q rules ih =>
    intro log hl
    have ih' := ih (fun q hq => hs q (by simp [hq])) (fun q hq => hv q (by simp [hq])) (logStep log (.insert q.1 q.2))
    have hq := hs q (by simp)
    have hstep : (∀ n ∈ logStep log (.insert q.1 q.2), Storable n ∧ (isXperm n.key = true → 30 ≤ vers)) ∧
        (logStep log (.insert q.1 q.2)).length ≤ log.length + 1 ∧
        logStep log (.insert q.1 q.2) ≠ [] := by
      dsimp only [logStep]
      split
      · rename_i hc
        refine ⟨hl, by omega, ?_⟩
        obtain ⟨_, r, hr, _⟩ := hc
        intro h; rw [h] at hr; simp at hr
      · refine ⟨?_, by simp, by simp⟩
        intro n hn
        rcases List.mem_cons.1 hn with rfl | hn
        · have : stored q.1 q.2 = ⟨q.1, q.2⟩ := by
            unfold stored
            by_cases hx : isXperm q.1 = true
            · obtain ⟨x, h1, _⟩ := hq.perms hx
              cases hqq : q.2
              rw [hqq] at h1
              simp only at h1
              subst h1
              simp [hx]
            · simp [hx]
          rw [this]; exact ⟨hq, hv q (by simp)⟩
        · exact hl n hn
    obtain ⟨a, b, c⟩ := ih' hstep.1
    refine ⟨a, ?_, fun _ => c (Or.inl hstep.2.2)⟩
    simp only [List.map_cons, List.foldl_cons, List.length_cons]
    omega

/-- C40.  Write then read (policy version ≥ 20; extended permissions need version 30): for every table built from storable
rules by `avtab_insert`, `avtab_write` succeeds, and `avtab_read` of the bytes
succeeds, consumes exactly them, and yields a table holding the same rules
(the data word of extended permission rules is not stored): the element count and
the enumeration for every key agree. -/
theorem C40_write_read (vers : Nat) (nrules : Nat) (hn : nrules ≠ 0)
    (rules : List (Key × Datum)) (hs : ∀ q ∈ rules, Storable ⟨q.1, q.2⟩)
    (hv : ∀ q ∈ rules, isXperm q.1 = true → 30 ≤ vers)
    (hne : rules ≠ []) (hsz : rules.length < 2 ^ 32 - 1) :
    ∃ b, write vers (run nrules (rules.map (fun q => .insert q.1 q.2))) = some b ∧
      ∀ rest, ∃ h', read vers (b ++ rest) = some (h', rest) ∧
        h'.nel = (run nrules (rules.map (fun q => .insert q.1 q.2))).nel ∧
        (nodes h').Perm ((nodes (run nrules (rules.map (fun q => .insert q.1 q.2)))).map onDisk) ∧
        ∀ k, (enumerate h' k).Perm
          ((enumerate (run nrules (rules.map (fun q => .insert q.1 q.2))) k).map onDisk) := by
  have hr := rel_run nrules hn (rules.map (fun q => Op.insert q.1 q.2))
  have hu := C06_unique rules (fun q hq => singleKind_of_popcount (hs q hq).single)
  obtain ⟨h1, h2, h3⟩ := log_storable vers rules hs hv [] (by simp)
  have h4 := h3 (Or.inr hne)
  obtain ⟨b, h', hb, hrd, log', hp', hr'⟩ := write_read vers _ _ hr h1 hu h4 (by
    have : (logOf (rules.map (fun q => Op.insert q.1 q.2))).length ≤ 0 + rules.length := h2
    omega)
  refine ⟨b, hb, ?_⟩
  intro rest
  have hnp := (nodes_perm hr').trans (hp'.trans ((nodes_perm hr).symm.map onDisk))
  refine ⟨h', hrd rest, ?_, hnp, ?_⟩
  · rw [hr'.nel, hr.nel, hp'.length_eq, List.length_map]
  · intro k
    classical
    have e1 := enumerate_of_rel hr' k
    have e2 := enumerate_of_rel hr k
    refine e1.trans (((hp'.filter _).trans ?_).trans (e2.map onDisk).symm)
    rw [List.filter_map]
    apply List.Perm.of_eq
    congr 1
    apply List.filter_congr
    intro n _
    simp only [Function.comp, answers_onDisk]

/-- C41.  Reading arbitrary bytes: if `avtab_read` accepts, the table is exactly the
result of successfully inserting as many storable rules as announced in the
header, one by one; so every other theorem applies to it, and it never holds two
non-xperm rules for one key and kind. -/
theorem C41_read_sound (vers : Nat) (bs : Bytes) (h : Avtab) (rest : Bytes)
    (hr : read vers bs = some (h, rest)) :
    ∃ rules : List (Key × Datum), rules ≠ [] ∧ (∀ q ∈ rules, Storable ⟨q.1, q.2⟩) ∧
      h = run rules.length (rules.map (fun q => .insert q.1 q.2)) ∧
      (logOf (rules.map (fun q => .insert q.1 q.2))).length = rules.length ∧
      h.nel = rules.length := by
  unfold read at hr
  split at hr
  · cases hr
  · split at hr
    · cases hr
    · rename_i nel bs1 _ hc
      obtain ⟨rules, h1, h2, h3, h4⟩ := readLoop_run vers _ _ _ _ _ hr
      have hne : nel ≠ 0 := by omega
      have hrun : h = run rules.length (rules.map (fun q => .insert q.1 q.2)) := by
        rw [h3, run, h1]
      have hnel : h.nel = rules.length := by
        rw [h4, h1]
        simp [alloc, hne]
      refine ⟨rules, ?_, h2, hrun, ?_, hnel⟩
      · intro hc; simp [hc] at h1; omega
      · have := (rel_run rules.length (by omega) (rules.map (fun q => Op.insert q.1 q.2))).nel
        rw [← this, ← hrun, hnel]

/-! ### Concrete instances -/

private def kA : Key := ⟨3, 7, 2, ALLOWED⟩
private def kT : Key := ⟨3, 7, 2, TRANSITION⟩
private def kX : Key := ⟨3, 7, 2, XPERMS_ALLOWED⟩
private def x1 : Datum := ⟨0#32, some ⟨1#8, 5#8, List.replicate 8 1#32⟩⟩
private def x2 : Datum := ⟨0#32, some ⟨1#8, 6#8, List.replicate 8 2#32⟩⟩
private def tbl : Avtab := run 5 [.insert kA ⟨5#32, none⟩, .insert kX x1, .insert kX x2,
  .insert kA ⟨9#32, none⟩, .insertNonunique kT ⟨4#32, none⟩]

/-- Second allow rule refused, searches return what was stored first; both
extended permission rules are enumerated; the enabled flag is ignored. -/
example : search tbl kA = some ⟨5#32, none⟩ ∧ search tbl kT = some ⟨4#32, none⟩ ∧
    search tbl ⟨3, 7, 2, ALLOWED ||| ENABLED⟩ = some ⟨5#32, none⟩ ∧
    search tbl ⟨3, 8, 2, ALLOWED⟩ = none ∧ (enumerate tbl kX).length = 2 ∧ tbl.nel = 4 ∧
    (insert tbl kA ⟨1#32, none⟩).2 = .eexist := by decide +kernel

private theorem sk (i : Nat) (hi : i < 15) (s : BitVec 16)
    (h : ∀ j < 15, s.getLsbD j = decide (j = i)) : SingleKind s :=
  ⟨i, hi, fun j hj => by rw [h j hj]; simp⟩

/-- The single-kind hypotheses hold of ordinary rule kinds. -/
example : SingleKind kA.specified ∧ SingleKind kT.specified ∧ SingleKind kX.specified ∧
    SingleKind (ALLOWED ||| ENABLED) :=
  ⟨sk 0 (by omega) _ (by decide), sk 4 (by omega) _ (by decide), sk 8 (by omega) _ (by decide),
   sk 0 (by omega) _ (by decide)⟩

/-- Storable rules exist, with and without extended permissions. -/
example : Storable ⟨kA, ⟨5#32, none⟩⟩ ∧ Storable ⟨kX, x1⟩ :=
  ⟨⟨by decide, by decide, by decide, by decide, by decide, by decide, by decide⟩,
   ⟨by decide, by decide, by decide, by decide, by decide, fun _ => ⟨_, rfl, rfl⟩, by decide⟩⟩

/-- A concrete table survives the round trip. -/
example : ((write 33 tbl).bind (read 33)).map (fun r => (r.2, r.1.nel, search r.1 kA, (enumerate r.1 kX).length))
    = some ([], 4, some ⟨5#32, none⟩, 2) := by decide +kernel

end Verif.Avtab
