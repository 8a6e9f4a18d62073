import Verif.Link.Lemmas

/-! # Lemmas: the passes over the blocks -/

namespace Verif.Link

def clear (S : Nat → Bool) (id : Nat) : Nat → Bool := fun x => if x = id then false else S x

theorem ids_apart {p : Pol} {bs : List Block} (ok : LinkOk p bs) {i j : Nat} (hij : i ≠ j) {b c : Block} {d e : Decl}
    (hb : bs[i]? = some b) (hc : bs[j]? = some c) (hd : d ∈ b.branches) (he : e ∈ c.branches) : d.id ≠ e.id := by
  have h := ok.ids
  rw [List.Nodup, List.pairwise_flatMap] at h
  have hp := List.pairwise_iff_getElem.1 h.2
  obtain ⟨hi, rfl⟩ := List.getElem?_eq_some_iff.1 hb
  obtain ⟨hj, rfl⟩ := List.getElem?_eq_some_iff.1 hc
  intro e'
  rcases Nat.lt_or_ge i j with hlt | hge
  · exact hp i j hi hj hlt _ (List.mem_map.2 ⟨d, hd, rfl⟩) _ (List.mem_map.2 ⟨e, he, rfl⟩) e'
  · exact hp j i hj hi (by omega) _ (List.mem_map.2 ⟨e, he, rfl⟩) _ (List.mem_map.2 ⟨d, hd, rfl⟩) e'.symm

theorem disable_rendB {S : Nat → Bool} {b : Block} {d : Decl} {ds : List Decl} (h : b.branches = d :: ds) :
    disable (rendB S b) = rendB (clear S d.id) b := by
  simp [disable, rendB, h, clear]

theorem rendB_clear {S : Nat → Bool} {b : Block} {id : Nat} (h : ∀ d ∈ b.branches, d.id ≠ id) :
    rendB (clear S id) b = rendB S b := by
  cases hb : b.branches with
  | nil => simp [rendB, hb]
  | cons d ds =>
    have := h d (by simp [hb])
    simp [rendB, hb, clear, this]

theorem rend_set {p : Pol} {bs : List Block} (ok : LinkOk p bs) (S : Nat → Bool) {i : Nat} {b : Block} {d : Decl}
    {ds : List Decl} (hb : bs[i]? = some b) (hbr : b.branches = d :: ds) :
    (rend bs S).set i (disable (rendB S b)) = rend bs (clear S d.id) := by
  have hi := (List.getElem?_eq_some_iff.1 hb).1
  apply List.ext_getElem?
  intro j
  rw [List.getElem?_set]
  by_cases hij : i = j
  · subst hij
    simp only [rend, List.length_map, hi, if_true, List.getElem?_map, hb, Option.map_some, disable_rendB hbr]
  · rw [if_neg hij]
    simp only [rend, List.getElem?_map]
    cases hc : bs[j]? with
    | none => rfl
    | some c =>
      simp only [Option.map_some]
      rw [rendB_clear]
      intro e he
      exact ids_apart ok (fun h => hij h.symm) hc hb he (by simp [hbr])

theorem printMissing_or (p : Pol) (req : Option Missing) :
    printMissing p req = .error .ub ∨ ∃ r, printMissing p req = .ok r := by
  unfold printMissing
  split
  · left; rfl
  · split
    · split
      · right; exact ⟨_, rfl⟩
      · left; rfl
    · split
      · right; exact ⟨_, rfl⟩
      · left; rfl

/-- A body whose requirement `n` is not available in `S` is in no supported subset. -/
theorem not_supported {p : Pol} {bs : List Block} (ok : LinkOk p bs) {S : Nat → Bool} {d : Decl} {k : Kind} {n : String}
    (hd : Body bs d) (hn : Needs p d k n) (ha : ¬ Avail p bs S k n) {T : Nat → Prop} (hT : Supported p bs T)
    (hTS : ∀ id, T id → S id = true) : ¬ T d.id := by
  intro h
  obtain ⟨d', hd', e, hall⟩ := hT d.id h
  have := body_inj ok hd' hd e
  subst this
  obtain ⟨d'', hb, ht, hdec⟩ := hall k n hn
  exact ha ⟨d'', hb, hTS _ ht, hdec⟩

/-- The outcomes of a pass: it goes on, -/
def PassGoes (p : Pol) (bs : List Block) (i : Nat) (S : Nat → Bool) (ch : Bool) (x : Except Fault PassRes) : Prop :=
  ∃ S' req' ch', x = .ok (.goOn ⟨rend bs S', req', ch'⟩) ∧
    (∀ id, S' id = true → S id = true) ∧
    (∀ T, Supported p bs T → (∀ id, T id → S id = true) → ∀ id, T id → S' id = true) ∧
    (ch' = true ∨ (S' = S ∧ ch = false ∧ ∀ j, i ≤ j → ∀ b d, bs[j]? = some b → b.branches.head? = some d →
      S d.id = true → AllMet p bs S d)) ∧
    (ch' = true → ch = true ∨ ∃ d, Body bs d ∧ S d.id = true ∧ S' d.id = false) ∧
    (∀ d, Mandatory bs d → S d.id = true → S' d.id = true)

/-- it stops with a report, -/
def PassStops (p : Pol) (bs : List Block) (S : Nat → Bool) (x : Except Fault PassRes) : Prop :=
  ∃ r d, x = .ok (.stop .ereq (some r)) ∧ Mandatory bs d ∧
    (∀ T, Supported p bs T → (∀ id, T id → S id = true) → ¬ T d.id) ∧
    ((∃ k nm, r = ⟨k, nm, none⟩ ∧ Needs p d k nm ∧
        ∀ T, Supported p bs T → (∀ id, T id → S id = true) → ¬ ∃ d', Body bs d' ∧ T d'.id ∧ Declares p k nm d'.id) ∨
      ∃ (S' : Nat → Bool) (nm : String), Needs p d .classes nm ∧ (∀ d, Mandatory bs d → S d.id = true → S' d.id = true) ∧
        ¬ Avail p bs S' .classes nm)

/-- or it reads an indeterminate value. -/
def PassFails (p : Pol) (bs : List Block) (S : Nat → Bool) (x : Except Fault PassRes) : Prop :=
  ∃ (d : Decl) (S' : Nat → Bool) (nm : String), x = .error .ub ∧ Mandatory bs d ∧ Needs p d .classes nm ∧
    (∀ d, Mandatory bs d → S d.id = true → S' d.id = true) ∧
    (∀ T, Supported p bs T → (∀ id, T id → S id = true) → ∀ id, T id → S' id = true) ∧
    ¬ Avail p bs S' .classes nm

theorem pass_spec {p : Pol} {bs : List Block} (ok : LinkOk p bs) : ∀ (n i : Nat) (S : Nat → Bool) (req : Option Missing) (ch : Bool),
    i + n = bs.length →
    PassGoes p bs i S ch (pass p n i ⟨rend bs S, req, ch⟩) ∨
    PassStops p bs S (pass p n i ⟨rend bs S, req, ch⟩) ∨
    PassFails p bs S (pass p n i ⟨rend bs S, req, ch⟩) := by
  intro n
  induction n with
  | zero =>
    intro i S req ch hi
    left
    refine ⟨S, req, ch, rfl, fun _ h => h, fun _ _ h => h, ?_, fun h => Or.inl h, fun _ _ h => h⟩
    cases ch with
    | true => left; rfl
    | false =>
      right
      refine ⟨rfl, rfl, ?_⟩
      intro j hj b d hb
      have := (List.getElem?_eq_some_iff.1 hb).1
      omega
  | succ n ih =>
    intro i S req ch hi
    have hlt : i < bs.length := by omega
    have hb : bs[i]? = some bs[i] := List.getElem?_eq_getElem hlt
    have hmem : bs[i] ∈ bs := List.getElem_mem hlt
    generalize bs[i] = b at hb hmem
    have hrb : (rend bs S)[i]? = some (rendB S b) := by simp [rend, hb]
    rw [pass, hrb]
    cases hbr : b.branches with
    | nil => exact absurd hbr (ok.body b hmem)
    | cons d ds =>
      have hbody : Body bs d := ⟨b, hmem, by simp [hbr]⟩
      have hdm := body_mem hbody
      -- the pass from the next block on, seen from this block
      have hnext : ∀ req, AllMet p bs S d ∨ S d.id = false →
          PassGoes p bs i S ch (pass p n (i + 1) ⟨rend bs S, req, ch⟩) ∨
          PassStops p bs S (pass p n (i + 1) ⟨rend bs S, req, ch⟩) ∨
          PassFails p bs S (pass p n (i + 1) ⟨rend bs S, req, ch⟩) := by
        intro req hmet
        rcases ih (i + 1) S req ch (by omega) with ⟨S', req', ch', h1, h2, h3, h4, h5, h6⟩ | h | h
        · left
          refine ⟨S', req', ch', h1, h2, h3, ?_, h5, h6⟩
          rcases h4 with h4 | ⟨a, b', c⟩
          · exact Or.inl h4
          · right
            refine ⟨a, b', ?_⟩
            intro j hj b2 d2 hb2 hd2 hS
            rcases Nat.lt_or_ge i j with hlt | hge
            · exact c j hlt b2 d2 hb2 hd2 hS
            · have : j = i := by omega
              subst this
              rw [hb] at hb2; cases hb2
              simp only [hbr, List.head?_cons, Option.some.injEq] at hd2
              subst hd2
              rcases hmet with hmet | hmet
              · exact hmet
              · rw [hS] at hmet; cases hmet
        · exact Or.inr (Or.inl h)
        · exact Or.inr (Or.inr h)
      cases hS : S d.id with
      | false =>
        have e1 : (rendB S b).enabled = none := by simp [rendB, hbr, hS]
        simp only [e1]
        exact hnext req (Or.inr hS)
      | true =>
        have e1 : (rendB S b).enabled = some 0 := by simp [rendB, hbr, hS]
        have e2 : (rendB S b).branches = { d with enabled := true } :: ds.map fun d => { d with enabled := false } := by
          simp [rendB, hbr, hS]
        have e3 : (rendB S b).optional = b.optional := by simp [rendB, hbr]
        simp only [e1, e2, e3]
        -- what happens if a requirement is not met
        have hfail : ∀ k nm req', Needs p d k nm → ¬ Avail p bs S k nm →
            (k = .classes ∨ ∃ j pm, k ≠ .classes ∧ (p.names k)[j]? = some nm ∧ req' = some ⟨k, j + 1, pm⟩) →
            ∀ x, x = (if b.optional = true then
              pass p n (i + 1) ⟨(rend bs S).set i (disable (rendB S b)), req', true⟩
            else
              match printMissing p req' with
              | .error f => .error f
              | .ok r => .ok (.stop .ereq (some r)) : Except Fault PassRes) →
            PassGoes p bs i S ch x ∨ PassStops p bs S x ∨ PassFails p bs S x := by
          intro k nm req' hneed hav hreq x hx
          subst hx
          cases hopt : b.optional with
          | true =>
            simp only [if_true]
            rw [rend_set ok S hb hbr]
            have hsub : ∀ id, clear S d.id id = true → S id = true := by
              intro id h
              simp only [clear] at h
              split at h
              · cases h
              · exact h
            have hkeep : ∀ T, Supported p bs T → (∀ id, T id → S id = true) → ∀ id, T id → clear S d.id id = true := by
              intro T hT hTS id hid
              simp only [clear]
              split
              · rename_i e
                subst e
                exact absurd hid (not_supported ok hbody hneed hav hT hTS)
              · exact hTS id hid
            have hmand : ∀ d', Mandatory bs d' → S d'.id = true → clear S d.id d'.id = true := by
              rintro d' ⟨b', hb', ho, hd'⟩ h
              simp only [clear]
              split
              · rename_i e
                exfalso
                obtain ⟨j, hj⟩ := List.mem_iff_getElem?.1 hb'
                by_cases hij : i = j
                · subst hij
                  rw [hb] at hj; cases hj
                  rw [hopt] at ho; cases ho
                · exact ids_apart ok (fun h => hij h.symm) hj hb (List.mem_of_mem_head? (by simp [hd'])) (by simp [hbr]) e
              · exact h
            rcases ih (i + 1) (clear S d.id) req' true (by omega) with ⟨S', req'', ch', h1, h2, h3, h4, h5, h6⟩ | h | h
            · left
              refine ⟨S', req'', ch', h1, fun id h => hsub id (h2 id h), ?_, ?_, ?_, ?_⟩
              · intro T hT hTS id hid
                exact h3 T hT (hkeep T hT hTS) id hid
              · rcases h4 with h4 | ⟨_, h, _⟩
                · exact Or.inl h4
                · cases h
              · intro _
                refine Or.inr ⟨d, hbody, hS, ?_⟩
                cases hc : S' d.id with
                | false => rfl
                | true =>
                  have := h2 _ hc
                  simp [clear] at this
              · intro d' hm hS'
                exact h6 d' hm (hmand d' hm hS')
            · right; left
              obtain ⟨r, d', h1, h2, h3, h4⟩ := h
              refine ⟨r, d', h1, h2, fun T hT hTS => h3 T hT (hkeep T hT hTS), ?_⟩
              rcases h4 with ⟨k', nm', a, b', c⟩ | ⟨S', nm', a, b', c⟩
              · exact Or.inl ⟨k', nm', a, b', fun T hT hTS => c T hT (hkeep T hT hTS)⟩
              · exact Or.inr ⟨S', nm', a, fun d' hm h => b' d' hm (hmand d' hm h), c⟩
            · right; right
              obtain ⟨d', S', nm', h1, h2, h3, h4, h5, h6⟩ := h
              exact ⟨d', S', nm', h1, h2, h3, fun d' hm h => h4 d' hm (hmand d' hm h),
                fun T hT hTS => h5 T hT (hkeep T hT hTS), h6⟩
          | false =>
            simp only [Bool.false_eq_true, if_false]
            have hman : Mandatory bs d := ⟨b, hmem, hopt, by simp [hbr]⟩
            rcases hreq with rfl | ⟨j, pm, hk, hj, rfl⟩
            · rcases printMissing_or p req' with e | ⟨r, e⟩
              · right; right
                rw [e]
                exact ⟨d, S, nm, rfl, hman, hneed, fun _ _ h => h, fun _ _ h => h, hav⟩
              · right; left
                rw [e]
                refine ⟨r, d, rfl, hman, fun T hT hTS => not_supported ok hbody hneed hav hT hTS, ?_⟩
                exact Or.inr ⟨S, nm, hneed, fun _ _ h => h, hav⟩
            · right; left
              have e : printMissing p (some ⟨k, j + 1, pm⟩) = .ok ⟨k, nm, none⟩ := by
                simp [printMissing, hk, hj]
              rw [e]
              refine ⟨_, d, rfl, hman, fun T hT hTS => not_supported ok hbody hneed hav hT hTS, ?_⟩
              left
              refine ⟨k, nm, rfl, hneed, ?_⟩
              rintro T hT hTS ⟨d', h1, h2, h3⟩
              exact hav ⟨d', h1, hTS _ h2, h3⟩
        rcases requiresMet_rend ok S hdm true req with ⟨hm, e⟩ | ⟨k, nm, j, pm, hk, hn, ha, hj, e⟩ | ⟨nm, hn, ha, e⟩
        · rw [e]
          exact hnext req (Or.inl hm)
        · rw [e]
          exact hfail k nm _ hn ha (Or.inr ⟨j, pm, hk, hj, rfl⟩) _ rfl
        · rw [e]
          exact hfail .classes nm _ hn ha (Or.inl rfl) _ rfl

end Verif.Link
