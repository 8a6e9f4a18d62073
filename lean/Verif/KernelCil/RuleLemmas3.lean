import Verif.KernelCil.RuleLemmas2
import Verif.KernelCil.Props
import Mathlib.Data.List.Perm.Basic

/-! Lemmas about rules: lists of nodes and conditionals. -/

namespace Verif.KernelCil
open CilParse (Writes NoSymbolNext symbolChar)
open CilCond (Tree)
open Avtab (Node XPerms)

/-! ### Lists of nodes -/

theorem nodes_writes {nm : RNames} : ∀ {l : List Node}, (∀ n ∈ l, NodeOk nm n) → ∃ ps : List (Node × Str × Rule),
    ps.map Prod.fst = l ∧ nodesToStrs nm l = some (ps.map fun p => p.2.1) ∧ ∀ p ∈ ps, Wrote nm p.1 p.2.1 p.2.2
  | [], _ => ⟨[], rfl, rfl, nofun⟩
  | n :: l, h => by
    obtain ⟨text, r, h1⟩ := node_writes (h n List.mem_cons_self)
    obtain ⟨ps, h2, h3, h4⟩ := nodes_writes fun m hm => h m (List.mem_cons_of_mem _ hm)
    refine ⟨(n, text, r) :: ps, by simp [h2], by simp [nodesToStrs, h1.str, h3], ?_⟩
    intro p hp
    rcases List.mem_cons.1 hp with rfl | hp
    · exact h1
    · exact h4 p hp

theorem perm_map {α β : Type} (f : α → β) {l1 l2 : List β} (h : l1.Perm l2) : ∀ ps : List α, ps.map f = l2 → ∃ ps' : List α, ps'.Perm ps ∧ ps'.map f = l1 := by
  induction h with
  | nil => intro ps h; exact ⟨ps, .refl _, h⟩
  | cons x _ ih =>
    intro ps h
    obtain ⟨a, l, rfl, rfl, rfl⟩ := List.map_eq_cons_iff.1 h
    obtain ⟨ps', h1, h2⟩ := ih l rfl
    exact ⟨a :: ps', h1.cons a, by simp [h2]⟩
  | swap x y l =>
    intro ps h
    obtain ⟨a, l', rfl, rfl, h'⟩ := List.map_eq_cons_iff.1 h
    obtain ⟨b, l', rfl, rfl, rfl⟩ := List.map_eq_cons_iff.1 h'
    exact ⟨b :: a :: l', .swap _ _ _, by simp⟩
  | trans _ _ ih1 ih2 =>
    intro ps h
    obtain ⟨ps1, h1, h2⟩ := ih2 ps h
    obtain ⟨ps2, h3, h4⟩ := ih1 ps1 h2
    exact ⟨ps2, h3.trans h1, h4⟩

theorem noSymbol_line (l : Str) : NoSymbolNext ('\n' :: l) := by intro c x h; cases h; decide

theorem writes_spaces {ts : List Tree} {l : Str} (h : Writes ts l) : ∀ k, Writes ts (List.replicate k ' ' ++ l)
  | 0 => h
  | k + 1 => .white (.inl rfl) (writes_spaces h k)

theorem writes_line {t : Tree} {ts : List Tree} {s rest : Str} (indent : Nat) (h : Writes [t] s) (hr : Writes ts rest) :
    Writes (t :: ts) (line indent s ++ rest) := by
  have := writes_spaces (writes_append h (Writes.white (.inr (.inr rfl)) hr : Writes ts ('\n' :: rest)) (noSymbol_line _)) (indent * 4)
  simpa [line] using this

theorem writes_lines (indent : Nat) : ∀ (ps : List (Tree × Str)) {ts : List Tree} {rest : Str}, (∀ p ∈ ps, Writes [p.1] p.2) → Writes ts rest →
    Writes (ps.map Prod.fst ++ ts) ((ps.map Prod.snd).flatMap (line indent) ++ rest)
  | [], _, _, _, hr => hr
  | p :: l, ts, rest, h, hr => by
    have := writes_line indent (h p List.mem_cons_self) (writes_lines indent l (fun q hq => h q (List.mem_cons_of_mem _ hq)) hr)
    simpa using this

/-- Nodes and the rules for them. -/
def Pairs (nm : RNames) (nodes : List Node) (ps : List (Node × Rule)) : Prop :=
  (ps.map Prod.fst).Perm nodes ∧
    ∀ p ∈ ps, ∀ members, MembersOk nm members → ∀ s t c f, Nameable nm c f → (NodeSays members p.1 s t c f ↔ p.2.Says members s t c f)

theorem flavor_writes {nm : RNames} {l : List Node} (hl : ∀ n ∈ l, NodeOk nm n) (indent : Nat) (flavor : BitVec 16) :
    ∃ (text : Str) (ps : List (Node × Rule)), writeFlavor nm l indent flavor = some text ∧
      Pairs nm (l.filter fun n => decide (n.key.specified &&& flavor ≠ 0#16)) ps ∧
      ∀ ts rest, Writes ts rest → Writes ((ps.map fun p => p.2.tree nm hex) ++ ts) (text ++ rest) := by
  obtain ⟨ps, h1, h2, h3⟩ := nodes_writes (nm := nm) (l := l.filter fun n => decide (n.key.specified &&& flavor ≠ 0#16))
    fun n hn => hl n (List.mem_filter.1 hn).1
  obtain ⟨qs, h4, h5⟩ := perm_map (fun p : Node × Str × Rule => p.2.1) (strsSort_perm (ps.map fun p => p.2.1)) ps rfl
  refine ⟨_, qs.map fun p => (p.1, p.2.2), by unfold writeFlavor; rw [h2]; rfl, ⟨?_, ?_⟩, ?_⟩
  · rw [← h1, List.map_map]
    exact h4.map _
  · intro p hp
    obtain ⟨q, hq, rfl⟩ := List.mem_map.1 hp
    exact (h3 q (h4.mem_iff.1 hq)).same
  · intro ts rest hr
    simp only
    rw [← h5]
    have := writes_lines indent (qs.map fun p => (p.2.2.tree nm hex, p.2.1)) (fun p hp => by
      obtain ⟨q, hq, rfl⟩ := List.mem_map.1 hp
      exact (h3 q (h4.mem_iff.1 hq)).writes) hr
    simpa [List.map_map, Function.comp_def] using this

theorem flavors_writes {nm : RNames} {l : List Node} (hl : ∀ n ∈ l, NodeOk nm n) (indent : Nat) : ∀ fs : List (BitVec 16),
    ∃ (text : Str) (ps : List (Node × Rule)), writeFlavors nm l indent fs = some text ∧
      Pairs nm (fs.flatMap fun f => l.filter fun n => decide (n.key.specified &&& f ≠ 0#16)) ps ∧
      ∀ ts rest, Writes ts rest → Writes ((ps.map fun p => p.2.tree nm hex) ++ ts) (text ++ rest)
  | [] => ⟨[], [], rfl, ⟨.refl _, nofun⟩, fun _ _ h => h⟩
  | f :: fs => by
    obtain ⟨t1, p1, a1, b1, c1⟩ := flavor_writes hl indent f
    obtain ⟨t2, p2, a2, b2, c2⟩ := flavors_writes hl indent fs
    refine ⟨t1 ++ t2, p1 ++ p2, by simp [writeFlavors, a1, a2], ⟨?_, ?_⟩, ?_⟩
    · rw [List.map_append, List.flatMap_cons]; exact b1.1.append b2.1
    · intro p hp
      rcases List.mem_append.1 hp with hp | hp
      · exact b1.2 p hp
      · exact b2.2 p hp
    · intro ts rest hr
      rw [List.map_append, List.append_assoc, List.append_assoc]
      exact c1 _ _ (c2 _ _ hr)

theorem flatMap_if {α : Type} {β : Type} (p : β → Bool) (x : α) : ∀ fs : List β, (fs.flatMap fun f => if p f then [x] else []) = (fs.filter p).map fun _ => x
  | [] => rfl
  | f :: fs => by
    rw [List.flatMap_cons, flatMap_if p x fs, List.filter_cons]
    cases p f <;> simp

theorem filter_perm {α β : Type} (p : β → α → Bool) (fs : List β) : ∀ l : List α, (∀ x ∈ l, (fs.filter fun f => p f x).length = 1) →
    (fs.flatMap fun f => l.filter (p f)).Perm l
  | [], _ => by simp
  | x :: l, h => by
    have e : (fun f => (x :: l).filter (p f)) = fun f => (if p f x then [x] else []) ++ l.filter (p f) := by
      funext f
      rw [List.filter_cons]
      cases p f x <;> rfl
    rw [e]
    refine (List.flatMap_append_perm fs _ _).symm.trans ?_
    rw [flatMap_if (fun f => p f x) x]
    obtain ⟨f, hf⟩ := List.length_eq_one_iff.1 (h x List.mem_cons_self)
    rw [hf]
    exact (filter_perm p fs l fun y hy => h y (List.mem_cons_of_mem _ hy)).cons x

theorem flavor_mask : ∀ f ∈ flavors, 0xFFF#16 &&& f = f := by
  intro f h
  simp only [flavors, List.mem_cons, List.not_mem_nil, or_false] at h
  rcases h with rfl | rfl | rfl | rfl | rfl | rfl | rfl | rfl | rfl <;> decide

theorem one_flavor' : ∀ k ∈ flavors, (flavors.filter fun f => decide (k &&& f ≠ 0#16)).length = 1 := by
  intro k h
  have h' := h
  unfold flavors at h'
  simp only [List.mem_cons, List.not_mem_nil, or_false] at h'
  rcases h' with rfl | rfl | rfl | rfl | rfl | rfl | rfl | rfl | rfl <;> decide

theorem mem_flavors {k : BitVec 16} (h : k ∈ Optimize.avKinds ++ Optimize.xKinds ++ Optimize.typeKinds) : k ∈ flavors := by
  simp only [Optimize.avKinds, Optimize.xKinds, Optimize.typeKinds, List.mem_append, List.mem_cons, List.not_mem_nil, or_false] at h
  rcases h with ((rfl | rfl | rfl) | rfl | rfl | rfl) | rfl | rfl | rfl <;> decide

theorem one_flavor (s : BitVec 16) (h : 0xFFF#16 &&& s ∈ flavors) : (flavors.filter fun f => decide (s &&& f ≠ 0#16)).length = 1 := by
  have e : (flavors.filter fun f => decide (s &&& f ≠ 0#16)) = flavors.filter fun f => decide ((0xFFF#16 &&& s) &&& f ≠ 0#16) :=
    List.filter_congr fun f hf => by rw [← and_mask s f (flavor_mask f hf)]
  rw [e]
  exact one_flavor' _ h

theorem rules_writes {nm : RNames} {l : List Node} (hl : ∀ n ∈ l, NodeOk nm n) (indent : Nat) :
    ∃ (text : Str) (rules : List Rule), rulesToCil nm l indent = some text ∧ SameRules nm l rules ∧ rules.length = l.length ∧
      ∀ ts rest, Writes ts rest → Writes (rules.map (Rule.tree nm hex) ++ ts) (text ++ rest) := by
  obtain ⟨text, ps, h1, h2, h3⟩ := flavors_writes hl indent flavors
  have hp := h2.1.trans (filter_perm (fun f n => decide (n.key.specified &&& f ≠ 0#16)) flavors l fun n hn => one_flavor _ (mem_flavors (hl n hn).kind))
  refine ⟨text, ps.map Prod.snd, h1, ⟨ps, hp, rfl, h2.2⟩, by rw [← hp.length_eq]; simp, ?_⟩
  intro ts rest hr
  have := h3 ts rest hr
  rwa [List.map_map]

/-! ### Conditionals -/

theorem block_writes {nm : RNames} {l : List Node} (hl : ∀ n ∈ l, NodeOk nm n) (word : String) (hw : word.toList ≠ [] ∧ ∀ c ∈ word.toList, symbolChar c = true) :
    ∃ (text : Str) (rules : List Rule), writeBlock nm word.toList l = some text ∧ SameRules nm l rules ∧
      ∀ ts rest, Writes ts rest → Writes (blockTree nm hex word rules ++ ts) (text ++ rest) := by
  cases l with
  | nil => exact ⟨[], [], rfl, ⟨[], .refl _, rfl, nofun⟩, fun _ _ h => h⟩
  | cons n l =>
    obtain ⟨text, rules, h1, h2, h3, h4⟩ := rules_writes hl 2
    refine ⟨_, rules, by unfold writeBlock; rw [h1]; rfl, h2, ?_⟩
    intro ts rest hr
    have hne : rules.isEmpty = false := by cases rules with | nil => cases h3 | cons => rfl
    unfold blockTree
    rw [hne]
    have hin : Writes (.atom word :: rules.map (Rule.tree nm hex)) (word.toList ++ '\n' :: (text ++ List.replicate 4 ' ')) := by
      have i1 := h4 [] (List.replicate 4 ' ') (by have := writes_spaces Writes.nil 4; simpa using this)
      rw [List.append_nil] at i1
      have := Writes.symbol hw.1 hw.2 (noSymbol_line _) (Writes.white (.inr (.inr rfl)) i1)
      rwa [String.ofList_toList] at this
    have := writes_spaces (Writes.list hin (Writes.white (c := '\n') (.inr (.inr rfl)) hr)) 4
    simpa using this

theorem cond_writes {nm : RNames} {bool : Nat → Str} {c : CondNode} (hc : CondOk nm bool c) :
    ∃ (expr text : Str) (i : CilIf), condExprToStr bool c.expr = some expr ∧ writeCond nm expr c = some text ∧ SameCond nm bool c i ∧
      ∀ ts rest, Writes ts rest → Writes (i.tree nm hex :: ts) (text ++ rest) := by
  obtain ⟨t, e1, e2⟩ := hc.expr
  obtain ⟨expr, e, e3, e4, e5, e6, e7⟩ := C81_conditional bool t (fun n hn => (e2 n hn).1) fun n hn => (e2 n hn).2
  obtain ⟨t1, r1, a1, b1, c1⟩ := block_writes hc.thenOk "true" (by decide)
  obtain ⟨t2, r2, a2, b2, c2⟩ := block_writes hc.elseOk "false" (by decide)
  refine ⟨expr, _, ⟨e, r1, r2⟩, by rw [e1]; exact e3, by unfold writeCond; rw [a1, a2]; rfl, ⟨e5, ?_, b1, b2⟩, ?_⟩
  · exact ⟨t, e1, e6, e7⟩
  · intro ts rest hr
    unfold CilIf.tree
    have i1 := c1 _ _ (c2 [] [] .nil)
    rw [List.append_nil, List.append_nil] at i1
    have i2 := writes_append e4 (Writes.white (c := '\n') (.inr (.inr rfl)) i1) (noSymbol_line _)
    have i3 := Writes.symbol (s := "booleanif".toList) (by decide) (by decide) (noSymbol_space _) (Writes.white (c := ' ') (.inl rfl) i2)
    have i4 := Writes.list i3 (Writes.white (c := '\n') (.inr (.inr rfl)) hr)
    simpa [String.ofList_toList] using i4

theorem condExprs_eq {nm : RNames} {bool : Nat → Str} : ∀ {l : List CondNode}, (∀ c ∈ l, CondOk nm bool c) →
    ∃ es : List (Str × CondNode), condExprs bool l = some es ∧ es.map Prod.snd = l ∧ ∀ e ∈ es, condExprToStr bool e.2.expr = some e.1
  | [], _ => ⟨[], rfl, rfl, nofun⟩
  | c :: l, h => by
    obtain ⟨expr, _, _, h1, -⟩ := cond_writes (h c List.mem_cons_self)
    obtain ⟨es, h2, h3, h4⟩ := condExprs_eq fun d hd => h d (List.mem_cons_of_mem _ hd)
    refine ⟨(expr, c) :: es, by simp [condExprs, h1, h2], by simp [h3], ?_⟩
    intro e he
    rcases List.mem_cons.1 he with rfl | he
    · exact h1
    · exact h4 e he

theorem conds_writes {nm : RNames} {bool : Nat → Str} : ∀ {es : List (Str × CondNode)},
    (∀ e ∈ es, CondOk nm bool e.2 ∧ condExprToStr bool e.2.expr = some e.1) →
    ∃ (text : Str) (ps : List (CondNode × CilIf)), writeConds nm es = some text ∧ ps.map Prod.fst = es.map Prod.snd ∧
      (∀ p ∈ ps, SameCond nm bool p.1 p.2) ∧ Writes (ps.map fun p => p.2.tree nm hex) text
  | [], _ => ⟨[], [], rfl, rfl, nofun, .nil⟩
  | (x, c) :: l, h => by
    obtain ⟨hc, hx⟩ := h _ List.mem_cons_self
    obtain ⟨expr, text, i, h1, h2, h3, h4⟩ := cond_writes hc
    rw [h1] at hx
    cases hx
    obtain ⟨text', ps, h5, h6, h7, h8⟩ := conds_writes fun d hd => h d (List.mem_cons_of_mem _ hd)
    refine ⟨text ++ text', (c, i) :: ps, by simp [writeConds, h2, h5], by simp [h6], ?_, h4 _ _ h8⟩
    intro p hp
    rcases List.mem_cons.1 hp with rfl | hp
    · exact h3
    · exact h7 p hp

end Verif.KernelCil
