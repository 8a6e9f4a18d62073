import Verif.Prelude
import Verif.KernelCil.RuleLemmas
import Verif.Optimize.Lemmas

/-! Lemmas about rules: from nodes to statements. -/

namespace Verif.KernelCil
open CilParse (Writes NoSymbolNext symbolChar)
open CilCond (Tree)
open Avtab (Node XPerms)

theorem and_mask (s m : BitVec 16) (h : 0xFFF#16 &&& m = m) : s &&& m = (0xFFF#16 &&& s) &&& m := by
  rw [BitVec.and_comm 0xFFF#16 s, BitVec.and_assoc, h]

/-- The target that is written. -/
def tgtOf (nm : RNames) (n : Node) : Tgt :=
  if n.key.source = n.key.target ∧ n.key.specified &&& TYPE = 0#16 ∧ nm.isAttr (n.key.source - 1) = false then .self else .sym n.key.target

def tgtStr (nm : RNames) (n : Node) : Str :=
  if n.key.source = n.key.target ∧ n.key.specified &&& TYPE = 0#16 ∧ nm.isAttr (n.key.source - 1) = false then "self".toList else nm.type (n.key.target - 1)

theorem tgt_writes {nm : RNames} {n : Node} (h : GoodName (nm.type (n.key.target - 1))) : Writes [(tgtOf nm n).tree nm] (tgtStr nm n) := by
  unfold tgtOf tgtStr
  split
  · exact writes_word "self" (by decide)
  · exact writes_name h

theorem tgt_covers {nm : RNames} {n : Node} {members : Nat → Nat → Prop} (hm : MembersOk nm members) (s t : Nat) :
    (members n.key.source s ∧ (match tgtOf nm n with | .self => t = s | .sym y => members y t)) ↔ members n.key.source s ∧ members n.key.target t := by
  by_cases h : n.key.source = n.key.target ∧ n.key.specified &&& TYPE = 0#16 ∧ nm.isAttr (n.key.source - 1) = false
  · rw [show tgtOf nm n = .self from if_pos h]
    obtain ⟨h1, -, h3⟩ := h
    simp only
    rw [← h1, hm _ h3, hm _ h3]
    constructor
    · rintro ⟨rfl, rfl⟩; exact ⟨rfl, rfl⟩
    · rintro ⟨rfl, rfl⟩; exact ⟨rfl, rfl⟩
  · rw [show tgtOf nm n = .sym n.key.target from if_neg h]

def avKind (k : BitVec 16) : AvKind := if k = Avtab.ALLOWED then .allow else if k = Avtab.AUDITALLOW then .auditallow else .dontaudit
def xKind (k : BitVec 16) : XRuleKind := if k = Avtab.XPERMS_ALLOWED then .allowx else if k = Avtab.XPERMS_AUDITALLOW then .auditallowx else .dontauditx
def tKind (k : BitVec 16) : TypeKind := if k = Avtab.TRANSITION then .typetransition else if k = Avtab.MEMBER then .typemember else .typechange

/-- What is said of a rule that is written for a node. -/
structure Wrote (nm : RNames) (n : Node) (text : Str) (r : Rule) : Prop where
  str : nodeToStr nm n = some text
  writes : Writes [r.tree nm hex] text
  same : ∀ members, MembersOk nm members → ∀ s t c f, Nameable nm c f → (NodeSays members n s t c f ↔ r.Says members s t c f)

theorem says_of {nm : RNames} {n : Node} {r : Rule} (h1 : r.src = n.key.source) (h2 : r.tgt = tgtOf nm n) (h3 : r.cls = n.key.cls)
    (h4 : ∀ f, Nameable nm n.key.cls f → (NodeGrants (0xFFF#16 &&& n.key.specified) n.datum f ↔ r.Grants f)) :
    ∀ members, MembersOk nm members → ∀ s t c f, Nameable nm c f → (NodeSays members n s t c f ↔ r.Says members s t c f) := by
  intro members hm s t c f hf
  unfold NodeSays Rule.Says
  rw [h1, h2, h3]
  have := tgt_covers (n := n) hm s t
  constructor
  · rintro ⟨a, b, rfl, d⟩
    have := this.2 ⟨a, b⟩
    exact ⟨this.1, this.2, rfl, (h4 f hf).1 d⟩
  · rintro ⟨a, b, rfl, d⟩
    have := this.1 ⟨a, b⟩
    exact ⟨this.1, this.2, rfl, (h4 f hf).2 d⟩

theorem word_av (k : AvKind) : Writes [.atom k.word] k.word.toList := by cases k <;> exact writes_word _ (by decide)
theorem word_x (k : XRuleKind) : Writes [.atom k.word] k.word.toList := by cases k <;> exact writes_word _ (by decide)
theorem word_t (k : TypeKind) : Writes [.atom k.word] k.word.toList := by cases k <;> exact writes_word _ (by decide)
theorem word_w (k : XWhat) : Writes [.atom k.word] k.word.toList := by cases k <;> exact writes_word _ (by decide)

theorem grants_av {nm : RNames} {c : Nat} {d : Avtab.Datum} {k : BitVec 16} {ps : List Nat} {src : Nat} {tgt : Tgt} {f : RFact} (hk : k ∈ Optimize.avKinds)
    (hf : Nameable nm c f) (hmem : ∀ b, b < nm.nprim (c - 1) ∧ nm.perm (c - 1) b ≠ none → (b ∈ ps ↔ b < 32 ∧ d.data.getLsbD b = decide (k ≠ Avtab.AUDITDENY))) :
    NodeGrants k d f ↔ (Rule.av (avKind k) src tgt c ps).Grants f := by
  have n1 : Avtab.ALLOWED ≠ Avtab.AUDITALLOW := by decide
  have n2 : Avtab.ALLOWED ≠ Avtab.AUDITDENY := by decide
  have n3 : Avtab.AUDITALLOW ≠ Avtab.AUDITDENY := by decide
  have hx := Optimize.kinds_disjoint k
  have hk' := hk
  simp only [Optimize.avKinds, List.mem_cons, List.not_mem_nil, or_false] at hk
  have hr : ∀ k' ty, Rule.Grants (Rule.av (avKind k) src tgt c ps) (.result k' ty) ↔ False := by
    intro k' ty
    cases avKind k <;> exact Iff.rfl
  have hr2 : ∀ f, (match f with | .allow _ | .auditallow _ | .dontaudit _ => False | _ => True) →
      (Rule.Grants (Rule.av (avKind k) src tgt c ps) (.fact f) ↔ False) := by
    intro f hf
    cases f <;> first | exact hf.elim | (cases avKind k <;> exact Iff.rfl)
  cases f with
  | result k' ty =>
    rw [hr]
    simp only [NodeGrants, iff_false]
    rintro ⟨rfl, h, -⟩
    exact hx.2.2 ⟨hk', h⟩
  | fact f =>
    cases f with
    | allow b =>
      simp only [NodeGrants, Optimize.Grants]
      rcases hk with rfl | rfl | rfl
      · rw [show avKind Avtab.ALLOWED = .allow from rfl, show Rule.Grants (.av .allow src tgt c ps) (.fact (.allow b)) ↔ b ∈ ps from Iff.rfl, hmem b hf]
        simp [n2]
      · exact ⟨fun h => absurd h.1.symm n1, fun h => h.elim⟩
      · exact ⟨fun h => absurd h.1.symm n2, fun h => h.elim⟩
    | auditallow b =>
      simp only [NodeGrants, Optimize.Grants]
      rcases hk with rfl | rfl | rfl
      · exact ⟨fun h => absurd h.1 n1, fun h => h.elim⟩
      · rw [show avKind Avtab.AUDITALLOW = .auditallow from rfl, show Rule.Grants (.av .auditallow src tgt c ps) (.fact (.auditallow b)) ↔ b ∈ ps from Iff.rfl, hmem b hf]
        simp [n3]
      · exact ⟨fun h => absurd h.1.symm n3, fun h => h.elim⟩
    | dontaudit b =>
      simp only [NodeGrants, Optimize.Grants]
      rcases hk with rfl | rfl | rfl
      · exact ⟨fun h => absurd h.1 n2, fun h => h.elim⟩
      · exact ⟨fun h => absurd h.1 n3, fun h => h.elim⟩
      · rw [show avKind Avtab.AUDITDENY = .dontaudit from rfl, show Rule.Grants (.av .dontaudit src tgt c ps) (.fact (.dontaudit b)) ↔ b ∈ ps from Iff.rfl, hmem b hf]
        simp
    | ioctl a b c | nlmsg a b c | ioctlFiltered a | nlmsgFiltered a =>
      simp only [NodeGrants, Optimize.Grants]
      rw [hr2 _ trivial]
      simp only [iff_false]
      rintro ⟨rfl, h, -⟩
      exact hx.1 ⟨hk', h⟩

theorem grants_x {d : Avtab.Datum} {k : BitVec 16} {x : XPerms} {items : List CatItem} {src c : Nat} {tgt : Tgt} {f : RFact} {rk : XRuleKind}
    (hk : k ∈ Optimize.xKinds) (hx : d.xperms = some x)
    (hs : x.specified = Optimize.FUNCTION ∨ x.specified = Optimize.DRIVER ∨ x.specified = Optimize.NLMSG) (hb : rk.bits = k)
    (h3 : ∀ dr fn, dr < 256 → fn < 256 → ((∃ it ∈ items, it.has (256 * dr + fn)) ↔
        if x.specified = Optimize.DRIVER then Optimize.xbit x.perms dr else x.driver.toNat = dr ∧ Optimize.xbit x.perms fn)) :
    NodeGrants k d f ↔
    (Rule.x rk (if x.specified = Optimize.NLMSG then XWhat.nlmsg else XWhat.ioctl) src tgt c items).Grants f := by
  have n1 : Optimize.FUNCTION ≠ Optimize.NLMSG := by decide
  have n2 : Optimize.DRIVER ≠ Optimize.NLMSG := by decide
  have n3 : Optimize.FUNCTION ≠ Optimize.DRIVER := by decide
  have hd := Optimize.kinds_disjoint k
  generalize hw : (if x.specified = Optimize.NLMSG then XWhat.nlmsg else XWhat.ioctl) = w
  have hw' : (w = .nlmsg ↔ x.specified = Optimize.NLMSG) ∧ (w = .ioctl ↔ x.specified ≠ Optimize.NLMSG) := by
    rw [← hw]
    by_cases h : x.specified = Optimize.NLMSG
    · rw [if_pos h]; exact ⟨⟨fun _ => h, fun _ => rfl⟩, ⟨fun h' => (by cases h'), fun h' => absurd h h'⟩⟩
    · rw [if_neg h]; exact ⟨⟨fun h' => (by cases h'), fun h' => absurd h' h⟩, ⟨fun _ => h, fun _ => rfl⟩⟩
  cases f with
  | result k' ty =>
    simp only [NodeGrants, Rule.Grants, iff_false]
    rintro ⟨rfl, h, -⟩
    exact hd.2.1 ⟨hk, h⟩
  | fact f =>
    cases f with
    | allow b =>
      simp only [NodeGrants, Optimize.Grants, Rule.Grants, iff_false]
      rintro ⟨rfl, -⟩
      exact hd.1 ⟨by decide, hk⟩
    | auditallow b =>
      simp only [NodeGrants, Optimize.Grants, Rule.Grants, iff_false]
      rintro ⟨rfl, -⟩
      exact hd.1 ⟨by decide, hk⟩
    | dontaudit b =>
      simp only [NodeGrants, Optimize.Grants, Rule.Grants, iff_false]
      rintro ⟨rfl, -⟩
      exact hd.1 ⟨by decide, hk⟩
    | ioctl k' dr fn =>
      simp only [NodeGrants, Optimize.Grants, hx, Option.some.injEq, exists_eq_left']
      cases w with
      | nlmsg =>
        simp only [Rule.Grants, iff_false]
        rintro ⟨-, -, -, -, h | h⟩
        · exact n1 (h.1.symm.trans (hw'.1.1 rfl))
        · exact n2 (h.1.symm.trans (hw'.1.1 rfl))
      | ioctl =>
        have hne := hw'.2.1 rfl
        simp only [Rule.Grants, hb]
        constructor
        · rintro ⟨rfl, -, a, b, h⟩
          refine ⟨rfl, a, b, (h3 dr fn a b).2 ?_⟩
          rcases h with ⟨e, h⟩ | ⟨e, h⟩
          · rw [if_neg (by rw [e]; exact n3)]; exact h
          · rw [if_pos e]; exact h
        · rintro ⟨rfl, a, b, h⟩
          refine ⟨rfl, hk, a, b, ?_⟩
          have := (h3 dr fn a b).1 h
          rcases hs with e | e | e
          · rw [if_neg (by rw [e]; exact n3)] at this; exact .inl ⟨e, this⟩
          · rw [if_pos e] at this; exact .inr ⟨e, this⟩
          · exact absurd e hne
    | nlmsg k' dr fn =>
      simp only [NodeGrants, Optimize.Grants, hx, Option.some.injEq, exists_eq_left']
      cases w with
      | ioctl =>
        simp only [Rule.Grants, iff_false]
        rintro ⟨-, -, -, -, h, -⟩
        exact hw'.2.1 rfl h
      | nlmsg =>
        have he := hw'.1.1 rfl
        simp only [Rule.Grants, hb]
        have h3 := h3 dr fn
        rw [if_neg (by rw [he]; exact n2.symm)] at h3
        constructor
        · rintro ⟨rfl, -, a, b, -, h⟩
          exact ⟨rfl, a, b, (h3 a b).2 h⟩
        · rintro ⟨rfl, a, b, h⟩
          exact ⟨rfl, hk, a, b, he, (h3 a b).1 h⟩
    | ioctlFiltered k' =>
      simp only [NodeGrants, Optimize.Grants, hx, Option.some.injEq, exists_eq_left']
      cases w with
      | nlmsg =>
        simp only [Rule.Grants, iff_false]
        rintro ⟨-, -, h | h⟩
        · exact n1 (h.symm.trans (hw'.1.1 rfl))
        · exact n2 (h.symm.trans (hw'.1.1 rfl))
      | ioctl =>
        have hne := hw'.2.1 rfl
        simp only [Rule.Grants, hb]
        exact ⟨fun h => h.1, by rintro rfl; exact ⟨rfl, hk, by tauto⟩⟩
    | nlmsgFiltered k' =>
      simp only [NodeGrants, Optimize.Grants, hx, Option.some.injEq, exists_eq_left']
      cases w with
      | ioctl =>
        simp only [Rule.Grants, iff_false]
        rintro ⟨-, -, h⟩
        exact hw'.2.1 rfl h
      | nlmsg =>
        have he := hw'.1.1 rfl
        simp only [Rule.Grants, hb]
        exact ⟨fun h => h.1, by rintro rfl; exact ⟨rfl, hk, he⟩⟩

theorem node_av {nm : RNames} {n : Node} (hn : NodeOk nm n) (hk : 0xFFF#16 &&& n.key.specified ∈ Optimize.avKinds) :
    ∃ text r, Wrote nm n text r := by
  obtain ⟨p1, p2, i, p3, p4, p5⟩ := hn.perms hk
  have hav : n.key.specified &&& AV ≠ 0#16 := by
    rw [and_mask _ _ (by decide)]
    simp only [Optimize.avKinds, List.mem_cons, List.not_mem_nil, or_false] at hk
    rcases hk with h | h | h <;> rw [h] <;> decide
  have hw : flavorWord (0xFFF#16 &&& n.key.specified) = some (avKind (0xFFF#16 &&& n.key.specified)).word.toList := by
    simp only [Optimize.avKinds, List.mem_cons, List.not_mem_nil, or_false] at hk
    rcases hk with h | h | h <;> rw [h] <;> decide
  -- the bits that are written
  obtain ⟨data, hdata⟩ : ∃ data, data = (if 0xFFF#16 &&& n.key.specified = Avtab.AUDITDENY then ~~~ n.datum.data else n.datum.data) := ⟨_, rfl⟩
  have hbits : ∀ b < 32, (data.getLsbD b = true ↔ n.datum.data.getLsbD b = decide (0xFFF#16 &&& n.key.specified ≠ Avtab.AUDITDENY)) := by
    intro b hb
    rw [hdata]
    split
    · rename_i h
      simp [h, hb]
    · rename_i h
      simp [h]
  have hne : permList nm n.key.cls data ≠ [] := by
    have : i ∈ permList nm n.key.cls data := mem_permList.2 ⟨p3, p4, (hbits i (by omega)).2 p5⟩
    intro h0; rw [h0] at this; cases this
  obtain ⟨perms, h1, h2⟩ := av_writes p2 hne
  refine ⟨parens [(avKind (0xFFF#16 &&& n.key.specified)).word.toList, nm.type (n.key.source - 1), tgtStr nm n, parens [nm.cls (n.key.cls - 1), parens [perms]]],
    .av (avKind (0xFFF#16 &&& n.key.specified)) n.key.source (tgtOf nm n) n.key.cls (permList nm n.key.cls data), ?_, ?_, ?_⟩
  · unfold nodeToStr
    simp only
    rw [hw, ← hdata]
    simp only
    rw [if_pos hav, h1]
    rfl
  · refine writes_parens [(_, _), (_, _), (_, _), (_, _)] ?_
    intro p hp
    simp only [List.mem_cons, List.not_mem_nil, or_false] at hp
    rcases hp with rfl | rfl | rfl | rfl
    · exact word_av _
    · exact writes_name hn.src
    · exact tgt_writes hn.tgt
    · refine writes_parens [(_, _), (_, _)] ?_
      intro p hp
      simp only [List.mem_cons, List.not_mem_nil, or_false] at hp
      rcases hp with rfl | rfl
      · exact writes_name hn.cls
      · exact writes_parens1 h2
  · refine says_of rfl rfl rfl ?_
    intro f hf
    have hmem : ∀ b, b < nm.nprim (n.key.cls - 1) ∧ nm.perm (n.key.cls - 1) b ≠ none → (b ∈ permList nm n.key.cls data ↔
        b < 32 ∧ n.datum.data.getLsbD b = decide (0xFFF#16 &&& n.key.specified ≠ Avtab.AUDITDENY)) := by
      intro b hb
      rw [mem_permList]
      have := hbits b (by omega)
      constructor
      · rintro ⟨-, -, h⟩; exact ⟨by omega, this.1 h⟩
      · rintro ⟨-, h⟩; exact ⟨hb.1, hb.2, this.2 h⟩
    generalize 0xFFF#16 &&& n.key.specified = k at hk hmem
    exact grants_av hk hf hmem

theorem node_x {nm : RNames} {n : Node} (hn : NodeOk nm n) (hk : 0xFFF#16 &&& n.key.specified ∈ Optimize.xKinds) :
    ∃ text r, Wrote nm n text r := by
  obtain ⟨x, p1, p2, p3⟩ := hn.xperms hk
  have hm1 : n.key.specified &&& AV = 0#16 := by
    rw [and_mask _ _ (by decide)]
    simp only [Optimize.xKinds, List.mem_cons, List.not_mem_nil, or_false] at hk
    rcases hk with h | h | h <;> rw [h] <;> decide
  have hm2 : n.key.specified &&& Avtab.XPERMS ≠ 0#16 := by
    rw [and_mask _ _ (by decide)]
    simp only [Optimize.xKinds, List.mem_cons, List.not_mem_nil, or_false] at hk
    rcases hk with h | h | h <;> rw [h] <;> decide
  have hw : flavorWord (0xFFF#16 &&& n.key.specified) = some (xKind (0xFFF#16 &&& n.key.specified)).word.toList := by
    simp only [Optimize.xKinds, List.mem_cons, List.not_mem_nil, or_false] at hk
    rcases hk with h | h | h <;> rw [h] <;> decide
  obtain ⟨perms, items, h1, h2, h3⟩ := xpermsToStr_writes p2 p3
  have hbits : (xKind (0xFFF#16 &&& n.key.specified)).bits = 0xFFF#16 &&& n.key.specified := by
    simp only [Optimize.xKinds, List.mem_cons, List.not_mem_nil, or_false] at hk
    rcases hk with h | h | h <;> rw [h] <;> decide
  refine ⟨parens [(xKind (0xFFF#16 &&& n.key.specified)).word.toList, nm.type (n.key.source - 1), tgtStr nm n,
      parens [(if x.specified = Optimize.NLMSG then XWhat.nlmsg else XWhat.ioctl).word.toList, nm.cls (n.key.cls - 1), parens [perms]]],
    .x (xKind (0xFFF#16 &&& n.key.specified)) (if x.specified = Optimize.NLMSG then XWhat.nlmsg else XWhat.ioctl) n.key.source (tgtOf nm n) n.key.cls items, ?_, ?_, ?_⟩
  · unfold nodeToStr
    simp only
    rw [hw]
    simp only
    rw [if_neg (by rw [hm1]; simp), if_pos hm2, p1]
    simp only
    rw [h1]
    rcases p2 with h | h | h <;> rw [h] <;> rfl
  · refine writes_parens [(_, _), (_, _), (_, _), (_, _)] ?_
    intro p hp
    simp only [List.mem_cons, List.not_mem_nil, or_false] at hp
    rcases hp with rfl | rfl | rfl | rfl
    · exact word_x _
    · exact writes_name hn.src
    · exact tgt_writes hn.tgt
    · refine writes_parens [(_, _), (_, _), (_, _)] ?_
      intro p hp
      simp only [List.mem_cons, List.not_mem_nil, or_false] at hp
      rcases hp with rfl | rfl | rfl
      · exact word_w _
      · exact writes_name hn.cls
      · exact writes_parens1 h2
  · refine says_of rfl rfl rfl ?_
    intro f hf
    generalize 0xFFF#16 &&& n.key.specified = k at hk hbits
    exact grants_x hk p1 p2 hbits h3

theorem node_type {nm : RNames} {n : Node} (hn : NodeOk nm n) (hk : 0xFFF#16 &&& n.key.specified ∈ Optimize.typeKinds) :
    ∃ text r, Wrote nm n text r := by
  have hm1 : n.key.specified &&& AV = 0#16 := by
    rw [and_mask _ _ (by decide)]
    simp only [Optimize.typeKinds, List.mem_cons, List.not_mem_nil, or_false] at hk
    rcases hk with h | h | h <;> rw [h] <;> decide
  have hm2 : n.key.specified &&& Avtab.XPERMS = 0#16 := by
    rw [and_mask _ _ (by decide)]
    simp only [Optimize.typeKinds, List.mem_cons, List.not_mem_nil, or_false] at hk
    rcases hk with h | h | h <;> rw [h] <;> decide
  have hw : flavorWord (0xFFF#16 &&& n.key.specified) = some (tKind (0xFFF#16 &&& n.key.specified)).word.toList := by
    simp only [Optimize.typeKinds, List.mem_cons, List.not_mem_nil, or_false] at hk
    rcases hk with h | h | h <;> rw [h] <;> decide
  have hbits : (tKind (0xFFF#16 &&& n.key.specified)).bits = 0xFFF#16 &&& n.key.specified := by
    simp only [Optimize.typeKinds, List.mem_cons, List.not_mem_nil, or_false] at hk
    rcases hk with h | h | h <;> rw [h] <;> decide
  have hd : 0xFFF#16 &&& n.key.specified ≠ Avtab.AUDITDENY := by
    simp only [Optimize.typeKinds, List.mem_cons, List.not_mem_nil, or_false] at hk
    rcases hk with h | h | h <;> rw [h] <;> decide
  refine ⟨parens [(tKind (0xFFF#16 &&& n.key.specified)).word.toList, nm.type (n.key.source - 1), tgtStr nm n, nm.cls (n.key.cls - 1),
      nm.type (n.datum.data.toNat - 1)],
    .type (tKind (0xFFF#16 &&& n.key.specified)) n.key.source (tgtOf nm n) n.key.cls n.datum.data.toNat, ?_, ?_, ?_⟩
  · unfold nodeToStr
    simp only
    rw [hw]
    simp only
    rw [if_neg (by rw [hm1]; simp), if_neg (by rw [hm2]; simp), if_neg hd]
    rfl
  · refine writes_parens [(_, _), (_, _), (_, _), (_, _), (_, _)] ?_
    intro p hp
    simp only [List.mem_cons, List.not_mem_nil, or_false] at hp
    rcases hp with rfl | rfl | rfl | rfl | rfl
    · exact word_t _
    · exact writes_name hn.src
    · exact tgt_writes hn.tgt
    · exact writes_name hn.cls
    · exact writes_name (hn.result hk)
  · refine says_of rfl rfl rfl ?_
    intro f hf
    generalize 0xFFF#16 &&& n.key.specified = k at hk hbits
    cases f with
    | result k' ty =>
      simp only [NodeGrants, Rule.Grants, hbits]
      constructor
      · rintro ⟨rfl, -, rfl⟩; exact ⟨rfl, rfl⟩
      · rintro ⟨rfl, rfl⟩; exact ⟨rfl, hk, rfl⟩
    | fact f =>
      have hno1 := (Optimize.kinds_disjoint k).2.2
      have hno2 := (Optimize.kinds_disjoint k).2.1
      cases f with
      | allow b | auditallow b | dontaudit b =>
        simp only [NodeGrants, Optimize.Grants, Rule.Grants, iff_false]
        rintro ⟨rfl, -⟩
        exact hno1 ⟨by decide, hk⟩
      | ioctl a b c | nlmsg a b c | ioctlFiltered a | nlmsgFiltered a =>
        simp only [NodeGrants, Optimize.Grants, Rule.Grants, iff_false]
        rintro ⟨rfl, h, -⟩
        exact hno2 ⟨h, hk⟩

theorem node_writes {nm : RNames} {n : Node} (hn : NodeOk nm n) : ∃ text r, Wrote nm n text r := by
  have hk := hn.kind
  have : 0xFFF#16 &&& n.key.specified ∈ Optimize.avKinds ∨ 0xFFF#16 &&& n.key.specified ∈ Optimize.xKinds ∨ 0xFFF#16 &&& n.key.specified ∈ Optimize.typeKinds := by
    rw [List.mem_append, List.mem_append, or_assoc] at hk
    exact hk
  rcases this with h | h | h
  · exact node_av hn h
  · exact node_x hn h
  · exact node_type hn h

end Verif.KernelCil
