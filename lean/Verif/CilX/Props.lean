import Verif.CilX.Lemmas2
import Verif.CilBin.Props

/-!
# C77: rules with extended permissions, from CIL to the binary policy
-/

namespace Verif.CilX
open Ebitmap (Ebitmap)
open Avtab (Avtab Key Datum Node XPerms)
open CilBin (Db Sym Target Kind Branch State Policy Rule typeDatum key DbOk Complete compile AvK TyK Emits)

/-- C77: the blocks that are written for a bitmap list the numbers of the bitmap and no others, each block has eight words, and an empty bitmap gets
no block. -/
theorem C77_list {kind : XKind} {e : Ebitmap} (hw : Ebitmap.WF e) (hs : ∀ n, Ebitmap.getBit e n = true → n < 2 ^ 16) :
    ∃ l, permxList kind e = some l ∧ (∀ x ∈ l, x.perms.length = 8) ∧
      (∀ n < 2 ^ 16, (∃ x ∈ l, Lists kind x n) ↔ Ebitmap.getBit e n = true) ∧ (l ≠ [] → ∃ n, Ebitmap.getBit e n = true) := by
  obtain ⟨l, h1, h2, h3, h4⟩ := permxList_ok (kind := kind) hw hs
  refine ⟨l, h1, fun x hx => ?_, h3, h4⟩
  rcases h2 x hx with h | h
  · exact h.len
  · exact h.1.len

/-- A policy of rules with extended permissions for the symbols of a CIL policy. -/
def GroupsOk (decls : List Sym) (gs : List Group) : Prop := ∀ g ∈ gs, ∀ r ∈ g.rules, RuleOk decls r

/-- The rules that are added, semantically. -/
theorem compileX_ext {db : Db} (ok : DbOk db) {decls : List Sym} {rules : List Rule} (hk : Complete db decls rules) {P : Policy}
    (hc : compile db decls rules = some P) {gs : List Group} (hg : GroupsOk decls gs) {data : XKind → Nat → Option (BitVec 32)}
    {ord : XTab → XTab} (hord : ∀ t, (ord t).Perm t) {st : State} (he : compileX db data P.tab ord gs P.rules = some st) :
    Ext P.rules st (fun c k xk m => ∃ g ∈ gs, GAdds db P.tab g c k xk m) := by
  obtain ⟨hd, hm, T, log, clog, hsh, -⟩ := CilBin.compile_inv ok hk hc
  refine (sstep_forE (fun g h => group_sstep ok hk.syms P.tab hord (hg g h) P.rules) _ _ (ext_start hsh.te hsh.cond) st he).congr
    fun c k xk m _ => by simp

theorem six_not_kinds {s : BitVec 16} (h : AvK s ∨ TyK s) : s ∉ Optimize.xKinds := by
  rcases h with (rfl | rfl | rfl) | (rfl | rfl | rfl) <;> decide

/-- The kinds of rules. -/
def kinds : List (Kind × BitVec 16) :=
  [(.allowed, Avtab.XPERMS_ALLOWED), (.auditallow, Avtab.XPERMS_AUDITALLOW), (.dontaudit, Avtab.XPERMS_DONTAUDIT)]

theorem kinds_iff {k : Kind} {sp : BitVec 16} (h : (k, sp) ∈ kinds) : sp ∈ Optimize.xKinds ∧ ∀ k', xspec k' = some sp ↔ k' = k := by
  simp only [kinds, List.mem_cons, List.not_mem_nil, or_false, Prod.mk.injEq] at h
  rcases h with ⟨rfl, rfl⟩ | ⟨rfl, rfl⟩ | ⟨rfl, rfl⟩ <;> exact ⟨by decide, by intro k'; cases k' <;> decide⟩

/-- The fact that number `m` of the kind is listed, and the fact that numbers of the kind are checked at all. -/
def fact (xk : XKind) (sp : BitVec 16) (m : Nat) : Optimize.Fact :=
  match xk with
  | .ioctl => .ioctl sp (m / 256) (m % 256)
  | .nlmsg => .nlmsg sp (m / 256) (m % 256)

def filtered (xk : XKind) (sp : BitVec 16) : Optimize.Fact :=
  match xk with
  | .ioctl => .ioctlFiltered sp
  | .nlmsg => .nlmsgFiltered sp

theorem grants_fact {xk : XKind} {s sp : BitVec 16} {d : Datum} {m : Nat} (hm : m < 2 ^ 16) :
    Optimize.Grants s d (fact xk sp m) ↔ s = sp ∧ sp ∈ Optimize.xKinds ∧ ∃ p, d.xperms = some p ∧ Lists xk p m := by
  have h1 : m / 256 < 256 := by omega
  have h2 : m % 256 < 256 := by omega
  cases xk <;> simp [fact, Optimize.Grants, Lists, h1, h2]

/-- The block is for numbers of the kind. -/
def IsKind (xk : XKind) (p : XPerms) : Prop :=
  match xk with
  | .ioctl => p.specified = Optimize.FUNCTION ∨ p.specified = Optimize.DRIVER
  | .nlmsg => p.specified = Optimize.NLMSG

theorem grants_filtered {xk : XKind} {s sp : BitVec 16} {d : Datum} :
    Optimize.Grants s d (filtered xk sp) ↔ s = sp ∧ sp ∈ Optimize.xKinds ∧
      ∃ p, d.xperms = some p ∧ IsKind xk p := by
  cases xk <;> simp [filtered, Optimize.Grants, IsKind]

theorem filtered_kind {xk xk' : XKind} {p : XPerms} (h : PartOk xk p ∨ (CompleteOk p ∧ xk = .ioctl))
    (hf : IsKind xk' p) : xk' = xk := by
  rcases h with h | ⟨h, rfl⟩
  · have hs := h.spec
    cases xk <;> cases xk' <;> first | rfl | (simp [IsKind, hs, XKind.spec, Optimize.FUNCTION, Optimize.DRIVER, Optimize.NLMSG] at hf)
  · have hs := h.spec
    cases xk' <;> first | rfl | (simp [IsKind, hs, Optimize.DRIVER, Optimize.NLMSG] at hf)

theorem lists_filtered {xk : XKind} {p : XPerms} {m : Nat} (h : Lists xk p m) :
    IsKind xk p := by
  cases xk with
  | ioctl => exact h.imp (fun h => h.1) fun h => h.1
  | nlmsg => exact h.1

/-- C77: when the rules are compiled, the policy has a number of an extended permission in the set of a kind of rule, for two types and a class, just when an
active rule of the CIL policy lists it (and no dontaudit rule when those are disabled); numbers are checked at all just when there is such a rule with
some number; and the other decisions are as without these rules. -/
theorem C77_decisions_partial {db : Db} (ok : DbOk db) {decls : List Sym} {rules : List Rule} (hk : Complete db decls rules) {P : Policy}
    (hc : compile db decls rules = some P) (hlen : P.tab.length < 2 ^ 16) {gs : List Group} (hg : GroupsOk decls gs)
    {data : XKind → Nat → Option (BitVec 32)} {ord : XTab → XTab} (hord : ∀ t, (ord t).Perm t) {st : State}
    (he : compileX db data P.tab ord gs P.rules = some st) {chosen : Branch → Bool} {s t c sv tv cv : Nat}
    (hsv : typeDatum P.tab (.type s) = some sv) (htv : typeDatum P.tab (.type t) = some tv) (hcv : db.classVal c = some cv) :
    (∀ kind sp xk, (kind, sp) ∈ kinds →
      (∀ m < 2 ^ 16, Decides P.map st chosen sv tv cv (fact xk sp m) ↔
        Active db gs chosen kind xk s t c m ∧ ¬ (kind = .dontaudit ∧ db.disableDontaudit = true)) ∧
      (Decides P.map st chosen sv tv cv (filtered xk sp) ↔
        (∃ m, Active db gs chosen kind xk s t c m) ∧ ¬ (kind = .dontaudit ∧ db.disableDontaudit = true))) ∧
    (∀ b, (Decides P.map st chosen sv tv cv (.allow b) ↔ Decides P.map P.rules chosen sv tv cv (.allow b)) ∧
      (Decides P.map st chosen sv tv cv (.auditallow b) ↔ Decides P.map P.rules chosen sv tv cv (.auditallow b)) ∧
      (Decides P.map st chosen sv tv cv (.dontaudit b) ↔ Decides P.map P.rules chosen sv tv cv (.dontaudit b))) := by
  obtain ⟨-, -, A, hte, hli, hgood, hsays⟩ := compileX_ext ok hk hc hg hord he
  obtain ⟨hd, hm, T, log, clog, hsh, -⟩ := CilBin.compile_inv ok hk hc
  have hlen' : P.tab.length < 2 ^ 31 := by omega
  obtain ⟨sattr, s1, s2, s3, s4⟩ := CilBin.map_iff hk.syms hlen' hd hm hsv
  obtain ⟨tattr, t1, t2, t3, t4⟩ := CilBin.map_iff hk.syms hlen' hd hm htv
  -- rules of the first compilation are of other kinds
  have hold : ∀ n, (n ∈ Avtab.nodes P.rules.te ∨ ∃ b, n ∈ P.rules.lists b) → n.key.specified ∉ Optimize.xKinds := by
    rintro n (h | h)
    · exact six_not_kinds (hsh.six n (Or.inl ((Avtab.nodes_perm hsh.te).mem_iff.1 h))).1
    · exact six_not_kinds (hsh.six n (Or.inr ((hsh.lists n).2 h))).1
  -- decisions by a new or an old rule
  have hdec : ∀ f, Decides P.map st chosen sv tv cv f ↔ Decides P.map P.rules chosen sv tv cv f ∨
      ∃ cd n, (∀ b, cd = some b → chosen b = true) ∧ A cd n ∧
        (1 ≤ n.key.source ∧ ∃ m, P.map (sv - 1) = some m ∧ Ebitmap.getBit m (n.key.source - 1) = true) ∧
        (1 ≤ n.key.target ∧ ∃ m, P.map (tv - 1) = some m ∧ Ebitmap.getBit m (n.key.target - 1) = true) ∧
        n.key.cls = cv ∧ Optimize.Grants n.key.specified n.datum f := by
    intro f
    constructor
    · rintro ⟨n, hn, h1, h2, h3, h4⟩
      rcases hn with hn | ⟨b, hb, hn⟩
      · rcases (hte n).1 hn with hn | hn
        · exact Or.inl ⟨n, Or.inl hn, h1, h2, h3, h4⟩
        · exact Or.inr ⟨none, n, by simp, hn, h1, h2, h3, h4⟩
      · rcases (hli b n).1 hn with hn | hn
        · exact Or.inl ⟨n, Or.inr ⟨b, hb, hn⟩, h1, h2, h3, h4⟩
        · exact Or.inr ⟨some b, n, by simpa using hb, hn, h1, h2, h3, h4⟩
    · rintro (⟨n, hn, h1, h2, h3, h4⟩ | ⟨cd, n, hch, hn, h1, h2, h3, h4⟩)
      · rcases hn with hn | ⟨b, hb, hn⟩
        · exact ⟨n, Or.inl ((hte n).2 (Or.inl hn)), h1, h2, h3, h4⟩
        · exact ⟨n, Or.inr ⟨b, hb, (hli b n).2 (Or.inl hn)⟩, h1, h2, h3, h4⟩
      · cases cd with
        | none => exact ⟨n, Or.inl ((hte n).2 (Or.inr hn)), h1, h2, h3, h4⟩
        | some b => exact ⟨n, Or.inr ⟨b, hch b rfl, (hli b n).2 (Or.inr hn)⟩, h1, h2, h3, h4⟩
  have hno : ∀ f sp, sp ∈ Optimize.xKinds → (∀ s d, Optimize.Grants s d f → s = sp) → ¬ Decides P.map P.rules chosen sv tv cv f := by
    rintro f sp hsp hf ⟨n, hn, -, -, -, h4⟩
    have := hf _ _ h4
    refine hold n ?_ (this ▸ hsp)
    exact hn.imp id fun ⟨b, _, h⟩ => ⟨b, h⟩
  have hsrc : ∀ x xv, typeDatum P.tab x = some xv →
      ((1 ≤ xv % 2 ^ 16 ∧ ∃ m, P.map (sv - 1) = some m ∧ Ebitmap.getBit m (xv % 2 ^ 16 - 1) = true) ↔ x.Mem db s) := by
    intro x xv hx
    have hp := CilBin.typeDatum_pos hx
    rw [Nat.mod_eq_of_lt (by omega), ← s4 x xv hx]
    constructor
    · rintro ⟨-, m, h1, h2⟩
      rw [s1] at h1; cases h1; exact h2
    · exact fun h => ⟨hp.1, sattr, s1, h⟩
  have htgt : ∀ x xv, typeDatum P.tab x = some xv →
      ((1 ≤ xv % 2 ^ 16 ∧ ∃ m, P.map (tv - 1) = some m ∧ Ebitmap.getBit m (xv % 2 ^ 16 - 1) = true) ↔ x.Mem db t) := by
    intro x xv hx
    have hp := CilBin.typeDatum_pos hx
    rw [Nat.mod_eq_of_lt (by omega), ← t4 x xv hx]
    constructor
    · rintro ⟨-, m, h1, h2⟩
      rw [t1] at h1; cases h1; exact h2
    · exact fun h => ⟨hp.1, tattr, t1, h⟩
  -- the rules that list a number
  have hmain : ∀ kind sp xk m, (kind, sp) ∈ kinds → m < 2 ^ 16 →
      ((∃ cd k, (∀ b, cd = some b → chosen b = true) ∧ k.specified = sp ∧ (∃ g ∈ gs, GAdds db P.tab g cd k xk m) ∧
        (1 ≤ k.source ∧ ∃ m, P.map (sv - 1) = some m ∧ Ebitmap.getBit m (k.source - 1) = true) ∧
        (1 ≤ k.target ∧ ∃ m, P.map (tv - 1) = some m ∧ Ebitmap.getBit m (k.target - 1) = true) ∧ k.cls = cv) ↔
      Active db gs chosen kind xk s t c m ∧ ¬ (kind = .dontaudit ∧ db.disableDontaudit = true)) := by
    intro kind sp xk m hks hm
    obtain ⟨hsp, hiff⟩ := kinds_iff hks
    constructor
    · rintro ⟨cd, k, hch, rfl, ⟨g, hgm, rfl, r, hr, hnd, x, y, hem, rfl, hb, hsp, sv', tv', c', cv', hcc, hx, hy, hcls, hkey⟩, c1, c2, c3⟩
      have hkd := (hiff _).1 hsp
      rw [hkey] at c1 c2 c3
      simp only [key] at c1 c2 c3
      rw [hsrc x sv' hx] at c1
      rw [htgt y tv' hy] at c2
      rw [Nat.mod_eq_of_lt (ok.cls c' cv' hcls)] at c3
      subst c3
      obtain rfl := ok.clsInj _ _ _ hcls hcv
      exact ⟨⟨g, hgm, hch, r, hr, hkd, CilBin.emits_iff.2 ⟨x, y, hem, c1, c2⟩, hcc, rfl, hb⟩, hkd ▸ hnd⟩
    · rintro ⟨⟨g, hgm, hch, r, hr, hkd, hcov, hcc, rfl, hb⟩, hnd⟩
      obtain ⟨x, y, hem, hx, hy⟩ := CilBin.emits_iff.1 hcov
      obtain ⟨m1, m2⟩ := CilBin.emits_mem hd hk.types hk.syms (hg g hgm r hr).src (hg g hgm r hr).tgt hem
      obtain ⟨xv, hxv⟩ := CilBin.typeDatum_mem.2 m1
      obtain ⟨yv, hyv⟩ := CilBin.typeDatum_mem.2 m2
      exact ⟨g.cond, key xv yv cv sp, hch, rfl,
        ⟨g, hgm, rfl, r, hr, hkd ▸ hnd, x, y, hem, rfl, hb, (hiff _).2 hkd, xv, yv, c, cv, hcc, hxv, hyv, hcv, rfl⟩,
        (hsrc x xv hxv).2 hx, (htgt y yv hyv).2 hy, Nat.mod_eq_of_lt (ok.cls c cv hcv)⟩
  refine ⟨fun kind sp xk hks => ⟨fun m hm => ?_, ?_⟩, fun b => ⟨?_, ?_, ?_⟩⟩
  · obtain ⟨hsp, hiff⟩ := kinds_iff hks
    rw [hdec, ← hmain kind sp xk m hks hm]
    constructor
    · rintro (h | ⟨cd, n, hch, hn, h1, h2, h3, h4⟩)
      · exact absurd h (hno _ sp hsp fun s d h => ((grants_fact hm).1 h).1)
      · obtain ⟨rfl, -, p, hp, hl⟩ := (grants_fact hm).1 h4
        exact ⟨cd, n.key, hch, rfl, (hsays cd n.key xk m hm).1 ⟨n, p, hn, rfl, hp, hl⟩, h1, h2, h3⟩
    · rintro ⟨cd, k, hch, rfl, hga, h1, h2, h3⟩
      obtain ⟨n, p, hn, rfl, hp, hl⟩ := (hsays cd k xk m hm).2 hga
      exact Or.inr ⟨cd, n, hch, hn, h1, h2, h3, (grants_fact hm).2 ⟨rfl, hsp, p, hp, hl⟩⟩
  · obtain ⟨hsp, hiff⟩ := kinds_iff hks
    rw [hdec]
    constructor
    · rintro (h | ⟨cd, n, hch, hn, h1, h2, h3, h4⟩)
      · exact absurd h (hno _ sp hsp fun s d h => (grants_filtered.1 h).1)
      · obtain ⟨rfl, -, p, hp, hf⟩ := grants_filtered.1 h4
        obtain ⟨-, p', xk', hp', hpk, m, hm, hG⟩ := hgood cd n hn
        rw [hp] at hp'
        cases hp'
        obtain rfl := filtered_kind hpk hf
        have := (hmain kind _ xk m hks hm).1 ⟨cd, n.key, hch, rfl, hG, h1, h2, h3⟩
        exact ⟨⟨m, this.1⟩, this.2⟩
    · rintro ⟨⟨m, ha⟩, hnd⟩
      have hm : m < 2 ^ 16 := by
        obtain ⟨g, hgm, -, r, hr, -, -, -, -, hb⟩ := ha
        exact (hg g hgm r hr).small m hb
      obtain ⟨cd, k, hch, rfl, hga, h1, h2, h3⟩ := (hmain kind sp xk m hks hm).2 ⟨ha, hnd⟩
      obtain ⟨n, p, hn, rfl, hp, hl⟩ := (hsays cd k xk m hm).2 hga
      exact Or.inr ⟨cd, n, hch, hn, h1, h2, h3, grants_filtered.2 ⟨rfl, hsp, p, hp, lists_filtered hl⟩⟩
  · rw [hdec]
    refine ⟨fun h => h.elim id ?_, Or.inl⟩
    rintro ⟨cd, n, -, hn, -, -, -, h4⟩
    have := (hgood cd n hn).1
    rw [h4.1] at this
    exact absurd this (by decide)
  · rw [hdec]
    refine ⟨fun h => h.elim id ?_, Or.inl⟩
    rintro ⟨cd, n, -, hn, -, -, -, h4⟩
    have := (hgood cd n hn).1
    rw [h4.1] at this
    exact absurd this (by decide)
  · rw [hdec]
    refine ⟨fun h => h.elim id ?_, Or.inl⟩
    rintro ⟨cd, n, -, hn, -, -, -, h4⟩
    have := (hgood cd n hn).1
    rw [h4.1] at this
    exact absurd this (by decide)

/-- C77: compilation does not fail when classes have the permission `ioctl` or `nlmsg` and no neverallow rule is in a conditional. -/
theorem C77_compiles {db : Db} (ok : DbOk db) {decls : List Sym} {rules : List Rule} (hk : Complete db decls rules) {P : Policy}
    (hc : compile db decls rules = some P) {gs : List Group} (hg : GroupsOk decls gs) {data : XKind → Nat → Option (BitVec 32)}
    {ord : XTab → XTab} (hord : ∀ t, (ord t).Perm t)
    (hn : ∀ g ∈ gs, ∀ r ∈ g.rules, r.kind = .neverallow → g.cond = none)
    (hd : ∀ g ∈ gs, ∀ r ∈ g.rules, ∀ c ∈ r.permx.classes, ∃ v d, db.classVal c = some v ∧ data r.permx.kind v = some d) :
    ∃ st, compileX db data P.tab ord gs P.rules = some st := by
  obtain ⟨hde, -, T, log, clog, hsh, -⟩ := CilBin.compile_inv ok hk hc
  exact stotal_forE (fun g h => group_sstep ok hk.syms P.tab hord (hg g h) P.rules)
    (fun g h => group_total ok hde hk.types hk.syms hord (hg g h) (hn g h) (hd g h) P.rules) _ _ (ext_start hsh.te hsh.cond)

/-! ### A policy that meets the hypotheses -/

/-- Numbers 0 to 300: all functions of driver 0 and functions 0 to 44 of driver 1. -/
def exPerms : Ebitmap := (Ebitmap.initRange 0 300).getD Ebitmap.init

theorem exPerms_ok : Ebitmap.WF exPerms ∧ ∀ n, Ebitmap.getBit exPerms n = true ↔ n ≤ 300 := by
  obtain ⟨h1, h2⟩ := Ebitmap.C01_init_range 0 300 (by decide) (by decide)
  obtain ⟨e, he⟩ := Option.isSome_iff_exists.1 (h1.2 ⟨by decide, by decide⟩)
  have : exPerms = e := by simp [exPerms, he]
  rw [this]
  exact ⟨(h2 e he).1, fun n => by rw [(h2 e he).2]; simp⟩

/-- The blocks of the bitmap, for both kinds. -/
example : permxList .ioctl exPerms = some
      [⟨Optimize.FUNCTION, 1#8, [0xffffffff#32, 0x1fff#32, 0#32, 0#32, 0#32, 0#32, 0#32, 0#32]⟩,
       ⟨Optimize.DRIVER, 0#8, [1#32, 0#32, 0#32, 0#32, 0#32, 0#32, 0#32, 0#32]⟩] ∧
    permxList .nlmsg exPerms = some
      [⟨Optimize.NLMSG, 0#8, List.replicate 8 0xffffffff#32⟩,
       ⟨Optimize.NLMSG, 1#8, [0xffffffff#32, 0x1fff#32, 0#32, 0#32, 0#32, 0#32, 0#32, 0#32]⟩] := by
  decide +kernel

def exGroups : List Group :=
  [⟨none, [⟨.allowed, .attr 0, .sym (.type 2), ⟨.ioctl, [0], exPerms⟩⟩, ⟨.neverallow, .attr 1, .self, ⟨.ioctl, [0], exPerms⟩⟩]⟩,
   ⟨some (0, true), [⟨.dontaudit, .attr 1, .other, ⟨.nlmsg, [0, 1], exPerms⟩⟩]⟩]

theorem exGroups_ok : GroupsOk CilBin.exDecls exGroups := by
  intro g hg r hr
  have hs : ∀ n, Ebitmap.getBit exPerms n = true → n < 2 ^ 16 := fun n h => by have := (exPerms_ok.2 n).1 h; omega
  simp only [exGroups, List.mem_cons, List.not_mem_nil, or_false] at hg
  rcases hg with rfl | rfl
  · simp only [List.mem_cons, List.not_mem_nil, or_false] at hr
    rcases hr with rfl | rfl
    · exact ⟨by decide, (fun y h => by cases h; decide), exPerms_ok.1, hs⟩
    · exact ⟨by decide, (fun y h => by cases h), exPerms_ok.1, hs⟩
  · simp only [List.mem_cons, List.not_mem_nil, or_false] at hr
    subst hr
    exact ⟨by decide, (fun y h => by cases h), exPerms_ok.1, hs⟩

/-- The policy compiles, and type 0 may use command 300 on type 2, but not 301. -/
example : DbOk CilBin.exDb ∧ Complete CilBin.exDb CilBin.exDecls CilBin.exRules ∧ GroupsOk CilBin.exDecls exGroups ∧
    ∃ P st, compile CilBin.exDb CilBin.exDecls CilBin.exRules = some P ∧ P.tab.length < 2 ^ 16 ∧
      compileX CilBin.exDb (fun _ _ => some 1#32) P.tab id exGroups P.rules = some st ∧ typeDatum P.tab (.type 0) = some 3 ∧
      typeDatum P.tab (.type 2) = some 1 ∧
      ∀ chosen, Decides P.map st chosen 3 1 1 (.ioctl Avtab.XPERMS_ALLOWED 1 44) ∧ ¬ Decides P.map st chosen 3 1 1 (.ioctl Avtab.XPERMS_ALLOWED 1 45) := by
  have h1 : (compile CilBin.exDb CilBin.exDecls CilBin.exRules).isSome = true := by decide +kernel
  have h2 : (compile CilBin.exDb CilBin.exDecls CilBin.exRules).map (fun P => P.tab) = some [.type 2, .attr 0, .type 0, .type 1] := by decide +kernel
  obtain ⟨P, hP⟩ := Option.isSome_iff_exists.1 h1
  rw [hP, Option.map_some, Option.some.injEq] at h2
  obtain ⟨st, hst⟩ := C77_compiles CilBin.exDb_ok CilBin.ex_complete hP exGroups_ok (data := fun _ _ => some 1#32) (ord := id)
    (fun t => List.Perm.refl _)
    (by
      intro g hg r hr hk
      simp only [exGroups, List.mem_cons, List.not_mem_nil, or_false] at hg
      rcases hg with rfl | rfl
      · rfl
      · simp only [List.mem_cons, List.not_mem_nil, or_false] at hr
        subst hr
        cases hk)
    (by
      intro g hg r hr c hc
      have : c ≤ 1 := by
        simp only [exGroups, List.mem_cons, List.not_mem_nil, or_false] at hg
        rcases hg with rfl | rfl <;> simp only [List.mem_cons, List.not_mem_nil, or_false] at hr
        · rcases hr with rfl | rfl <;> simp at hc <;> omega
        · subst hr
          simp at hc
          omega
      exact ⟨c + 1, 1#32, by simp [CilBin.exDb, this], rfl⟩)
  have hlen : P.tab.length < 2 ^ 16 := by rw [h2]; decide
  have hs0 : typeDatum P.tab (.type 0) = some 3 := by rw [h2]; decide
  have ht2 : typeDatum P.tab (.type 2) = some 1 := by rw [h2]; decide
  refine ⟨CilBin.exDb_ok, CilBin.ex_complete, exGroups_ok, P, st, hP, hlen, hst, hs0, ht2, fun chosen => ?_⟩
  have hdec := fun m hm => (((C77_decisions_partial CilBin.exDb_ok CilBin.ex_complete hP hlen exGroups_ok (fun t => List.Perm.refl _) hst (chosen := chosen)
    (c := 0) (cv := 1) hs0 ht2 rfl).1 .allowed Avtab.XPERMS_ALLOWED .ioctl (by decide)).1 m hm)
  constructor
  · refine (hdec 300 (by decide)).2 ⟨⟨_, List.mem_cons_self, by simp, _, List.mem_cons_self, rfl, ⟨?_, rfl⟩, by simp, rfl, (exPerms_ok.2 300).2 (by decide)⟩, by simp⟩
    show Ebitmap.getBit CilBin.exBits 0 = true
    decide
  · intro h
    obtain ⟨⟨g, hg, -, r, hr, hk, -, -, -, hb⟩, -⟩ := (hdec 301 (by decide)).1 h
    simp only [exGroups, List.mem_cons, List.not_mem_nil, or_false] at hg
    rcases hg with rfl | rfl <;> simp only [List.mem_cons, List.not_mem_nil, or_false] at hr
    · rcases hr with rfl | rfl
      · exact absurd ((exPerms_ok.2 301).1 hb) (by decide)
      · cases hk
    · subst hr
      cases hk

end Verif.CilX
