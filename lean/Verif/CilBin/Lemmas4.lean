import Verif.CilBin.Lemmas3

/-!
# Lemmas on compiled policies
-/

namespace Verif.CilBin
open Ebitmap (Ebitmap)
open CilDeny (CP MP)
open Avtab (Avtab Key Datum Node Rel Answers)
open Services (Vec)

/-! ### Compilation does not fail -/

theorem helper_total {db : Db} {tab : List Sym} {kind : Kind} {x y : Sym} {cond : Option Branch} {c : Nat} {ps : List Nat}
    (hk : kind ≠ .neverallow) (hx : x ∈ tab) (hy : y ∈ tab) (hc : ∃ v, db.classVal c = some v) (hp : ∀ p ∈ ps, ∃ v, db.permVal c p = some v) :
    Total (expandHelper db tab kind x y cond c ps) := by
  intro st G T hi
  obtain ⟨cv, hcv⟩ := hc
  obtain ⟨data, hd⟩ := permsToDatum_total 0#32 hp
  obtain ⟨sv, hsv⟩ := typeDatum_mem.2 hx
  obtain ⟨tv, htv⟩ := typeDatum_mem.2 hy
  unfold expandHelper
  simp only [hcv, hd, hsv, htv]
  split
  · exact ⟨st, rfl⟩
  · obtain ⟨sp, hsp⟩ : ∃ sp, kind.spec = some sp := by cases kind <;> first | exact ⟨_, rfl⟩ | exact absurd rfl hk
    obtain ⟨st', h, -⟩ := insertAvrule_ok hi hsp sv tv cv (if kind = .dontaudit then ~~~ data else data) cond
    exact ⟨st', h⟩

mutual
theorem expand_total {db : Db} (ok : DbOk db) {tab : List Sym} {kind : Kind} {x y : Sym} {cond : Option Branch}
    (hk : kind ≠ .neverallow) (hx : x ∈ tab) (hy : y ∈ tab) :
    ∀ l : List CP, Known db l → Total (expand db tab kind x y cond l)
  | [], _ => fun st _ _ _ => ⟨st, by rw [expand]⟩
  | z :: l, h => by
    have : expand db tab kind x y cond (z :: l) = fun st =>
        match expandItem db tab kind x y cond z st with | none => none | some st => expand db tab kind x y cond l st := by
      funext st; rw [expand]; cases expandItem db tab kind x y cond z st <;> rfl
    rw [this]
    exact total_seq (item_step ok tab kind x y cond z) (item_total ok hk hx hy z (h z (by simp)))
      (expand_total ok hk hx hy l fun w hw => h w (List.mem_cons_of_mem _ hw))
theorem item_total {db : Db} (ok : DbOk db) {tab : List Sym} {kind : Kind} {x y : Sym} {cond : Option Branch}
    (hk : kind ≠ .neverallow) (hx : x ∈ tab) (hy : y ∈ tab) :
    ∀ z : CP, (∀ c ps, Lists c ps z → (∃ v, db.classVal c = some v) ∧ ∀ p ∈ ps, ∃ v, db.permVal c p = some v) →
      Total (expandItem db tab kind x y cond z)
  | .cls c ps, h => by
    have : expandItem db tab kind x y cond (.cls c ps) = expandHelper db tab kind x y cond c ps := by funext st; rw [expandItem]
    rw [this]
    exact helper_total hk hx hy (h c ps .cls).1 (h c ps .cls).2
  | .map n ms, h => by
    have : expandItem db tab kind x y cond (.map n ms) = expandMap db tab kind x y cond ms := by funext st; rw [expandItem]
    rw [this]
    exact map_total ok hk hx hy ms fun m l h1 w hw c ps h2 => h c ps (.map h1 hw h2)
  | .set n l, h => by
    have : expandItem db tab kind x y cond (.set n l) = expand db tab kind x y cond l := by funext st; rw [expandItem]
    rw [this]
    exact expand_total ok hk hx hy l fun w hw c ps h2 => h c ps (.set hw h2)
theorem map_total {db : Db} (ok : DbOk db) {tab : List Sym} {kind : Kind} {x y : Sym} {cond : Option Branch}
    (hk : kind ≠ .neverallow) (hx : x ∈ tab) (hy : y ∈ tab) :
    ∀ ms : List MP, (∀ n l, MP.mk n l ∈ ms → Known db l) → Total (expandMap db tab kind x y cond ms)
  | [], _ => fun st _ _ _ => ⟨st, by rw [expandMap]⟩
  | .mk n l :: ms, h => by
    have : expandMap db tab kind x y cond (.mk n l :: ms) = fun st =>
        match expand db tab kind x y cond l st with | none => none | some st => expandMap db tab kind x y cond ms st := by
      funext st; rw [expandMap]; cases expand db tab kind x y cond l st <;> rfl
    rw [this]
    exact total_seq (expand_step ok tab kind x y cond l) (expand_total ok hk hx hy l (h n l (by simp)))
      (map_total ok hk hx hy ms fun m l' h1 => h m l' (List.mem_cons_of_mem _ h1))
end

theorem emits_mem {db : Db} {decls tab : List Sym} (hd : declare db decls [] = some tab) (ht : ∀ v < db.numTypes, Sym.type v ∈ decls)
    (hs : ∀ x ∈ decls, x.Ok db) {src : Sym} {tgt : Target} (h1 : src ∈ decls) (h2 : ∀ y, tgt = .sym y → y ∈ decls) {x y : Sym}
    (he : Emits db src tgt x y) : x ∈ tab ∧ y ∈ tab := by
  have hm := declare_mem hd
  simp only [List.not_mem_nil, false_or] at hm
  have hty : ∀ v < db.numTypes, Sym.type v ∈ tab := fun v hv => (hm _).2 ⟨ht v hv, rfl⟩
  have hlt : ∀ {w : Sym} {u : Nat}, w ∈ decls → w.Mem db u → Sym.type u ∈ tab := fun hw hu => hty _ ((hs _ hw).lt hu)
  cases tgt with
  | self => obtain ⟨s, h3, rfl, rfl⟩ := he; exact ⟨hlt h1 h3, hlt h1 h3⟩
  | notself => obtain ⟨s, t, h3, h4, -, rfl, rfl⟩ := he; exact ⟨hlt h1 h3, hty _ h4⟩
  | other => obtain ⟨s, t, h3, h4, -, rfl, rfl⟩ := he; exact ⟨hlt h1 h3, hlt h1 h4⟩
  | sym z =>
    have key : ∀ {w u : Sym}, w ∈ decls → (if shouldExpand db w then ∃ s, w.Mem db s ∧ u = .type s else u = w) → u ∈ tab := by
      intro w u hw hu
      split at hu
      · obtain ⟨s, h5, rfl⟩ := hu; exact hlt hw h5
      · rename_i hn
        subst hu
        refine (hm _).2 ⟨hw, ?_⟩
        cases u with
        | type v => rfl
        | attr a =>
          simp only [shouldExpand, Bool.or_eq_true, Bool.not_eq_true', not_or, Bool.not_eq_false] at hn
          exact hn.1
    exact ⟨key h1 he.1, key (h2 z rfl) he.2⟩

theorem avrule_total {db : Db} (ok : DbOk db) {tab : List Sym} {r : AvRule} (hn : r.kind ≠ .neverallow) (hs : r.src.Ok db)
    (ht : ∀ y, r.tgt = .sym y → y.Ok db) (hk : Known db r.perms) (he : ∀ x y, Emits db r.src r.tgt x y → x ∈ tab ∧ y ∈ tab) :
    Total (avruleToAvtab db tab r) := by
  by_cases hd : r.kind = .dontaudit ∧ db.disableDontaudit = true
  · exact fun st _ _ _ => ⟨st, by simp only [avruleToAvtab, if_pos hd]⟩
  · obtain ⟨ss, hss, hms⟩ := expandType_ok ok hs
    have hgo := fun x y => expand_step ok tab r.kind x y r.cond r.perms
    have htot : ∀ x y, Emits db r.src r.tgt x y → Total (expand db tab r.kind x y r.cond r.perms) :=
      fun x y h => expand_total ok hn (he x y h).1 (he x y h).2 _ hk
    have hne : ∀ s t, Step (fun st => if s ≠ t then expand db tab r.kind (.type s) (.type t) r.cond r.perms st else some st)
        (fun c k b => s ≠ t ∧ Adds db tab r.kind (.type s) (.type t) r.cond (CilDeny.flat r.perms) c k b) := by
      intro s t
      by_cases h : s ≠ t
      · simp only [if_pos h]
        exact (hgo _ _).congr fun c k b _ _ => by simp [h]
      · simp only [if_neg h]
        exact step_skip.congr fun c k b _ _ => by simp [h]
    have hnt : ∀ s t, (s ≠ t → Emits db r.src r.tgt (.type s) (.type t)) →
        Total (fun st => if s ≠ t then expand db tab r.kind (.type s) (.type t) r.cond r.perms st else some st) := by
      intro s t h
      by_cases h' : s ≠ t
      · simp only [if_pos h']; exact htot _ _ (h h')
      · simp only [if_neg h']; exact fun st _ _ _ => ⟨st, rfl⟩
    cases htg : r.tgt with
    | self =>
      have : avruleToAvtab db tab r = forM (fun s => expand db tab r.kind (.type s) (.type s) r.cond r.perms) ss := by
        funext st; simp only [avruleToAvtab, if_neg hd, htg, hss, Option.bind_some]
      rw [this]
      exact total_forM (fun s _ => hgo _ _) fun s h => htot _ _ (by rw [htg]; exact ⟨s, (hms s).1 h, rfl, rfl⟩)
    | notself =>
      have : avruleToAvtab db tab r = forM (fun s => forM (fun t st =>
          if s ≠ t then expand db tab r.kind (.type s) (.type t) r.cond r.perms st else some st) (List.range db.numTypes)) ss := by
        funext st; simp only [avruleToAvtab, if_neg hd, htg, hss, Option.bind_some]
      rw [this]
      refine total_forM (fun s _ => step_forM fun t _ => hne s t) fun s h => total_forM (fun t _ => hne s t) fun t h' => hnt s t fun h'' => ?_
      rw [htg]
      exact ⟨s, t, (hms s).1 h, List.mem_range.1 h', h'', rfl, rfl⟩
    | other =>
      have : avruleToAvtab db tab r = forM (fun s => forM (fun t st =>
          if s ≠ t then expand db tab r.kind (.type s) (.type t) r.cond r.perms st else some st) ss) ss := by
        funext st; simp only [avruleToAvtab, if_neg hd, htg, hss, Option.bind_some]
      rw [this]
      refine total_forM (fun s _ => step_forM fun t _ => hne s t) fun s h => total_forM (fun t _ => hne s t) fun t h' => hnt s t fun h'' => ?_
      rw [htg]
      exact ⟨s, t, (hms s).1 h, (hms t).1 h', h'', rfl, rfl⟩
    | sym z =>
      obtain ⟨ts, hts, hmt⟩ := expandType_ok ok (ht z htg)
      rw [htg] at htot
      cases he1 : shouldExpand db r.src <;> cases he2 : shouldExpand db z
      · have : avruleToAvtab db tab r = expand db tab r.kind r.src z r.cond r.perms := by
          funext st; simp only [avruleToAvtab, if_neg hd, htg, he1, he2]
        rw [this]
        exact htot _ _ (by simp [Emits, he1, he2])
      · have : avruleToAvtab db tab r = forM (fun t => expand db tab r.kind r.src (.type t) r.cond r.perms) ts := by
          funext st; simp only [avruleToAvtab, if_neg hd, htg, he1, he2, hts, Option.bind_some]
        rw [this]
        exact total_forM (fun t _ => hgo _ _) fun t h => htot _ _ (by simp [Emits, he1, he2, (hmt t).1 h])
      · have : avruleToAvtab db tab r = forM (fun s => expand db tab r.kind (.type s) z r.cond r.perms) ss := by
          funext st; simp only [avruleToAvtab, if_neg hd, htg, he1, he2, hss, Option.bind_some]
        rw [this]
        exact total_forM (fun s _ => hgo _ _) fun s h => htot _ _ (by simp [Emits, he1, he2, (hms s).1 h])
      · have : avruleToAvtab db tab r =
            forM (fun s => forM (fun t => expand db tab r.kind (.type s) (.type t) r.cond r.perms) ts) ss := by
          funext st; simp only [avruleToAvtab, if_neg hd, htg, he1, he2, hss, hts, Option.bind_some]
        rw [this]
        exact total_forM (fun s _ => step_forM fun t _ => hgo _ _) fun s h => total_forM (fun t _ => hgo _ _) fun t h' =>
          htot _ _ (by simp [Emits, he1, he2, (hms s).1 h, (hmt t).1 h'])

theorem avrules_total {db : Db} (ok : DbOk db) {decls tab : List Sym} (hd : declare db decls [] = some tab) {rules : List Rule}
    (hc : Complete db decls rules) (h : ∀ r ∈ rules, ∃ a, r = .av a ∧ Known db a.perms ∧ (a.kind = .neverallow → a.cond = none)) {st : State}
    {G : Pred} {T : Option Branch → Key → BitVec 32 → Prop} (hi : Inv st G T) : ∃ st', forM (ruleToPolicydb db tab) rules st = some st' := by
  induction rules generalizing st G T with
  | nil => exact ⟨st, rfl⟩
  | cons r rules ih =>
    obtain ⟨a, rfl, hkn, hne⟩ := h r (by simp)
    have hra := hc.rules (.av a) (by simp)
    have hc' : Complete db decls rules := ⟨hc.types, hc.syms, fun r hr => hc.rules r (List.mem_cons_of_mem _ hr)⟩
    have hs : a.src.Ok db := hc.syms _ hra.1
    have ht : ∀ y, a.tgt = .sym y → y.Ok db := fun y hy => hc.syms _ (hra.2 y hy)
    have h1 : ∃ st1 G1 T1, ruleToPolicydb db tab (.av a) st = some st1 ∧ Inv st1 G1 T1 := by
      unfold ruleToPolicydb
      simp only
      split
      · exact ⟨st, G, T, rfl, hi⟩
      · rename_i hno
        have hk : a.kind ≠ .neverallow := fun hk => hno ⟨hk, hne hk⟩
        obtain ⟨st1, e1⟩ := avrule_total ok hk hs ht hkn
          (fun x y he => emits_mem hd hc.types hc.syms hra.1 hra.2 he) st G T hi
        exact ⟨st1, _, _, e1, avrule_step ok tab a hs ht st G T hi st1 e1⟩
    obtain ⟨st1, G1, T1, e1, i1⟩ := h1
    obtain ⟨st2, e2⟩ := ih hc' (fun r hr => h r (List.mem_cons_of_mem _ hr)) i1
    exact ⟨st2, by unfold forM; simp only [e1, e2]⟩

/-! ### Decisions -/

theorem flag_key (on : Bool) (n : Node) :
    (flag on n).key.source = n.key.source ∧ (flag on n).key.target = n.key.target ∧ (flag on n).key.cls = n.key.cls ∧
      (flag on n).datum = n.datum ∧ (flag on n).key.specified = if on then n.key.specified ||| Avtab.ENABLED else n.key.specified := by
  cases on <;> simp [flag]

theorem enabled_iff {sp kind : BitVec 16} (hs : AvK sp ∨ TyK sp) (hk : AvK kind) (on : Bool) :
    ((if on then sp ||| Avtab.ENABLED else sp) &&& kind = kind ∧ (if on then sp ||| Avtab.ENABLED else sp) &&& Avtab.ENABLED = Avtab.ENABLED) ↔
      on = true ∧ sp = kind := by
  rcases hs with (rfl | rfl | rfl) | (rfl | rfl | rfl) <;> rcases hk with rfl | rfl | rfl <;> cases on <;> decide

theorem vec_avK (v : Vec) : AvK v.kind := by
  cases v
  · exact Or.inl rfl
  · exact Or.inr (Or.inl rfl)
  · exact Or.inr (Or.inr rfl)

theorem vec_pol (v : Vec) : pol v.kind = v.bit := by cases v <;> decide

/-- The kind of rule for a vector. -/
def vkind : Vec → Kind
  | .allowed => .allowed
  | .auditallow => .auditallow
  | .auditdeny => .dontaudit

theorem vkind_spec (v : Vec) (k : Kind) : k.spec = some v.kind ↔ k = vkind v := by
  cases v <;> cases k <;> decide

theorem decisions {db : Db} (ok : DbOk db) {decls : List Sym} {rules : List Rule} (hk : Complete db decls rules) {P : Policy}
    (hc : compile db decls rules = some P) (hlen : P.tab.length < 2 ^ 16) {chosen : Branch → Bool} {p : Services.SPolicy}
    (hl : Loaded P chosen p) {s t c pm sv tv cv pv : Nat} (hsv : typeDatum P.tab (.type s) = some sv)
    (htv : typeDatum P.tab (.type t) = some tv) (hcv : db.classVal c = some cv) (hpv : db.permVal c pm = some pv) :
    ∃ sattr tattr sbits tbits, p.typeAttr (sv - 1) = some sattr ∧ p.typeAttr (tv - 1) = some tattr ∧
      Ebitmap.forEachPositiveBit (sattr.highbit + 1) sattr = some sbits ∧
      Ebitmap.forEachPositiveBit (tattr.highbit + 1) tattr = some tbits ∧
      ∀ v : Vec, v.changed (pv - 1) (Services.tePass p cv sbits tbits) ↔
        Active db rules chosen (vkind v) s t c pm ∧ ¬ (vkind v = .dontaudit ∧ db.disableDontaudit = true) := by
  obtain ⟨hd, hm, T, log, clog, hsh, hav, -⟩ := compile_inv ok hk hc
  have hlen' : P.tab.length < 2 ^ 31 := by omega
  obtain ⟨sattr, s1, s2, s3, s4⟩ := map_iff hk.syms hlen' hd hm hsv
  obtain ⟨tattr, t1, t2, t3, t4⟩ := map_iff hk.syms hlen' hd hm htv
  rw [← hl.attr] at s1 t1
  obtain ⟨sbits, s5, -⟩ := bits_ok (a := sattr) (S := fun n => Ebitmap.getBit sattr n = true) ⟨s2, fun _ => Iff.rfl⟩
  obtain ⟨tbits, t5, -⟩ := bits_ok (a := tattr) (S := fun n => Ebitmap.getBit tattr n = true) ⟨t2, fun _ => Iff.rfl⟩
  refine ⟨sattr, tattr, sbits, tbits, s1, t1, s5, t5, fun v => ?_⟩
  obtain ⟨l, hl1, hl2⟩ := hl.cond
  have hpr := ok.perm c pm pv hpv
  have hb : pv - 1 < 32 := by omega
  have hte : Services.Contains p.te log := by
    rw [hl.te]
    exact fun k => Avtab.enumerate_of_rel hsh.te k
  have tok : Services.TablesOk p ⟨log, l⟩ := by
    refine ⟨hte, hl1, fun ty m hm' => ?_⟩
    rw [hl.attr] at hm'
    have := attrMap_ok (mapInit_ok hlen') hk.syms hlen' hm ty
    split at this
    · obtain ⟨e, h1, h2, h3⟩ := this
      rw [h1] at hm'
      cases hm'
      refine ⟨h2, fun b hb => ?_⟩
      rcases (h3 b).1 hb with rfl | ⟨a, -, -, ha, -⟩
      · omega
      · have := (typeDatum_pos ha).2; omega
    · rw [this] at hm'; cases hm'
  have hap := Services.tePass_applies tok (s := ⟨0, 0, sv, ⟨⟨0, Ebitmap.init⟩, ⟨0, Ebitmap.init⟩⟩⟩) (t := ⟨0, 0, tv, ⟨⟨0, Ebitmap.init⟩, ⟨0, Ebitmap.init⟩⟩⟩)
    s1 t1 s5 t5 v cv (pv - 1) hb
  rw [hap]
  -- rules of the policy for a key
  have step1 : (∃ r, Services.Applies p ⟨log, l⟩ v.kind ⟨0, 0, sv, ⟨⟨0, Ebitmap.init⟩, ⟨0, Ebitmap.init⟩⟩⟩ ⟨0, 0, tv, ⟨⟨0, Ebitmap.init⟩, ⟨0, Ebitmap.init⟩⟩⟩ cv r ∧
        r.datum.data.getLsbD (pv - 1) = v.bit) ↔
      ∃ cd k, (∀ b, cd = some b → chosen b = true) ∧ k.specified = v.kind ∧ k.cls = cv ∧ Services.Covers p sv k.source ∧
        Services.Covers p tv k.target ∧ AllAdds db P.tab rules cd k (pv - 1) := by
    constructor
    · rintro ⟨r, ⟨c1, c2, c3, c4⟩, hbit⟩
      rcases c4 with ⟨m1, m2⟩ | ⟨m1, m2⟩
      · refine ⟨none, r.key, by simp, m2, c3, c1, c2, ?_⟩
        refine (hav none r.key (pv - 1) (m2 ▸ vec_avK v) hb).1 ⟨r, m1, rfl, ?_⟩
        rw [m2, vec_pol]; exact hbit
      · obtain ⟨b, m, hmb, rfl⟩ := (hl2 r).1 m1
        have hsix := (hsh.six m (Or.inr ((hsh.lists m).2 ⟨b, hmb⟩))).1
        obtain ⟨f1, f2, f3, f4, f5⟩ := flag_key (chosen b) m
        rw [f5] at m2
        obtain ⟨g1, g2⟩ := (enabled_iff hsix (vec_avK v) (chosen b)).1 m2
        rw [f1] at c1; rw [f2] at c2; rw [f3] at c3; rw [f4] at hbit
        refine ⟨some b, m.key, by simpa using g1, g2, c3, c1, c2, ?_⟩
        refine (hav (some b) m.key (pv - 1) (g2 ▸ vec_avK v) hb).1 ⟨m, hmb, rfl, ?_⟩
        rw [g2, vec_pol]; exact hbit
    · rintro ⟨cd, k, hch, hks, hkc, c1, c2, hadd⟩
      obtain ⟨n, h1, rfl, h3⟩ := (hav cd k (pv - 1) (hks ▸ vec_avK v) hb).2 hadd
      rw [hks, vec_pol] at h3
      cases cd with
      | none => exact ⟨n, ⟨c1, c2, hkc, Or.inl ⟨h1, hks⟩⟩, h3⟩
      | some b =>
        obtain ⟨f1, f2, f3, f4, f5⟩ := flag_key (chosen b) n
        have hsix := (hsh.six n (Or.inr ((hsh.lists n).2 ⟨b, h1⟩))).1
        refine ⟨flag (chosen b) n, ⟨f1 ▸ c1, f2 ▸ c2, f3 ▸ hkc, Or.inr ⟨(hl2 _).2 ⟨b, n, h1, rfl⟩, ?_⟩⟩, by rw [f4]; exact h3⟩
        rw [f5]
        exact (enabled_iff hsix (vec_avK v) (chosen b)).2 ⟨hch b rfl, hks⟩
  rw [step1]
  have hsrc : ∀ x xv, typeDatum P.tab x = some xv → (Services.Covers p sv (xv % 2 ^ 16) ↔ x.Mem db s) := by
    intro x xv hx
    have hp := typeDatum_pos hx
    rw [Nat.mod_eq_of_lt (by omega), ← s4 x xv hx]
    constructor
    · rintro ⟨-, m, h1, h2⟩
      rw [s1] at h1; cases h1; exact h2
    · exact fun h => ⟨hp.1, sattr, s1, h⟩
  have htgt : ∀ x xv, typeDatum P.tab x = some xv → (Services.Covers p tv (xv % 2 ^ 16) ↔ x.Mem db t) := by
    intro x xv hx
    have hp := typeDatum_pos hx
    rw [Nat.mod_eq_of_lt (by omega), ← t4 x xv hx]
    constructor
    · rintro ⟨-, m, h1, h2⟩
      rw [t1] at h1; cases h1; exact h2
    · exact fun h => ⟨hp.1, tattr, t1, h⟩
  constructor
  · rintro ⟨cd, k, hch, hks, hkc, c1, c2, r, hr, hnd, x, y, hem, hcd, hsp, sv', tv', cls, cv', q, hf, hx, hy, hcls, hperm, hkey⟩
    rw [hks, vkind_spec] at hsp
    rw [hkey] at c1 c2 hkc
    simp only [key] at c1 c2 hkc
    rw [hsrc x sv' hx] at c1
    rw [htgt y tv' hy] at c2
    rw [Nat.mod_eq_of_lt (ok.cls cls cv' hcls)] at hkc
    subst hkc
    obtain rfl := ok.clsInj _ _ _ hcls hcv
    have : pv - 1 + 1 = pv := Nat.sub_add_cancel hpr.1
    rw [this] at hperm
    obtain rfl := ok.permInj _ _ _ _ hperm hpv
    refine ⟨⟨r, hr, hsp, fun b hb => hch b (hcd.trans hb), emits_iff.2 ⟨x, y, hem, c1, c2⟩, CilDeny.perms_iff.2 hf⟩, ?_⟩
    rw [← hsp]; exact hnd
  · rintro ⟨⟨r, hr, hkd, hch, hcov, hperm⟩, hnd⟩
    obtain ⟨x, y, hem, hx, hy⟩ := emits_iff.1 hcov
    have hra := hk.rules _ hr
    obtain ⟨m1, m2⟩ := emits_mem hd hk.types hk.syms hra.1 hra.2 hem
    obtain ⟨xv, hxv⟩ := typeDatum_mem.2 m1
    obtain ⟨yv, hyv⟩ := typeDatum_mem.2 m2
    refine ⟨r.cond, key xv yv cv v.kind, hch, rfl, ?_, (hsrc x xv hxv).2 hx, (htgt y yv hyv).2 hy, r, hr, ?_, x, y, hem, rfl, ?_,
      xv, yv, c, cv, pm, CilDeny.perms_iff.1 hperm, hxv, hyv, hcv, ?_, rfl⟩
    · exact Nat.mod_eq_of_lt (ok.cls c cv hcv)
    · rw [hkd]; exact hnd
    · exact (vkind_spec v r.kind).2 hkd
    · rw [hpv]
      have : pv - 1 + 1 = pv := Nat.sub_add_cancel hpr.1
      rw [this]

/-! ### Loading -/

theorem insertAll_log {l : List Node} (h : ∀ n ∈ l, Avtab.isXperm n.key = false) :
    ∃ t : Avtab, Services.Contains t l := by
  let ops := l.map fun n => Avtab.Op.insertNonunique n.key n.datum
  have hlog : ∀ (l log : List Node), (∀ n ∈ l, Avtab.isXperm n.key = false) →
      (l.map fun n => Avtab.Op.insertNonunique n.key n.datum).foldl Avtab.logStep log = l.reverse ++ log := by
    intro l
    induction l with
    | nil => intro log _; rfl
    | cons n l ih =>
      intro log hn
      rw [List.map_cons, List.foldl_cons, ih _ fun m hm => hn m (List.mem_cons_of_mem _ hm)]
      simp [Avtab.logStep, Avtab.stored, hn n (by simp)]
  refine ⟨Avtab.run 1 ops, fun k => ?_⟩
  have := Avtab.C07_enumerate 1 (by decide) ops k
  refine this.trans ?_
  have he : Avtab.logOf ops = l.reverse := by
    have := hlog l [] h
    simpa [Avtab.logOf] using this
  rw [he, List.filter_reverse]
  exact List.reverse_perm _

theorem flag_not_xperm {n : Node} (h : AvK n.key.specified ∨ TyK n.key.specified) (on : Bool) : Avtab.isXperm (flag on n).key = false := by
  obtain ⟨-, -, -, -, h5⟩ := flag_key on n
  unfold Avtab.isXperm
  rw [h5]
  rcases h with (h | h | h) | (h | h | h) <;> rw [h] <;> cases on <;> decide

open Classical in
theorem loadable {st : State} {G : Pred} {T : Option Branch → Key → BitVec 32 → Prop} (h : Inv st G T) (chosen : Branch → Bool) :
    ∃ t, Flagged t st.lists chosen := by
  obtain ⟨log, clog, hsh, -⟩ := h
  let l := (clog.filter fun m => ∃ b, m ∈ st.lists b ∧ chosen b = true).map (flag true) ++
    (clog.filter fun m => ∃ b, m ∈ st.lists b ∧ chosen b = false).map (flag false)
  have hl : ∀ n, n ∈ l ↔ ∃ b, ∃ m ∈ st.lists b, n = flag (chosen b) m := by
    intro n
    simp only [l, List.mem_append, List.mem_map, List.mem_filter, decide_eq_true_eq]
    constructor
    · rintro (⟨m, ⟨-, b, h1, h2⟩, rfl⟩ | ⟨m, ⟨-, b, h1, h2⟩, rfl⟩)
      · exact ⟨b, m, h1, by rw [h2]⟩
      · exact ⟨b, m, h1, by rw [h2]⟩
    · rintro ⟨b, m, h1, rfl⟩
      have hm := (hsh.lists m).2 ⟨b, h1⟩
      cases h2 : chosen b
      · exact Or.inr ⟨m, ⟨hm, b, h1, h2⟩, rfl⟩
      · exact Or.inl ⟨m, ⟨hm, b, h1, h2⟩, rfl⟩
  obtain ⟨t, ht⟩ := insertAll_log (l := l) fun n hn => by
    obtain ⟨b, m, h1, rfl⟩ := (hl n).1 hn
    exact flag_not_xperm (hsh.six m (Or.inr ((hsh.lists m).2 ⟨b, h1⟩))).1 _
  exact ⟨t, l, ht, hl⟩

end Verif.CilBin
