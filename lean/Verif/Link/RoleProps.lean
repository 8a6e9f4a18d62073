import Verif.Link.Roles

/-!
# C70: what linking makes of the role attributes

The link step first adds the members that the switched-on declarations gave to an attribute
to the members it has in the base policy, and then replaces every attribute among the members
of an attribute by the members of that attribute (`linkRoles`).
-/

namespace Verif.Link

deriving instance DecidableEq for Except

/-- If no attribute is a member of itself through others, linking ends, and each attribute has
exactly the plain roles that are in it, directly or through other attributes, whichever order
the table of roles is walked in; the plain roles stay as they were. -/
theorem C70_partial (rs : List Role) (ds : List DeclRole) (ok : RolesOk rs ds) (acyclic : Acyclic rs ds)
    (order : List Nat) (horder : ∀ i, i ∈ order ↔ i < rs.length) :
    ∃ rs' n, (∀ fuel, n ≤ fuel → linkRoles fuel rs ds order = some (.ok rs')) ∧
      rs'.map (fun r => (r.name, r.attr)) = rs.map (fun r => (r.name, r.attr)) ∧
      (∀ (i : Nat) r, rs[i]? = some r → r.attr = false → rs'[i]? = some r) ∧
      ∀ (a : Nat) r, rs'[a]? = some r → r.attr = true →
        ∀ i, Ebitmap.getBit r.roles i = true ↔ Plain rs i ∧ Within (Member rs ds) a i := by
  obtain ⟨rs1, e1, ok1, s1, p1, m1⟩ := populate_spec ds rs ok
  have hlen : rs1.length = rs.length := by
    have := congrArg List.length s1
    simpa using this
  obtain ⟨rank, hrank⟩ := acyclic
  have hM : Mem rs1 = Member rs ds := by
    funext a i; exact propext (m1 a i)
  have hattr : ∀ i, isAttr rs1 i = true → ∃ r, rs[i]? = some r ∧ r.attr = true := by
    intro i h
    obtain ⟨r, h1, h2⟩ := isAttr_iff.1 h
    have := shape_get s1 i
    rw [h1] at this
    cases h3 : rs[i]? with
    | none => rw [h3] at this; simp at this
    | some r' =>
      rw [h3] at this
      simp only [Option.map_some, Option.some.injEq, Prod.mk.injEq] at this
      exact ⟨r', rfl, by rw [← this.2]; exact h2⟩
  have hplain : ∀ i, Plain rs1 i ↔ Plain rs i := by
    intro i
    have := shape_get s1 i
    unfold Plain
    cases h1 : rs1[i]? <;> cases h2 : rs[i]? <;> simp_all
  have inv : RInv rs1 rank := ⟨ok1.wf, ok1.bits, ok1.size, ok1.object, fun a b h hb =>
    hrank a b ((m1 a b).1 h) (hattr b hb)⟩
  obtain ⟨rs2, n, e2, same, _, hres⟩ := expandAll_spec order rs1 inv (by
    intro a ha; rw [hlen]; exact (horder a).1 ha)
  refine ⟨rs2, n + 1, ?_, same.shape.trans s1, fun i r h ha => same.plain i r (p1 i r h ha) ha, ?_⟩
  · intro fuel hf
    unfold linkRoles
    rw [e1]
    exact e2 fuel (by omega)
  · intro a r hr hat i
    have halt : a ∈ order := by
      rw [horder, ← hlen, ← same.length]
      exact (List.getElem?_eq_some_iff.1 hr).1
    rw [hres a halt r hr hat i, hplain, hM]

/-! ### A policy with nested attributes -/

/-- A set of small numbers. -/
def bitset (bits : List Nat) : Ebitmap.Ebitmap :=
  bits.foldl (fun e b => (Ebitmap.setBit e b true).getD e) Ebitmap.init

/-- The roles `object_r`, `staff_r`, `sysadm_r`, and the attributes `admins` and `everyone`;
`admins` is a member of `everyone`. -/
def exRoles : List Role :=
  [ ⟨"object_r", false, bitset [0]⟩, ⟨"everyone", true, bitset [2, 3]⟩, ⟨"staff_r", false, bitset [2]⟩,
    ⟨"admins", true, bitset []⟩, ⟨"sysadm_r", false, bitset [4]⟩ ]

/-- A module makes `sysadm_r` an admin. -/
def exDecls : List DeclRole := [⟨"staff_r", false, bitset []⟩, ⟨"admins", true, bitset [4]⟩]

theorem bitset_wf (l : List Nat) (h : ∀ b ∈ l, b < 2 ^ 32 - 64) :
    Ebitmap.WF (bitset l) ∧ ∀ i, Ebitmap.getBit (bitset l) i = true ↔ i ∈ l := by
  have gen : ∀ (l : List Nat) (e : Ebitmap.Ebitmap), (∀ b ∈ l, b < 2 ^ 32 - 64) → Ebitmap.WF e →
      Ebitmap.WF (l.foldl (fun e b => (Ebitmap.setBit e b true).getD e) e) ∧
      ∀ i, Ebitmap.getBit (l.foldl (fun e b => (Ebitmap.setBit e b true).getD e) e) i = true ↔
        Ebitmap.getBit e i = true ∨ i ∈ l := by
    intro l
    induction l with
    | nil => intro e _ hw; exact ⟨hw, by simp⟩
    | cons b l ih =>
      intro e hl hw
      have hb := hl b (by simp)
      obtain ⟨e', h1, h2, h3⟩ := (Ebitmap.C01_set_bit hw b (by omega) true).1 hb
      obtain ⟨h4, h5⟩ := ih e' (fun x hx => hl x (by simp [hx])) h2
      simp only [List.foldl_cons, h1, Option.getD_some]
      refine ⟨h4, ?_⟩
      intro i
      rw [h5, h3, List.mem_cons]
      by_cases h : i = b
      · simp [h]
      · simp [h]
  obtain ⟨h1, h2⟩ := gen l Ebitmap.init h (by constructor <;> simp [Ebitmap.init])
  exact ⟨h1, fun i => by rw [bitset, h2]; simp [Ebitmap.init, Ebitmap.getBit, Ebitmap.getBitNodes]⟩

theorem exRoles_ok : RolesOk exRoles exDecls where
  names := by decide
  wf := by
    intro r hr
    simp only [exRoles, List.mem_cons, List.not_mem_nil, or_false] at hr
    rcases hr with rfl | rfl | rfl | rfl | rfl <;> exact (bitset_wf _ (by decide)).1
  bits := by
    intro r hr i hi
    simp only [exRoles, List.mem_cons, List.not_mem_nil, or_false] at hr
    rcases hr with rfl | rfl | rfl | rfl | rfl <;>
      · have := ((bitset_wf _ (by decide)).2 i).1 hi
        simp only [exRoles, List.length_cons, List.length_nil]
        simp only [List.mem_cons, List.not_mem_nil, or_false] at this <;> omega
  size := by decide
  object := by decide
  declWf := by
    intro r hr
    simp only [exDecls, List.mem_cons, List.not_mem_nil, or_false] at hr
    rcases hr with rfl | rfl <;> exact (bitset_wf _ (by decide)).1
  declBits := by
    intro r hr i hi
    simp only [exDecls, List.mem_cons, List.not_mem_nil, or_false] at hr
    rcases hr with rfl | rfl <;>
      · have := ((bitset_wf _ (by decide)).2 i).1 hi
        simp only [exRoles, List.length_cons, List.length_nil]
        simp only [List.mem_cons, List.not_mem_nil, or_false] at this <;> omega
  declName := by decide

theorem exRoles_member {a i : Nat} (h : Member exRoles exDecls a i) :
    (a = 1 ∧ (i = 2 ∨ i = 3)) ∨ (a = 3 ∧ i = 4) := by
  obtain ⟨r, h1, h2, h3⟩ := h
  have hlt := (List.getElem?_eq_some_iff.1 h1).1
  simp only [exRoles, List.length_cons, List.length_nil] at hlt
  match a, h1 with
  | 0, h1 => cases h1; simp at h2
  | 2, h1 => cases h1; simp at h2
  | 4, h1 => cases h1; simp at h2
  | 1, h1 =>
    cases h1
    rcases h3 with h3 | ⟨d, hd, hda, hdn, h3⟩
    · have := ((bitset_wf _ (by decide)).2 i).1 h3
      simp at this; left; exact ⟨rfl, this⟩
    · simp only [exDecls, List.mem_cons, List.not_mem_nil, or_false] at hd
      rcases hd with rfl | rfl
      · simp at hda
      · simp at hdn
  | 3, h1 =>
    cases h1
    rcases h3 with h3 | ⟨d, hd, hda, hdn, h3⟩
    · have := ((bitset_wf _ (by decide)).2 i).1 h3
      simp at this
    · simp only [exDecls, List.mem_cons, List.not_mem_nil, or_false] at hd
      rcases hd with rfl | rfl
      · simp at hda
      · have := ((bitset_wf _ (by decide)).2 i).1 h3
        simp at this; right; exact ⟨rfl, this⟩
  | n + 5, _ => omega

theorem exRoles_acyclic : Acyclic exRoles exDecls := by
  refine ⟨fun a => if a = 1 then 1 else 0, ?_⟩
  intro a b h hb
  rcases exRoles_member h with ⟨rfl, rfl | rfl⟩ | ⟨rfl, rfl⟩
  · simp
  · simp
  · obtain ⟨r, h1, h2⟩ := hb
    cases h1; simp at h2

/-- The theorem applies to this policy … -/
example : ∃ rs' n, (∀ fuel, n ≤ fuel → linkRoles fuel exRoles exDecls [4, 1, 0, 3, 2] = some (.ok rs')) ∧
    ∀ (a : Nat) r, rs'[a]? = some r → r.attr = true →
      ∀ i, Ebitmap.getBit r.roles i = true ↔ Plain exRoles i ∧ Within (Member exRoles exDecls) a i := by
  obtain ⟨rs', n, h1, _, _, h2⟩ := C70_partial exRoles exDecls exRoles_ok exRoles_acyclic [4, 1, 0, 3, 2]
    (by intro i; simp [exRoles]; omega)
  exact ⟨rs', n, h1, h2⟩

/-- … and `sysadm_r` is in `everyone` through `admins`. -/
example : Plain exRoles 4 ∧ Within (Member exRoles exDecls) 1 4 :=
  ⟨⟨_, rfl, rfl⟩, .through (b := 3)
    ⟨_, rfl, rfl, Or.inl (((bitset_wf _ (by decide)).2 3).2 (by decide))⟩
    (.direct ⟨_, rfl, rfl, Or.inr ⟨⟨"admins", true, bitset [4]⟩, by simp [exDecls], rfl, rfl,
      ((bitset_wf _ (by decide)).2 4).2 (by decide)⟩⟩)⟩

/-! ### Cycles -/

/-- Attributes of which `first` contains `second`, and `second` and `third` contain each other. -/
def ring : List Role :=
  [⟨"object_r", false, bitset [0]⟩, ⟨"first", true, bitset [2]⟩, ⟨"second", true, bitset [3]⟩, ⟨"third", true, bitset [2]⟩]

theorem ring_ok : RolesOk ring [] where
  names := by decide
  wf := by
    intro r hr
    simp only [ring, List.mem_cons, List.not_mem_nil, or_false] at hr
    rcases hr with rfl | rfl | rfl | rfl <;> exact (bitset_wf _ (by decide)).1
  bits := by
    intro r hr i hi
    simp only [ring, List.mem_cons, List.not_mem_nil, or_false] at hr
    rcases hr with rfl | rfl | rfl | rfl <;>
      · have := ((bitset_wf _ (by decide)).2 i).1 hi
        simp only [List.mem_cons, List.not_mem_nil, or_false] at this
        simp only [ring, List.length_cons, List.length_nil]
        omega
  size := by decide
  object := by decide
  declWf := by simp
  declBits := by simp
  declName := by simp

theorem ring_loop (fuel : Nat) :
    expandLoop ring 1 fuel (bitset [2]) = none ∧ expandLoop ring 1 fuel (bitset [3]) = none := by
  induction fuel with
  | zero => exact ⟨rfl, rfl⟩
  | succ n ih =>
    constructor
    · have : scan ring 1 (bitset [2]) [2] = .ok (.again (bitset [3])) := by decide +kernel
      have hb : Assertion.bitsOf (bitset [2]) = some [2] := by decide +kernel
      rw [expandLoop, hb]
      simp only [this]
      exact ih.2
    · have : scan ring 1 (bitset [3]) [3] = .ok (.again (bitset [2])) := by decide +kernel
      have hb : Assertion.bitsOf (bitset [3]) = some [3] := by decide +kernel
      rw [expandLoop, hb]
      simp only [this]
      exact ih.1

/-- The whole of C70 fails: if the table is walked from `first`, linking never ends. -/
theorem C70_refuted : RolesOk ring [] ∧ ∀ fuel, linkRoles fuel ring [] [1, 0, 2, 3] = none := by
  refine ⟨ring_ok, ?_⟩
  intro fuel
  unfold linkRoles
  simp only [populate, expandAll]
  have : expandRole fuel ring 1 = none := by
    have hr : ring[1]? = some ⟨"first", true, bitset [2]⟩ := rfl
    unfold expandRole
    rw [hr]
    simp [objectR, (ring_loop fuel).1]
  rw [this]

/-- Two attributes that contain each other. -/
def pair : List Role :=
  [⟨"object_r", false, bitset [0]⟩, ⟨"first", true, bitset [2]⟩, ⟨"second", true, bitset [1]⟩]

theorem pair_ok : RolesOk pair [] where
  names := by decide
  wf := by
    intro r hr
    simp only [pair, List.mem_cons, List.not_mem_nil, or_false] at hr
    rcases hr with rfl | rfl | rfl <;> exact (bitset_wf _ (by decide)).1
  bits := by
    intro r hr i hi
    simp only [pair, List.mem_cons, List.not_mem_nil, or_false] at hr
    rcases hr with rfl | rfl | rfl <;>
      · have := ((bitset_wf _ (by decide)).2 i).1 hi
        simp only [List.mem_cons, List.not_mem_nil, or_false] at this
        simp only [pair, List.length_cons, List.length_nil]
        omega
  size := by decide
  object := by decide
  declWf := by simp
  declBits := by simp
  declName := by simp

/-- Such a pair makes linking read the node that it has just freed, in every order. -/
theorem C70_freed_refuted : RolesOk pair [] ∧ ∀ order, order ∈ [[0, 1, 2], [0, 2, 1], [1, 0, 2], [1, 2, 0], [2, 0, 1], [2, 1, 0]] →
    linkRoles 2 pair [] order = some (.error .ub) := by
  refine ⟨pair_ok, ?_⟩
  intro order h
  simp only [List.mem_cons, List.not_mem_nil, or_false] at h
  rcases h with rfl | rfl | rfl | rfl | rfl | rfl <;> decide +kernel

end Verif.Link
