import Verif.Mapping.Lemmas

/-!
# C33, C55: numbers and names of classes and permissions
-/

namespace Verif.Mapping

/-- The number of the class at place `j` of the application's list: they count from 1. -/
def num (j : Nat) : BitVec 16 := BitVec.ofNat 16 (j + 1)

/-! ### Examples -/

/-- A kernel with two classes. -/
def exKernel : List KClass :=
  [⟨"file", 7, ["ioctl", "read", "write"]⟩, ⟨"process", 2, ["fork", "signal"]⟩]

theorem exKernel_ok : KernelOk exKernel :=
  ⟨by decide +kernel, by decide +kernel, by decide +kernel, by decide +kernel⟩

/-- An application with its own order, with names the policy lacks and a gap. -/
def exReq : List (String × List String) :=
  [("process", ["signal"]), ("window", ["move"]), ("file", ["write", "", "teleport", "read"])]

/-- The state after `selinux_set_mapping`. -/
def exLib : Lib := ((setMapping exKernel true true 0 ⟨[], []⟩ exReq).getD (⟨[], []⟩, false)).1

example : setMapping exKernel true true 0 ⟨[], []⟩ exReq = some (exLib, true) ∧
    Coherent exKernel ⟨[], []⟩ := ⟨by decide +kernel, by simp [Coherent]⟩

/-! ### C33 -/

theorem entry_at {kernel : List KClass} {l' : Lib} {req : List (String × List String)}
    (hm : l'.map = ⟨0, []⟩ :: req.map (entryOf kernel)) (hl : req.length < 65535)
    {j : Nat} {q : String × List String} (hq : req[j]? = some q) :
    l'.map[(num j).toNat]? = some (entryOf kernel q) := by
  have hj := (List.getElem?_eq_some_iff.1 hq).1
  have : (num j).toNat = j + 1 := by
    unfold num
    rw [BitVec.toNat_ofNat, Nat.mod_eq_of_lt (by omega)]
  rw [hm, this, List.getElem?_cons_succ, List.getElem?_map, hq]
  rfl

/-- `test p` for the value of a name, for the bits of `x`. -/
theorem and_pv {c : KClass} (hp : c.perms.Nodup ∧ "" ∉ c.perms ∧ c.perms.length ≤ 32) (x : BitVec 32)
    (s : String) : x &&& pv c s ≠ 0 ↔ ∃ b, c.perms[b]? = some s ∧ x.getLsbD b = true := by
  rcases pv_cases hp.2.2 s with ⟨h1, h2⟩ | ⟨b, hb, h1, h2⟩
  · rw [h2]
    constructor
    · intro h; simp at h
    · rintro ⟨b, h3, _⟩; exact absurd (List.mem_of_getElem? h3) h1
  · rw [h2, and_bit x hb]
    constructor
    · intro h; exact ⟨b, h1, h⟩
    · rintro ⟨b', h3, h4⟩
      have := pv_known hp.1 h3
      rw [h2] at this
      have hb' : b' < 32 := by
        have := (List.getElem?_eq_some_iff.1 h3).1
        have := hp.2.2
        omega
      rw [bit_inj hb hb' this]; exact h4

theorem pv_zero {c : KClass} (hp : c.perms.Nodup ∧ "" ∉ c.perms ∧ c.perms.length ≤ 32) (s : String) :
    pv c s = 0 ↔ s ∉ c.perms := by
  rcases pv_cases hp.2.2 s with ⟨h1, h2⟩ | ⟨b, hb, h1, h2⟩
  · simp [h1, h2]
  · rw [h2]
    constructor
    · intro h; exact absurd h (bit_ne_zero hb)
    · intro h; exact absurd (List.mem_of_getElem? h1) h

/-- **C33** (decisions).  After a successful `selinux_set_mapping`, for a class of the list that
the policy knows: the kernel is asked about that class and about exactly the permissions requested
(those the policy knows), and bit `i` of the answer is set exactly when the kernel's answer has the
bit of the permission with the same name, or when the policy lacks that permission and allows
unknown ones.  Bits after the end of the list are never allowed.  The audit vectors follow the same
names; denials of unknown permissions and of bits after the end of the list are audited. -/
theorem C33_decision (kernel : List KClass) (ok : KernelOk kernel) (l l' : Lib)
    (co : Coherent kernel l) (reset mem : Bool) (rej : Int) (req : List (String × List String))
    (h : setMapping kernel reset mem rej l req = some (l', true))
    (j : Nat) (cname : String) (perms : List String) (hj : req[j]? = some (cname, perms))
    (c : KClass) (hc : c ∈ kernel) (hn : c.name = cname)
    (kav : BitVec 16 → BitVec 32 → Avd) (deny : Int) (requested : BitVec 32) :
    ∃ kreq,
      (∀ b, kreq.getLsbD b = true ↔
        ∃ i p, requested.getLsbD i = true ∧ perms[i]? = some p ∧ c.perms[b]? = some p) ∧
      ∀ i, i < 32 →
        ((computeAv kav deny l' (num j) requested).allowed.getLsbD i = true ↔
          ∃ p, perms[i]? = some p ∧
            ((∃ b, c.perms[b]? = some p ∧ (kav c.value kreq).allowed.getLsbD b = true) ∨
              (p ∉ c.perms ∧ deny = 0))) ∧
        ((computeAv kav deny l' (num j) requested).decided.getLsbD i = true ↔
          ∃ p, perms[i]? = some p ∧
            ((∃ b, c.perms[b]? = some p ∧ (kav c.value kreq).decided.getLsbD b = true) ∨
              (p ∉ c.perms ∧ deny = 0))) ∧
        ((computeAv kav deny l' (num j) requested).auditallow.getLsbD i = true ↔
          ∃ p, perms[i]? = some p ∧
            ∃ b, c.perms[b]? = some p ∧ (kav c.value kreq).auditallow.getLsbD b = true) ∧
        ((computeAv kav deny l' (num j) requested).auditdeny.getLsbD i = true ↔
          perms[i]? = none ∨ ∃ p, perms[i]? = some p ∧
            ((∃ b, c.perms[b]? = some p ∧ (kav c.value kreq).auditdeny.getLsbD b = true) ∨
              (p ∉ c.perms ∧ deny ≠ 0))) := by
  obtain ⟨h1, h2, -, h4, -, -⟩ := setMapping_ok ok co h
  have he := entry_at h4 h1 hj
  have hf : entryOf kernel (cname, perms) = ⟨c.value, perms.map (pv c)⟩ := by
    unfold entryOf
    dsimp only
    rw [← hn, find_name ok hc]
  rw [hf] at he
  have hlen : perms.length ≤ 32 := h2 _ (List.mem_of_getElem? hj)
  have hp := ok.perms c hc
  have hv := ok.nonzero c hc
  have huc : unmapClass l'.map (num j) = c.value := by rw [unmapClass, he]
  refine ⟨unmapPerm l'.map (num j) requested, fun b => ?_, fun i hi => ?_⟩
  · rw [unmapPerm, he]
    dsimp only
    rw [unmapLoop_bit _ _ _ _ _ (by simpa using hlen)]
    simp only [BitVec.ofNat_eq_ofNat, BitVec.getLsbD_zero, Bool.false_eq_true, false_or,
      List.getElem?_map, Nat.zero_add]
    constructor
    · rintro ⟨i, x, h5, h6, h7⟩
      cases hi : perms[i]? with
      | none => rw [hi] at h5; cases h5
      | some p =>
        rw [hi] at h5; cases h5
        refine ⟨i, p, h6, hi, ?_⟩
        rcases pv_cases hp.2.2 p with ⟨_, h9⟩ | ⟨b', hb', h8, h9⟩
        · rw [h9] at h7; simp at h7
        · rw [h9, bit_getLsbD b hb'] at h7
          simp at h7; subst h7; exact h8
    · rintro ⟨i, p, h5, h6, h7⟩
      refine ⟨i, pv c p, by rw [h6]; rfl, h5, ?_⟩
      have hb : b < 32 := by have := (List.getElem?_eq_some_iff.1 h7).1; omega
      rw [pv_known hp.1 h7, bit_getLsbD b hb]; simp
  · have hav : computeAv kav deny l' (num j) requested =
        mapDecision l'.map deny (num j) (kav c.value (unmapPerm l'.map (num j) requested)) := by
      unfold computeAv
      dsimp only
      rw [huc, if_pos hv]
    generalize unmapPerm l'.map (num j) requested = kreq at hav
    rw [hav]
    generalize kav c.value kreq = kd
    have key : ∀ f : BitVec 32 → Bool,
        (bitLoop f (perms.map (pv c)) 0 0).getLsbD i = true ↔
          ∃ p, perms[i]? = some p ∧ f (pv c p) = true := by
      intro f
      rw [bitLoop_bit _ _ _ _ _ (by simpa using hlen)]
      simp only [BitVec.ofNat_eq_ofNat, BitVec.getLsbD_zero, Bool.false_eq_true, false_or,
        List.getElem?_map, Nat.zero_add]
      constructor
      · rintro ⟨n, x, h5, rfl, h7⟩
        cases hi : perms[i]? with
        | none => rw [hi] at h5; cases h5
        | some p => rw [hi] at h5; cases h5; exact ⟨p, rfl, h7⟩
      · rintro ⟨p, h5, h6⟩
        exact ⟨i, pv c p, by rw [h5]; rfl, rfl, h6⟩
    unfold mapDecision
    rw [he]
    dsimp only
    refine ⟨?_, ?_, ?_, ?_⟩
    · rw [key]
      refine exists_congr fun p => and_congr_right fun _ => ?_
      rw [Bool.or_eq_true, Bool.and_eq_true, decide_eq_true_eq, decide_eq_true_eq, decide_eq_true_eq,
        and_pv hp, pv_zero hp, and_comm (a := deny = 0)]
    · rw [key]
      refine exists_congr fun p => and_congr_right fun _ => ?_
      rw [Bool.or_eq_true, Bool.and_eq_true, decide_eq_true_eq, decide_eq_true_eq, decide_eq_true_eq,
        and_pv hp, pv_zero hp, and_comm (a := deny = 0)]
    · rw [key]
      refine exists_congr fun p => and_congr_right fun _ => ?_
      rw [decide_eq_true_eq, and_pv hp]
    · rw [restLoop_bit _ _ _ (by omega) hi, key, or_comm, List.length_map]
      refine or_congr ?_ ?_
      · rw [List.getElem?_eq_none_iff]; omega
      · refine exists_congr fun p => and_congr_right fun _ => ?_
        rw [Bool.or_eq_true, Bool.and_eq_true, decide_eq_true_eq, decide_eq_true_eq,
          Bool.not_eq_true', decide_eq_false_iff_not,
          and_pv hp, pv_zero hp, and_comm (a := ¬ deny = 0)]

/-- The hypotheses are met, and say something: class 3 of the application is "file"; its bits 0
and 3 are write and read, bit 2 is unknown, bit 1 a gap. -/
example : exReq[2]? = some ("file", ["write", "", "teleport", "read"]) ∧
    (computeAv (fun c r => if c = 7 ∧ r = 6 then ⟨2, 7, 0, 0⟩ else ⟨0, 0, 0, 0⟩) 1 exLib (num 2) 9)
      = ⟨8, 9, 0, 0xfffffff6⟩ := by decide +kernel

/-- **C33** (unknown classes).  For a class of the list that the policy lacks, the kernel is asked
about class 0 with no permission, and its answer, which depends on its own setting for unknown
classes, is passed on. -/
theorem C33_unknown_class (kernel : List KClass) (ok : KernelOk kernel) (l l' : Lib)
    (co : Coherent kernel l) (reset mem : Bool) (rej : Int) (req : List (String × List String))
    (h : setMapping kernel reset mem rej l req = some (l', true))
    (j : Nat) (cname : String) (perms : List String) (hj : req[j]? = some (cname, perms))
    (hn : ∀ c ∈ kernel, c.name ≠ cname)
    (kav : BitVec 16 → BitVec 32 → Avd) (deny : Int) (requested : BitVec 32) :
    computeAv kav deny l' (num j) requested = kav 0 0 := by
  obtain ⟨h1, h2, -, h4, -, -⟩ := setMapping_ok ok co h
  have he := entry_at h4 h1 hj
  have hf : entryOf kernel (cname, perms) = ⟨0, []⟩ := by
    unfold entryOf
    dsimp only
    have : kernel.find? (fun n => n.name = cname) = none := by
      rw [List.find?_eq_none]; intro x hx; simpa using hn x hx
    rw [this]
  rw [hf] at he
  unfold computeAv unmapClass unmapPerm
  rw [he]
  simp [unmapLoop]

example : exReq[1]? = some ("window", ["move"]) ∧ (∀ c ∈ exKernel, c.name ≠ "window") := by
  decide +kernel

/-- **C33** (outside the list).  A class number that is not in the list is never passed on to the
kernel as another class: the kernel is asked about class 0. -/
theorem C33_outside (kernel : List KClass) (ok : KernelOk kernel) (l l' : Lib)
    (co : Coherent kernel l) (reset mem : Bool) (rej : Int) (req : List (String × List String))
    (h : setMapping kernel reset mem rej l req = some (l', true))
    (tclass : BitVec 16) (ht : tclass = 0 ∨ req.length < tclass.toNat)
    (kav : BitVec 16 → BitVec 32 → Avd) (deny : Int) (requested : BitVec 32) :
    computeAv kav deny l' tclass requested = kav 0 0 := by
  obtain ⟨h1, h2, -, h4, -, -⟩ := setMapping_ok ok co h
  unfold computeAv unmapClass unmapPerm
  rcases ht with rfl | ht
  · rw [h4]; simp [unmapLoop]
  · have hx : l'.map[tclass.toNat]? = none := by
      rw [List.getElem?_eq_none_iff, h4]; simp; omega
    rw [hx]
    simp [h4]

/-- **C33** (rejecting policies).  With a policy that rejects unknown names, success means that
the policy knows every class and every permission of the list. -/
theorem C33_reject (kernel : List KClass) (ok : KernelOk kernel) (l l' : Lib)
    (co : Coherent kernel l) (reset mem : Bool) (req : List (String × List String))
    (h : setMapping kernel reset mem 1 l req = some (l', true)) :
    ∀ q ∈ req, ∃ c ∈ kernel, c.name = q.1 ∧ ∀ s ∈ q.2, s = "" ∨ s ∈ c.perms := by
  obtain ⟨-, -, -, -, -, h6⟩ := setMapping_ok ok co h
  exact h6 rfl

example : (setMapping exKernel true true 1 ⟨[], []⟩ [("file", ["write"])]).map (·.2) = some true ∧
    (setMapping exKernel true true 1 ⟨[], []⟩ [("file", ["fly"])]).map (·.2) = some false := by
  decide +kernel

/-- **C33** (failure).  When `selinux_set_mapping` fails, an earlier mapping is gone: class numbers
and permissions are from then on taken as the kernel's. -/
theorem C33_failure (kernel : List KClass) (ok : KernelOk kernel) (l l' : Lib)
    (co : Coherent kernel l) (reset mem : Bool) (rej : Int) (req : List (String × List String))
    (h : setMapping kernel reset mem rej l req = some (l', false))
    (kav : BitVec 16 → BitVec 32 → Avd) (deny : Int) (tclass : BitVec 16) (requested : BitVec 32) :
    computeAv kav deny l' tclass requested = kav tclass requested := by
  have hm : l'.map = [] := by
    unfold setMapping at h
    dsimp only at h
    split at h
    · cases h; rfl
    · split at h
      · cases h
      · split at h
        · cases h; rfl
        · cases hl : classLoop kernel (rej = 1) { l with map := [] } req with
          | mk l1 r =>
            rw [hl] at h
            cases r with
            | none =>
              cases h
              exact (classLoop_raw ok _ req (l := { l with map := [] }) co rfl hl).2.1
            | some es => simp at h
  unfold computeAv mapDecision
  rw [hm, unmapClass_nil, unmapPerm_nil]
  simp

example : ∃ l', setMapping exKernel true true 1 exLib [("window", ["move"])] = some (l', false) ∧
    exLib.map ≠ [] := ⟨⟨exLib.cache, []⟩, by decide +kernel⟩

/-! ### C55 -/

/-- **C55** (names to numbers, no mapping).  `string_to_security_class` gives the kernel's number
of the class, 0 for an unknown one; the number leads back to the name; the permission names of
that class, looked up afterwards, give the kernel's bit, unknown ones 0; the bit leads back to the
name. -/
theorem C55_raw (kernel : List KClass) (ok : KernelOk kernel) (l : Lib) (co : Coherent kernel l)
    (hm : l.map = []) (s : String) (l' : Lib) (v : BitVec 16) (h : stringToClass kernel l s = (l', v)) :
    Coherent kernel l' ∧ l'.map = [] ∧
    ((∀ c ∈ kernel, c.name ≠ s) → v = 0) ∧
    ∀ c ∈ kernel, c.name = s →
      v = c.value ∧ classToString l' v = some s ∧
      (∀ p, p ∉ c.perms → stringToPerm l' v p = 0) ∧
      (∀ b p, c.perms[b]? = some p → OneBit (stringToPerm l' v p) b ∧
        permToString l' v (stringToPerm l' v p) = some p) := by
  obtain ⟨n, v', h1, h2, h3, h4, h5⟩ := stringToClass_raw ok co s
  rw [h] at h1 h2 h3
  dsimp only at h1 h2 h3
  subst h3
  have hm' : l'.map = [] := by rw [h1]; exact hm
  refine ⟨h2, hm', ?_, ?_⟩
  · intro hk
    rcases h5 with ⟨c, hc, h6, _⟩ | ⟨_, h6⟩
    · exact absurd h6 (hk c hc)
    · exact h6
  · intro c hc hn
    obtain ⟨hv, hcache⟩ : v = c.value ∧ c ∈ l'.cache := by
      rcases h5 with ⟨c', hc', h6, h7, h8⟩ | ⟨h6, _⟩
      · have : c' = c := inj_of_nodup ok.names hc' hc (h6.trans hn.symm)
        subst this
        exact ⟨by rw [h7, hm, mapClass_nil], by rw [h1]; exact h8⟩
      · exact absurd hn (h6 c hc)
    subst hv
    have hp := ok.perms c hc
    refine ⟨rfl, ?_, ?_, ?_⟩
    · unfold classToString
      rw [hm', unmapClass_nil, cacheByValue_eq ok h2 hcache, ← hn]; rfl
    · intro p hpn
      rw [stringToPerm_raw ok h2 hm' hcache, pv_unknown hpn]
    · intro b p hb
      have hb32 : b < 32 := by have := (List.getElem?_eq_some_iff.1 hb).1; omega
      rw [stringToPerm_raw ok h2 hm' hcache, pv_known hp.1 hb]
      refine ⟨⟨hb32, fun j _ => by rw [bit_getLsbD j hb32]; simp [eq_comm]⟩, ?_⟩
      unfold permToString
      dsimp only
      rw [hm', unmapClass_nil, unmapPerm_nil, cacheByValue_eq ok h2 hcache]
      dsimp only
      rw [if_pos (bit_ne_zero hb32)]
      have hf : (List.range 32).find? (fun i => bit i &&& bit b ≠ 0) = some b := by
        cases hx : (List.range 32).find? (fun i => bit i &&& bit b ≠ 0) with
        | none =>
          rw [List.find?_eq_none] at hx
          have := hx b (List.mem_range.2 hb32)
          rw [decide_eq_true_eq, and_bit _ hb32, bit_getLsbD b hb32] at this
          simp at this
        | some i =>
          have h6 := List.find?_some hx
          have h7 := List.mem_range.1 (List.mem_of_find?_eq_some hx)
          rw [decide_eq_true_eq, and_bit _ hb32, bit_getLsbD b h7] at h6
          simp at h6
          rw [h6]
      rw [hf]
      exact hb

example : (stringToClass exKernel ⟨[], []⟩ "file").2 = 7 ∧
    stringToPerm (stringToClass exKernel ⟨[], []⟩ "file").1 7 "write" = 4 := by decide +kernel

/-- **C55** (names to numbers, with a mapping).  For a class the policy knows and a list without
repeated class names, `string_to_security_class` gives the application's number of the class, 0 if it is not
in the list; permission names then give the bit of their first place in the list, 0 for names that
are not there or that the policy lacks. -/
theorem C55_mapped (kernel : List KClass) (ok : KernelOk kernel) (l0 l : Lib)
    (co : Coherent kernel l0) (reset mem : Bool) (rej : Int) (req : List (String × List String))
    (hset : setMapping kernel reset mem rej l0 req = some (l, true))
    (hd : (req.map (·.1)).Nodup)
    (c : KClass) (hc : c ∈ kernel) (l' : Lib) (v : BitVec 16)
    (h : stringToClass kernel l c.name = (l', v)) :
    ((∀ q ∈ req, q.1 ≠ c.name) → v = 0) ∧
    ∀ j perms, req[j]? = some (c.name, perms) →
      v = num j ∧ classToString l' v = some c.name ∧
      (∀ p, p ∉ perms ∨ p ∉ c.perms → stringToPerm l' v p = 0) ∧
      (∀ i p, perms[i]? = some p → (∀ i' < i, perms[i']? ≠ some p) → p ∈ c.perms →
        OneBit (stringToPerm l' v p) i) := by
  obtain ⟨hlen, h32, hco, hmap, hcached, -⟩ := setMapping_ok ok co hset
  obtain ⟨n, v', h1, h2, h3, h4, h5⟩ := stringToClass_raw ok hco c.name
  rw [h] at h1 h2 h3
  dsimp only at h1 h2 h3
  subst h3
  have hm' : l'.map = l.map := by rw [h1]
  have hv : v = mapClass l.map c.value ∧ c ∈ l'.cache := by
    rcases h5 with ⟨c', hc', h6, h7, h8⟩ | ⟨h6, _⟩
    · have : c' = c := inj_of_nodup ok.names hc' hc h6
      subst this; exact ⟨h7, by rw [h1]; exact h8⟩
    · exact absurd rfl (h6 c hc)
  obtain ⟨hv, hcache⟩ := hv
  have hvnz := ok.nonzero c hc
  have hp := ok.perms c hc
  -- which entries have the value of `c`
  have hent : ∀ m e, l.map[m]? = some e → e.value = c.value →
      ∃ m' q, m = m' + 1 ∧ req[m']? = some q ∧ q.1 = c.name ∧ e = ⟨c.value, q.2.map (pv c)⟩ := by
    intro m e he hev
    rw [hmap] at he
    cases m with
    | zero => simp at he; subst he; exact absurd hev.symm hvnz
    | succ m =>
      rw [List.getElem?_cons_succ, List.getElem?_map] at he
      cases hq : req[m]? with
      | none => rw [hq] at he; cases he
      | some q =>
        rw [hq] at he
        have he : entryOf kernel q = e := Option.some.inj he
        unfold entryOf at he
        cases hf : kernel.find? (fun n => n.name = q.1) with
        | none => rw [hf] at he; subst he; exact absurd hev.symm hvnz
        | some x =>
          rw [hf] at he
          subst he
          have hx := List.mem_of_find?_eq_some hf
          have hxn := List.find?_some hf
          simp at hxn
          have : x = c := inj_of_nodup ok.values hx hc hev
          subst this
          exact ⟨m, q, rfl, hq, hxn.symm, rfl⟩
  constructor
  · intro hno
    rw [hv]
    unfold mapClass
    cases hx : mapClassLoop c.value l.map 0 with
    | none => dsimp only; rw [if_pos (by rw [hmap]; simp)]
    | some i =>
      obtain ⟨m, e, _, h7, h8, _⟩ := mapClassLoop_some hx
      obtain ⟨m', q, _, hq, hqn, _⟩ := hent m e h7 h8
      exact absurd hqn (hno q (List.mem_of_getElem? hq))
  · intro j perms hj
    have hjlt := (List.getElem?_eq_some_iff.1 hj).1
    have hvn : v = num j := by
      rw [hv]
      unfold mapClass
      cases hx : mapClassLoop c.value l.map 0 with
      | none =>
        have := mapClassLoop_none hx (entryOf kernel (c.name, perms))
          (by rw [hmap]; exact List.mem_cons_of_mem _ (List.mem_map_of_mem (List.mem_of_getElem? hj)))
        exfalso; apply this
        unfold entryOf; dsimp only; rw [find_name ok hc]
      | some i =>
        obtain ⟨m, e, h6, h7, h8, _⟩ := mapClassLoop_some hx
        obtain ⟨m', q, rfl, hq, hqn, _⟩ := hent m e h7 h8
        have : m' = j := by
          have hm'lt := (List.getElem?_eq_some_iff.1 hq).1
          refine (List.Nodup.getElem_inj_iff hd (hi := by simpa using hm'lt) (hj := by simpa using hjlt)).1 ?_
          rw [List.getElem_map, List.getElem_map, (List.getElem?_eq_some_iff.1 hq).2,
            (List.getElem?_eq_some_iff.1 hj).2]
          exact hqn
        subst this
        dsimp only
        rw [h6, Nat.zero_add]; rfl
    have hent2 := entry_at hmap hlen hj
    have hf : entryOf kernel (c.name, perms) = ⟨c.value, perms.map (pv c)⟩ := by
      unfold entryOf; dsimp only; rw [find_name ok hc]
    rw [hf, ← hm'] at hent2
    have huc : unmapClass l'.map (num j) = c.value := by rw [unmapClass, hent2]
    have hperm : ∀ p, stringToPerm l' (num j) p =
        match c.perms.findIdx? (fun x => x = p) with
        | some b => mapPermLoop (perms.map (pv c)) 0 (bit b) 0
        | none => 0 := by
      intro p
      unfold stringToPerm mapPerm
      rw [huc, cacheByValue_eq ok h2 hcache]
      dsimp only
      rw [hent2]
      cases c.perms.findIdx? (fun x => x = p) <;> rfl
    have hidx : ∀ b p, c.perms[b]? = some p → c.perms.findIdx? (fun x => x = p) = some b := by
      intro b p hb
      have h6 := pv_known hp.1 hb
      unfold pv at h6
      cases hx : c.perms.findIdx? (fun x => x = p) with
      | none =>
        rw [List.findIdx?_eq_none_iff] at hx
        have := hx p (List.mem_of_getElem? hb)
        simp at this
      | some b' =>
        rw [hx] at h6
        rw [List.findIdx?_eq_some_iff_getElem] at hx
        obtain ⟨hb', _, _⟩ := hx
        have := (List.getElem?_eq_some_iff.1 hb).1
        rw [bit_inj (by omega) (by omega) h6]
    have hall : ∀ x ∈ perms.map (pv c), x = 0 ∨ ∃ d, d < 32 ∧ x = bit d := by
      intro x hx
      obtain ⟨s, _, rfl⟩ := List.mem_map.1 hx
      rcases pv_cases hp.2.2 s with ⟨_, h9⟩ | ⟨b, hb, _, h9⟩
      · exact Or.inl h9
      · exact Or.inr ⟨b, hb, h9⟩
    have hiff : ∀ b p s, c.perms[b]? = some p → (pv c s = bit b ↔ s = p) := by
      intro b p s hb
      have hb32 : b < 32 := by have := (List.getElem?_eq_some_iff.1 hb).1; omega
      constructor
      · intro h6
        rcases pv_cases hp.2.2 s with ⟨_, h9⟩ | ⟨b', hb', h8, h9⟩
        · rw [h9] at h6; exact absurd h6.symm (bit_ne_zero hb32)
        · rw [h9] at h6
          have := bit_inj hb' hb32 h6
          subst this
          rw [h8] at hb; exact Option.some.inj hb
      · rintro rfl; exact pv_known hp.1 hb
    refine ⟨hvn, ?_, ?_, ?_⟩
    · unfold classToString
      rw [hvn, huc, cacheByValue_eq ok h2 hcache]; rfl
    · intro p hno
      rw [hvn, hperm]
      by_cases hpc : p ∈ c.perms
      · obtain ⟨b, hb⟩ := List.getElem?_of_mem hpc
        have hb32 : b < 32 := by have := (List.getElem?_eq_some_iff.1 hb).1; omega
        rw [hidx b p hb]
        dsimp only
        rw [mapPermLoop_bit _ _ _ hb32 hall]
        have hpn : p ∉ perms := hno.elim id (fun h => absurd hpc h)
        have : (perms.map (pv c)).findIdx? (fun x => x = bit b) = none := by
          rw [List.findIdx?_eq_none_iff]
          intro x hx
          obtain ⟨s, hs, rfl⟩ := List.mem_map.1 hx
          simp
          intro h6
          rw [(hiff b p s hb).1 h6] at hs
          exact hpn hs
        rw [this]
      · have : c.perms.findIdx? (fun x => x = p) = none := by
          rw [List.findIdx?_eq_none_iff]
          intro x hx
          simp
          rintro rfl; exact hpc hx
        rw [this]
    · intro i p hi hfirst hpc
      obtain ⟨b, hb⟩ := List.getElem?_of_mem hpc
      have hb32 : b < 32 := by have := (List.getElem?_eq_some_iff.1 hb).1; omega
      obtain ⟨hilt, hip⟩ := List.getElem?_eq_some_iff.1 hi
      have hi32 : i < 32 := by have := h32 _ (List.mem_of_getElem? hj); dsimp only at this; omega
      rw [hvn, hperm, hidx b p hb]
      dsimp only
      rw [mapPermLoop_bit _ _ _ hb32 hall]
      have : (perms.map (pv c)).findIdx? (fun x => x = bit b) = some i := by
        rw [List.findIdx?_eq_some_iff_getElem]
        refine ⟨by simpa using hilt, ?_, ?_⟩
        · rw [List.getElem_map, hip]
          simpa using (hiff b p p hb).2 rfl
        · intro i' hi'
          rw [List.getElem_map]
          simp
          intro h6
          have h7 := (hiff b p _ hb).1 h6
          exact hfirst i' hi' (by rw [List.getElem?_eq_getElem (by omega), h7])
      rw [this]
      dsimp only
      rw [Nat.zero_add]
      exact ⟨hi32, fun k _ => by rw [bit_getLsbD k hi32]; simp [eq_comm]⟩

example : (exReq.map (·.1)).Nodup ∧ (stringToClass exKernel exLib "file").2 = num 2 ∧
    stringToPerm (stringToClass exKernel exLib "file").1 (num 2) "read" = 8 := by decide +kernel

/-- **C55** (refuted: permissions of a class that was not looked up by name).  The class and the
permission are in the policy, yet `string_to_av_perm` gives 0, its answer for unknown ones: only
the cache is searched. -/
theorem C55_undiscovered_refuted :
    ∃ kernel l c p, KernelOk kernel ∧ Coherent kernel l ∧ l.map = [] ∧ c ∈ kernel ∧ p ∈ c.perms ∧
      stringToPerm l c.value p = 0 :=
  ⟨exKernel, ⟨[], []⟩, ⟨"file", 7, ["ioctl", "read", "write"]⟩, "read", exKernel_ok, by simp [Coherent],
    rfl, by decide +kernel, by decide +kernel, by decide +kernel⟩

/-- **C55** (refuted: policy loads).  After a policy load that renumbers the classes, a name that
was looked up before gives the old number, which now is that of another class, until
`selinux_flush_class_cache` is called (as the cache of decisions does when it is told of the load,
see `Verif/Avc`). -/
theorem C55_stale_refuted :
    ∃ old new l s, KernelOk old ∧ KernelOk new ∧ Coherent old l ∧
      ∃ c ∈ new, c.name = s ∧ (stringToClass new l s).2 ≠ c.value ∧
        (∃ d ∈ new, d.name ≠ s ∧ (stringToClass new l s).2 = d.value) ∧
        (stringToClass new (flush l) s).2 = c.value := by
  refine ⟨exKernel, [⟨"file", 2, ["ioctl"]⟩, ⟨"process", 7, ["fork"]⟩],
    (stringToClass exKernel ⟨[], []⟩ "file").1, "file", exKernel_ok, ?_, ?_,
    ⟨"file", 2, ["ioctl"]⟩, ?_⟩
  · exact ⟨by decide +kernel, by decide +kernel, by decide +kernel, by decide +kernel⟩
  · exact (stringToClass_raw exKernel_ok (l := ⟨[], []⟩) (by simp [Coherent]) "file").choose_spec.choose_spec.2.1
  · exact ⟨by decide +kernel, by decide +kernel, by decide +kernel,
      ⟨⟨"process", 7, ["fork"]⟩, by decide +kernel⟩, by decide +kernel⟩

/-- **C55** (checks by name).  `selinux_check_access`, with no mapping, asks about the kernel's
class and permission of the names given; when the policy lacks the class or the permission, access
is granted exactly if unknown ones are allowed.  The state stays coherent, so this holds for every
later call until a policy load. -/
theorem C55_check_access (kernel : List KClass) (ok : KernelOk kernel) (l : Lib)
    (co : Coherent kernel l) (hm : l.map = []) (deny : Int) (hasPerm : BitVec 16 → BitVec 32 → Bool)
    (cls perm : String) :
    (∀ c b, c ∈ kernel → c.name = cls → c.perms[b]? = some perm →
      ∃ v, OneBit v b ∧ (checkAccess kernel deny hasPerm l cls perm).2 = hasPerm c.value v) ∧
    ((¬ ∃ c ∈ kernel, c.name = cls ∧ perm ∈ c.perms) →
      ((checkAccess kernel deny hasPerm l cls perm).2 = true ↔ deny = 0)) ∧
    Coherent kernel (checkAccess kernel deny hasPerm l cls perm).1 ∧
    (checkAccess kernel deny hasPerm l cls perm).1.map = [] := by
  unfold checkAccess
  cases h : stringToClass kernel l cls with
  | mk l' v =>
    obtain ⟨h1, h2, h3, h4⟩ := C55_raw kernel ok l co hm cls l' v h
    dsimp only
    refine ⟨?_, ?_, ?_, ?_⟩
    · intro c b hc hn hb
      obtain ⟨hv, _, _, h5⟩ := h4 c hc hn
      obtain ⟨h6, _⟩ := h5 b perm hb
      have hnz : stringToPerm l' v perm ≠ 0 := by
        rw [ne_zero_iff]; exact ⟨b, h6.1, (h6.2 b h6.1).2 rfl⟩
      rw [if_neg (by rw [hv]; exact ok.nonzero c hc), if_neg hnz]
      exact ⟨_, h6, by rw [hv]⟩
    · intro hno
      by_cases hk : ∃ c ∈ kernel, c.name = cls
      · obtain ⟨c, hc, hn⟩ := hk
        obtain ⟨hv, _, h5, _⟩ := h4 c hc hn
        have hp : perm ∉ c.perms := fun hp => hno ⟨c, hc, hn, hp⟩
        rw [h5 perm hp]
        split <;> simp
      · rw [h3 (fun c hc hn => hk ⟨c, hc, hn⟩)]
        simp
    · split
      · exact h1
      · split <;> exact h1
    · split
      · exact h2
      · split <;> exact h2

/-- The names `security_av_string` should show: of the set bits, in ascending order. -/
def namesOf (l : Lib) (tclass : BitVec 16) (av : BitVec 32) : List String :=
  ((List.range 32).filter (av.getLsbD ·)).filterMap fun i => permToString l tclass (av &&& bit i)

theorem avText_eq (l : Lib) (tclass : BitVec 16) (av : BitVec 32) (fuel i : Nat) (h : i + fuel = 32) :
    avText l tclass av fuel i (av >>> i) =
      ((List.range' i fuel).filter (av.getLsbD ·)).filterMap fun i => permToString l tclass (av &&& bit i) := by
  induction fuel generalizing i with
  | zero => simp [avText]
  | succ fuel ih =>
    have ih := ih (i + 1) (by omega)
    have hsh : av >>> i >>> 1 = av >>> (i + 1) := by rw [BitVec.shiftRight_add]
    have hlow : av >>> i &&& 1 ≠ 0 ↔ av.getLsbD i = true := by
      have := and_bit (av >>> i) (i := 0) (by omega)
      rw [show bit 0 = 1 by rfl, BitVec.getLsbD_ushiftRight, Nat.add_zero] at this
      exact this
    unfold avText
    split
    · rename_i h0
      have : (List.range' i (fuel + 1)).filter (av.getLsbD ·) = [] := by
        rw [List.filter_eq_nil_iff]
        intro k hk
        rw [List.mem_range'_1] at hk
        have := congrArg (fun x => BitVec.getLsbD x (k - i)) h0
        simp only [BitVec.getLsbD_ushiftRight] at this
        rw [show i + (k - i) = k by omega] at this
        rw [this]; simp
      rw [this]; rfl
    · rw [List.range'_succ, hsh, ih]
      split
      · rename_i h1
        rw [hlow] at h1
        rw [List.filter_cons_of_pos h1, List.filterMap_cons]
        cases permToString l tclass (av &&& bit i) <;> rfl
      · rename_i h1
        rw [hlow] at h1
        rw [List.filter_cons_of_neg h1]

/-- **C55** (`security_av_string`).  The buffer is always large enough, and the text shows exactly
the names of the permissions in the vector. -/
theorem C55_av_string (l : Lib) (tclass : BitVec 16) (av : BitVec 32) :
    avString l tclass av =
      some (if av = 0 then "null"
        else "{ " ++ String.join ((namesOf l tclass av).map (· ++ " ")) ++ "}") := by
  have hnames : namesOf l tclass av = avText l tclass av 32 0 av := by
    have := avText_eq l tclass av 32 0 rfl
    rw [BitVec.ushiftRight_zero] at this
    rw [this, namesOf, List.range_eq_range']
  rw [hnames]
  have hsz : ∀ a b : String, (a ++ b).toUTF8.size = a.toUTF8.size + b.toUTF8.size := by
    intro a b
    simp [String.toUTF8, String.toByteArray_append, ByteArray.size_append]
  have gen : ∀ fuel i tmp len,
      len + (String.join ((avText l tclass av fuel i tmp).map (· ++ " "))).toUTF8.size =
        avLen l tclass av fuel i tmp len := by
    intro fuel
    induction fuel with
    | zero => intro i tmp len; simp [avText, avLen]
    | succ fuel ih =>
      intro i tmp len
      unfold avText avLen
      split
      · simp
      · dsimp only
        split
        · cases permToString l tclass (av &&& bit i) with
          | none => exact ih _ _ _
          | some s =>
            dsimp only
            have h1 := ih (i + 1) (tmp >>> 1) (len + (s.toUTF8.size + 1))
            rw [← h1, List.map_cons, String.join_cons, hsz, hsz]
            have : " ".toUTF8.size = 1 := by decide +kernel
            omega
        · exact ih _ _ _
  unfold avString
  dsimp only
  have h5 := gen 32 0 av 5
  rw [if_pos]
  rw [← h5]
  split
  · have : "null".toUTF8.size = 4 := by decide +kernel
    omega
  · rw [hsz, hsz]
    have h1 : "{ ".toUTF8.size = 2 := by decide +kernel
    have h2 : "}".toUTF8.size = 1 := by decide +kernel
    omega

example : avString (stringToClass exKernel ⟨[], []⟩ "file").1 7 5 = some "{ ioctl write }" := by
  decide +kernel

end Verif.Mapping
