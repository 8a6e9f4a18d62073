import Verif.LocalFile.Lemmas2

/-! What all parsers of local files have in common. -/

namespace Verif.LocalFile
open Verif.Context Verif.Login

/-! ## The primitives, written out -/

theorem bind_def {α β : Type} (p : Parser α) (f : α → Parser β) (s : St) :
    (p >>= f) s = match p s with | .ok a s => f a s | .err => .err | .ub => .ub := rfl

theorem space_spec (s : St) : assertSpace s = match s.cur with
    | none => .err
    | some [] => .ub
    | some (c :: _) => if c ≠ 0 ∧ isSpace c = false then .err else skipSpace s := by
  obtain ⟨cur, more⟩ := s
  cases cur with
  | none => rfl
  | some p =>
    cases p with
    | nil => rfl
    | cons c r =>
      have e : assertSpace ⟨some (c :: r), more⟩ = (if c ≠ 0 ∧ isSpace c = false then fail else skipSpace : Parser Unit) ⟨some (c :: r), more⟩ := rfl
      rw [e]
      dsimp only
      split <;> rfl

theorem ch_spec (ch : UInt8) (s : St) : assertCh ch s = match s.cur with
    | none => .err
    | some [] => .ub
    | some (c :: r) => if c ≠ ch then .err else .ok () ⟨some r, s.more⟩ := by
  obtain ⟨cur, more⟩ := s
  cases cur with
  | none => rfl
  | some p =>
    cases p with
    | nil => rfl
    | cons c r =>
      have e : assertCh ch ⟨some (c :: r), more⟩ = (if c ≠ ch then fail else setPtr r : Parser Unit) ⟨some (c :: r), more⟩ := rfl
      rw [e]
      dsimp only
      split <;> rfl

theorem str_spec (str : Bytes) (s : St) : assertStr str s = match s.cur with
    | none => .err
    | some [] => .ub
    | some (c :: r) => if (c :: r).take str.length = str then .ok () ⟨some ((c :: r).drop str.length), s.more⟩ else .err := by
  obtain ⟨cur, more⟩ := s
  cases cur with
  | none => rfl
  | some p =>
    cases p with
    | nil => rfl
    | cons c r =>
      have e : assertStr str ⟨some (c :: r), more⟩ =
        (if (c :: r).take str.length = str then setPtr ((c :: r).drop str.length) else fail : Parser Unit) ⟨some (c :: r), more⟩ := rfl
      rw [e]
      dsimp only
      split <;> rfl

/-- The bytes that `parse_fetch_string` takes. -/
def fetched (d : UInt8) (sp : Bool) (p : Bytes) : Bytes := p.takeWhile (fun c => c != 0 && (sp || !isSpace c) && c != d)

theorem fetch_spec (d : UInt8) (sp : Bool) (s : St) : fetchString d sp s = match s.cur with
    | none => .err
    | some p => if p.drop (fetched d sp p).length = [] then .ub else if fetched d sp p = [] then .err
      else .ok (fetched d sp p) ⟨some (p.drop (fetched d sp p).length), s.more⟩ := by
  obtain ⟨cur, more⟩ := s
  cases cur with
  | none => rfl
  | some p =>
    have e : fetchString d sp ⟨some p, more⟩ = (deref (p.drop (fetched d sp p).length) >>= fun _ =>
        if fetched d sp p = [] then fail else setPtr (p.drop (fetched d sp p).length) >>= fun _ => pure (fetched d sp p) : Parser Bytes) ⟨some p, more⟩ := rfl
    rw [e]
    show _ = if _ then _ else _
    cases hd : p.drop (fetched d sp p).length with
    | nil => rfl
    | cons c r =>
      have hne : ¬ (c :: r = []) := by simp
      by_cases hf : fetched d sp p = []
      · simp only [if_pos hf, if_neg hne]
        rfl
      · simp only [if_neg hf, if_neg hne]
        rfl

/-- The piece of `parseRange` that looks at `*ptr`. -/
def peek : Parser Unit := do
  let p ← noeof
  let (c, _) ← deref p
  if c ≠ 0 ∧ c ≠ 45 then assertSpace else pure ()

theorem peek_spec (s : St) : peek s = match s.cur with
    | none => .err
    | some [] => .ub
    | some (c :: _) => if c ≠ 0 ∧ c ≠ 45 then assertSpace s else .ok () s := by
  obtain ⟨cur, more⟩ := s
  cases cur with
  | none => rfl
  | some p =>
    cases p with
    | nil => rfl
    | cons c r =>
      have e : peek ⟨some (c :: r), more⟩ = (if c ≠ 0 ∧ c ≠ 45 then assertSpace else pure () : Parser Unit) ⟨some (c :: r), more⟩ := rfl
      rw [e]
      dsimp only
      split <;> rfl

theorem bind_assoc' {α β γ : Type} (p : Parser α) (f : α → Parser β) (g : β → Parser γ) : ((p >>= f) >>= g) = (p >>= fun a => f a >>= g) := by
  funext s
  simp only [bind_def]
  cases p s <;> rfl

theorem pure_bind' {α β : Type} (a : α) (f : α → Parser β) : ((pure a : Parser α) >>= f) = f a := rfl

theorem fail_bind' {α β : Type} (f : α → Parser β) : ((fail : Parser α) >>= f) = fail := rfl

theorem parseRange_eq : parseRange = (fetchInt 45 >>= fun low => peek >>= fun _ => optionalCh 45 >>= fun b =>
    if b = true then (skipSpace >>= fun _ => fetchInt 32 >>= fun high => assertSpace >>= fun _ => pure (low, high)) else pure (low, low)) := by
  unfold parseRange peek
  funext s
  simp only [bind_def]
  cases fetchInt 45 s with
  | err => rfl
  | ub => rfl
  | ok low s =>
    dsimp only
    cases noeof s with
    | err => rfl
    | ub => rfl
    | ok p s =>
      dsimp only
      cases deref p s with
      | err => rfl
      | ub => rfl
      | ok x s =>
        obtain ⟨c, r⟩ := x
        dsimp only
        by_cases h : c ≠ 0 ∧ c ≠ 45
        · rw [if_pos h, if_pos h]
          rfl
        · rw [if_neg h, if_neg h]
          rfl

/-! ## Properties of all parsers -/

/-- The common shape of the parsers of records. -/
def start {α : Type} (f : Parser (Option α)) : Parser (Option α) := skipSpace >>= fun _ => fun s => if s.cur = none then .ok none s else f s

/-- A property of parsers that the primitives have and that is kept. -/
structure Closed (P : {α : Type} → Parser α → Prop) : Prop where
  bind : ∀ {α β : Type} {p : Parser α} {f : α → Parser β}, P p → (∀ a, P (f a)) → P (p >>= f)
  pure : ∀ {α : Type} (a : α), P (Pure.pure a : Parser α)
  fail : ∀ {α : Type}, P (fail : Parser α)
  guard : ∀ {α : Type} {f : Parser (Option α)}, P f → P (fun s => if s.cur = none then .ok none s else f s : Parser (Option α))
  skip : P skipSpace
  space : P assertSpace
  ch : ∀ c, c ≠ 0 → P (assertCh c)
  str : ∀ str, 0 ∉ str → P (assertStr str)
  fetch : ∀ d sp, P (fetchString d sp)
  optCh : ∀ c, c ≠ 0 → P (optionalCh c)
  peek : P peek

/-- Follow the structure of a parser. -/
macro "closed" C:term : tactic => `(tactic| repeat' first
  | exact Closed.skip $C | exact Closed.space $C | exact Closed.peek $C | exact Closed.fetch $C _ _ | exact Closed.pure $C _ | exact Closed.fail $C
  | exact Closed.ch $C _ (by decide) | exact Closed.str $C _ (by decide) | exact Closed.optCh $C _ (by decide)
  | apply Closed.bind $C | apply Closed.guard $C | split | intro _)

variable {P : {α : Type} → Parser α → Prop}

theorem closed_int (C : Closed P) (d : UInt8) : P (fetchInt d) := by unfold fetchInt; closed C
theorem closed_con (C : Closed P) (str : Bytes) : P (someCon str) := by unfold someCon; closed C
theorem closed_addr (C : Closed P) {A : Type} (f : AddrFns A) (str : Bytes) : P (readAddr f str) := by unfold readAddr; closed C
theorem closed_finish (C : Closed P) (e : Bytes) (t : FType) (str : Bytes) : P (Fcontext.finish e t str) := by unfold Fcontext.finish; closed C

/-- The same with numbers and contexts. -/
macro "closed2" C:term : tactic => `(tactic| repeat' first
  | exact Closed.skip $C | exact Closed.space $C | exact Closed.peek $C | exact Closed.fetch $C _ _ | exact Closed.pure $C _ | exact Closed.fail $C
  | exact Closed.ch $C _ (by decide) | exact Closed.str $C _ (by decide) | exact Closed.optCh $C _ (by decide)
  | exact closed_int $C _ | exact closed_con $C _ | exact closed_addr $C _ _ | exact closed_finish $C _ _ _
  | apply Closed.bind $C | apply Closed.guard $C | split | intro _)

theorem closed_range (C : Closed P) : P parseRange := by rw [parseRange_eq]; closed2 C

/-- The same with ranges. -/
macro "closed3" C:term : tactic => `(tactic| repeat' first
  | exact Closed.skip $C | exact Closed.space $C | exact Closed.peek $C | exact Closed.fetch $C _ _ | exact Closed.pure $C _ | exact Closed.fail $C
  | exact Closed.ch $C _ (by decide) | exact Closed.str $C _ (by decide) | exact Closed.optCh $C _ (by decide)
  | exact closed_int $C _ | exact closed_con $C _ | exact closed_addr $C _ _ | exact closed_finish $C _ _ _ | exact closed_range $C
  | apply Closed.bind $C | apply Closed.guard $C | split | intro _)

theorem closed_seuser (C : Closed P) : P Seuser.parse := by unfold Seuser.parse; closed3 C
theorem closed_fcontext (C : Closed P) : P Fcontext.parse := by unfold Fcontext.parse; closed3 C
theorem closed_port (C : Closed P) : P Port.parse := by unfold Port.parse; closed3 C
theorem closed_iface (C : Closed P) : P Iface.parse := by unfold Iface.parse; closed3 C
theorem closed_ibendport (C : Closed P) : P Ibendport.parse := by unfold Ibendport.parse; closed3 C
theorem closed_node (C : Closed P) {A : Type} (f : Bool → AddrFns A) : P (Node.parse f) := by unfold Node.parse; dsimp only; closed3 C
theorem closed_ibpkey (C : Closed P) {A : Type} (f : AddrFns A) : P (Ibpkey.parse f) := by unfold Ibpkey.parse; closed3 C
theorem closed_extra (C : Closed P) : P UserExtra.parse := by unfold UserExtra.parse; closed3 C

theorem closed_boolValue (C : Closed P) (O : ∀ str, 0 ∉ str → P (optionalStr str)) : P boolValue := by
  unfold boolValue
  repeat' first
    | exact O _ (by decide) | exact closed_int C _ | exact C.pure _ | apply C.bind | split | intro _

theorem closed_boolean (C : Closed P) (O : ∀ str, 0 ∉ str → P (optionalStr str)) : P Boolean.parse := by
  unfold Boolean.parse
  repeat' first
    | exact closed_boolValue C O | exact C.skip | exact C.space | exact C.fetch _ _ | exact C.pure _ | exact C.fail | exact C.ch _ (by decide)
    | apply C.bind | apply C.guard | split | intro _

theorem closed_mls (C : Closed P) (O : ∀ str, 0 ∉ str → P (optionalStr str)) : P userMls := by
  unfold userMls
  repeat' first
    | exact O _ (by decide) | exact C.skip | exact C.space | exact C.fetch _ _ | exact C.pure _ | exact C.str _ (by decide)
    | apply C.bind | split | intro _

theorem closed_user (C : Closed P) (O : ∀ str, 0 ∉ str → P (optionalStr str))
    (R : ∀ b roles, P (fun s => rolesLoop (s.size + 1) b roles s : Parser (List Bytes × Bool))) : P User.parse := by
  unfold User.parse
  repeat' first
    | exact closed_mls C O | exact R _ _ | exact C.skip | exact C.space | exact C.fetch _ _ | exact C.pure _ | exact C.fail | exact C.ch _ (by decide)
    | exact C.str _ (by decide) | exact C.optCh _ (by decide)
    | apply C.bind | apply C.guard | split | intro _

/-! ## Sizes -/

/-- The rest does not grow. -/
def Shrink {α : Type} (p : Parser α) : Prop := ∀ s a s', p s = .ok a s' → s'.size ≤ s.size

/-- The rest shrinks. -/
def Strict {α : Type} (p : Parser α) : Prop := ∀ s a s', p s = .ok a s' → s'.size < s.size

theorem bind_cases {α β : Type} {p : Parser α} {f : α → Parser β} {s s' : St} {b : β} (h : (p >>= f) s = .ok b s') :
    ∃ a s1, p s = .ok a s1 ∧ f a s1 = .ok b s' := by
  rw [bind_def] at h
  cases hp : p s with
  | err => rw [hp] at h; cases h
  | ub => rw [hp] at h; cases h
  | ok a s1 => rw [hp] at h; exact ⟨a, s1, rfl, h⟩

theorem loadLine_length (l : Bytes) : (loadLine l).length ≤ l.length + 1 := by
  unfold loadLine
  split
  · rename_i h
    have : l ≠ [] := by rintro rfl; cases h
    have : 0 < l.length := List.length_pos_iff.2 this
    simp only [List.length_append, List.length_dropLast, List.length_cons, List.length_nil]
    omega
  · simp

theorem nextLine_size : ∀ (ls : List Bytes), (nextLine ls).size ≤ (ls.map fun l => l.length + 3).sum
  | [] => Nat.le_refl _
  | l :: ls => by
    unfold nextLine
    dsimp only
    split
    · have h1 := loadLine_length l
      have h2 := (List.dropWhile_suffix (l := loadLine l) isSpace).length_le
      unfold St.size
      simp only [List.map_cons, List.sum_cons]
      omega
    · have := nextLine_size ls
      simp only [List.map_cons, List.sum_cons]
      omega

theorem shrink_skip : Shrink skipSpace := by
  rintro ⟨cur, more⟩ a s' h
  unfold skipSpace at h
  cases cur with
  | none =>
    injection h with h1 h2
    subst h2
    have := nextLine_size more
    unfold St.size at this ⊢
    dsimp only at this ⊢
    omega
  | some p =>
    dsimp only at h
    have hl := (List.dropWhile_suffix (l := p) isSpace).length_le
    split at h
    · cases h
    · rename_i c r hd
      rw [hd] at hl
      split at h
      · injection h with h1 h2
        subst h2
        unfold St.size
        dsimp only
        omega
      · injection h with h1 h2
        subst h2
        have := nextLine_size more
        unfold St.size at this ⊢
        dsimp only at this ⊢
        omega

theorem shrink_space : Shrink assertSpace := by
  rintro s a s' h
  rw [space_spec] at h
  split at h
  · cases h
  · cases h
  · split at h
    · cases h
    · exact shrink_skip _ _ _ h

theorem strict_ch (c : UInt8) : Strict (assertCh c) := by
  rintro ⟨cur, more⟩ a s' h
  rw [ch_spec] at h
  dsimp only at h
  split at h
  · cases h
  · cases h
  · split at h
    · cases h
    · injection h with h1 h2
      subst h2
      unfold St.size
      simp

theorem shrink_str (str : Bytes) : Shrink (assertStr str) := by
  rintro ⟨cur, more⟩ a s' h
  rw [str_spec] at h
  dsimp only at h
  split at h
  · cases h
  · cases h
  · split at h
    · injection h with h1 h2
      subst h2
      unfold St.size
      simp only [List.length_drop]
      omega
    · cases h

theorem strict_str {str : Bytes} (hs : str ≠ []) : Strict (assertStr str) := by
  rintro ⟨cur, more⟩ a s' h
  rw [str_spec] at h
  dsimp only at h
  have : 0 < str.length := List.length_pos_iff.2 hs
  split at h
  · cases h
  · cases h
  · split at h
    · injection h with h1 h2
      subst h2
      unfold St.size
      simp only [List.length_drop, List.length_cons]
      omega
    · cases h

theorem strict_fetch (d : UInt8) (sp : Bool) : Strict (fetchString d sp) := by
  rintro ⟨cur, more⟩ a s' h
  rw [fetch_spec] at h
  dsimp only at h
  split at h
  · cases h
  · rename_i p
    split at h
    · cases h
    · split at h
      · cases h
      · rename_i h1 h2
        injection h with h3 h4
        subst h4
        have a1 : 0 < (fetched d sp p).length := List.length_pos_iff.2 h2
        have a2 : (fetched d sp p).length ≤ p.length := (List.takeWhile_prefix _).length_le
        unfold St.size
        simp only [List.length_drop]
        omega

theorem shrink_optCh (c : UInt8) : Shrink (optionalCh c) := by
  rintro ⟨cur, more⟩ a s' h
  unfold optionalCh at h
  dsimp only at h
  split at h
  · injection h with h1 h2; subst h2; exact Nat.le_refl _
  · cases h
  · split at h
    · injection h with h1 h2; subst h2; exact Nat.le_refl _
    · injection h with h1 h2
      subst h2
      unfold St.size
      simp

theorem shrink_optStr (str : Bytes) : Shrink (optionalStr str) := by
  rintro ⟨cur, more⟩ a s' h
  unfold optionalStr at h
  dsimp only at h
  split at h
  · cases h
  · cases h
  · split at h
    · injection h with h1 h2
      subst h2
      unfold St.size
      simp only [List.length_drop]
      omega
    · injection h with h1 h2; subst h2; exact Nat.le_refl _

theorem shrink_peek : Shrink peek := by
  rintro s a s' h
  rw [peek_spec] at h
  split at h
  · cases h
  · cases h
  · split at h
    · exact shrink_space _ _ _ h
    · injection h with h1 h2; subst h2; exact Nat.le_refl _

theorem shrink_closed : Closed (fun {α} p => Shrink (α := α) p) where
  bind := by
    intro α β p f hp hf s b s' h
    obtain ⟨a, s1, h1, h2⟩ := bind_cases h
    exact Nat.le_trans (hf a _ _ _ h2) (hp _ _ _ h1)
  pure := by
    intro α a s b s' h
    injection h with h1 h2
    subst h2
    exact Nat.le_refl _
  fail := by
    intro α s b s' h
    cases h
  guard := by
    intro α f hf s b s' h
    dsimp only at h
    split at h
    · injection h with h1 h2
      subst h2
      exact Nat.le_refl _
    · exact hf _ _ _ h
  skip := shrink_skip
  space := shrink_space
  ch := fun c _ s a s' h => Nat.le_of_lt (strict_ch c s a s' h)
  str := fun str _ => shrink_str str
  fetch := fun d sp s a s' h => Nat.le_of_lt (strict_fetch d sp s a s' h)
  optCh := fun c _ => shrink_optCh c
  peek := shrink_peek

/-! ## The loop over roles -/

theorem bind_congr' {α β : Type} {p : Parser α} {f g : α → Parser β} {s : St} (h : ∀ a s', p s = .ok a s' → f a s' = g a s') : (p >>= f) s = (p >>= g) s := by
  simp only [bind_def]
  cases hp : p s with
  | err => rfl
  | ub => rfl
  | ok a s' => exact h a s' hp

/-- The word of `rolesLoop`. -/
def roleWord (p : Bytes) : Bytes := p.takeWhile (fun c => c != 0 && c != 59 && c != 125 && !isSpace c)

/-- `*(info->ptr)++` behind the role. -/
def roleTake : Parser (Bytes × UInt8) := do
  let p ← noeof
  let (delim, rest) ← deref (p.drop (roleWord p).length)
  setPtr rest
  pure (roleWord p, delim)

theorem roleTake_spec (s : St) : roleTake s = match s.cur with
    | none => .err
    | some p => match p.drop (roleWord p).length with
      | [] => .ub
      | d :: r => .ok (roleWord p, d) ⟨some r, s.more⟩ := by
  obtain ⟨cur, more⟩ := s
  cases cur with
  | none => rfl
  | some p =>
    have e : roleTake ⟨some p, more⟩ = (deref (p.drop (roleWord p).length) >>= fun x => setPtr x.2 >>= fun _ => pure (roleWord p, x.1) : Parser (Bytes × UInt8)) ⟨some p, more⟩ := rfl
    rw [e, bind_def]
    dsimp only
    cases p.drop (roleWord p).length <;> rfl

theorem strict_roleTake : Strict roleTake := by
  rintro ⟨cur, more⟩ a s' h
  rw [roleTake_spec] at h
  dsimp only at h
  split at h
  · cases h
  · rename_i p
    split at h
    · cases h
    · rename_i d r hd
      injection h with h1 h2
      subst h2
      have := congrArg List.length hd
      simp only [List.length_drop, List.length_cons] at this
      unfold St.size
      dsimp only
      omega

/-- The body of the loop. -/
def roleStep (k : List Bytes → Parser (List Bytes × Bool)) (islist : Bool) (roles : List Bytes) (x : Bytes × UInt8) : Parser (List Bytes × Bool) :=
  if x.2 ≠ 0 ∧ isSpace x.2 = false then
    if islist = true ∧ x.2 = 125 then pure (addRole roles x.1, false)
    else if islist = false ∧ x.2 = 59 then pure (addRole roles x.1, true)
    else fail
  else skipSpace >>= fun _ => optionalCh 59 >>= fun b =>
    if b = true then pure (addRole roles x.1, true)
    else optionalCh 125 >>= fun close => if close = false ∧ islist = true then k (addRole roles x.1) else pure (addRole roles x.1, false)

theorem rolesLoop_succ (n : Nat) (islist : Bool) (roles : List Bytes) :
    rolesLoop (n + 1) islist roles = (skipSpace >>= fun _ => roleTake >>= roleStep (rolesLoop n islist) islist roles) := by
  funext s
  have e : rolesLoop (n + 1) islist roles s = (skipSpace >>= fun _ => noeof >>= fun p => deref (p.drop (roleWord p).length) >>= fun x =>
    setPtr x.2 >>= fun _ => roleStep (rolesLoop n islist) islist roles (roleWord p, x.1)) s := rfl
  rw [e]
  unfold roleTake
  simp only [bind_def]
  cases skipSpace s with
  | err => rfl
  | ub => rfl
  | ok a s =>
    dsimp only
    cases noeof s with
    | err => rfl
    | ub => rfl
    | ok p s =>
      dsimp only
      cases deref (p.drop (roleWord p).length) s with
      | err => rfl
      | ub => rfl
      | ok x s => rfl

theorem rolesLoop_fuel : ∀ (n m : Nat) (islist : Bool) (roles : List Bytes) (s : St), s.size < n → s.size < m →
    rolesLoop n islist roles s = rolesLoop m islist roles s
  | 0, _, _, _, _, h, _ => by cases h
  | _ + 1, 0, _, _, _, _, h => by cases h
  | n + 1, m + 1, islist, roles, s, hn, hm => by
    rw [rolesLoop_succ, rolesLoop_succ]
    refine bind_congr' fun _ s1 h1 => ?_
    refine bind_congr' fun x s2 h2 => ?_
    have a1 := shrink_skip _ _ _ h1
    have a2 := strict_roleTake _ _ _ h2
    unfold roleStep
    split
    · rfl
    · refine bind_congr' fun _ s3 h3 => ?_
      refine bind_congr' fun b s4 h4 => ?_
      split
      · rfl
      · refine bind_congr' fun close s5 h5 => ?_
        have a3 := shrink_skip _ _ _ h3
        have a4 := shrink_optCh _ _ _ _ h4
        have a5 := shrink_optCh _ _ _ _ h5
        split
        · exact rolesLoop_fuel n m islist _ s5 (by omega) (by omega)
        · rfl

/-- Any property that is kept holds for the loop. -/
theorem closed_roles (C : Closed P) (T : P roleTake) : ∀ (n : Nat) (islist : Bool) (roles : List Bytes), P (rolesLoop n islist roles)
  | 0, _, _ => C.fail
  | n + 1, islist, roles => by
    rw [rolesLoop_succ]
    refine C.bind C.skip fun _ => C.bind T fun x => ?_
    unfold roleStep
    repeat' first
      | exact closed_roles C T n islist _ | exact C.skip | exact C.pure _ | exact C.fail | exact C.optCh _ (by decide)
      | apply C.bind | split | intro _

theorem shrink_roles (islist : Bool) (roles : List Bytes) : Shrink (fun s => rolesLoop (s.size + 1) islist roles s : Parser (List Bytes × Bool)) := fun s a s' h =>
  closed_roles (P := fun {α} p => Shrink (α := α) p) shrink_closed (fun s a s' h => Nat.le_of_lt (strict_roleTake s a s' h)) _ islist roles s a s' h

/-! ## Each record takes some bytes -/

/-- A record takes some bytes. -/
def Takes {α : Type} (p : Parser (Option α)) : Prop := ∀ s r s', p s = .ok (some r) s' → s'.size < s.size

theorem takes_start {α β : Type} {p : Parser β} {f : β → Parser (Option α)} (hp : Strict p) (hf : ∀ a, Shrink (f a)) : Takes (start (p >>= f)) := by
  intro s r s' h
  obtain ⟨a, s1, h1, h2⟩ := bind_cases h
  change (if s1.cur = none then Out.ok none s1 else (p >>= f) s1) = _ at h2
  split at h2
  · cases h2
  · obtain ⟨b, s2, h3, h4⟩ := bind_cases h2
    have a1 := shrink_skip _ _ _ h1
    have a2 := hp _ _ _ h3
    have a3 := hf _ _ _ _ h4
    omega

/-- Sizes, following the structure. -/
theorem shrinks : Closed (fun {α} p => Shrink (α := α) p) := shrink_closed

theorem takes_seuser : Takes Seuser.parse := takes_start (strict_fetch _ _) fun _ => by
  show (fun {α} p => Shrink (α := α) p) _
  closed3 shrinks

theorem takes_fcontext : Takes Fcontext.parse := takes_start (strict_fetch _ _) fun _ => by
  show (fun {α} p => Shrink (α := α) p) _
  closed3 shrinks

theorem takes_port : Takes Port.parse := takes_start (strict_str (by simp)) fun _ => by
  show (fun {α} p => Shrink (α := α) p) _
  closed3 shrinks

theorem takes_iface : Takes Iface.parse := takes_start (strict_str (by simp)) fun _ => by
  show (fun {α} p => Shrink (α := α) p) _
  closed3 shrinks

theorem takes_ibendport : Takes Ibendport.parse := takes_start (strict_str (by simp)) fun _ => by
  show (fun {α} p => Shrink (α := α) p) _
  closed3 shrinks

theorem takes_extra : Takes UserExtra.parse := takes_start (strict_str (by simp)) fun _ => by
  show (fun {α} p => Shrink (α := α) p) _
  closed3 shrinks

theorem takes_node {A : Type} (f : Bool → AddrFns A) : Takes (Node.parse f) := takes_start (strict_str (by simp)) fun _ => by
  show (fun {α} p => Shrink (α := α) p) _
  dsimp only
  closed3 shrinks

theorem takes_ibpkey {A : Type} (f : AddrFns A) : Takes (Ibpkey.parse f) := takes_start (strict_str (by simp)) fun _ => by
  show (fun {α} p => Shrink (α := α) p) _
  closed3 shrinks

theorem takes_boolean : Takes Boolean.parse := takes_start (strict_fetch _ _) fun _ => by
  show (fun {α} p => Shrink (α := α) p) _
  repeat' first
    | exact closed_boolValue shrinks (fun str _ => shrink_optStr str) | exact Closed.skip shrinks | exact Closed.space shrinks
    | exact Closed.pure shrinks _ | exact Closed.fail shrinks | exact Closed.ch shrinks _ (by decide)
    | apply Closed.bind shrinks | split | intro _

theorem takes_user : Takes User.parse := takes_start (strict_str (by simp)) fun _ => by
  show (fun {α} p => Shrink (α := α) p) _
  repeat' first
    | exact closed_mls shrinks (fun str _ => shrink_optStr str) | exact shrink_roles _ _ | exact Closed.skip shrinks | exact Closed.space shrinks
    | exact Closed.fetch shrinks _ _ | exact Closed.pure shrinks _ | exact Closed.fail shrinks | exact Closed.ch shrinks _ (by decide)
    | exact Closed.str shrinks _ (by decide) | exact Closed.optCh shrinks _ (by decide)
    | apply Closed.bind shrinks | split | intro _

/-- The limit on the turns of the loop does not matter. -/
theorem cacheLoop_fuel {α : Type} {p : Parser (Option α)} (hp : Takes p) : ∀ (n m : Nat) (acc : List α) (s : St), s.size < n → s.size < m →
    cacheLoop p n acc s = cacheLoop p m acc s
  | 0, _, _, _, h, _ => by cases h
  | _ + 1, 0, _, _, _, h => by cases h
  | n + 1, m + 1, acc, s, hn, hm => by
    unfold cacheLoop
    split
    · rfl
    · rfl
    · rfl
    · rename_i r s' h
      have := hp _ _ _ h
      exact cacheLoop_fuel hp n m _ s' (by omega) (by omega)

/-! ## No reads outside of the buffer -/

/-- There is a NUL at or behind `ptr`. -/
def Inv (s : St) : Prop := ∀ p, s.cur = some p → 0 ∈ p

/-- Such states are kept, and there is no undefined behaviour. -/
def Safe {α : Type} (p : Parser α) : Prop := ∀ s, Inv s → p s ≠ .ub ∧ ∀ a s', p s = .ok a s' → Inv s'

theorem inv_nextLine : ∀ (ls : List Bytes), Inv (nextLine ls)
  | [], p, h => by cases h
  | l :: ls, p, h => by
    unfold nextLine at h
    dsimp only at h
    split at h
    · injection h with h
      subst h
      have h0 : (0 : UInt8) ∈ loadLine l := by unfold loadLine; split <;> simp
      obtain ⟨pre, st, p1, p2, -, -, p5⟩ := span_spec isSpace (loadLine l)
      rw [p5]
      rw [p1] at h0
      rcases List.mem_append.1 h0 with h0 | h0
      · exact absurd (p2 0 h0) (by decide)
      · exact h0
    · exact inv_nextLine ls p h

theorem inv_some {p : Bytes} {more : List Bytes} (h : 0 ∈ p) : Inv ⟨some p, more⟩ := by
  rintro q ⟨⟩
  exact h

theorem drop_takeWhile {f : UInt8 → Bool} (hf : f 0 = false) {p : Bytes} (h : 0 ∈ p) : 0 ∈ p.drop (p.takeWhile f).length := by
  have e : p.drop (p.takeWhile f).length = p.dropWhile f := by
    obtain ⟨pre, st, p1, -, -, p4, p5⟩ := span_spec f p
    rw [p4, p5]
    conv_lhs => rw [p1]
    exact drop_length_append
  have h2 : 0 ∈ p.takeWhile f ++ p.dropWhile f := by rw [List.takeWhile_append_dropWhile]; exact h
  rw [e]
  rcases List.mem_append.1 h2 with h2 | h2
  · have := List.all_takeWhile (p := f) (l := p)
    rw [List.all_eq_true] at this
    exact absurd (this 0 h2) (by simp [hf])
  · exact h2

theorem safe_skip : Safe skipSpace := by
  rintro ⟨cur, more⟩ hi
  cases cur with
  | none => exact ⟨by simp [skipSpace], fun a s' h => by injection h with h1 h2; subst h2; exact inv_nextLine _⟩
  | some p =>
    have h0 := hi p rfl
    have h1 : (0 : UInt8) ∈ p.dropWhile isSpace := by
      obtain ⟨pre, st, p1, p2, -, -, p5⟩ := span_spec isSpace p
      rw [p5]
      rw [p1] at h0
      rcases List.mem_append.1 h0 with h0 | h0
      · exact absurd (p2 0 h0) (by decide)
      · exact h0
    unfold skipSpace
    dsimp only
    cases hd : p.dropWhile isSpace with
    | nil => rw [hd] at h1; cases h1
    | cons c r =>
      rw [hd] at h1
      dsimp only
      split
      · exact ⟨by simp, fun a s' h => by injection h with h1' h2; subst h2; exact inv_some h1⟩
      · exact ⟨by simp, fun a s' h => by injection h with h1' h2; subst h2; exact inv_nextLine _⟩

theorem safe_space : Safe assertSpace := by
  rintro ⟨cur, more⟩ hi
  rw [space_spec]
  cases cur with
  | none => exact ⟨by simp, fun a s' h => by cases h⟩
  | some p =>
    cases p with
    | nil => exact absurd (hi [] rfl) (by simp)
    | cons c r =>
      dsimp only
      split
      · exact ⟨by simp, fun a s' h => by cases h⟩
      · exact safe_skip _ hi

theorem safe_peek : Safe peek := by
  rintro ⟨cur, more⟩ hi
  rw [peek_spec]
  cases cur with
  | none => exact ⟨by simp, fun a s' h => by cases h⟩
  | some p =>
    cases p with
    | nil => exact absurd (hi [] rfl) (by simp)
    | cons c r =>
      dsimp only
      split
      · exact safe_space _ hi
      · exact ⟨by simp, fun a s' h => by injection h with h1 h2; subst h2; exact hi⟩

theorem mem_tail_of_ne {c : UInt8} {r : Bytes} (h : 0 ∈ c :: r) (hc : c ≠ 0) : 0 ∈ r := by
  rcases List.mem_cons.1 h with h | h
  · exact absurd h.symm hc
  · exact h

theorem safe_ch (ch : UInt8) (hc : ch ≠ 0) : Safe (assertCh ch) := by
  rintro ⟨cur, more⟩ hi
  rw [ch_spec]
  cases cur with
  | none => exact ⟨by simp, fun a s' h => by cases h⟩
  | some p =>
    cases p with
    | nil => exact absurd (hi [] rfl) (by simp)
    | cons c r =>
      dsimp only
      split
      · exact ⟨by simp, fun a s' h => by cases h⟩
      · rename_i hn
        have : c = ch := by simpa using hn
        subst this
        exact ⟨by simp, fun a s' h => by injection h with h1 h2; subst h2; exact inv_some (mem_tail_of_ne (hi _ rfl) hc)⟩

theorem safe_optCh (ch : UInt8) (hc : ch ≠ 0) : Safe (optionalCh ch) := by
  rintro ⟨cur, more⟩ hi
  unfold optionalCh
  cases cur with
  | none => exact ⟨by simp, fun a s' h => by injection h with h1 h2; subst h2; exact hi⟩
  | some p =>
    cases p with
    | nil => exact absurd (hi [] rfl) (by simp)
    | cons c r =>
      dsimp only
      split
      · exact ⟨by simp, fun a s' h => by injection h with h1 h2; subst h2; exact hi⟩
      · rename_i hn
        have : c = ch := by simpa using hn
        subst this
        exact ⟨by simp, fun a s' h => by injection h with h1 h2; subst h2; exact inv_some (mem_tail_of_ne (hi _ rfl) hc)⟩

theorem safe_str (str : Bytes) (hs : 0 ∉ str) : Safe (assertStr str) := by
  rintro ⟨cur, more⟩ hi
  rw [str_spec]
  cases cur with
  | none => exact ⟨by simp, fun a s' h => by cases h⟩
  | some p =>
    cases p with
    | nil => exact absurd (hi [] rfl) (by simp)
    | cons c r =>
      dsimp only
      split
      · rename_i ht
        refine ⟨by simp, fun a s' h => ?_⟩
        injection h with h1 h2
        subst h2
        have h0 := hi _ rfl
        rw [← List.take_append_drop str.length (c :: r), ht] at h0
        exact inv_some ((List.mem_append.1 h0).resolve_left hs)
      · exact ⟨by simp, fun a s' h => by cases h⟩

theorem safe_fetch (d : UInt8) (sp : Bool) : Safe (fetchString d sp) := by
  rintro ⟨cur, more⟩ hi
  rw [fetch_spec]
  cases cur with
  | none => exact ⟨by simp, fun a s' h => by cases h⟩
  | some p =>
    have h0 : 0 ∈ p.drop (fetched d sp p).length := drop_takeWhile (by simp) (hi p rfl)
    dsimp only
    rw [if_neg (by intro he; rw [he] at h0; cases h0)]
    split
    · exact ⟨by simp, fun a s' h => by cases h⟩
    · exact ⟨by simp, fun a s' h => by injection h with h1 h2; subst h2; exact inv_some h0⟩

theorem safe_closed : Closed (fun {α} p => Safe (α := α) p) where
  bind := by
    intro α β p f hp hf s hi
    obtain ⟨h1, h2⟩ := hp s hi
    refine ⟨?_, ?_⟩
    · rw [bind_def]
      cases h : p s with
      | err => simp
      | ub => exact absurd h h1
      | ok a s1 => exact (hf a s1 (h2 a s1 h)).1
    · intro b s' h
      obtain ⟨a, s1, h3, h4⟩ := bind_cases h
      exact (hf a s1 (h2 a s1 h3)).2 b s' h4
  pure := fun a s hi => ⟨(by intro h; cases h), fun b s' h => by injection h with h1 h2; subst h2; exact hi⟩
  fail := fun s hi => ⟨(by intro h; cases h), fun b s' h => by cases h⟩
  guard := by
    intro α f hf s hi
    dsimp only
    split
    · exact ⟨by simp, fun b s' h => by injection h with h1 h2; subst h2; exact hi⟩
    · exact hf s hi
  skip := safe_skip
  space := safe_space
  ch := safe_ch
  str := safe_str
  fetch := safe_fetch
  optCh := safe_optCh
  peek := safe_peek

theorem cacheLoop_safe {α : Type} {p : Parser (Option α)} (hp : Safe p) : ∀ (n : Nat) (acc : List α) (s : St), Inv s → cacheLoop p n acc s ≠ .ub
  | 0, _, _, _ => by simp [cacheLoop]
  | n + 1, acc, s, hi => by
    obtain ⟨h1, h2⟩ := hp s hi
    unfold cacheLoop
    split
    · simp
    · rename_i h
      exact absurd h h1
    · simp
    · rename_i r s' h
      exact cacheLoop_safe hp n _ s' (h2 _ _ h)

theorem cache_safe {α : Type} {p : Parser (Option α)} (hp : Safe p) (file : Option Bytes) : cache p file ≠ .ub := by
  unfold cache
  have := cacheLoop_safe hp ((⟨none, (file.map lines).getD []⟩ : St).size + 1) [] ⟨none, (file.map lines).getD []⟩ (by rintro q ⟨⟩)
  dsimp only
  split
  · simp
  · simp
  · rename_i h
    exact absurd h this

/-! ## Comments and empty lines -/

/-- A line that counts. -/
def sig (l : Bytes) : Bool := decide (((loadLine l).dropWhile isSpace).head? ≠ some 0 ∧ ((loadLine l).dropWhile isSpace).head? ≠ some 35)

/-- The same up to comments and empty lines in what follows. -/
def Rel (s t : St) : Prop := s.cur = t.cur ∧ s.more.filter sig = t.more.filter sig

/-- The same results. -/
def RelOut {α : Type} : Out α → Out α → Prop
  | .ok a s, .ok b t => a = b ∧ Rel s t
  | .err, .err => True
  | .ub, .ub => True
  | _, _ => False

/-- Such lines do not matter. -/
def Resp {α : Type} (p : Parser α) : Prop := ∀ s t, Rel s t → RelOut (p s) (p t)

theorem nextLine_filter : ∀ (ls : List Bytes), (nextLine ls).cur = (nextLine (ls.filter sig)).cur ∧
    (nextLine ls).more.filter sig = (nextLine (ls.filter sig)).more
  | [] => ⟨rfl, rfl⟩
  | l :: ls => by
    by_cases h : ((loadLine l).dropWhile isSpace).head? ≠ some 0 ∧ ((loadLine l).dropWhile isSpace).head? ≠ some 35
    · rw [List.filter_cons_of_pos (by unfold sig; exact decide_eq_true h)]
      unfold nextLine
      dsimp only
      rw [if_pos h, if_pos h]
      exact ⟨rfl, rfl⟩
    · rw [List.filter_cons_of_neg (by unfold sig; simpa using h)]
      rw [nextLine, if_neg h]
      exact nextLine_filter ls

theorem rel_nextLine {ls ls' : List Bytes} (h : ls.filter sig = ls'.filter sig) : Rel (nextLine ls) (nextLine ls') := by
  obtain ⟨a1, a2⟩ := nextLine_filter ls
  obtain ⟨b1, b2⟩ := nextLine_filter ls'
  exact ⟨by rw [a1, b1, h], by rw [a2, b2, h]⟩

theorem resp_skip : Resp skipSpace := by
  rintro ⟨cur, more⟩ ⟨cur', more'⟩ ⟨h1, h2⟩
  dsimp only at h1 h2
  subst h1
  unfold skipSpace
  cases cur with
  | none => exact ⟨rfl, rel_nextLine h2⟩
  | some p =>
    dsimp only
    cases p.dropWhile isSpace with
    | nil => trivial
    | cons c r =>
      dsimp only
      split
      · exact ⟨rfl, rfl, h2⟩
      · exact ⟨rfl, rel_nextLine h2⟩

theorem resp_space : Resp assertSpace := by
  rintro ⟨cur, more⟩ ⟨cur', more'⟩ ⟨h1, h2⟩
  dsimp only at h1 h2
  subst h1
  rw [space_spec, space_spec]
  dsimp only
  cases cur with
  | none => trivial
  | some p =>
    cases p with
    | nil => trivial
    | cons c r =>
      dsimp only
      split
      · trivial
      · exact resp_skip _ _ ⟨rfl, h2⟩

theorem resp_closed : Closed (fun {α} p => Resp (α := α) p) where
  bind := by
    intro α β p f hp hf s t h
    have h1 := hp s t h
    rw [bind_def, bind_def]
    cases h2 : p s with
    | err => rw [h2] at h1; cases h3 : p t <;> rw [h3] at h1 <;> trivial
    | ub => rw [h2] at h1; cases h3 : p t <;> rw [h3] at h1 <;> trivial
    | ok a s1 =>
      rw [h2] at h1
      cases h3 : p t with
      | err => rw [h3] at h1; exact h1.elim
      | ub => rw [h3] at h1; exact h1.elim
      | ok b t1 =>
        rw [h3] at h1
        obtain ⟨rfl, h4⟩ := h1
        exact hf a s1 t1 h4
  pure := fun a s t h => ⟨rfl, h⟩
  fail := fun s t h => trivial
  guard := by
    intro α f hf s t h
    dsimp only
    rw [← h.1]
    split
    · exact ⟨rfl, h⟩
    · exact hf s t h
  skip := resp_skip
  space := resp_space
  ch := by
    rintro ch - ⟨cur, more⟩ ⟨cur', more'⟩ ⟨h1, h2⟩
    dsimp only at h1 h2
    subst h1
    rw [ch_spec, ch_spec]
    dsimp only
    cases cur with
    | none => trivial
    | some p =>
      cases p with
      | nil => trivial
      | cons c r =>
        dsimp only
        split
        · trivial
        · exact ⟨rfl, rfl, h2⟩
  str := by
    rintro str - ⟨cur, more⟩ ⟨cur', more'⟩ ⟨h1, h2⟩
    dsimp only at h1 h2
    subst h1
    rw [str_spec, str_spec]
    dsimp only
    cases cur with
    | none => trivial
    | some p =>
      cases p with
      | nil => trivial
      | cons c r =>
        dsimp only
        split
        · exact ⟨rfl, rfl, h2⟩
        · trivial
  fetch := by
    rintro d sp ⟨cur, more⟩ ⟨cur', more'⟩ ⟨h1, h2⟩
    dsimp only at h1 h2
    subst h1
    rw [fetch_spec, fetch_spec]
    dsimp only
    cases cur with
    | none => trivial
    | some p =>
      dsimp only
      split
      · trivial
      · split
        · trivial
        · exact ⟨rfl, rfl, h2⟩
  optCh := by
    rintro ch - ⟨cur, more⟩ ⟨cur', more'⟩ ⟨h1, h2⟩
    dsimp only at h1 h2
    subst h1
    unfold optionalCh
    dsimp only
    cases cur with
    | none => exact ⟨rfl, rfl, h2⟩
    | some p =>
      cases p with
      | nil => trivial
      | cons c r =>
        dsimp only
        split
        · exact ⟨rfl, rfl, h2⟩
        · exact ⟨rfl, rfl, h2⟩
  peek := by
    rintro ⟨cur, more⟩ ⟨cur', more'⟩ ⟨h1, h2⟩
    dsimp only at h1 h2
    subst h1
    rw [peek_spec, peek_spec]
    dsimp only
    cases cur with
    | none => trivial
    | some p =>
      cases p with
      | nil => trivial
      | cons c r =>
        dsimp only
        split
        · exact resp_space _ _ ⟨rfl, h2⟩
        · exact ⟨rfl, rfl, h2⟩

theorem resp_optStr (str : Bytes) : Resp (optionalStr str) := by
  rintro ⟨cur, more⟩ ⟨cur', more'⟩ ⟨h1, h2⟩
  dsimp only at h1 h2
  subst h1
  unfold optionalStr
  dsimp only
  cases cur with
  | none => trivial
  | some p =>
    cases p with
    | nil => trivial
    | cons c r =>
      dsimp only
      split
      · exact ⟨rfl, rfl, h2⟩
      · exact ⟨rfl, rfl, h2⟩

theorem resp_roleTake : Resp roleTake := by
  rintro ⟨cur, more⟩ ⟨cur', more'⟩ ⟨h1, h2⟩
  dsimp only at h1 h2
  subst h1
  rw [roleTake_spec, roleTake_spec]
  dsimp only
  cases cur with
  | none => trivial
  | some p =>
    dsimp only
    cases p.drop (roleWord p).length with
    | nil => trivial
    | cons d r => exact ⟨rfl, rfl, h2⟩

theorem resp_roles (islist : Bool) (roles : List Bytes) : Resp (fun s => rolesLoop (s.size + 1) islist roles s : Parser (List Bytes × Bool)) := by
  intro s t h
  dsimp only
  rw [rolesLoop_fuel _ (max s.size t.size + 1) islist roles s (by omega) (by omega),
    rolesLoop_fuel _ (max s.size t.size + 1) islist roles t (by omega) (by omega)]
  exact closed_roles (P := fun {α} p => Resp (α := α) p) resp_closed resp_roleTake _ islist roles s t h

theorem cacheLoop_resp {α : Type} {p : Parser (Option α)} (hp : Resp p) : ∀ (n : Nat) (acc : List α) (s t : St), Rel s t →
    RelOut (cacheLoop p n acc s) (cacheLoop p n acc t)
  | 0, _, _, _, _ => trivial
  | n + 1, acc, s, t, h => by
    have h1 := hp s t h
    unfold cacheLoop
    cases h2 : p s with
    | err => rw [h2] at h1; cases h3 : p t <;> rw [h3] at h1 <;> trivial
    | ub => rw [h2] at h1; cases h3 : p t <;> rw [h3] at h1 <;> trivial
    | ok a s1 =>
      rw [h2] at h1
      cases h3 : p t with
      | err => rw [h3] at h1; exact h1.elim
      | ub => rw [h3] at h1; exact h1.elim
      | ok b t1 =>
        rw [h3] at h1
        obtain ⟨rfl, h4⟩ := h1
        cases a with
        | none => exact ⟨rfl, h4⟩
        | some r => exact cacheLoop_resp hp n _ s1 t1 h4

/-- What is read depends on the lines that count only. -/
theorem cache_resp {α : Type} {p : Parser (Option α)} (hp : Resp p) (ht : Takes p) {f g : Bytes} (h : (lines f).filter sig = (lines g).filter sig) :
    cache p (some f) = cache p (some g) := by
  unfold cache
  simp only [Option.map_some, Option.getD_some]
  have e1 := cacheLoop_fuel ht ((⟨none, lines f⟩ : St).size + 1) (max (⟨none, lines f⟩ : St).size (⟨none, lines g⟩ : St).size + 1) [] ⟨none, lines f⟩
    (by omega) (by omega)
  have e2 := cacheLoop_fuel ht ((⟨none, lines g⟩ : St).size + 1) (max (⟨none, lines f⟩ : St).size (⟨none, lines g⟩ : St).size + 1) [] ⟨none, lines g⟩
    (by omega) (by omega)
  rw [e1, e2]
  have := cacheLoop_resp hp (max (⟨none, lines f⟩ : St).size (⟨none, lines g⟩ : St).size + 1) [] ⟨none, lines f⟩ ⟨none, lines g⟩ ⟨rfl, h⟩
  revert this
  generalize cacheLoop p _ [] ⟨none, lines f⟩ = A
  generalize cacheLoop p _ [] ⟨none, lines g⟩ = B
  intro this
  cases A <;> cases B <;> first | rfl | exact this.elim | (obtain ⟨rfl, -⟩ := this; rfl)

theorem idle_sig {l : Bytes} (h : Idle l) : lines l = [l] ∧ sig l = false := by
  obtain ⟨a, rfl, h10, h⟩ := h
  refine ⟨?_, ?_⟩
  · rw [lines_line (rest := []) h10]
    rfl
  · have e : loadLine (a ++ [10]) = a ++ [0, 0] := by
      unfold loadLine
      rw [if_pos (by rw [List.getLast?_append]; rfl), List.dropLast_concat]
    unfold sig
    rw [e]
    rcases h with h | ⟨pre, x, rfl, h⟩
    · rw [dropWhile_spaces fun c hc => isSpace_iff.2 (h c hc)]
      rfl
    · rw [List.append_assoc, dropWhile_spaces fun c hc => isSpace_iff.2 (h c hc)]
      rfl

theorem idle_lines {a l r : Bytes} (ha : WholeLines a) (hl : Idle l) : (lines (a ++ l ++ r)).filter sig = (lines (a ++ r)).filter sig := by
  obtain ⟨h1, h2⟩ := idle_sig hl
  have hl' : WholeLines l := by obtain ⟨x, rfl, -⟩ := hl; exact Or.inr ⟨x, rfl⟩
  rw [List.append_assoc, lines_append ha, lines_append hl', h1, lines_append ha]
  simp [h2]

end Verif.LocalFile
