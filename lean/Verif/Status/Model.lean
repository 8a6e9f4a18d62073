import Verif.Prelude

/-!
# Model of the readers of the kernel's status page, libselinux/src/sestatus.c

The page is shared memory.  The kernel (not part of this code base) changes it as
`security/selinux/status.c` of Linux does: it makes `sequence` odd, writes any of the fields, one
word at a time, and makes `sequence` even again.  The reader and the kernel take turns in any
order, one load or store at a time (`Sched`).  Loads are executed in program order; `WeakPc`
at the end models the order that the code allows on other machines.
-/

namespace Verif.Status

/-- The fields guarded by the sequence number, sestatus.c:22-30. -/
inductive Field where
  | enforcing | policyload | denyUnknown
  deriving DecidableEq, Repr

/-- `struct selinux_status_t`, sestatus.c:22-30 (without `version`). -/
structure Page where
  seq : BitVec 32
  enforcing : BitVec 32
  policyload : BitVec 32
  denyUnknown : BitVec 32
  deriving DecidableEq, Repr

/-- A load of a field. -/
def Page.get (p : Page) : Field → BitVec 32
  | Field.enforcing => p.enforcing
  | Field.policyload => p.policyload
  | Field.denyUnknown => p.denyUnknown

/-- A store to a field. -/
def Page.set (p : Page) (f : Field) (v : BitVec 32) : Page :=
  match f with
  | Field.enforcing => { p with enforcing := v }
  | Field.policyload => { p with policyload := v }
  | Field.denyUnknown => { p with denyUnknown := v }

/-- `seqno & 0x0001`. -/
def odd (s : BitVec 32) : Bool := s.getLsbD 0

/-- The stores of the kernel. -/
inductive KStep where
  | start
  | write (f : Field) (v : BitVec 32)
  | commit
  deriving DecidableEq, Repr

/-- The kernel starts an update when none is in progress, and writes fields and finishes it when one is;
a step that is not possible does nothing. -/
def Page.step (p : Page) : KStep → Page
  | KStep.start => if odd p.seq then p else { p with seq := p.seq + 1 }
  | KStep.write f v => if odd p.seq then p.set f v else p
  | KStep.commit => if odd p.seq then { p with seq := p.seq + 1 } else p

/-- Where a reader is.  `first`: in the `read_sequence` at the start; `fields s todo vals`: has
seen the sequence number `s`, has the fields `todo` still to load; `again`: in the `read_sequence`
at the end of the loop; `same`: returned 0 because of an unchanged number; `done`: finished
with these values. -/
inductive Pc where
  | first
  | fields (s : BitVec 32) (todo : List Field) (vals : List (BitVec 32))
  | again (s : BitVec 32) (vals : List (BitVec 32))
  | same (s : BitVec 32)
  | done (s : BitVec 32) (vals : List (BitVec 32))
  deriving DecidableEq, Repr

/-- The program of a reader: the fields it loads, and for `selinux_status_updated` the value of
`last_seqno`. -/
structure Prog where
  fs : List Field
  last : Option (BitVec 32)

/-- `selinux_status_getenforce`, sestatus.c:152-178. -/
def getenforce : Prog := ⟨[Field.enforcing], none⟩
/-- `selinux_status_policyload`, sestatus.c:189-215, and the loop of `selinux_status_open`,
sestatus.c:310-316. -/
def policyload : Prog := ⟨[Field.policyload], none⟩
/-- `selinux_status_deny_unknown`, sestatus.c:224-246. -/
def denyUnknown : Prog := ⟨[Field.denyUnknown], none⟩
/-- `selinux_status_updated`, sestatus.c:90-144 (up to the processing of the values). -/
def updated (last : BitVec 32) : Prog := ⟨[Field.enforcing, Field.policyload], some last⟩

/-- What a reader does with an even sequence number it loaded at the start: sestatus.c:110-122 for
`selinux_status_updated`; the others go on. -/
def begun (pr : Prog) (s : BitVec 32) : Pc :=
  match pr.last with
  | none => Pc.fields s pr.fs []
  | some last =>
    if (if odd last then s else last) = s then Pc.same s else Pc.fields s pr.fs []

/-- What a reader does with an even sequence number `t` it loaded at the end: finish if it is the
one seen before (sestatus.c:130, 175, 212, 243); otherwise `selinux_status_updated` loads the fields
again, the others also read the sequence number again. -/
def checked (pr : Prog) (s t : BitVec 32) (vals : List (BitVec 32)) : Pc :=
  if t = s then Pc.done s vals
  else match pr.last with
    | none => Pc.first
    | some _ => Pc.fields t pr.fs []

/-- One step of a reader: one load.  `read_sequence` (sestatus.c:61-80) repeats its load while
the number is odd. -/
def rstep (pr : Prog) (p : Page) : Pc → Pc
  | Pc.first => if odd p.seq then Pc.first else begun pr p.seq
  | Pc.fields s [] vals => Pc.again s vals
  | Pc.fields s (f :: todo) vals => Pc.fields s todo (vals ++ [p.get f])
  | Pc.again s vals => if odd p.seq then Pc.again s vals else checked pr s p.seq vals
  | Pc.same s => Pc.same s
  | Pc.done s vals => Pc.done s vals

/-- Whose turn it is. -/
inductive Turn where
  | kernel (k : KStep)
  | reader
  deriving DecidableEq, Repr

/-- One turn. -/
def turn (pr : Prog) (x : Page × Pc) : Turn → Page × Pc
  | Turn.kernel k => (x.1.step k, x.2)
  | Turn.reader => (x.1, rstep pr x.1 x.2)

/-- A schedule is a list of turns; the call starts with the first one. -/
def exec (pr : Prog) (x : Page × Pc) (sched : List Turn) : Page × Pc := sched.foldl (turn pr) x

/-! ### The order of loads the code permits

There is a barrier after every load of the sequence number (sestatus.c:75) but none before it.
So the loads of the fields must follow the first load of the number, but they may be executed
after the second one, by the compiler or by the machine. -/

/-- A reader whose field loads are executed late. -/
inductive WeakPc where
  | first
  | again (s : BitVec 32)
  | fields (s t : BitVec 32) (todo : List Field) (vals : List (BitVec 32))
  | same (s : BitVec 32)
  | done (s : BitVec 32) (vals : List (BitVec 32))
  deriving DecidableEq, Repr

/-- One step of such a reader of `selinux_status_updated`. -/
def wstep (last : BitVec 32) (p : Page) : WeakPc → WeakPc
  | WeakPc.first =>
    if odd p.seq then WeakPc.first
    else if (if odd last then p.seq else last) = p.seq then WeakPc.same p.seq else WeakPc.again p.seq
  | WeakPc.again s =>
    if odd p.seq then WeakPc.again s
    else WeakPc.fields s p.seq [Field.enforcing, Field.policyload] []
  | WeakPc.fields s t (f :: todo) vals => WeakPc.fields s t todo (vals ++ [p.get f])
  | WeakPc.fields s t [] vals => if t = s then WeakPc.done s vals else WeakPc.again t
  | WeakPc.same s => WeakPc.same s
  | WeakPc.done s vals => WeakPc.done s vals

/-- One turn with such a reader. -/
def wturn (last : BitVec 32) (x : Page × WeakPc) : Turn → Page × WeakPc
  | Turn.kernel k => (x.1.step k, x.2)
  | Turn.reader => (x.1, wstep last x.1 x.2)

/-- A schedule with such a reader. -/
def wexec (last : BitVec 32) (x : Page × WeakPc) (sched : List Turn) : Page × WeakPc :=
  sched.foldl (wturn last) x

end Verif.Status
