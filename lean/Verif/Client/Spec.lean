import Verif.Client.Model

/-! # Specification for C106 and C107 -/

namespace Verif.Client

/-- Programs that have just been started: the library has kept nothing. -/
def Fresh (w : World) : Prop :=
  (∀ p, w.once p = none) ∧
  ∀ t th, w.thr t = some th → (∀ a, th.cache a = .unset) ∧ ∀ r, th.tr r = none

/-- The daemon that an event brings. -/
def daemonOf : Op → Option Daemon
  | .env d _ => some d
  | _ => none

/-- Whether the socket is there after an event, if the event is about that. -/
def socketOf : Op → Option Bool
  | .env _ s => some s
  | _ => none

/-- The daemons there were in a history. -/
def daemons (w : World) (ops : List Op) : List Daemon :=
  w.daemon :: ops.filterMap daemonOf

/-- Whether the socket was there at the start and after each change. -/
def sockets (w : World) (ops : List Op) : List Bool :=
  w.socket :: ops.filterMap socketOf

/-- The kernel stores this value as it is if it does not refuse it. -/
def Exact (k : Kernel) (a : Attr) (v : Option Bytes) : Prop := ∀ r, k.put a v = some r → r = v

/-- The attributes are changed through the library only, to values that the kernel stores as they are. -/
def Steady (k : Kernel) (ds : List Daemon) : Op → Prop
  | .setRaw _ a v _ => Exact k a v
  | .set _ a v _ => Exact k a v ∧ ∀ s d x, v = some s → d ∈ ds → d .toRaw s = some x → Exact k a (some x)
  | .direct .. => False
  | .reload _ => False
  | _ => True

/-- What the kernel holds for a thread. -/
def held (w : World) (t : Nat) : Option (Attr → Option Bytes) := (w.thr t).map (·.kern)

/-- The answers a program may get for a string: what one of the daemons says, or, but for colours, the string itself if one of them does not
answer or the socket is not there. -/
def Answer (ds : List Daemon) (ss : List Bool) (r : Req) (s x : Bytes) : Prop :=
  (∃ d ∈ ds, d r s = some x) ∨ (x = s ∧ (false ∈ ss ∨ (r ≠ .toColor ∧ ∃ d ∈ ds, d r s = none)))

end Verif.Client
