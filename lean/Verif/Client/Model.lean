import Verif.Bytes

/-!
# Model of the caches of libselinux in a process

libselinux/src/procattr.c (contexts of a thread in `/proc/thread-self/attr`) and libselinux/src/setrans_client.c (translation of contexts).

Threads of all processes are numbered; each has the attributes that the kernel holds for it, and what the library keeps in thread-local
variables.  What comes from outside: whether the attribute file can be opened and read or written (`io`), what the kernel does with a value
that is written (`Kernel.put`), what the translation daemon answers (`World.daemon`) and whether its socket is there.  Allocations succeed;
contexts are shorter than a page.
-/

namespace Verif.Client

/-- The files of `/proc/<pid>/attr`, procattr.c:296-301. -/
inductive Attr where
  | current | prev | exec | fscreate | sockcreate | keycreate
deriving DecidableEq

/-- What a `prev_*` variable holds, procattr.c:14-23: `UNSET`, `NULL` or a string. -/
inductive Cache where
  | unset
  | null
  | val (s : Bytes)
deriving DecidableEq

/-- The requests to the daemon, setrans_internal.h. -/
inductive Req where
  | toRaw | toTrans | toColor
deriving DecidableEq

/-- What the daemon answers now: `none` for no connection, a failed or malformed exchange, or an answer with an error. -/
abbrev Daemon := Req → Bytes → Option Bytes

/-- What the kernel does with a value written to an attribute (`none` clears it): it refuses or stores something. -/
structure Kernel where
  put : Attr → Option Bytes → Option (Option Bytes)

/-- A thread: its process, the attributes in the kernel, and the thread-local variables (procattr.c:19-23, setrans_client.c:29-34; a pair of
`prev_*` variables of the latter is an optional pair of question and answer). -/
structure Thread where
  pid : Nat
  kern : Attr → Option Bytes
  cache : Attr → Cache
  tr : Req → Option (Bytes × Bytes)

/-- All threads; for each process `has_setrans` once it is initialised (setrans_client.c:26,300-307); the daemon and its socket. -/
structure World where
  thr : Nat → Option Thread
  once : Nat → Option Bool
  daemon : Daemon
  socket : Bool

/-- The variable that stands for an attribute; `prev` has none (`NULL` is passed), procattr.c:296-301. -/
def cacheOf (th : Thread) (a : Attr) : Cache := if a = .prev then .null else th.cache a

/-- `getprocattrcon_raw` for the thread itself, procattr.c:119-170: `none` for failure, else the context or `NULL`. -/
def getAttr (th : Thread) (a : Attr) (io : Bool) : Option (Option Bytes) :=
  match cacheOf th a with
  | .val s => some (some s)
  | _ => if io then some (th.kern a) else none

/-- A value as it is kept, procattr.c:237-239. -/
def keep : Option Bytes → Cache
  | none => .null
  | some s => .val s

/-- The part of `setprocattrcon_raw` that writes, procattr.c:211-241. -/
def writeAttr (k : Kernel) (th : Thread) (a : Attr) (v : Option Bytes) (io : Bool) : Thread × Bool :=
  if io then
    match k.put a v with
    | none => (th, false)
    | some r =>
      ({ th with kern := fun x => if x = a then r else th.kern x,
                 cache := fun x => if x = a then keep v else th.cache x }, true)
  else (th, false)

/-- `setprocattrcon_raw`, procattr.c:191-242. -/
def setAttr (k : Kernel) (th : Thread) (a : Attr) (v : Option Bytes) (io : Bool) : Thread × Bool :=
  match v, th.cache a with
  | none, .null => (th, true)
  | some c, .val s => if c = s then (th, true) else writeAttr k th a v io
  | _, _ => writeAttr k th a v io

/-- `selinux_trans_to_raw_context`, `selinux_raw_to_trans_context`, `selinux_raw_context_to_color` for a string with `has_setrans` known,
setrans_client.c:309-440: the result (`none` for failure) and the variables. -/
def translate (d : Daemon) (has : Bool) (tr : Req → Option (Bytes × Bytes)) (r : Req) (s : Bytes) :
    Option Bytes × (Req → Option (Bytes × Bytes)) :=
  if has then
    match tr r with
    | some (q, x) => if q = s then (some x, tr) else ask
    | none => ask
  else (some s, tr)
where
  /-- The other branch: forget, ask the daemon, keep. -/
  ask : Option Bytes × (Req → Option (Bytes × Bytes)) :=
    match d r s with
    | some x => (some x, fun q => if q = r then some (s, x) else tr q)
    | none =>
      if r = .toColor then (none, fun q => if q = r then none else tr q)
      else (some s, fun q => if q = r then some (s, s) else tr q)

/-- What a call gives. -/
inductive Res where
  /-- 0 and a context or `NULL`. -/
  | val (c : Option Bytes)
  /-- 0 -/
  | ok
  /-- -1 -/
  | fail
  /-- Not a call of the library. -/
  | none
deriving DecidableEq

/-- What happens. -/
inductive Op where
  /-- `get*con_raw` -/
  | getRaw (t : Nat) (a : Attr) (io : Bool)
  /-- `get*con` -/
  | get (t : Nat) (a : Attr) (io : Bool)
  /-- `set*con_raw` -/
  | setRaw (t : Nat) (a : Attr) (v : Option Bytes) (io : Bool)
  /-- `set*con` -/
  | set (t : Nat) (a : Attr) (v : Option Bytes) (io : Bool)
  /-- `getpidcon_raw`, `getpidprevcon_raw` for the thread `u` -/
  | pidRaw (t u : Nat) (a : Attr) (io : Bool)
  /-- The three functions of setrans_client.c -/
  | trans (t : Nat) (r : Req) (s : Option Bytes)
  /-- A new thread `u` in the process of `t` -/
  | clone (t u : Nat)
  /-- A new process `p` with the thread `u` -/
  | fork (t u p : Nat)
  /-- `execve`; `c` is the context of the new program -/
  | exec (t : Nat) (c : Option Bytes)
  | exit (t : Nat)
  /-- The daemon changes, is started or stopped -/
  | env (d : Daemon) (socket : Bool)
  /-- An attribute changes without the library, by a write to the file or by the kernel -/
  | direct (t : Nat) (a : Attr) (v : Option Bytes)
  /-- A policy is loaded; `f` says what contexts are shown for those before -/
  | reload (f : Bytes → Bytes)

/-- Replace a thread. -/
def World.put (w : World) (t : Nat) (th : Thread) : World := { w with thr := fun x => if x = t then some th else w.thr x }

/-- `__selinux_once(once, init_context_translations)`, setrans_client.c:300-307: the value of `has_setrans` from here on. -/
def World.has (w : World) (p : Nat) : Bool := (w.once p).getD w.socket

/-- A translation by the thread `t`; `NULL` is answered before anything else, setrans_client.c:312-315,360-363,408-411. -/
def World.trans (w : World) (t : Nat) (th : Thread) (r : Req) : Option Bytes → World × Res
  | none => (w, if r = .toColor then .fail else .val none)
  | some s =>
    let o := translate w.daemon (w.has th.pid) th.tr r s
    ({ w.put t { th with tr := o.2 } with once := fun x => if x = th.pid then some (w.has th.pid) else w.once x },
      match o.1 with | none => .fail | some x => .val (some x))

/-- One event.  Events for a thread that is not there, or a new one that is, do nothing. -/
def step (k : Kernel) (w : World) : Op → World × Res
  | .getRaw t a io =>
    match w.thr t with
    | none => (w, .none)
    | some th => (w, match getAttr th a io with | none => .fail | some v => .val v)
  | .get t a io => -- procattr.c:172-187
    match w.thr t with
    | none => (w, .none)
    | some th => match getAttr th a io with | none => (w, .fail) | some v => w.trans t th .toTrans v
  | .setRaw t a v io =>
    match w.thr t with
    | none => (w, .none)
    | some th =>
      if a = .prev then (w, .none)
      else (w.put t (setAttr k th a v io).1, if (setAttr k th a v io).2 then .ok else .fail)
  | .set t a v io => -- procattr.c:244-257
    match w.thr t with
    | none => (w, .none)
    | some th =>
      if a = .prev then (w, .none)
      else
        match w.trans t th .toRaw v with
        | (w1, .val c) =>
          match w1.thr t with
          | none => (w1, .none)
          | some th1 => (w1.put t (setAttr k th1 a c io).1, if (setAttr k th1 a c io).2 then .ok else .fail)
        | (w1, _) => (w1, .fail)
  | .pidRaw t u a io => -- procattr.c:303-338; no variable is passed
    match w.thr t, w.thr u with
    | some _, some th =>
      if a = .current ∨ a = .prev then (w, if io then .val (th.kern a) else .fail) else (w, .none)
    | some _, none => (w, .fail)
    | none, _ => (w, .none)
  | .trans t r s =>
    match w.thr t with
    | none => (w, .none)
    | some th => w.trans t th r s
  | .clone t u =>
    match w.thr t, w.thr u with
    | some th, none => (w.put u { th with cache := fun _ => .unset, tr := fun _ => none }, .none)
    | _, _ => (w, .none)
  | .fork t u p =>
    match w.thr t, w.thr u with
    | some th, none => ({ w.put u { th with pid := p } with once := fun x => if x = p then w.once th.pid else w.once x }, .none)
    | _, _ => (w, .none)
  | .exec t c =>
    match w.thr t with
    | none => (w, .none)
    | some th =>
      ({ w with
          thr := fun x =>
            if x = t then
              some { pid := th.pid, cache := fun _ => .unset, tr := fun _ => none,
                     kern := fun a => if a = .prev then th.kern .current else if a = .current then c else none }
            else match w.thr x with
              | some y => if y.pid = th.pid then none else some y
              | none => none
          once := fun x => if x = th.pid then none else w.once x }, .none)
  | .exit t => ({ w with thr := fun x => if x = t then none else w.thr x }, .none)
  | .env d s => ({ w with daemon := d, socket := s }, .none)
  | .direct t a v =>
    match w.thr t with
    | none => (w, .none)
    | some th => (w.put t { th with kern := fun x => if x = a then v else th.kern x }, .none)
  | .reload f =>
    ({ w with thr := fun x => (w.thr x).map fun th => { th with kern := fun a => (th.kern a).map f } }, .none)

/-- A history. -/
def run (k : Kernel) (w : World) : List Op → World
  | [] => w
  | o :: l => run k (step k w o).1 l

end Verif.Client
