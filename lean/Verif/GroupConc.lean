/-! # A group with several threads (`/repo/src/psygnal/_group.py:53-206`)

One group with its members, other signals, any number of threads.  Each access to an attribute that other threads may
change is a step of its own; a region under the lock of a member that only changes its list of slots is one step.
Simplified: default reemission mode, no exceptions, no recursion limit (see `Conc.lean`), all priorities 0, nothing blocked or
paused. -/
namespace Psygnal.GrC

/-- A signal: the group's `SignalRelay` (`/repo/src/psygnal/_group.py:53`) or another `SignalInstance`
(`/repo/src/psygnal/_signal.py:448`). -/
inductive Sig
  | grp
  | sig (s : Nat)
  deriving DecidableEq, Repr

/-- An entry of `_slots` (`/repo/src/psygnal/_signal.py:551`) of a signal: the group's `_slot_relay`
(`/repo/src/psygnal/_group.py:97`) or another callback. -/
inductive Slot
  | relay
  | own (x : Nat)
  deriving DecidableEq, Repr

/-- What is taken off the group: `group.all.disconnect(f)`, `group.all.disconnect()` (`/repo/src/psygnal/_group.py:187-206`) or a
listener whose owner has died (`/repo/src/psygnal/_signal.py:804-816`). -/
inductive Off
  | one (f : Nat)
  | all
  | dead (f : Nat)
  deriving DecidableEq, Repr

/-- What happens: emission number `n`, of signal `s` with `a` in thread `t`, gets the lock (`/repo/src/psygnal/_signal.py:1268`);
it ends; `_slot_relay` does nothing in it (`/repo/src/psygnal/_group.py:98`); listener `f` of the group is called in it, with
an `EmissionInfo` (`:99`) that names `src`; callback `x` is called (`/repo/src/psygnal/_signal.py:1308`).  `group.all.connect(f)` is
called, has appended the listener (`:781-792`), returns.  `disconnect` is called, has removed a listener (`:794-802`),
returns. -/
inductive Ev
  | start (n t s a : Nat)
  | finish (n : Nat)
  | drop (n : Nat)
  | call (t f : Nat) (src : Sig) (a n : Nat)
  | own (t x s a n : Nat)
  | connCall (t f : Nat)
  | added (t f : Nat)
  | connRet (t f : Nat)
  | offCall (t : Nat) (o : Off)
  | removed (t : Nat) (o : Off)
  | offRet (t : Nat) (o : Off)
  deriving DecidableEq, Repr

/-- User code of threads and callbacks: `look` lets it depend on all that happened; emit a signal
(`/repo/src/psygnal/_signal.py:1142-1201`), connect a listener to the group (`:633`), take listeners off
(`/repo/src/psygnal/_group.py:187`), connect or disconnect a callback of a signal (`/repo/src/psygnal/_signal.py:633,1105`). -/
inductive Code
  | ret
  | look (k : List Ev → Code)
  | emit (s a : Nat) (k : Code)
  | conn (f : Nat) (k : Code)
  | off (o : Off) (k : Code)
  | mine (s x : Nat) (add : Bool) (k : Code)

/-- The members (`/repo/src/psygnal/_group.py:71`), the callbacks that signals have at first, what callbacks and what listeners of
the group do. -/
structure Env where
  members : List Nat
  slots : Nat → List Slot
  body : Nat → Nat → Nat → Code
  gbody : Nat → Sig → Nat → Code

/-- An emission of `s` with `a` in progress (`/repo/src/psygnal/_signal.py:1305-1308`): its number, the local variable `previous`
(`:412`), the index of the next slot. -/
structure Loop where
  s : Nat
  a : Nat
  n : Nat
  p : Option Sig
  j : Nat

/-- What a thread does next (`/repo/src/psygnal/_signal.py:1264-1303`, `/repo/src/psygnal/_group.py:139-154`). -/
inductive Ctl
  | run (c : Code)
  /-- the code on top has ended -/
  | fin
  /-- `with self._lock:` (`/repo/src/psygnal/_signal.py:1268`) -/
  | wait (s a : Nat)
  /-- right hand side of `:412` -/
  | prev (s a n : Nat)
  /-- left hand side of `:412` -/
  | setCur (s a n : Nat) (p : Option Sig)
  /-- next iteration (`:1307`) -/
  | next (l : Loop)
  /-- `if emitter := Signal.current_emitter()` (`/repo/src/psygnal/_group.py:98`) -/
  | asks (l : Loop)
  /-- `with self._lock:` of the relay -/
  | gwait (l : Loop) (src : Sig)
  /-- right hand side of `/repo/src/psygnal/_signal.py:412`, relay -/
  | gprev (l : Loop) (src : Sig)
  /-- left hand side of `:412`, relay -/
  | gset (l : Loop) (src : Sig) (q : Option Sig)
  /-- next iteration, relay -/
  | gnext (l : Loop) (src : Sig) (q : Option Sig) (i : Nat)
  /-- `:416`, relay -/
  | grest (l : Loop) (q : Option Sig)
  /-- end of `with self._lock`, relay -/
  | grel (l : Loop)
  /-- `:416` -/
  | rest (l : Loop)
  /-- end of `with self._lock` -/
  | rel (l : Loop)
  /-- `connect` of the relay: `with self._lock:` (`:736`) -/
  | cwait (f : Nat)
  /-- `super()._append_slot(slot)` (`/repo/src/psygnal/_group.py:75`) -/
  | cadd (f : Nat)
  /-- `if len(self._slots) == 1` (`:76`) -/
  | ccheck (f : Nat)
  /-- `_connect_relay`, members left (`:83-86`) -/
  | clink (f : Nat) (ms : List Nat)
  /-- the end of `with self._lock` (`/repo/src/psygnal/_signal.py:736-766`) -/
  | crel (f : Nat)
  /-- `disconnect` of the relay: `for sig in self._signals.values()` (`/repo/src/psygnal/_group.py:204-205`), members left -/
  | dfrom (o : Off) (ms : List Nat)
  /-- `with self._lock:` (`/repo/src/psygnal/_signal.py:1122`), not for dead listeners (`:804-816`) -/
  | dwait (o : Off)
  /-- `super()._remove_slot(slot)` (`/repo/src/psygnal/_group.py:89`) -/
  | drem (o : Off)
  /-- `if not self._slots` (`:90`) -/
  | dcheck (o : Off)
  /-- `_disconnect_relay`, members left (`:94-95`) -/
  | dlink (o : Off) (ms : List Nat)
  /-- the end of `with self._lock` (`/repo/src/psygnal/_signal.py:1122-1132`), not for dead listeners -/
  | dend (o : Off)

/-- Frames of a thread's stack: code waiting for the end of a call, a loop waiting for a callback
(`/repo/src/psygnal/_signal.py:1308`), the loop of the relay, called in the loop `l`, waiting for a listener. -/
inductive Frame
  | cont (k : Code)
  | loop (l : Loop)
  | gloop (l : Loop) (src : Sig) (q : Option Sig) (i : Nat)

/-- A thread: what it does next and its stack (Python's, running `/repo/src/psygnal/_signal.py:1264-1303`). -/
structure Thread where
  ctl : Ctl
  stack : List Frame

/-- Locks (owner and count of `RLock`, `/repo/src/psygnal/_signal.py:554`), slots of the relay and of signals (`:551`), the class
attribute `_current_emitter` (`:293`), threads; ghosts: what happened, the number of the next emission. -/
structure St where
  locks : Sig → Option (Nat × Nat)
  gslots : List Nat
  slots : Nat → List Slot
  cur : Option Sig
  thr : Nat → Thread
  log : List Ev
  n : Nat

/-- Change a function at one place (assignment to an attribute of one object, e.g. `/repo/src/psygnal/_signal.py:551`). -/
def set {ι α : Type} [DecidableEq ι] (f : ι → α) (n : ι) (v : α) : ι → α := fun m => if m = n then v else f m

/-- `RLock.acquire` (`/repo/src/psygnal/_signal.py:1268`): `none` if another thread has it. -/
def acquire (t : Nat) : Option (Nat × Nat) → Option (Nat × Nat)
  | none => some (t, 1)
  | some (o, c) => if o = t then some (t, c + 1) else none

/-- `RLock.release` (`/repo/src/psygnal/_signal.py:1268`). -/
def unlock : Option (Nat × Nat) → Option (Nat × Nat)
  | some (o, c + 2) => some (o, c + 1)
  | _ => none

/-- Can thread `t` get the lock? (`/repo/src/psygnal/_signal.py:736`, `:1122`, for a region that is one step.) -/
def free (t : Nat) (l : Option (Nat × Nat)) : Bool := (acquire t l).isSome

/-- `bool(emitter)`: the number of slots (`/repo/src/psygnal/_signal.py:1138-1140`), as there is no `__bool__`. -/
def truthy (σ : St) : Sig → Bool
  | .grp => !σ.gslots.isEmpty
  | .sig s => !(σ.slots s).isEmpty

/-- `sig.connect(self._slot_relay, unique=True)` (`/repo/src/psygnal/_group.py:84-86`) on the list of slots. -/
def link (l : List Slot) : List Slot := if .relay ∈ l then l else l ++ [.relay]

/-- `sig.disconnect(slot)` (`/repo/src/psygnal/_group.py:205`, `/repo/src/psygnal/_signal.py:1122-1132`) on the list of slots. -/
def takeOff : Off → List Slot → List Slot
  | .one f, l => l.erase (.own f)
  | .all, _ => []
  | .dead _, l => l

/-- One step of thread `t` (`/repo/src/psygnal/_group.py:74-100,204-206`, `/repo/src/psygnal/_signal.py:410-416,736-766,1122-1132,1264-1308`);
`none` if it has ended or waits for a lock. -/
def step (e : Env) (t : Nat) (σ : St) : Option St :=
  let th := σ.thr t
  let go (c : Ctl) (σ : St) : Option St := some { σ with thr := set σ.thr t ⟨c, th.stack⟩ }
  let push (c : Ctl) (f : Frame) (σ : St) : Option St := some { σ with thr := set σ.thr t ⟨c, f :: th.stack⟩ }
  match th.ctl with
  | .run .ret => go .fin σ
  | .run (.look k) => go (.run (k σ.log)) σ
  | .run (.emit s a k) => push (.wait s a) (.cont k) σ
  | .run (.conn f k) => push (.cwait f) (.cont k) { σ with log := σ.log ++ [.connCall t f] }
  | .run (.off (.dead f) k) => push (.dwait (.dead f)) (.cont k) { σ with log := σ.log ++ [.offCall t (.dead f)] }
  | .run (.off (.one f) k) => push (.dfrom (.one f) e.members) (.cont k) { σ with log := σ.log ++ [.offCall t (.one f)] }
  | .run (.off .all k) => push (.dfrom .all e.members) (.cont k) { σ with log := σ.log ++ [.offCall t .all] }
  | .run (.mine s x add k) =>
    if free t (σ.locks (.sig s)) then
      go (.run k) { σ with slots := set σ.slots s (if add then σ.slots s ++ [.own x] else (σ.slots s).erase (.own x)) }
    else none
  | .wait s a =>
    match acquire t (σ.locks (.sig s)) with
    | none => none
    | some l => go (.prev s a σ.n) { σ with
        locks := set σ.locks (.sig s) (some l), log := σ.log ++ [.start σ.n t s a], n := σ.n + 1 }
  | .prev s a n => go (.setCur s a n σ.cur) σ
  | .setCur s a n p => go (.next ⟨s, a, n, p, 0⟩) { σ with cur := some (.sig s) }
  | .next l =>
    match (σ.slots l.s)[l.j]? with
    | none => go (.rest l) σ
    | some (.own x) => push (.run (e.body x l.s l.a)) (.loop { l with j := l.j + 1 })
        { σ with log := σ.log ++ [.own t x l.s l.a l.n] }
    | some .relay => go (.asks { l with j := l.j + 1 }) σ
  | .asks l =>
    match σ.cur with
    | none => go (.next l) { σ with log := σ.log ++ [.drop l.n] }
    | some src =>
      if truthy σ src then go (.gwait l src) σ
      else go (.next l) { σ with log := σ.log ++ [.drop l.n] }
  | .gwait l src =>
    match acquire t (σ.locks .grp) with
    | none => none
    | some k => go (.gprev l src) { σ with locks := set σ.locks .grp (some k) }
  | .gprev l src => go (.gset l src σ.cur) σ
  | .gset l src q => go (.gnext l src q 0) { σ with cur := some .grp }
  | .gnext l src q i =>
    match σ.gslots[i]? with
    | none => go (.grest l q) σ
    | some f => push (.run (e.gbody f src l.a)) (.gloop l src q (i + 1))
        { σ with log := σ.log ++ [.call t f src l.a l.n] }
  | .grest l q => go (.grel l) { σ with cur := q }
  | .grel l => go (.next l) { σ with locks := set σ.locks .grp (unlock (σ.locks .grp)) }
  | .rest l => go (.rel l) { σ with cur := l.p }
  | .rel l => go .fin { σ with
      locks := set σ.locks (.sig l.s) (unlock (σ.locks (.sig l.s))), log := σ.log ++ [.finish l.n] }
  | .cwait f =>
    match acquire t (σ.locks .grp) with
    | none => none
    | some k => go (.cadd f) { σ with locks := set σ.locks .grp (some k) }
  | .cadd f => go (.ccheck f) { σ with gslots := σ.gslots ++ [f], log := σ.log ++ [.added t f] }
  | .ccheck f => if σ.gslots.length = 1 then go (.clink f e.members) σ else go (.crel f) σ
  | .clink f [] => go (.crel f) σ
  | .clink f (m :: ms) =>
    if free t (σ.locks (.sig m)) then go (.clink f ms) { σ with slots := set σ.slots m (link (σ.slots m)) } else none
  | .crel f => go .fin { σ with
      locks := set σ.locks .grp (unlock (σ.locks .grp)), log := σ.log ++ [.connRet t f] }
  | .dfrom o [] => go (.dwait o) σ
  | .dfrom o (m :: ms) =>
    if free t (σ.locks (.sig m)) then go (.dfrom o ms) { σ with slots := set σ.slots m (takeOff o (σ.slots m)) } else none
  | .dwait (.dead f) => go (.drem (.dead f)) σ
  | .dwait o =>
    match acquire t (σ.locks .grp) with
    | none => none
    | some k => go (.drem o) { σ with locks := set σ.locks .grp (some k) }
  | .drem (.one f) =>
    if f ∈ σ.gslots then
      go (.dcheck (.one f)) { σ with gslots := σ.gslots.erase f, log := σ.log ++ [.removed t (.one f)] }
    else go (.dend (.one f)) σ
  | .drem (.dead f) =>
    if f ∈ σ.gslots then
      go (.dcheck (.dead f)) { σ with gslots := σ.gslots.erase f, log := σ.log ++ [.removed t (.dead f)] }
    else go (.dend (.dead f)) σ
  | .drem .all => go (.dcheck .all) { σ with gslots := [], log := σ.log ++ [.removed t .all] }
  | .dcheck o => if σ.gslots = [] then go (.dlink o e.members) σ else go (.dend o) σ
  | .dlink o [] => go (.dend o) σ
  | .dlink o (m :: ms) =>
    if free t (σ.locks (.sig m)) then go (.dlink o ms) { σ with slots := set σ.slots m ((σ.slots m).erase .relay) } else none
  | .dend (.dead f) => go .fin { σ with log := σ.log ++ [.offRet t (.dead f)] }
  | .dend (.one f) => go .fin { σ with
      locks := set σ.locks .grp (unlock (σ.locks .grp)), log := σ.log ++ [.offRet t (.one f)] }
  | .dend .all => go .fin { σ with
      locks := set σ.locks .grp (unlock (σ.locks .grp)), log := σ.log ++ [.offRet t .all] }
  | .fin =>
    match th.stack with
    | [] => none
    | .cont k :: st => some { σ with thr := set σ.thr t ⟨.run k, st⟩ }
    | .loop l :: st => some { σ with thr := set σ.thr t ⟨.next l, st⟩ }
    | .gloop l src q i :: st => some { σ with thr := set σ.thr t ⟨.gnext l src q i, st⟩ }

/-- Run a schedule: which thread tries to do a step; a thread that waits or has ended does nothing (threads of CPython, e.g.
of `/repo/src/psygnal/_signal.py:1268`). -/
def run (e : Env) : List Nat → St → St
  | [], σ => σ
  | t :: ts, σ => run e ts ((step e t σ).getD σ)

/-- A new group (`/repo/src/psygnal/_group.py:67-72`): no listeners; thread `t` is about to run `prog t`. -/
def init (e : Env) (prog : Nat → Code) : St where
  locks _ := none
  gslots := []
  slots := e.slots
  cur := none
  thr t := ⟨.run (prog t), []⟩
  log := []
  n := 0

end Psygnal.GrC
