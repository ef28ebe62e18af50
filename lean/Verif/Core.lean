import Verif.Signature

/-!
# The emission engine: `SignalInstance`, `SignalRelay`, `QueuedCallback`

A shallow, executable model of `/repo/src/psygnal/_signal.py`, `_group.py` (the relay) and
`_queue.py`, function by function.  User code (callbacks, main programs) is a deep embedding
(`Prog`), so that theorems can quantify over *all* user programs, which may re-enter the
library from inside a callback, catch exceptions, use `blocked()` / `paused()` contexts, …

One thread of control executes at a time in this file (each top-level program carries the
identity of the thread it runs on); true interleavings are in `Verif/Conc.lean`, `FastConc.lean`, `GroupConc.lean`, `QueueConc.lean`, `Resume.lean`.
-/
namespace Psygnal

/-- The identity of a `SignalInstance` (`/repo/src/psygnal/_signal.py:449`). -/
abbrev SigId := Nat

/-- The identity of an object that owns callbacks (`id(obj.__self__)`, `_weak_callback.py:286`). -/
abbrev ObjId := Nat

/-- The identity of a thread (`current_thread()`, `_queue.py:60`). -/
abbrev ThreadId := Nat

/-- Values that travel through signals.  `info s args` is `EmissionInfo(signal, args)`
(`/repo/src/psygnal/_group.py:40-50`); `tup` is a tuple (needed because setattr/setitem slots pack
their arguments, `_weak_callback.py:539,578`). Everything else is an uninterpreted atom. -/
inductive Val where
  | atom (n : Int)
  | tup (xs : List Val)
  | info (s : SigId) (args : List Val)
  deriving Repr

/-- The `args` tuple of an emission (`/repo/src/psygnal/_signal.py:1142`). -/
abbrev Args := List Val

/-- Python exceptions that matter.  `base n` is a `BaseException` that is not an `Exception`
(KeyboardInterrupt, SystemExit); `user n` any other exception raised by user code;
`emitLoop s e` is `EmitLoopError` raised for signal `s` (`none`: from `emit_queued`) with
`__cause__ = e` (`/repo/src/psygnal/_exceptions.py:20-61`). -/
inductive Exc where
  | user (n : Nat)
  | base (n : Nat)
  | recursion
  | emitLoop (s : Option SigId) (cause : Exc)
  | valueError | typeError | referenceError | indexError
  deriving DecidableEq, Repr

/-- What a slot ultimately calls, with its identity.  One constructor per `WeakCallback` class:
`func` StrongFunction (`_weak_callback.py:335`), `callable` WeakFunction (`:374`), `method`
WeakMethod (`:412`), `builtin` WeakBuiltin (`:467`), `setattr` WeakSetattr (`:511`), `setitem`
WeakSetitem (`:550`); `relay r` is the bound method `SignalRelay._slot_relay` of group relay `r`
(`_group.py:97`).  The value itself plays the role of `_key` (`_weak_callback.py:276-296`): it
identifies owner and method/attribute/item, but not bound partial arguments. -/
inductive Base where
  | func (f : Nat)
  | callable (o : ObjId)
  | method (o : ObjId) (m : Nat)
  | builtin (o : ObjId) (m : Nat)
  | setattr (o : ObjId) (a : Nat)
  | setitem (o : ObjId) (k : Nat)
  | relay (r : SigId)
  deriving DecidableEq, Repr

/-- The weakly referenced owner of a callback (`_try_ref` calls in `_weak_callback.py:388,434,488,
525,564`).  `relay` slots are owned by their group, which is assumed to outlive its members. -/
def Base.owner? : Base → Option ObjId
  | .callable o | .method o _ | .builtin o _ | .setattr o _ | .setitem o _ => some o
  | .func _ | .relay _ => none

/-- A callable as passed by the user: a base callable with the positional arguments of enclosing
`functools.partial`s (`_weak_callback.py:122-125`).  Keyword arguments are not modelled. -/
structure Callable where
  base : Base
  bound : Args

/-- A connected slot: a `WeakCallback` (`_weak_callback.py:211-226`), with `thread = some t` when
wrapped in `QueuedCallback` (`_queue.py:33-57`). `serial` is a ghost: the position of this
connection in the history of all connections. -/
structure Slot where
  base : Base
  bound : Args
  maxArgs : Option Nat
  priority : Int
  thread : Option ThreadId
  serial : Nat := 0

/-- Re-emission modes (`/repo/src/psygnal/_signal.py:193-204`). -/
inductive Mode where
  | immediate | queued | latest
  deriving DecidableEq, Repr

/-- `RECURSION_LIMIT` (`/repo/src/psygnal/_signal.py:191`). -/
def LIMIT : Int := 300

/-- The mutable attributes of a `SignalInstance` (`_signal.py:543-567`), plus
`wasBlocked`, the `_sig_was_blocked` dict of a `SignalRelay` (`_group.py:72`), keyed by member. -/
structure SigState where
  slots : List Slot
  prioInUse : Bool
  blocked : Bool
  paused : Bool
  argsQueue : List Args
  emitQueue : List Args
  depth : Int
  maxDepth : Int
  wasBlocked : SigId → Option Bool

/-- A fresh `SignalInstance` (`_signal.py:543-567`). -/
def SigState.init : SigState :=
  { slots := [], prioInUse := false, blocked := false, paused := false, argsQueue := [],
    emitQueue := [], depth := 0, maxDepth := 0, wasBlocked := fun _ => none }

/-- Immutable facts about a signal: signature, re-emission mode, `check_nargs_on_connect`
(`_signal.py:524-567`), and for a `SignalRelay` the members (`_group.py:71`); `parent` is the relay
whose members include this signal, if any. -/
structure Decl where
  mode : Mode
  sig : PySig
  checkNargs : Bool
  isRelay : Bool
  children : List SigId
  parent : Option SigId

/-- Observable events (ghost log).
* `req s a`: emission of `s` with `a` accepted by `_run_emit_loop` (`_signal.py:1269`).
* `fast s a em`: `emit_fast` of `s` with `a` starts emit loop number `em` (`:1238`).
* `call …`: a callback is invoked with these arguments; `em`/`sig`: the emit loop/signal that
  invoked it (`none`: by `emit_queued`), `depth`: nesting depth of that signal, `emitter`:
  `Signal.current_emitter()` and `thread`: current thread at that moment.
* `ret …`: that callback invocation returned or raised.
* `put t b a em`: a callback was put on the queue of thread `t` (`_queue.py:63`).
* `get t b a`: `emit_queued` took a callback from the queue of thread `t` (`_queue.py:90`). -/
inductive Ev where
  | req (s : SigId) (args : Args)
  | fast (s : SigId) (args : Args) (em : Nat)
  | call (em : Option Nat) (sig : Option SigId) (depth : Int) (emitter : Option SigId)
      (thread : ThreadId) (base : Base) (args : Args)
  | ret (em : Option Nat) (sig : Option SigId) (base : Base) (r : Except Exc Unit)
  | put (t : ThreadId) (base : Base) (args : Args) (em : Option Nat)
  | get (t : ThreadId) (base : Base) (args : Args)

/-- User memory: anything callbacks (`caller.cb(args)`, `_signal.py:1308`) and programs remember between calls. -/
abbrev Mem := Nat → Int

/-- The state of the world: all signals, `Signal._current_emitter` (`_signal.py:293`),
`SignalInstance._debug_hook` (`_signal.py:522`), liveness of objects, the running thread,
`QueuedCallback._GLOBAL_QUEUE` (`_queue.py:29-31`), user memory, and ghosts: the event log, a counter
of emit loops and a counter of connections. -/
structure World where
  sig : SigId → SigState
  emitter : Option SigId
  hook : Option Base
  dead : ObjId → Bool
  thread : ThreadId
  tq : ThreadId → List (Slot × Args)
  mem : Mem
  log : List Ev
  nextEm : Nat
  nextSerial : Nat

/-- Nothing has happened yet (class attributes `_signal.py:293,522`, `_queue.py:29-31`). -/
def World.init : World :=
  { sig := fun _ => .init, emitter := none, hook := none, dead := fun _ => false, thread := 0,
    tq := fun _ => [], mem := fun _ => 0, log := [], nextEm := 0, nextSerial := 0 }

/-- Assign attributes of one signal (`self._… = …`, e.g. `_signal.py:1336,1340,1371,1407`). -/
def World.upd (w : World) (s : SigId) (f : SigState → SigState) : World :=
  { w with sig := fun x => if x = s then f (w.sig x) else w.sig x }

/-- Append to the ghost log (events: see `Ev`; not in the code, but what callers of `_signal.py:1142,1308` observe). -/
def World.ev (w : World) (e : Ev) : World := { w with log := w.log ++ [e] }

/-- `reducer`/`initial` of `resume` (`_signal.py:1373-1429`): a one-argument reducer, or a
two-argument one with optional initial value.  Reducers are pure but may raise. -/
inductive Reducer where
  | one (f : List Args → Except Exc Args)
  | two (f : Args → Args → Except Exc Args) (init : Option Args)

/-- `functools.reduce` with a reducer that may raise (`_signal.py:1421-1424`). -/
def foldE (f : Args → Args → Except Exc Args) : Args → List Args → Except Exc Args
  | a, [] => .ok a
  | a, x :: xs => match f a x with
    | .ok b => foldE f b xs
    | .error e => .error e

/-- The reduced args of `resume(reducer, initial)` (`_signal.py:1417-1424`); the queue is non-empty
there (line 1410), so the `[]` branch of the two-argument case is unreachable from `resume`. -/
def Reducer.run : Reducer → List Args → Except Exc Args
  | .one f, q => f q
  | .two f (some i), q => foldE f i q
  | .two _ none, [] => .error .typeError
  | .two f none, a :: q => foldE f a q

/-- How `unique` is passed to `connect` (`_signal.py:737-743`). -/
inductive Unique where
  | no | yes | orRaise
  deriving DecidableEq, Repr

/-- `thread` argument of `connect` (`_queue.py:46-53`); the main thread is thread 0. -/
inductive ThreadSel where
  | main | current | this (t : ThreadId)
  deriving DecidableEq, Repr

/-- Arguments of `connect` (`_signal.py:633-644`). `check_types` and `on_ref_error` are not
modelled. `checkNargs = none` uses the signal's default. -/
structure ConnOpts where
  checkNargs : Option Bool := none
  unique : Unique := .no
  maxArgs : Option Nat := none
  priority : Int := 0
  thread : Option ThreadSel := none

/-- The public API calls a program can make. `discard` is `disconnect_setattr`, `disconnect_setitem`
(`_signal.py:907-930,1018-1044`); `connectRaw` is `connect_setattr`, `connect_setitem` (`:820-905,932-1016`);
`kill o`: the last reference to object `o` goes away; `setHook` assigns
`SignalInstance._debug_hook` (as `monitor_events(None)` does, `utils.py:55,79`). -/
inductive Act where
  | emit (s : SigId) (args : Args) (checkNargs : Bool)
  | emitFast (s : SigId) (args : Args)
  | connect (s : SigId) (c : Callable) (o : ConnOpts)
  | connectRaw (s : SigId) (b : Base) (maxArgs : Option Nat) (priority : Int)
  | disconnect (s : SigId) (c : Option Callable) (missingOk : Bool)
  | discard (s : SigId) (b : Base) (missingOk : Bool)
  | contains (s : SigId) (c : Callable)
  | len (s : SigId)
  | block (s : SigId) (exclude : List SigId)
  | unblock (s : SigId)
  | pause (s : SigId)
  | resume (s : SigId) (red : Option Reducer)
  | currentEmitter
  | emitQueued (t : Option ThreadId)
  | kill (o : ObjId)
  | setHook (h : Option Base)
  | getHook

/-- Results of API calls (return annotations of `_signal.py:419,1134,1138`; `_debug_hook`: `:522`; else `None`). -/
inductive Resp where
  | unit
  | bool (b : Bool)
  | nat (n : Nat)
  | sig (s : Option SigId)
  | hook (h : Option Base)

/-- User code: return, raise, compute on user memory, call the API (receiving the result or the
exception: user code may catch), or run a body inside `with sig.blocked(...)` /
`with sig.paused(reducer, initial)` (everything that calls `_signal.py:449-1507` from outside; context managers `:1510-1544`). -/
inductive Prog where
  | ret
  | raise (e : Exc)
  | user (f : Mem → Mem) (k : Mem → Prog)
  | api (a : Act) (k : Except Exc Resp → Prog)
  | withBlocked (s : SigId) (exclude : List SigId) (body : Prog) (k : Except Exc Unit → Prog)
  | withPaused (s : SigId) (red : Option Reducer) (body : Prog) (k : Except Exc Unit → Prog)

/-- Everything static: signal declarations (`_signal.py:295-321`), the code of callbacks (called by `_weak_callback.py:358,401,454,503,539,578`),
their Python signatures (`none`: `inspect.signature` fails, `_signal.py:1551-1558`). -/
structure Env where
  decl : SigId → Decl
  body : Base → Args → Prog
  pysig : Base → Option PySig

/-! ## Slot list operations -/

/-- The insertion loop of `_append_slot` (`_signal.py:788-792`): insert before the first slot with
strictly smaller priority, else append. -/
def insertByPriority (x : Slot) : List Slot → List Slot
  | [] => [x]
  | s :: ss => if s.priority < x.priority then x :: s :: ss else s :: insertByPriority x ss

/-- `SignalInstance._append_slot` (`_signal.py:770-792`) with its `_priority_in_use` fast path. -/
def SigState.appendSlot (st : SigState) (x : Slot) : SigState :=
  if st.prioInUse = false then
    if x.priority = 0 then { st with slots := st.slots ++ [x] }
    else { st with prioInUse := true, slots := insertByPriority x st.slots }
  else { st with slots := insertByPriority x st.slots }

/-- `SignalInstance._slot_index` (`_signal.py:1097-1103`); comparison is `WeakCallback.__eq__`
on `_key` (`_weak_callback.py:244-248`); `none` is `-1`. -/
def slotIndex (b : Base) : List Slot → Option Nat
  | [] => none
  | s :: ss => if s.base = b then some 0 else (slotIndex b ss).map (· + 1)

/-- `list.pop(i)` (`_signal.py:800`). -/
def popAt : List Slot → Nat → List Slot
  | [], _ => []
  | _ :: ss, 0 => ss
  | s :: ss, n + 1 => s :: popAt ss n

/-- `list.remove(cb)`: drop the first slot with that key (`_signal.py:802`); `none`: ValueError. -/
def removeKey (b : Base) : List Slot → Option (List Slot)
  | [] => none
  | s :: ss => if s.base = b then some ss else (removeKey b ss).map (s :: ·)

/-- `SignalInstance.disconnect(slot)` on the slot list for a plain signal with `missing_ok=True`
(`_signal.py:1128-1130`). -/
def eraseSlot (b : Base) (ss : List Slot) : List Slot :=
  match slotIndex b ss with
  | some i => popAt ss i
  | none => ss

/-- Plain signal: append a slot (`_signal.py:770-792`); the slot gets the next serial number
(ghost). -/
def World.plainAppend (w : World) (s : SigId) (x : Slot) : World :=
  { w.upd s (·.appendSlot { x with serial := w.nextSerial }) with nextSerial := w.nextSerial + 1 }

/-- The slot that `_connect_relay` adds to each member (`_group.py:79-86`): all default options,
`check_nargs=False`. -/
def relaySlot (r : SigId) : Slot :=
  { base := .relay r, bound := [], maxArgs := none, priority := 0, thread := none }

/-- `sig.connect(self._slot_relay, unique=True)` on one member (`_group.py:83-86`). -/
def World.connectRelay1 (r : SigId) (w : World) (c : SigId) : World :=
  if (slotIndex (.relay r) (w.sig c).slots).isSome then w else w.plainAppend c (relaySlot r)

/-- `SignalRelay._connect_relay` (`_group.py:79-86`). -/
def World.connectRelay (env : Env) (w : World) (r : SigId) : World :=
  (env.decl r).children.foldl (World.connectRelay1 r) w

/-- `sig.disconnect(self._slot_relay)` on one member (`_group.py:95`). -/
def World.disconnectRelay1 (r : SigId) (w : World) (c : SigId) : World :=
  w.upd c fun st => { st with slots := eraseSlot (.relay r) st.slots }

/-- `SignalRelay._disconnect_relay` (`_group.py:93-95`). -/
def World.disconnectRelay (env : Env) (w : World) (r : SigId) : World :=
  (env.decl r).children.foldl (World.disconnectRelay1 r) w

/-- `_append_slot` (`_signal.py:770-792`, overridden in `_group.py:74-77`). -/
def World.appendSlot (env : Env) (w : World) (s : SigId) (x : Slot) : World :=
  let w' := w.plainAppend s x
  if (env.decl s).isRelay ∧ (w'.sig s).slots.length = 1 then w'.connectRelay env s else w'

/-- `_remove_slot` (`_signal.py:794-802`, overridden in `_group.py:88-91`): set the slot list, and
for a relay whose slots became empty disconnect from the members. -/
def World.setSlotsRemoved (env : Env) (w : World) (s : SigId) (ss : List Slot) : World :=
  let w' := w.upd s fun st => { st with slots := ss }
  if (env.decl s).isRelay ∧ ss.isEmpty then w'.disconnectRelay env s else w'

/-- `SignalInstance.disconnect` (`_signal.py:1105-1132`) (not the relay override). -/
def World.disconnect1 (env : Env) (w : World) (s : SigId) (c : Option Callable) (missingOk : Bool) :
    World × Except Exc Resp :=
  match c with
  | none => (w.setSlotsRemoved env s [], .ok .unit)
  | some c =>
    match slotIndex c.base (w.sig s).slots with
    | some i => (w.setSlotsRemoved env s (popAt (w.sig s).slots i), .ok .unit)
    | none => if missingOk then (w, .ok .unit) else (w, .error .valueError)

/-- The loop over the members in `SignalRelay.disconnect` (`_group.py:204-205`); stops at the first
`ValueError`. -/
def World.disconnectMembers (env : Env) (c : Option Callable) (missingOk : Bool) :
    List SigId → World → World × Except Exc Resp
  | [], w => (w, .ok .unit)
  | s :: ss, w =>
    match w.disconnect1 env s c missingOk with
    | (w', .ok _) => World.disconnectMembers env c missingOk ss w'
    | (w', .error e) => (w', .error e)

/-- `disconnect`: `SignalInstance.disconnect` or `SignalRelay.disconnect` (`_group.py:187-206`). -/
def World.disconnect (env : Env) (w : World) (s : SigId) (c : Option Callable) (missingOk : Bool) :
    World × Except Exc Resp :=
  if (env.decl s).isRelay then
    match World.disconnectMembers env c missingOk (env.decl s).children w with
    | (w', .ok _) => w'.disconnect1 env s c missingOk
    | (w', .error e) => (w', .error e)
  else w.disconnect1 env s c missingOk

/-- `_try_discard(cb, missing_ok)` (`_signal.py:804-818`). -/
def World.discard (env : Env) (w : World) (s : SigId) (b : Base) (missingOk : Bool) :
    World × Except Exc Resp :=
  match removeKey b (w.sig s).slots with
  | some ss => (w.setSlotsRemoved env s ss, .ok .unit)
  | none => if missingOk then (w, .ok .unit) else (w, .error .valueError)

/-- `inspect.signature(slot)` for a callable with bound partial arguments
(`_signal.py:1618-1622`; Qt signal signatures are not modelled). -/
def slotSig (env : Env) (c : Callable) : Option PySig :=
  match env.pysig c.base with
  | none => none
  | some sg => dropBound sg c.bound.length

/-- `_check_nargs` (`_signal.py:1046-1088`): `.error` is the ValueError, `.ok m` the `max_args`;
when the signature cannot be determined only a warning is issued and `max_args` stays `None`. -/
def checkNargs (env : Env) (n : Nat) (c : Callable) : Except Exc (Option Nat) :=
  match slotSig env c with
  | none => .ok none
  | some sg =>
    match posargRange sg with
    | none => .error .valueError
    | some (lo, hi) => if lo > n then .error .valueError else .ok hi

/-- `thread` resolution in `QueuedCallback.__init__` (`_queue.py:46-53`). -/
def resolveThread (w : World) : Option ThreadSel → Option ThreadId
  | none => none
  | some .main => some 0
  | some .current => some w.thread
  | some (.this t) => some t

/-- `setattr`/`setitem` wrappers swallow the bound arguments (obj, name / key are in `Base`)
(`_weak_callback.py:136-147,158-167`). -/
def Callable.boundFor (c : Callable) : Args :=
  match c.base with
  | .setattr _ _ | .setitem _ _ => []
  | _ => c.bound

/-- `SignalInstance.connect` (`_signal.py:723-768`), without `check_types`. -/
def World.connect (env : Env) (w : World) (s : SigId) (c : Callable) (o : ConnOpts) :
    World × Except Exc Resp :=
  if o.unique ≠ .no ∧ (slotIndex c.base (w.sig s).slots).isSome then
    if o.unique = .orRaise then (w, .error .valueError) else (w, .ok .unit)
  else
    let chk := o.checkNargs.getD (env.decl s).checkNargs
    let m : Except Exc (Option Nat) :=
      if chk ∧ o.maxArgs = none then checkNargs env (env.decl s).sig.length c else .ok o.maxArgs
    match m with
    | .error e => (w, .error e)
    | .ok m =>
      (w.appendSlot env s { base := c.base, bound := c.boundFor, maxArgs := m,
                            priority := o.priority, thread := resolveThread w o.thread }, .ok .unit)

/-- `block` (`_signal.py:1330-1336`, relay override `_group.py:158-165`). -/
def World.block (env : Env) (w : World) (s : SigId) (exclude : List SigId) : World :=
  let w' := w.upd s fun st => { st with blocked := true }
  if (env.decl s).isRelay then
    (env.decl s).children.foldl (fun w c =>
      if exclude.contains c then w
      else
        let b := (w.sig c).blocked
        (w.upd s fun st => { st with wasBlocked := fun x => if x = c then some b else st.wasBlocked x }).upd
          c fun st => { st with blocked := true }) w'
  else w'

/-- `unblock` (`_signal.py:1338-1340`, relay override `_group.py:167-172`). -/
def World.unblock (env : Env) (w : World) (s : SigId) : World :=
  let w' := w.upd s fun st => { st with blocked := false }
  if (env.decl s).isRelay then
    (env.decl s).children.foldl (fun w c =>
      let was := ((w.sig s).wasBlocked c).getD false
      let w1 := w.upd s fun st => { st with wasBlocked := fun x => if x = c then none else st.wasBlocked x }
      if was then w1 else w1.upd c fun st => { st with blocked := false }) w'
  else w'

/-- Is the weakly referenced owner of this callback gone?  (`_weak_callback.py:396-398,447-450,
499-501,534-536,573-575`). -/
def Base.isDead (w : World) (b : Base) : Bool :=
  match b.owner? with
  | none => false
  | some o => w.dead o

/-- Is this slot owned by `o`?  (`_try_ref` calls, `_weak_callback.py:388,434,488,525,564`) -/
def Slot.ownedBy (o : ObjId) (x : Slot) : Bool := x.base.owner? == some o

/-- The weakref finalizers of the slots owned by `o` run, one `list.remove` by key each
(`_weak_callback.py:323-331`, `_signal.py:804-818`). -/
def finalizeSlots (o : ObjId) (ss : List Slot) : List Slot :=
  (ss.filter (·.ownedBy o)).foldl (fun acc x => (removeKey x.base acc).getD acc) ss

/-- Object `o` dies (`_weak_callback.py:250-257,323-331`): in every signal the slots owned by `o`
are finalized; a relay left without slots disconnects from its members (`_group.py:88-95`).
Simplification: the weakref callbacks of one object are run as one atomic step. -/
def World.kill (env : Env) (w : World) (o : ObjId) : World :=
  { w with
    dead := fun x => if x = o then true else w.dead x
    sig := fun s =>
      let ss := finalizeSlots o (w.sig s).slots
      let ss := match (env.decl s).parent with
        | none => ss
        | some r =>
          if !(w.sig r).slots.isEmpty ∧ (finalizeSlots o (w.sig r).slots).isEmpty
          then eraseSlot (.relay r) ss else ss
      { w.sig s with slots := ss } }

/-- `pause` (`_signal.py:1365-1371`). -/
def World.pause (w : World) (s : SigId) : World := w.upd s fun st => { st with paused := true }

/-! ## Tasks: the procedures that may run user code -/

/-- One constructor per (possibly re-entrant) procedure, and per loop with its loop variable (`_signal.py:1142-1328,1407-1429`,
`_group.py:97-100`, `_queue.py:59-63,86-94`; lines for each at `body`). -/
inductive Task where
  | prog (p : Prog)
  | emit (s : SigId) (args : Args) (chk : Bool)
  | emitFast (s : SigId) (args : Args)
  | runLoop (s : SigId) (args : Args)
  | inner (s : SigId) (em : Nat)
  | forSlots (s : SigId) (em : Nat) (args : Args) (i : Nat)
  | forLatest (s : SigId) (em : Nat) (args : Args) (i : Nat)
  | forQueued (s : SigId) (em : Nat) (args : Args) (i : Nat)
  | whileQueued (s : SigId) (em : Nat) (i : Nat)
  | cb (em : Option Nat) (src : Option SigId) (x : Slot) (args : Args)
  | direct (em : Option Nat) (src : Option SigId) (x : Slot) (args : Args)
  | slotRelay (r : SigId) (args : Args)
  | resume (s : SigId) (red : Option Reducer)
  | replay (s : SigId) (i : Nat)
  | drain (t : ThreadId)

/-- A procedure returns `None` or raises (`-> None` in `_signal.py:1142,1203,1264,1373`). -/
abbrev Res := Except Exc Unit

/-- A computation: finished, or a nested procedure call with a continuation (Python's call stack, for the calls in `_signal.py:1201,1241,1279,1308,1318,1325,1425,1428`). -/
inductive Comp where
  | done (w : World) (r : Res)
  | call (t : Task) (w : World) (k : World → Res → Comp)

/-- The `except` clauses of `_run_emit_loop` (`_signal.py:1280-1296`) and `emit_fast` (`:1242-1253`). -/
def wrapErr (s : SigId) : Exc → Exc
  | .recursion => .recursion
  | .emitLoop a b => .emitLoop a b
  | .base n => .base n
  | e => .emitLoop (some s) e

/-- Apply `wrapErr` to a result (`try … except` of `_signal.py:1272-1296,1239-1253`). -/
def wrapRes (s : SigId) : Res → Res
  | .ok () => .ok ()
  | .error e => .error (wrapErr s e)

/-- The `except Exception` of `emit_queued` (`_queue.py:91-94`). -/
def wrapQueued : Exc → Exc
  | .base n => .base n
  | e => .emitLoop none e

/-- `self._args_queue.append(args)` (`_signal.py:1193,1229`). -/
def World.collect (w : World) (s : SigId) (args : Args) : World :=
  w.upd s fun st => { st with argsQueue := st.argsQueue ++ [args] }

/-- `self._emit_queue.append(args)` (`_signal.py:1269`), logged as an accepted emission. -/
def World.enqueue (w : World) (s : SigId) (args : Args) : World :=
  (w.upd s fun st => { st with emitQueue := st.emitQueue ++ [args] }).ev (.req s args)

/-- `try` part before the loop in `_run_emit_loop` (`_signal.py:1274-1277`). -/
def SigState.enter (st : SigState) : SigState :=
  { st with depth := st.depth + 1, maxDepth := max st.maxDepth (st.depth + 1) }

/-- `finally` of `_run_emit_loop` (`_signal.py:1297-1303`). -/
def SigState.leave (st : SigState) : SigState :=
  if st.depth - 1 ≤ 0 then { st with depth := 0, maxDepth := 0, emitQueue := [] }
  else { st with depth := st.depth - 1, emitQueue := [] }

/-- Entering the emit loop: depth bookkeeping (`_signal.py:1274-1277`) and
`Signal._emitting.__enter__` (`:412`); a new emit loop number is taken (ghost). -/
def World.startLoop (w : World) (s : SigId) : World :=
  { w.upd s SigState.enter with emitter := some s, nextEm := w.nextEm + 1 }

/-- Leaving the emit loop: `Signal._emitting.__exit__` (`_signal.py:416`) restores the previous
emitter, then the `finally` clause (`:1297-1303`). -/
def World.endLoop (w : World) (s : SigId) (prev : Option SigId) : World :=
  { w with emitter := prev }.upd s SigState.leave

/-- Start of the loop of `emit_fast` (`_signal.py:1238`); a new emit loop number is taken (ghost). -/
def World.startFast (w : World) (s : SigId) (args : Args) : World :=
  { (w.upd s fun st => { st with depth := st.depth + 1 }).ev (.fast s args w.nextEm) with
    nextEm := w.nextEm + 1 }

/-- `finally` of `emit_fast` (`_signal.py:1254-1256`). -/
def World.endFast (w : World) (s : SigId) : World :=
  w.upd s fun st => if st.depth > 0 then { st with depth := st.depth - 1 } else st

/-- The state after `self._emit_queue.popleft()` (`_signal.py:1306,1311`). -/
def World.popQueue (w : World) (s : SigId) : World :=
  w.upd s fun st => { st with emitQueue := st.emitQueue.tail }

/-- `self._is_paused = False` (`_signal.py:1407`). -/
def World.unpause (w : World) (s : SigId) : World := w.upd s fun st => { st with paused := false }

/-- `self._args_queue.clear()` (`_signal.py:1413,1429`). -/
def World.clearArgs (w : World) (s : SigId) : World := w.upd s fun st => { st with argsQueue := [] }

/-- `QueuedCallback._GLOBAL_QUEUE[t].put((wrapped.cb, args))` (`_queue.py:63`). -/
def World.putQueue (w : World) (t : ThreadId) (x : Slot) (args : Args) (em : Option Nat) : World :=
  { (w.ev (.put t x.base args em)) with
    tq := fun t' => if t' = t then w.tq t ++ [(x, args)] else w.tq t' }

/-- The state after `queue.get()` returned `(x, args)` (`_queue.py:90`). -/
def World.getQueue (w : World) (t : ThreadId) (x : Slot) (args : Args) : World :=
  { (w.ev (.get t x.base args)) with
    tq := fun t' => if t' = t then (w.tq t).tail else w.tq t' }

/-- User code updates its memory (code called by `_signal.py:1308`). -/
def World.setMem (w : World) (m : Mem) : World := { w with mem := m }

/-- Ghost: record the invocation of a callback (`_weak_callback.py:358,401,454,503,539,578`). -/
def World.logCall (w : World) (em : Option Nat) (src : Option SigId) (b : Base) (a : Args) : World :=
  w.ev (.call em src (match src with
    | none => 0
    | some s => (w.sig s).depth) w.emitter w.thread b a)

/-- Ghost: record the end of the invocation of a callback (`_weak_callback.py:358,401,454,503,539,578`). -/
def World.logRet (w : World) (em : Option Nat) (src : Option SigId) (b : Base) (r : Res) : World :=
  w.ev (.ret em src b r)

/-- Positional arguments that reach the user's callable: bound ones first, then at most `max_args`
of the emitted ones (`StrongFunction.cb` `_weak_callback.py:355-358`, `WeakFunction.cb` `:395-401`,
`WeakMethod.cb` `:446-454`, `WeakBuiltin.cb` `:498-505`); for setattr/setitem one value: the only
argument, or the tuple (`:533-539,572-578`). -/
def Slot.callArgs (x : Slot) (args : Args) : Args :=
  let a := match x.maxArgs with
    | none => args
    | some m => args.take m
  match x.base with
  | .setattr _ _ | .setitem _ _ => match a with
    | [v] => [v]
    | vs => [.tup vs]
  | _ => x.bound ++ a

/-- API calls that may run user code, as tasks (`_signal.py:1142,1203,1373`, `_queue.py:69,86`). -/
def Act.task? (w : World) : Act → Option Task
  | .emit s a c => some (.emit s a c)
  | .emitFast s a => some (.emitFast s a)
  | .resume s red => some (.resume s red)
  | .emitQueued none => some (.drain w.thread)
  | .emitQueued (some t) => some (.drain t)
  | _ => none

/-- API calls that run no user code.  Connecting a method (or attribute, item) of a dead object cannot be
expressed in Python (one cannot hold a reference to it); here such calls fail and do nothing
(`_signal.py:633,820,932,907,1018,1105,1134,1138,1330,1338,1365,419`). -/
def Act.run (env : Env) (w : World) : Act → World × Except Exc Resp
  | .connect s c o =>
      if c.base.isDead w then (w, .error .referenceError) else w.connect env s c o
  | .connectRaw s b m p =>
      if b.isDead w then (w, .error .referenceError)
      else (w.appendSlot env s { base := b, bound := [], maxArgs := m, priority := p, thread := none },
        .ok .unit)
  | .disconnect s c m => w.disconnect env s c m
  | .discard s b m => w.discard env s b m
  | .contains s c => (w, .ok (.bool (slotIndex c.base (w.sig s).slots).isSome))
  | .len s => (w, .ok (.nat (w.sig s).slots.length))
  | .block s ex => (w.block env s ex, .ok .unit)
  | .unblock s => (w.unblock env s, .ok .unit)
  | .pause s => (w.pause s, .ok .unit)
  | .currentEmitter => (w, .ok (.sig w.emitter))
  | .kill o => (w.kill env o, .ok .unit)
  | .setHook h => ({ w with hook := h }, .ok .unit)
  | .getHook => (w, .ok (.hook w.hook))
  | .emit .. | .emitFast .. | .resume .. | .emitQueued .. => (w, .ok .unit)

/-- The body of every procedure (`_signal.py:1171-1328,1407-1429,1510-1544`, `_group.py:97-100`, `_queue.py:59-63,86-94`; the lines of each
are given below). -/
def body (env : Env) : Task → World → Comp
  -- user code
  | .prog .ret, w => .done w (.ok ())
  | .prog (.raise e), w => .done w (.error e)
  | .prog (.user f k), w => .call (.prog (k w.mem)) (w.setMem (f w.mem)) .done
  | .prog (.api a k), w =>
    match a.task? w with
    | some t => .call t w fun w' r => .call (.prog (k (r.map fun _ => .unit))) w' .done
    | none => .call (.prog (k (a.run env w).2)) (a.run env w).1 .done
  -- `with sig.blocked(exclude)`: `_SignalBlocker` (`_signal.py:1510-1525`)
  | .prog (.withBlocked s ex b k), w =>
    .call (.prog b) (w.block env s ex) fun w' r =>
      .call (.prog (k r)) (if (w.sig s).blocked then w' else w'.unblock env s) .done
  -- `with sig.paused(reducer, initial)`: `_SignalPauser` (`_signal.py:1528-1544`)
  | .prog (.withPaused s red b k), w =>
    .call (.prog b) (w.pause s) fun w' r =>
      if (w.sig s).paused then .call (.prog (k r)) w' .done
      else .call (.resume s red) w' fun w'' r2 =>
        .call (.prog (k (match r2 with | .ok _ => r | .error e => .error e))) w'' .done
  -- `SignalInstance.emit` (`_signal.py:1171-1201`), without `check_types`
  | .emit s args chk, w =>
    if (w.sig s).blocked then .done w (.ok ())
    else if chk ∧ bindsPos (env.decl s).sig args.length = false then .done w (.error .typeError)
    else if (w.sig s).paused then
      .done (w.collect s args) (.ok ())
    else match w.hook with
      | none => .call (.runLoop s args) w .done
      | some h =>
        .call (.direct none none ⟨h, [], none, 0, none, 0⟩ [.info s args]) w fun w' r =>
          match r with
          | .error e => .done w' (.error e)
          | .ok _ => .call (.runLoop s args) w' .done
  -- `SignalInstance.emit_fast` (`_signal.py:1225-1256`)
  | .emitFast s args, w =>
    if (w.sig s).blocked then .done w (.ok ())
    else if (w.sig s).paused then
      .done (w.collect s args) (.ok ())
    else if (w.sig s).depth ≥ LIMIT then .done w (.error .recursion)
    else
      .call (.forSlots s w.nextEm args 0) (w.startFast s args) fun w' r =>
        .done (w'.endFast s) (wrapRes s r)
  -- `SignalInstance._run_emit_loop` (`_signal.py:1264-1303`) and `Signal._emitting` (`:408-416`)
  | .runLoop s args, w =>
    if (w.sig s).depth ≥ LIMIT then .done w (.error .recursion)
    else if ((w.enqueue s args).sig s).emitQueue.length > 1 then .done (w.enqueue s args) (.ok ())
    else
      .call (.inner s w.nextEm) ((w.enqueue s args).startLoop s) fun w' r =>
        .done (w'.endLoop s w.emitter) (wrapRes s r)
  -- `_run_emit_loop_immediate/_latest_only/_queued` (`_signal.py:1305-1328`)
  | .inner s em, w =>
    match (env.decl s).mode, (w.sig s).emitQueue with
    | .immediate, args :: _ => .call (.forSlots s em args 0) (w.popQueue s) .done
    | .latest, args :: _ => .call (.forLatest s em args 0) (w.popQueue s) .done
    | .queued, _ => .call (.whileQueued s em 0) w .done
    | _, [] => .done w (.error .indexError)
  -- `for caller in self._slots: caller.cb(args)` (`_signal.py:1307-1308,1240-1241`): Python's list
  -- iterator re-reads the live list at its current index
  | .forSlots s em args i, w =>
    match (w.sig s).slots[i]? with
    | none => .done w (.ok ())
    | some x => .call (.cb (some em) (some s) x args) w fun w' r =>
      match r with
      | .error e => .done w' (.error e)
      | .ok _ => .call (.forSlots s em args (i + 1)) w' .done
  -- `_signal.py:1312-1318`
  | .forLatest s em args i, w =>
    match (w.sig s).slots[i]? with
    | none => .done w (.ok ())
    | some x =>
      if (w.sig s).depth < (w.sig s).maxDepth then .done w (.ok ())
      else .call (.cb (some em) (some s) x args) w fun w' r =>
        match r with
        | .error e => .done w' (.error e)
        | .ok _ => .call (.forLatest s em args (i + 1)) w' .done
  -- `_signal.py:1324-1327`
  | .forQueued s em args i, w =>
    match (w.sig s).slots[i]? with
    | none => .done w (.ok ())
    | some x => .call (.cb (some em) (some s) x args) w fun w' r =>
      match r with
      | .error e => .done w' (.error e)
      | .ok _ =>
        if (((w'.sig s).emitQueue.length : Int) > LIMIT) then .done w' (.error .recursion)
        else .call (.forQueued s em args (i + 1)) w' .done
  -- `_signal.py:1321-1328`
  | .whileQueued s em i, w =>
    match (w.sig s).emitQueue[i]? with
    | none => .done w (.ok ())
    | some args => .call (.forQueued s em args 0) w fun w' r =>
      match r with
      | .error e => .done w' (.error e)
      | .ok _ => .call (.whileQueued s em (i + 1)) w' .done
  -- `QueuedCallback.cb` (`_queue.py:59-63`), else directly the wrapped callback
  | .cb em src x args, w =>
    match x.thread with
    | none => .call (.direct em src x args) w .done
    | some t =>
      if w.thread = t then .call (.direct em src x args) w .done
      else .done (w.putQueue t x args em) (.ok ())
  -- `StrongFunction.cb`, `WeakFunction.cb`, … (`_weak_callback.py:355,395,446,498,533,572`)
  | .direct em src x args, w =>
    if x.base.isDead w then .done w (.error .referenceError)
    else
      match x.base with
      | .relay r =>
        .call (.slotRelay r (x.callArgs args)) (w.logCall em src x.base (x.callArgs args))
          fun w' res => .done (w'.logRet em src x.base res) res
      | b =>
        .call (.prog (env.body b (x.callArgs args))) (w.logCall em src x.base (x.callArgs args))
          fun w' res => .done (w'.logRet em src x.base res) res
  -- `SignalRelay._slot_relay` (`_group.py:97-100`); the truth value of a `SignalInstance` is
  -- `len(self) > 0` (`_signal.py:1138-1140`).  Only group relays have this method.
  | .slotRelay r args, w =>
    if (env.decl r).isRelay = false then .done w (.error .typeError)
    else match w.emitter with
    | none => .done w (.ok ())
    | some e =>
      if (w.sig e).slots.isEmpty then .done w (.ok ())
      else .call (.runLoop r [.info e args]) w .done
  -- `SignalInstance.resume` (`_signal.py:1407-1429`)
  | .resume s red, w =>
    if (w.sig s).argsQueue.isEmpty then .done (w.unpause s) (.ok ())
    else if (w.sig s).slots.isEmpty then .done ((w.unpause s).clearArgs s) (.ok ())
    else
      match red with
      | none => .call (.replay s 0) (w.unpause s) fun w' r =>
        match r with
        | .error e => .done w' (.error e)
        | .ok _ => .done (w'.clearArgs s) (.ok ())
      | some rd =>
        match rd.run (w.sig s).argsQueue with
        | .error e => .done (w.unpause s) (.error e)
        | .ok args => .call (.runLoop s args) (w.unpause s) fun w' r =>
          match r with
          | .error e => .done w' (.error e)
          | .ok _ => .done (w'.clearArgs s) (.ok ())
  -- `for args in self._args_queue: self._run_emit_loop(args)` (`_signal.py:1427-1428`)
  | .replay s i, w =>
    match (w.sig s).argsQueue[i]? with
    | none => .done w (.ok ())
    | some args => .call (.runLoop s args) w fun w' r =>
      match r with
      | .error e => .done w' (.error e)
      | .ok _ => .call (.replay s (i + 1)) w' .done
  -- `emit_queued` (`_queue.py:86-94`)
  | .drain t, w =>
    match w.tq t with
    | [] => .done w (.ok ())
    | (x, args) :: _ =>
      .call (.direct none none x args) (w.getQueue t x args) fun w' r =>
        match r with
        | .error e => .done w' (.error (wrapQueued e))
        | .ok _ => .call (.drain t) w' .done

/-- Run a computation, with `f` serving nested calls (Python's call stack; no code of `/repo` but how it is run, `_signal.py:1142-1328`). -/
def runComp (f : Task → World → Option (World × Res)) : Comp → Option (World × Res)
  | .done w r => some (w, r)
  | .call t w k =>
    match f t w with
    | none => none
    | some (w', r) => runComp f (k w' r)

/-- The interpreter; `none` means that the fuel (bound on call depth) did not suffice (Python running `_signal.py:1142-1328`). -/
def exec (env : Env) : Nat → Task → World → Option (World × Res)
  | 0, _, _ => none
  | n + 1, t, w => runComp (exec env n) (body env t w)

/-- `t` started in `w` finishes in `w'` with result `r` (Python running `_signal.py:1142-1328`). -/
def Runs (env : Env) (t : Task) (w w' : World) (r : Res) : Prop :=
  ∃ n, exec env n t w = some (w', r)

end Psygnal
