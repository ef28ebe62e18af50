import Verif.Py

/-!
# Copying a signal: `__getstate__` and `__setstate__`

A model of pickling and deep-copying a `SignalInstance`
(`/repo/src/psygnal/_signal.py:1465-1507`, `_weak_callback.py:365-371`) and of the methods
used on the copy.  Attributes that may be missing on a copy are `Option`s; reading a missing
one raises `AttributeError`.  Callbacks are functions that only record their call or raise;
re-entrant callbacks are in `Verif/Core.lean`.
-/
namespace Psygnal.Pickle
open Py

/-- Re-emission modes (`/repo/src/psygnal/_signal.py:193-204`). -/
inductive Mode
  | immediate | queued | latest
  deriving DecidableEq, Repr

/-- How a slot holds its callable: `strong` a `StrongFunction`
(`/repo/src/psygnal/_weak_callback.py:335-371`), `queued` a `QueuedCallback` around one
(`_queue.py:15-66`), `weak` any other class. -/
inductive Hold
  | strong | queued | weak
  deriving DecidableEq, Repr

/-- A slot (`/repo/src/psygnal/_weak_callback.py:211-226,335-371`).  `key`, `f`, `args`, `kw`, `maxArgs` are the
attributes named there; `priority` may be missing on a copy. -/
structure Slot where
  key : Nat
  f : Nat
  args : List Nat
  kw : List (String × Nat)
  maxArgs : Option Nat
  hold : Hold
  priority : Option Int
  deriving DecidableEq, Repr

/-- The attributes of a `SignalInstance` (`/repo/src/psygnal/_signal.py:543-567`).
`inst` is the object that `_instance()` returns; `loop` the bound `_run_emit_loop_inner`;
`trace` is a ghost: the calls made so far.  The lock is not modelled. -/
structure Sig where
  signature : Nat
  name : Option String
  description : Option String
  inst : Option Nat
  blocked : Bool
  paused : Bool
  argsQueue : List (List Nat)
  checkNargs : Bool
  checkTypes : Bool
  emitQueue : List (List Nat)
  prioInUse : Bool
  reemission : Mode
  depth : Int
  maxDepth : Int
  loop : Mode
  slots : List Slot
  trace : List (Nat × List Nat × List (String × Nat))
  deriving DecidableEq, Repr

/-- The state of a `StrongFunction` (`/repo/src/psygnal/_weak_callback.py:366`). -/
structure SlotState where
  key : Nat
  maxArgs : Option Nat
  f : Nat
  args : List Nat
  kw : List (String × Nat)
  deriving DecidableEq, Repr

/-- The dict made by `__getstate__` (`/repo/src/psygnal/_signal.py:1467-1483`). -/
structure State where
  signature : Nat
  name : Option String
  blocked : Bool
  paused : Bool
  argsQueue : List (List Nat)
  checkNargs : Bool
  checkTypes : Bool
  emitQueue : List (List Nat)
  prioInUse : Bool
  reemission : Mode
  maxDepth : Int
  depth : Int
  inst : Option Nat
  slots : List SlotState
  deriving DecidableEq, Repr

/-- `StrongFunction.__getstate__` (`/repo/src/psygnal/_weak_callback.py:365-367`). -/
def Slot.getstate (s : Slot) : SlotState :=
  { key := s.key, maxArgs := s.maxArgs, f := s.f, args := s.args, kw := s.kw }

/-- `StrongFunction.__setstate__` (`/repo/src/psygnal/_weak_callback.py:369-371`) on a new
object. -/
def SlotState.setstate (s : SlotState) : Slot :=
  { key := s.key, f := s.f, args := s.args, kw := s.kw, maxArgs := s.maxArgs, hold := .strong,
    priority := none }

/-- `SignalInstance.__getstate__` (`/repo/src/psygnal/_signal.py:1465-1491`); the warning is
not modelled. -/
def Sig.getstate (s : Sig) : State :=
  { signature := s.signature, name := s.name, blocked := s.blocked, paused := s.paused,
    argsQueue := s.argsQueue, checkNargs := s.checkNargs, checkTypes := s.checkTypes,
    emitQueue := s.emitQueue, prioInUse := s.prioInUse, reemission := s.reemission,
    maxDepth := s.maxDepth, depth := s.depth, inst := s.inst,
    slots := (s.slots.filter (·.hold = .strong)).map (·.getstate) }

/-- `SignalInstance.__setstate__` (`/repo/src/psygnal/_signal.py:1493-1507`) on a new object. -/
def State.setstate (d : State) : Sig :=
  { signature := d.signature, name := d.name, description := none, inst := d.inst,
    blocked := d.blocked, paused := d.paused, argsQueue := d.argsQueue, checkNargs := d.checkNargs,
    checkTypes := d.checkTypes, emitQueue := d.emitQueue, prioInUse := d.prioInUse,
    reemission := d.reemission, depth := d.depth, maxDepth := d.maxDepth,
    loop := if d.reemission = .queued then .queued
      else if d.reemission = .latest then .latest else .immediate,
    slots := d.slots.map (·.setstate), trace := [] }

/-- `copy.deepcopy(signal)` or `pickle.loads(pickle.dumps(signal))`
(`/repo/src/psygnal/_signal.py:1465-1507`).  `cp` maps the owner to its copy; arguments
waiting in queues are values. -/
def copy (cp : Nat → Nat) (s : Sig) : Sig :=
  let d := s.getstate
  State.setstate { d with inst := d.inst.map cp }

/-- What user callbacks do: which functions raise (called at
`/repo/src/psygnal/_weak_callback.py:358`). -/
abbrev Raises := Nat → Bool

/-- `args[: max_args]` (`/repo/src/psygnal/_weak_callback.py:356-357`). -/
def cut (m : Option Nat) (a : List Nat) : List Nat :=
  match m with
  | none => a
  | some n => a.take n

/-- `caller.cb(args)` (`/repo/src/psygnal/_weak_callback.py:355-358`). -/
def callSlot (rs : Raises) (sl : Slot) (a : List Nat) : M Sig Unit := do
  M.modify fun s => { s with trace := s.trace ++ [(sl.f, sl.args ++ cut sl.maxArgs a, sl.kw)] }
  if rs sl.f then M.raise .emitLoop else pure ()

/-- The three loops (`/repo/src/psygnal/_signal.py:1305-1328`) for callbacks that do not
re-enter.  With a queue of one element the queued loop makes one round; it does not take the
element from the queue. -/
def inner (rs : Raises) : M Sig Unit := do
  let s ← M.get
  match s.loop, s.emitQueue with
  | _, [] => M.raise .index
  | .immediate, a :: q => do
    M.modify fun s => { s with emitQueue := q }
    M.forEach s.slots fun sl => callSlot rs sl a
  | .latest, a :: q => do
    M.modify fun s => { s with emitQueue := q }
    if s.depth < s.maxDepth then pure ()
    else M.forEach s.slots fun sl => callSlot rs sl a
  | .queued, a :: _ => M.forEach s.slots fun sl => callSlot rs sl a

/-- The `finally` block (`/repo/src/psygnal/_signal.py:1297-1303`). -/
def leave (s : Sig) : Sig :=
  if s.depth - 1 ≤ 0 then { s with depth := 0, maxDepth := 0, emitQueue := [] }
  else { s with depth := s.depth - 1, emitQueue := [] }

/-- `_run_emit_loop` (`/repo/src/psygnal/_signal.py:1264-1303`).  `runtime` stands for
`RecursionError`. -/
def runLoop (rs : Raises) (a : List Nat) : M Sig Unit := fun s =>
  if s.depth ≥ 300 then (.error .runtime, s)
  else
    let s := { s with emitQueue := s.emitQueue ++ [a] }
    if s.emitQueue.length > 1 then (.ok (), s)
    else
      let r := inner rs { s with depth := s.depth + 1, maxDepth := max s.maxDepth (s.depth + 1) }
      (r.1, leave r.2)

/-- `emit` without argument checks (`/repo/src/psygnal/_signal.py:1142-1201`). -/
def emit (rs : Raises) (a : List Nat) : M Sig Unit := fun s =>
  if s.blocked then (.ok (), s)
  else if s.paused then (.ok (), { s with argsQueue := s.argsQueue ++ [a] })
  else runLoop rs a s

/-- The search of `_append_slot` for a place (`/repo/src/psygnal/_signal.py:788-792`);
`none`: a slot without `priority` was met. -/
def place (new : Slot) (p : Int) : List Slot → Option (List Slot)
  | [] => some [new]
  | s :: l => match s.priority with
    | none => none
    | some q => if q < p then some (new :: s :: l) else (place new p l).map (s :: ·)

/-- `_append_slot` (`/repo/src/psygnal/_signal.py:770-792`) of a slot of priority `p`. -/
def append (new : Slot) (p : Int) : M Sig Unit := fun s =>
  if s.prioInUse = false ∧ p = 0 then (.ok (), { s with slots := s.slots ++ [new] })
  else match place new p s.slots with
    | none => (.error .attribute, { s with prioInUse := true })
    | some l => (.ok (), { s with prioInUse := true, slots := l })

/-- `resume()` without a reducer (`/repo/src/psygnal/_signal.py:1407-1429`). -/
def resume (rs : Raises) : M Sig Unit := do
  M.modify fun s => { s with paused := false }
  let s ← M.get
  if s.argsQueue = [] then pure ()
  else if s.slots = [] then M.modify fun s => { s with argsQueue := [] }
  else do
    M.forEach s.argsQueue fun a => runLoop rs a
    M.modify fun s => { s with argsQueue := [] }

/-- The operations on a signal (`/repo/src/psygnal/_signal.py:585-604,633-768,1105-1140,
1142-1201,1330-1429`).  `connect` is given the function, its bound arguments, `max_args`,
how it is held, and the priority. -/
inductive Op
  | emit (a : List Nat)
  | connect (key f : Nat) (args : List Nat) (maxArgs : Option Nat) (hold : Hold) (prio : Int)
  | disconnect (key : Nat)
  | disconnectAll
  | block | unblock | pause | resume
  | len
  | contains (key : Nat)
  | name
  | description
  deriving DecidableEq, Repr

/-- Results of operations (`/repo/src/psygnal/_signal.py:590-604,1134-1140`). -/
inductive Val
  | unit
  | nat (n : Nat)
  | bool (b : Bool)
  | str (s : String)
  deriving DecidableEq, Repr

/-- `disconnect(slot)` (`/repo/src/psygnal/_signal.py:1105-1132`). -/
def disconnect (key : Nat) : M Sig Unit :=
  M.modify fun s => { s with slots := s.slots.eraseP (·.key = key) }

/-- One operation (`/repo/src/psygnal/_signal.py:477-1500`, lines at `Op`). -/
def step (rs : Raises) : Op → M Sig Val
  | .emit a => do emit rs a; pure .unit
  | .connect key f args m st p => do
    append ⟨key, f, args, [], m, st, some p⟩ p
    pure .unit
  | .disconnect key => do disconnect key; pure .unit
  | .disconnectAll => do M.modify fun s => { s with slots := [] }; pure .unit
  | .block => do M.modify fun s => { s with blocked := true }; pure .unit
  | .unblock => do M.modify fun s => { s with blocked := false }; pure .unit
  | .pause => do M.modify fun s => { s with paused := true }; pure .unit
  | .resume => do resume rs; pure .unit
  | .len => do let s ← M.get; pure (.nat s.slots.length)
  | .contains key => do let s ← M.get; pure (.bool (s.slots.any (·.key = key)))
  | .name => do let s ← M.get; pure (.str (s.name.getD ""))
  | .description => do
    let s ← M.get
    match s.description with
    | some d => pure (.str d)
    | none => M.raise .attribute

/-- A sequence of operations by a user who catches exceptions: the result of each
(`/repo/src/psygnal/_signal.py`, lines at `Op`). -/
def run (rs : Raises) : List Op → Sig → List (Except Err Val) × Sig
  | [], s => ([], s)
  | o :: os, s =>
    let r := step rs o s
    let t := run rs os r.2
    (r.1 :: t.1, t.2)

end Psygnal.Pickle
