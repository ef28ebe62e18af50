/-! # `monitor_events` (`/repo/src/psygnal/utils.py:25-120`)

Signals and callbacks are numbers.  The code under the `with` statement is an arbitrary tree of
connections, disconnections, observations, exceptions and nested monitors; what emissions make
callbacks do is part of it. -/
namespace Psygnal.Mon

/-- What can be in a list of slots: a callback of the user, a `_report` function of a monitor
(`/repo/src/psygnal/utils.py:65-73`), the relay of a group (`/repo/src/psygnal/_group.py:84-86`). -/
inductive Slot
  | user (k : Nat)
  | report (i : Nat)
  | relay (r : Nat)
  deriving DecidableEq, Repr

/-- Priorities of callbacks (`/repo/src/psygnal/_signal.py:788-791`), which signals are relays of
groups, and their members (`/repo/src/psygnal/_group.py:67-72`). -/
structure Env where
  prio : Nat → Int
  isRelay : Nat → Bool
  members : Nat → List Nat

/-- Connections of all signals, the global `SignalInstance._debug_hook`
(`/repo/src/psygnal/_signal.py:522`), and the number of `_report` functions made so far. -/
structure St where
  slots : Nat → List Slot
  hook : Option Nat
  next : Nat

/-- The priority of a slot; `_report` and relays are connected with the default 0
(`/repo/src/psygnal/utils.py:75`, `/repo/src/psygnal/_group.py:84-86`). -/
def Env.prioOf (e : Env) : Slot → Int
  | .user k => e.prio k
  | .report _ => 0
  | .relay _ => 0

/-- `_append_slot` (`/repo/src/psygnal/_signal.py:788-792`); without priorities in use the position is
the end as well (`:777-780`). -/
def insert (e : Env) (x : Slot) : List Slot → List Slot
  | [] => [x]
  | y :: l => if e.prioOf y < e.prioOf x then x :: y :: l else y :: insert e x l

/-- Change the slots of one signal (`/repo/src/psygnal/_signal.py:770-802`). -/
def upd (s : St) (sig : Nat) (l : List Slot) : St :=
  { s with slots := fun n => if n = sig then l else s.slots n }

/-- Connect a slot to a signal that is not a relay (`/repo/src/psygnal/_signal.py:770-792`). -/
def ins (e : Env) (sig : Nat) (x : Slot) (s : St) : St := upd s sig (insert e x (s.slots sig))

/-- Remove the first occurrence of a slot, if any (`/repo/src/psygnal/_signal.py:1128-1130`). -/
def del (sig : Nat) (x : Slot) (s : St) : St := upd s sig ((s.slots sig).erase x)

/-- `sig.connect(self._slot_relay, unique=True)` (`/repo/src/psygnal/_group.py:83-86`). -/
def joinRelay (e : Env) (r : Nat) (s : St) (m : Nat) : St :=
  if Slot.relay r ∈ s.slots m then s else ins e m (.relay r) s

/-- `connect`; the first slot of a relay connects it to its members
(`/repo/src/psygnal/_group.py:74-86`). -/
def connect (e : Env) (sig : Nat) (x : Slot) (s : St) : St :=
  let s := ins e sig x s
  if e.isRelay sig ∧ (s.slots sig).length = 1 then (e.members sig).foldl (joinRelay e sig) s else s

/-- `_disconnect_relay` (`/repo/src/psygnal/_group.py:93-95`). -/
def leaveAll (e : Env) (r : Nat) (s : St) : St :=
  (e.members r).foldl (fun s m => del m (.relay r) s) s

/-- `SignalInstance.disconnect(slot)` with the relay's `_remove_slot`
(`/repo/src/psygnal/_signal.py:1122-1130`, `/repo/src/psygnal/_group.py:88-91`). -/
def remove (e : Env) (sig : Nat) (x : Slot) (s : St) : St :=
  if x ∈ s.slots sig then
    let s := del sig x s
    if e.isRelay sig ∧ s.slots sig = [] then leaveAll e sig s else s
  else s

/-- `disconnect(slot)`; a relay disconnects the slot from its members first
(`/repo/src/psygnal/_group.py:187-206`). -/
def disconnect (e : Env) (sig : Nat) (x : Slot) (s : St) : St :=
  remove e sig x (if e.isRelay sig then (e.members sig).foldl (fun s m => del m x s) s else s)

/-- `disconnect()`; a relay disconnects everything from its members first
(`/repo/src/psygnal/_group.py:204-206`, `/repo/src/psygnal/_signal.py:1123-1126`). -/
def clear (e : Env) (sig : Nat) (s : St) : St :=
  let s := if e.isRelay sig then (e.members sig).foldl (fun s m => upd s m []) s else s
  let s := upd s sig []
  if e.isRelay sig then leaveAll e sig s else s

/-- The callbacks of the user in a list of slots (specification; what code not knowing of monitors of
`/repo/src/psygnal/utils.py:39-84` is interested in). -/
def users (l : List Slot) : List Nat :=
  l.filterMap fun | .user k => some k | _ => none

/-- The code under the `with` statement of `/repo/src/psygnal/utils.py:77-84`.  `monitor`: on an object
with the signals `ts` in the order of `iter_signal_instances` (`:87-120`), which may raise at the end;
`monitorAll`: without an object. -/
inductive Body
  | ret
  | raise
  | look (k : (Nat → List Nat) → Body)
  | connect (sig k : Nat) (b : Body)
  | disconnect (sig k : Nat) (b : Body)
  | clear (sig : Nat) (b : Body)
  | monitor (ts : List Nat) (fails : Bool) (inner : Body) (k : Bool → Body)
  | monitorAll (logger : Nat) (inner : Body) (k : Bool → Body)

/-- Connect a new `_report` to each signal (`/repo/src/psygnal/utils.py:63-75`); the disconnectors are a set,
`:63,75`, here a list of signal and report. -/
def enter (e : Env) : List Nat → St → List (Nat × Nat) × St
  | [], s => ([], s)
  | t :: ts, s =>
    let r := enter e ts { connect e t (.report s.next) s with next := s.next + 1 }
    ((t, s.next) :: r.1, r.2)

/-- Call the disconnectors (`/repo/src/psygnal/utils.py:83-84`); being in a set they are called in any
order. -/
def leave (e : Env) (d : List (Nat × Nat)) (s : St) : St :=
  d.foldl (fun s p => disconnect e p.1 (.report p.2) s) s

/-- Run a body (`/repo/src/psygnal/utils.py:49-84`): whether it returned or raised, and the state.  `order`:
in which order a set of disconnectors is iterated. -/
def exec (e : Env) (order : List (Nat × Nat) → List (Nat × Nat)) : Body → St → Bool × St
  | .ret, s => (true, s)
  | .raise, s => (false, s)
  | .look k, s => exec e order (k fun n => users (s.slots n)) s
  | .connect sig k b, s => exec e order b (connect e sig (.user k) s)
  | .disconnect sig k b, s => exec e order b (disconnect e sig (.user k) s)
  | .clear sig b, s => exec e order b (clear e sig s)
  | .monitor ts fails inner k, s =>
    let r := enter e ts s
    if fails then exec e order (k false) r.2
    else
      let q := exec e order inner r.2
      exec e order (k q.1) (leave e (order r.1) q.2)
  | .monitorAll l inner k, s =>
    let q := exec e order inner { s with hook := some l }
    exec e order (k q.1) { q.2 with hook := s.hook }

/-- The same code without any monitors (specification, for `/repo/src/psygnal/utils.py:25-84`). -/
def strip : Body → Body
  | .ret => .ret
  | .raise => .raise
  | .look k => .look fun o => strip (k o)
  | .connect sig k b => .connect sig k (strip b)
  | .disconnect sig k b => .disconnect sig k (strip b)
  | .clear sig b => .clear sig (strip b)
  | .monitor _ _ inner k => .monitor [] false (strip inner) fun b => strip (k b)
  | .monitorAll _ inner k => .monitor [] false (strip inner) fun b => strip (k b)

end Psygnal.Mon
