import Verif.EventedList

/-!
# What an `EventedList` with `child_events=True` reports
(`/repo/src/psygnal/containers/_evented_list.py:397-425`)

The list and its connections are those of `Verif/EventedList.lean`; here are the emissions of signals around it.  A signal is found on a
child as an attribute, or is a member of a group found there, and then it is the relay of the group that the list is connected to.
Simplified: signals in the default re-emission mode that are neither blocked nor paused (C10-C13, C20, C21); a signal that is both an
attribute and a member of a group calls the list first and the relay of the group then; relays have the list as their only listener
besides those that do nothing to the list.
-/

namespace Psygnal.EL
open Psygnal.Py (M Err Key Slice)

/-- The signals around a list: `instance` of each signal (`/repo/src/psygnal/_signal.py:585-588`; `None` is a value too, and that is
what the groups of containers have: `ListEvents()`, `/repo/src/psygnal/containers/_evented_list.py:127`,
`/repo/src/psygnal/containers/_evented_dict.py:173`, `/repo/src/psygnal/containers/_evented_set.py:325`), and the relays of the groups
in which it is a member (`/repo/src/psygnal/_group.py:67-72`). -/
structure World (α : Type) where
  inst : Nat → α
  relays : Nat → List Nat

variable {α : Type} [DecidableEq α] (c : Cfg α) (w : World α)

/-- `_reemit_child_event` is called by signal `g` itself, while `cur` is the current emitter
(`/repo/src/psygnal/containers/_evented_list.py:407-425`). -/
def hear (cur : Option Nat) (args : List Nat) : M (St α) Unit := match cur with
  | none => pure ()
  | some e => reemit c e (w.inst e) (.plain args)

/-- The slot of relay `r` at its member is called while `cur` is the current emitter (`/repo/src/psygnal/_group.py:97-100`): the relay
becomes the current emitter and calls its slots. -/
def relayed (cur : Option Nat) (r : Nat) (args : List Nat) : M (St α) Unit := match cur with
  | none => pure ()
  | some e => do
    let s ← M.get
    M.forEach (List.replicate (s.conns r) ()) fun _ => reemit c r (w.inst r) (.info e args)

/-- `emit(*args)` or `emit_fast(*args)` of signal `g`, called while `outer` is the current emitter, which `emit_fast` leaves as it is
(`/repo/src/psygnal/_signal.py:1142-1260,1277-1280`). -/
def emission (fast : Bool) (outer : Option Nat) (g : Nat) (args : List Nat) : M (St α) Unit := do
  let cur := if fast then outer else some g
  let s ← M.get
  M.forEach (List.replicate (s.conns g) ()) fun _ => hear c w cur args
  M.forEach (w.relays g) fun r => relayed c w cur r args

/-- What a program does: an operation on the list, or an emission of some signal (`/repo/src/psygnal/containers/_evented_list.py:90-425`,
`/repo/src/psygnal/_signal.py:1142-1260`). -/
inductive WOp (α : Type)
  | list (o : Op α)
  | emit (fast : Bool) (outer : Option Nat) (g : Nat) (args : List Nat)

/-- One operation; errors are caught (`/repo/src/psygnal/containers/_evented_list.py:90-425`). -/
def wstep (s : St α) : WOp α → St α
  | .list o => (step c o s).2
  | .emit fast outer g args => (emission c w fast outer g args s).2

/-- A program (`/repo/src/psygnal/containers/_evented_list.py:90-425`). -/
def wrun (ops : List (WOp α)) (s : St α) : St α := ops.foldl (wstep c w) s

end Psygnal.EL
