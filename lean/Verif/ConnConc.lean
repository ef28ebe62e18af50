/-!
# Connections of one signal, several threads and the garbage collector

One signal, any number of threads that connect, disconnect, look for callbacks, count them and emit, and the garbage collector,
which takes off callbacks whose object has died without asking for the lock (`/repo/src/psygnal/_signal.py:804-816`).  Each access to the list
of slots is a step of its own.  Simplified: the callbacks do nothing with the signal (that: C49), no arguments are checked, default
re-emission mode, nothing is blocked or paused, `list.remove` is one step.
-/
namespace Psygnal.CoC

/-- An entry of `_slots` (`/repo/src/psygnal/_signal.py:551`): the callback and its priority. -/
structure Slot where
  f : Nat
  p : Int
  deriving DecidableEq, Repr

/-- The argument `unique` (`/repo/src/psygnal/_signal.py:737-743`): `False`, `True`, `"raise"`. -/
inductive Uniq
  | no
  | yes
  | raise
  deriving DecidableEq, Repr

/-- The calls: `connect` (`/repo/src/psygnal/_signal.py:633`), `disconnect(f, missing_ok)` and `disconnect()` (`:1105`), `f in sig` (`:1134`),
`len(sig)` (`:1138`), `emit` (`:1142`). -/
inductive Op
  | conn (f : Nat) (u : Uniq) (p : Int)
  | disc (f : Nat) (ok : Bool)
  | discAll
  | has (f : Nat)
  | len
  | emit (a : Nat)
  deriving DecidableEq, Repr

/-- What calls return or raise: nothing, a bool, a number, `ValueError` (`/repo/src/psygnal/_signal.py:739,1132`), `IndexError` (`:800`); for
`emit` the callbacks it has called. -/
inductive Res
  | ok
  | bool (b : Bool)
  | num (n : Nat)
  | value
  | index
  | calls (fs : List Nat)
  deriving DecidableEq, Repr

/-- What happens: a call, a callback is called (`/repo/src/psygnal/_signal.py:1308`), the call has its effect, it returns; a callback has died. -/
inductive Ev
  | call (t : Nat) (o : Op)
  | called (t f a : Nat)
  | effect (t : Nat) (o : Op) (r : Res)
  | ret (t : Nat) (o : Op) (r : Res)
  | died (f : Nat)
  deriving DecidableEq, Repr

/-- User code of a thread: calls, depending on what earlier ones returned (calls of `/repo/src/psygnal/_signal.py:633-1201`). -/
inductive Code
  | ret
  | op (o : Op) (k : Res → Code)

/-- What a thread does next. -/
inductive Ctl
  | run (c : Code)
  /-- `with self._lock:` (`/repo/src/psygnal/_signal.py:736,1099,1122,1268`) -/
  | wait (o : Op) (k : Res → Code)
  /-- the next comparison of `_slot_index` (`:1103`) -/
  | scan (o : Op) (k : Res → Code) (i : Nat)
  /-- `_append_slot` (`:770-792`), the test of `_priority_in_use` -/
  | add (f : Nat) (u : Uniq) (p : Int) (k : Res → Code)
  /-- the next comparison of `_append_slot` (`:788-789`) -/
  | place (f : Nat) (u : Uniq) (p : Int) (k : Res → Code) (i : Nat)
  /-- `self._slots.insert(i, slot)` (`:790`) -/
  | ins (f : Nat) (u : Uniq) (p : Int) (k : Res → Code) (i : Nat)
  /-- `self._slots.pop(slot)` (`:800`) -/
  | pop (f : Nat) (ok : Bool) (k : Res → Code) (i : Nat)
  /-- `self._slots.clear()` (`:798`) -/
  | clear (k : Res → Code)
  /-- `len(self._slots)` (`:1140`) -/
  | size (k : Res → Code)
  /-- next iteration of the emission (`:1307`); `fs` have been called -/
  | loop (a : Nat) (k : Res → Code) (j : Nat) (fs : List Nat)
  /-- end of `with self._lock` -/
  | rel (o : Op) (k : Res → Code) (r : Res)
  /-- the call returns -/
  | back (o : Op) (k : Res → Code) (r : Res)

/-- The signal (`/repo/src/psygnal/_signal.py:551-560`): slots, `_priority_in_use`, who holds the lock; what the threads do; what happened. -/
structure St where
  slots : List Slot
  inUse : Bool
  owner : Option Nat
  thr : Nat → Ctl
  log : List Ev

/-- A thread goes on with `c` (`/repo/src/psygnal/_signal.py:736`). -/
def St.go (σ : St) (t : Nat) (c : Ctl) : St := { σ with thr := fun u => if u = t then c else σ.thr u }

/-- The call of thread `t` has its effect: the slots become `l` (`/repo/src/psygnal/_signal.py:781-802`). -/
def St.eff (σ : St) (t : Nat) (o : Op) (k : Res → Code) (r : Res) (l : List Slot) : St :=
  { (σ.go t (.rel o k r)) with slots := l, log := σ.log ++ [.effect t o r] }

/-- Where a call begins that has the lock (`/repo/src/psygnal/_signal.py:737,1099,1123-1128,1270`). -/
def first (o : Op) (k : Res → Code) : Ctl :=
  match o with
  | .conn f .no p => .add f .no p k
  | .discAll => .clear k
  | .emit a => .loop a k 0 []
  | o => .scan o k 0

/-- The callback that `_slot_index` looks for (`/repo/src/psygnal/_signal.py:1097`). -/
def Op.target : Op → Option Nat
  | .conn f _ _ => some f
  | .disc f _ => some f
  | .has f => some f
  | _ => none

/-- One step of thread `t` (`/repo/src/psygnal/_signal.py:736-816,1097-1140,1264-1308`). -/
def step (t : Nat) (σ : St) : St :=
  match σ.thr t with
  | .run .ret => σ
  | .run (.op o k) =>
    { (σ.go t (if o = .len then .size k else .wait o k)) with log := σ.log ++ [.call t o] }
  | .wait o k => if σ.owner = none then { (σ.go t (first o k)) with owner := some t } else σ
  | .scan o k i =>
    match σ.slots[i]? with
    | some s =>
      if some s.f = o.target then
        match o with
        | .conn _ .raise _ => σ.eff t o k .value σ.slots
        | .disc f ok => σ.go t (.pop f ok k i)
        | .has _ => σ.eff t o k (.bool true) σ.slots
        | o => σ.eff t o k .ok σ.slots
      else σ.go t (.scan o k (i + 1))
    | none =>
      match o with
      | .conn f u p => σ.go t (.add f u p k)
      | .disc _ ok => σ.eff t o k (if ok then .ok else .value) σ.slots
      | o => σ.eff t o k (.bool false) σ.slots
  | .add f u p k =>
    if σ.inUse = false ∧ p = 0 then σ.eff t (.conn f u p) k .ok (σ.slots ++ [⟨f, p⟩])
    else { (σ.go t (.place f u p k 0)) with inUse := true }
  | .place f u p k i =>
    match σ.slots[i]? with
    | some s => if s.p < p then σ.go t (.ins f u p k i) else σ.go t (.place f u p k (i + 1))
    | none => σ.eff t (.conn f u p) k .ok (σ.slots ++ [⟨f, p⟩])
  | .ins f u p k i => σ.eff t (.conn f u p) k .ok (σ.slots.take i ++ ⟨f, p⟩ :: σ.slots.drop i)
  | .pop f ok k i =>
    if i < σ.slots.length then σ.eff t (.disc f ok) k .ok (σ.slots.eraseIdx i) else σ.eff t (.disc f ok) k .index σ.slots
  | .clear k => σ.eff t .discAll k .ok []
  | .size k => { (σ.go t (.back .len k (.num σ.slots.length))) with log := σ.log ++ [.effect t .len (.num σ.slots.length)] }
  | .loop a k j fs =>
    match σ.slots[j]? with
    | some s => { (σ.go t (.loop a k (j + 1) (fs ++ [s.f]))) with log := σ.log ++ [.called t s.f a] }
    | none => σ.eff t (.emit a) k (.calls fs) σ.slots
  | .rel o k r => { (σ.go t (.back o k r)) with owner := none }
  | .back o k r => { (σ.go t (.run (k r))) with log := σ.log ++ [.ret t o r] }

/-- Who does the next step: a thread, or the garbage collector, which finds the object of a callback dead
(`/repo/src/psygnal/_weak_callback.py:323-331`). -/
inductive Who
  | thr (t : Nat)
  | gc (f : Nat)
  deriving DecidableEq, Repr

/-- `_try_discard` of a dead callback (`/repo/src/psygnal/_signal.py:804-816`): the first equal slot is removed. -/
def die (f : Nat) (σ : St) : St := { σ with slots := σ.slots.eraseP (·.f = f), log := σ.log ++ [.died f] }

/-- One step (`/repo/src/psygnal/_signal.py:736-816`). -/
def act (σ : St) : Who → St
  | .thr t => step t σ
  | .gc f => die f σ

/-- A schedule (`/repo/src/psygnal/_signal.py:736-816`). -/
def run (sched : List Who) (σ : St) : St := sched.foldl act σ

/-- A new signal (`/repo/src/psygnal/_signal.py:551-554`) and threads with their code. -/
def init (prog : Nat → Code) : St := ⟨[], false, none, fun t => .run (prog t), []⟩

end Psygnal.CoC
