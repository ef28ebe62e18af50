/-!
# Callback objects: what `connect_setattr` and `connect_setitem` return

`connect_setattr(obj, attr)` returns the `WeakCallback` that it has connected (`/repo/src/psygnal/_signal.py:892-905`).  It is callable, so
it can be given to `connect`, `disconnect` and `in` of the same signal and of others, and `weak_callback` then takes it as it is
(`/repo/src/psygnal/_weak_callback.py:118-119`).

Simplified: plain signals that are neither blocked nor paused, in the default mode; the objects just store what is assigned; `thread=None`;
`connect_setitem` is the same with an item for an attribute.  Objects are told apart by their number for ever (Python can use the `id` of a
dead object again, C24).
-/
namespace Psygnal.Callers

/-- A `WeakSetattr` (`/repo/src/psygnal/_weak_callback.py:511-526`); `home` is the signal whose `_try_discard` is its `finalize`
(`/repo/src/psygnal/_signal.py:896-903`). -/
structure Caller where
  obj : Nat
  attr : Nat
  maxArgs : Option Nat
  priority : Int
  home : Nat
  deriving DecidableEq, Repr

/-- `args[0] if len(args) == 1 else args` (`/repo/src/psygnal/_weak_callback.py:539`). -/
inductive Val
  | one (n : Nat)
  | tup (l : List Nat)
  deriving DecidableEq, Repr

/-- There are `n` signals, with `_slots` and `_priority_in_use` (`/repo/src/psygnal/_signal.py:551,567`); callbacks are numbered as they are
made; `held` are those that the program has in a variable, `gone` those that the garbage collector has destroyed, and `sets` the attribute
assignments so far (ghost). -/
structure St where
  n : Nat
  callers : List Caller
  slots : Nat → List Nat
  prio : Nat → Bool
  held : Nat → Bool
  gone : Nat → Bool
  dead : Nat → Bool
  sets : List (Nat × Nat × Val)

/-- `n` new signals (`/repo/src/psygnal/_signal.py:534-571`). -/
def St.init (n : Nat) : St := ⟨n, [], fun _ => [], fun _ => false, fun _ => false, fun _ => false, fun _ => false, []⟩

/-- `ValueError` (`/repo/src/psygnal/_signal.py:738-739,1132,817-818`), and `EmitLoopError` from the `ReferenceError` of a dead callback
(`/repo/src/psygnal/_weak_callback.py:535-536`, `/repo/src/psygnal/_signal.py:1287-1296`). -/
inductive Err
  | value
  | emitLoop
  deriving DecidableEq, Repr

/-- `unique=` of `connect` (`/repo/src/psygnal/_signal.py:736-743`). -/
inductive Unique
  | no
  | yes
  | raise
  deriving DecidableEq, Repr

/-- What a program does: `i = s.connect_setattr(obj, attr, max, priority=p)`, `s.connect(i, max_args=max, priority=p, unique=u)`,
`s.disconnect(i, missing_ok)`, `s.disconnect_setattr(obj, attr, missing_ok)`, `del i`, a garbage collection, the last reference to `obj`
goes, `s.emit(*args)`
(`/repo/src/psygnal/_signal.py:820,633,1105,907,1142`). -/
inductive Op
  | bind (s obj attr : Nat) (max : Option Nat) (p : Int)
  | connect (s i : Nat) (max : Option Nat) (p : Int) (u : Unique)
  | disconnect (s i : Nat) (missingOk : Bool)
  | unbind (s obj attr : Nat) (missingOk : Bool)
  | drop (i : Nat)
  | collect
  | die (obj : Nat)
  | emit (s : Nat) (args : List Nat)
  deriving DecidableEq, Repr

/-- `WeakCallback.__eq__` of callback `i` and one for `obj.attr`: the keys are the same (`/repo/src/psygnal/_weak_callback.py:244-247,524`). -/
def St.isFor (σ : St) (obj attr i : Nat) : Bool :=
  match σ.callers[i]? with
  | some c => c.obj == obj && c.attr == attr
  | none => false

/-- `slot.priority` (`/repo/src/psygnal/_weak_callback.py:226`). -/
def St.prioOf (σ : St) (i : Nat) : Int := match σ.callers[i]? with
  | some c => c.priority
  | none => 0

/-- The loop of `_append_slot` (`/repo/src/psygnal/_signal.py:788-792`). -/
def St.place (σ : St) (i : Nat) : List Nat → List Nat
  | [] => [i]
  | j :: l => if σ.prioOf j < σ.prioOf i then i :: j :: l else j :: σ.place i l

/-- `_append_slot` (`/repo/src/psygnal/_signal.py:770-792`). -/
def St.append (σ : St) (s i : Nat) : St :=
  if σ.prio s = false ∧ σ.prioOf i = 0 then { σ with slots := fun x => if x = s then σ.slots s ++ [i] else σ.slots x }
  else { σ with prio := fun x => if x = s then true else σ.prio x, slots := fun x => if x = s then σ.place i (σ.slots s) else σ.slots x }

/-- `_slots.remove(wcb)`: the first that is equal (`/repo/src/psygnal/_signal.py:802`). -/
def St.remove (σ : St) (s obj attr : Nat) : St :=
  { σ with slots := fun x => if x = s then (σ.slots s).eraseP (σ.isFor obj attr) else σ.slots x }

/-- Is the callback in a variable or in a signal?  If not, the garbage collector may destroy it, and its weak reference with it; until then it
is kept by its own weak reference, whose callback refers to it (`/repo/src/psygnal/_weak_callback.py:257,323-331`). -/
def St.reachable (σ : St) (i : Nat) : Bool := σ.held i || (List.range σ.n).any fun s => (σ.slots s).contains i

/-- `_kill_and_finalize` of each callback for `obj` when it dies: `home._try_discard(wcb)` (`/repo/src/psygnal/_weak_callback.py:323-331`,
`/repo/src/psygnal/_signal.py:804-818`). -/
def St.finalize (σ : St) : List Caller → St
  | [] => σ
  | c :: l => St.finalize (σ.remove c.home c.obj c.attr) l

/-- The callbacks whose `finalize` is called when `obj` dies (`/repo/src/psygnal/_weak_callback.py:257,326-329`). -/
def St.mourners (σ : St) (obj : Nat) : List Caller :=
  ((List.range σ.callers.length).filter fun i => !σ.gone i).filterMap fun i => match σ.callers[i]? with
    | some c => if c.obj = obj then some c else none
    | none => none

/-- `args[: self._max_args]`, then `args[0] if len(args) == 1 else args` (`/repo/src/psygnal/_weak_callback.py:537-539`). -/
def pack (max : Option Nat) (args : List Nat) : Val :=
  match (match max with | some k => args.take k | none => args) with
  | [v] => .one v
  | l => .tup l

/-- `for caller in self._slots: caller.cb(args)` (`/repo/src/psygnal/_signal.py:1307-1308`, `/repo/src/psygnal/_weak_callback.py:533-539`). -/
def St.call (σ : St) (args : List Nat) : List Nat → Except Err Unit × St
  | [] => (.ok (), σ)
  | i :: l => match σ.callers[i]? with
    | none => σ.call args l
    | some c =>
      if σ.dead c.obj then (.error .emitLoop, σ)
      else St.call { σ with sets := σ.sets ++ [(c.obj, c.attr, pack c.maxArgs args)] } args l

/-- Is a callback for `obj.attr` connected to `s` (`/repo/src/psygnal/_signal.py:1097-1103`)? -/
def St.has (σ : St) (s obj attr : Nat) : Bool := (σ.slots s).any (σ.isFor obj attr)

/-- One operation.  What cannot be said in Python (there is no such signal, variable, or live object) does nothing
(`/repo/src/psygnal/_signal.py:633,804,820,907,1105,1142`). -/
def St.step (σ : St) : Op → Except Err Unit × St
  -- `_signal.py:892-905`
  | .bind s obj attr max p =>
    if σ.n ≤ s ∨ σ.dead obj then (.ok (), σ)
    else
      let i := σ.callers.length
      (.ok (), St.append { σ with callers := σ.callers ++ [⟨obj, attr, max, p, s⟩], held := fun j => if j = i then true else σ.held j } s i)
  -- `_signal.py:735-767`; `max` and `p` are given to `weak_callback`, which returns the callback as it is (`_weak_callback.py:118-119`)
  | .connect s i _ _ u =>
    if σ.n ≤ s ∨ σ.held i = false then (.ok (), σ)
    else match σ.callers[i]? with
      | none => (.ok (), σ)
      | some c =>
        if u ≠ .no ∧ σ.has s c.obj c.attr then (if u = .raise then .error .value else .ok (), σ)
        else (.ok (), σ.append s i)
  -- `_signal.py:1122-1132`
  | .disconnect s i missingOk =>
    if σ.n ≤ s ∨ σ.held i = false then (.ok (), σ)
    else match σ.callers[i]? with
      | none => (.ok (), σ)
      | some c =>
        if σ.has s c.obj c.attr then (.ok (), σ.remove s c.obj c.attr)
        else (if missingOk then .ok () else .error .value, σ)
  -- `_signal.py:928-930,804-818`
  | .unbind s obj attr missingOk =>
    if σ.n ≤ s ∨ σ.dead obj then (.ok (), σ)
    else if σ.has s obj attr then (.ok (), σ.remove s obj attr)
    else (if missingOk then .ok () else .error .value, σ)
  | .drop i => (.ok (), { σ with held := fun j => if j = i then false else σ.held j })
  | .collect => (.ok (), { σ with gone := fun j => decide (j < σ.callers.length) && !σ.reachable j || σ.gone j })
  | .die obj =>
    if σ.dead obj then (.ok (), σ)
    else (.ok (), St.finalize { σ with dead := fun x => if x = obj then true else σ.dead x } (σ.mourners obj))
  | .emit s args => σ.call args (σ.slots s)

/-- A program, with the results of its operations (`/repo/src/psygnal/_signal.py:633-1142`). -/
def St.run (σ : St) : List Op → List (Except Err Unit) × St
  | [] => ([], σ)
  | o :: l =>
    let (r, σ') := σ.step o
    let (rs, σ'') := σ'.run l
    (r :: rs, σ'')

end Psygnal.Callers
