/-!
# First accesses from several threads

`obj.sig` (`Signal.__get__`, `/repo/src/psygnal/_signal.py:341-393`), `obj.events` of a class with a `SignalGroupDescriptor`
(`/repo/src/psygnal/_group_descriptor.py:595-621`) and `proxy.events` (`/repo/src/psygnal/containers/_evented_proxy.py:73-80,199-206`)
make the object they return at the first access.  None of them takes a lock.  Here several threads do such accesses on one
object that stays alive; what is stored for other objects and other attributes is separate.  A step is one access to one
of the two places, which the interpreter does not interrupt.
-/
namespace Psygnal.Lazy

/-- Which attribute is accessed.  `signal settable`: a signal of an object on which `setattr` works or not
(`/repo/src/psygnal/_signal.py:368-380`); `group cached`: a group, stored on the object, too, or not
(`/repo/src/psygnal/_group_descriptor.py:613-615`); the `events` of a proxy are as `group false`
(`/repo/src/psygnal/containers/_evented_proxy.py:73-80`). -/
inductive Kind
  | signal (settable : Bool)
  | group (cached : Bool)
  deriving DecidableEq, Repr

/-- Where a thread is: before the lookup in the `__dict__` of the object, before the check of the cache, before the cache is
read to return from it, before an object is made, and with an object about to be stored (`/repo/src/psygnal/_signal.py:365-380`,
`/repo/src/psygnal/_group_descriptor.py:608-621`). -/
inductive Pc
  | idle
  | look
  | check
  | read
  | make
  | store (i : Nat)
  | put (i : Nat)
  | fetch
  | set (j : Nat)
  deriving DecidableEq, Repr

/-- A finished access: thread, times of begin and end, and what it returned (ghost; `none`: `KeyError`)
(`/repo/src/psygnal/_signal.py:341-393`). -/
structure Acc where
  thread : Nat
  start : Nat
  stop : Nat
  val : Option Nat
  deriving DecidableEq, Repr

/-- The entries for the object: in its `__dict__` and in the cache with its `id` (`/repo/src/psygnal/_signal.py:365-380`,
`/repo/src/psygnal/_group_descriptor.py:607-621`, `/repo/src/psygnal/containers/_evented_proxy.py:76-80`); the objects made are numbered;
the threads; as ghosts a clock, when the accesses in progress began, and the finished ones. -/
structure St where
  dict : Option Nat := none
  map : Option Nat := none
  made : Nat := 0
  pc : Nat → Pc := fun _ => .idle
  clock : Nat := 0
  began : Nat → Nat := fun _ => 0
  done : List Acc := []

/-- Nothing was accessed yet (`/repo/src/psygnal/_signal.py:310`). -/
def start : St := {}

/-- The next position of thread `t` (`/repo/src/psygnal/_signal.py:341-393`). -/
def St.goto (s : St) (t : Nat) (p : Pc) : St := { s with pc := fun u => if u = t then p else s.pc u }

/-- The access of thread `t` ends (`/repo/src/psygnal/_signal.py:366,380`, `/repo/src/psygnal/_group_descriptor.py:621`). -/
def St.ret (s : St) (t : Nat) (v : Option Nat) : St :=
  { s with pc := fun u => if u = t then .idle else s.pc u, done := s.done ++ [⟨t, s.began t, s.clock, v⟩] }

/-- What thread `t` does next.  At `idle` it begins an access; `look`: an entry of the `__dict__` is found without
calling `__get__`, as neither descriptor has a `__set__`; `store`: `/repo/src/psygnal/_signal.py:370-380`; `put`, `fetch`, `set`:
`/repo/src/psygnal/_group_descriptor.py:610-615`. -/
def act (k : Kind) (t : Nat) (s : St) : St :=
  match s.pc t with
  | .idle => { s.goto t .look with began := fun u => if u = t then s.clock else s.began u }
  | .look => match s.dict with
    | some i => s.ret t (some i)
    | none => s.goto t .check
  | .check => if s.map.isSome then s.goto t .read else s.goto t .make
  | .read => s.ret t s.map
  | .make => match k with
    | .signal _ => { s.goto t (.store s.made) with made := s.made + 1 }
    | .group _ => { s.goto t (.put s.made) with made := s.made + 1 }
  | .store i => match k with
    | .signal true => { s with dict := some i }.ret t (some i)
    | _ => { s with map := some i }.ret t (some i)
  | .put i => match k with
    | .group true => { s with map := some i }.goto t .fetch
    | _ => { s with map := some i }.goto t .read
  | .fetch => match s.map with
    | some j => s.goto t (.set j)
    | none => s.goto t .read
  | .set j => { s with dict := some j }.goto t .read

/-- A step of thread `t` (`/repo/src/psygnal/_signal.py:341-393`). -/
def step (k : Kind) (t : Nat) (s : St) : St := { act k t s with clock := s.clock + 1 }

/-- A schedule: which thread does the next step (`/repo/src/psygnal/_signal.py:341-393`). -/
def run (k : Kind) : List Nat → St → St
  | [], s => s
  | t :: ts, s => run k ts (step k t s)

end Psygnal.Lazy
