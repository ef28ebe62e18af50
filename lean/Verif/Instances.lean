/-!
# Which `SignalInstance` an attribute access returns

A model of `Signal.__get__` and its caches (`/repo/src/psygnal/_signal.py:341-406`) together
with the part of the interpreter it relies on: object identity, addresses (`id()`), instance
dicts, weak references and their finalizers.  Objects are numbered in the order of their
creation and numbers are never reused; addresses are.
-/
namespace Psygnal.Inst

/-- An object.  `settable`: `setattr` works on it, i.e. it has a `__dict__` and is not frozen
(`/repo/src/psygnal/_signal.py:370-378`); `dict` is the part of its `__dict__` that holds
signal instances. -/
structure Obj where
  addr : Nat
  settable : Bool
  weakrefable : Bool
  alive : Bool
  dict : List (Nat × Nat)
  deriving DecidableEq, Repr

/-- A `SignalInstance`: the `Signal` that made it and its `instance`, held strongly if it
cannot be weakly referenced (`/repo/src/psygnal/_signal.py:569-578`). -/
structure SigInst where
  sig : Nat
  owner : Nat
  strong : Bool
  deriving DecidableEq, Repr

/-- For each `Signal`: the class attribute it is assigned to, and its `_name`, which is the
attribute unless a name was given (`/repo/src/psygnal/_signal.py:328-331`). -/
structure Cfg where
  attr : Nat → Nat
  name : Nat → Nat

/-- The state: objects and signal instances by number, `_signal_instance_cache` of every
`Signal` with address and instance (`/repo/src/psygnal/_signal.py:391`), the finalizers
registered (`:392-393`) with object, signal and address, and a ghost log of the accesses. -/
structure St where
  objs : List Obj
  insts : List SigInst
  cache : List (Nat × Nat × Nat)
  fins : List (Nat × Nat × Nat)
  log : List (Nat × Nat × Nat)
  deriving DecidableEq, Repr

/-- Nothing was created yet (`/repo/src/psygnal/_signal.py:310`). -/
def St.init : St := ⟨[], [], [], [], []⟩

/-- `d.get(k)` (built-in `dict`; `/repo/src/psygnal/_signal.py:365-366`). -/
def find (k : Nat) (d : List (Nat × Nat)) : Option Nat := (d.find? (·.1 = k)).map (·.2)

/-- `self._signal_instance_cache.get(id)` of signal `s` (`/repo/src/psygnal/_signal.py:365-366`). -/
def cached (st : St) (s a : Nat) : Option Nat :=
  (st.cache.find? fun e => e.1 = s ∧ e.2.1 = a).map (·.2.2)

/-- What happens in the interpreter (`/repo/src/psygnal/_signal.py:341-406`): an object is
created at an address, an object dies, the attribute of a signal is read, an object is copied with
`copy.copy`, which copies its `__dict__`. -/
inductive Op
  | new (addr : Nat) (settable weakrefable : Bool)
  | die (o : Nat)
  | get (s o : Nat)
  | copy (o addr : Nat)
  deriving DecidableEq, Repr

/-- `setattr(instance, name, signal_instance)` (`/repo/src/psygnal/_signal.py:374`). -/
def Obj.set (ob : Obj) (n i : Nat) : Obj := { ob with dict := (n, i) :: ob.dict }

/-- An object is kept alive by a cached signal instance that refers to it strongly
(`/repo/src/psygnal/_signal.py:391,576-578`). -/
def pinned (st : St) (o : Nat) : Bool :=
  st.cache.any fun e => match st.insts[e.2.2]? with
    | some x => x.owner = o && x.strong
    | none => false

/-- `obj.sig` for the live object `o` (`/repo/src/psygnal/_signal.py:341-393`); the instance
dict comes first because `Signal` has no `__set__`. -/
def get (c : Cfg) (st : St) (s o : Nat) (ob : Obj) : Nat × St :=
  match find (c.attr s) ob.dict with
  | some i => (i, st)
  | none => match cached st s ob.addr with
    | some i => (i, st)
    | none =>
      let i := st.insts.length
      let st : St := { st with insts := st.insts ++ [⟨s, o, !ob.weakrefable⟩] }
      if ob.settable then (i, { st with objs := st.objs.set o (ob.set (c.name s) i) })
      else (i, { st with
        cache := (s, ob.addr, i) :: st.cache
        fins := if ob.weakrefable then (o, s, ob.addr) :: st.fins else st.fins })

/-- One event.  An address is given to a new object only if no live object has it; an object
can die only if nothing refers to it strongly; its finalizers then remove entries
(`/repo/src/psygnal/_signal.py:392-393`).  Impossible events change nothing. -/
def step (c : Cfg) (st : St) : Op → St
  | .new a se w =>
    if st.objs.any (fun ob => ob.alive && ob.addr = a) then st
    else { st with objs := st.objs ++ [⟨a, se, w, true, []⟩] }
  | .die o => match st.objs[o]? with
    | none => st
    | some ob =>
      if ob.alive = false ∨ pinned st o = true then st
      else { st with
        objs := st.objs.set o { ob with alive := false }
        cache := st.cache.filter fun e => !st.fins.contains (o, e.1, e.2.1)
        fins := st.fins.filter fun f => f.1 ≠ o }
  | .get s o => match st.objs[o]? with
    | none => st
    | some ob =>
      if ob.alive = false then st
      else
        let r := get c st s o ob
        { r.2 with log := r.2.log ++ [(s, o, r.1)] }
  | .copy o a => match st.objs[o]? with
    | none => st
    | some ob =>
      if ob.alive = false ∨ st.objs.any (fun ob => ob.alive && ob.addr = a) = true then st
      else { st with objs := st.objs ++ [{ ob with addr := a }] }

/-- A history (`/repo/src/psygnal/_signal.py:341-406`). -/
def run (c : Cfg) : List Op → St → St
  | [], st => st
  | o :: os, st => run c os (step c st o)

end Psygnal.Inst
