import Verif.Py

/-! # `EventedObjectProxy` (`/repo/src/psygnal/containers/_evented_proxy.py`)

The wrapped object is any object: a state and functions for reading, setting and deleting attributes
and items, for in-place operators and for calls, each of which may raise and change the state.
Values are object identities.  `wrapt.ObjectProxy` itself is not part of the repository; its documented
behaviour (forward everything except names found on the proxy class) is written down here. -/
namespace Psygnal.Proxy

open Py (Err M)

/-- A wrapped object (`/repo/src/psygnal/containers/_evented_proxy.py:64-71`): attribute names, keys,
values and operands are numbers, values standing for identities. -/
structure Obj (σ : Type) where
  getattr : Nat → M σ Nat
  setattr : Nat → Nat → M σ Unit
  delattr : Nat → M σ Unit
  getitem : Nat → M σ Nat
  setitem : Nat → Nat → M σ Unit
  delitem : Nat → M σ Unit
  /-- `__iadd__` and the other twelve, including the case that the operator makes a new object. -/
  inplace : Nat → Nat → M σ Unit
  call : Nat → M σ Nat

/-- Emissions (`/repo/src/psygnal/containers/_evented_proxy.py:19-32`); an attribute that cannot be read
after setting is reported with the sentinel `_UNSET`, here `none`. -/
inductive Ev
  | attributeSet (n : Nat) (v : Option Nat)
  | attributeDeleted (n : Nat)
  | itemSet (k v : Nat)
  | itemDeleted (k : Nat)
  | inPlace (op v : Nat)
  | called (a : Nat)
  deriving DecidableEq, Repr

/-- The wrapped object and the emissions so far (`/repo/src/psygnal/containers/_evented_proxy.py:70,73-80`). -/
structure St (σ : Type) where
  obj : σ
  log : List Ev

/-- The proxy: the wrapped object, the names found on the proxy class (`wrapt` looks those up on the
proxy), and the events whose listeners raise
(`/repo/src/psygnal/containers/_evented_proxy.py:41,70-80`). -/
structure Cfg (σ : Type) where
  wrapped : Obj σ
  own : Nat → Bool
  raises : Ev → Bool

variable {σ α : Type}

/-- Run a method of the wrapped object
(`/repo/src/psygnal/containers/_evented_proxy.py:83-84,89,93-94,99`). -/
def fwd (f : M σ α) : M (St σ) α := fun s => ((f s.obj).1, { s with obj := (f s.obj).2 })

/-- Emit (`/repo/src/psygnal/containers/_evented_proxy.py:86,90,96,100`). -/
def emit (c : Cfg σ) (e : Ev) : M (St σ) Unit := fun s =>
  (if c.raises e then .error .emitLoop else .ok (), { s with log := s.log ++ [e] })

/-- `getattr(self, name, _UNSET)`: only `AttributeError` is swallowed
(`/repo/src/psygnal/containers/_evented_proxy.py:83,85`).  Names found on the proxy class read as
themselves, e.g. `events`. -/
def getD (c : Cfg σ) (n : Nat) : M (St σ) (Option Nat) := fun s =>
  if c.own n then (.ok (some n), s)
  else match fwd (c.wrapped.getattr n) s with
    | (.ok v, s) => (.ok (some v), s)
    | (.error .attribute, s) => (.ok none, s)
    | (.error e, s) => (.error e, s)

/-- `super().__setattr__`, i.e. `wrapt.ObjectProxy`: names found on the proxy class are set there;
they are properties and methods, so this fails for the property `events`
(`/repo/src/psygnal/containers/_evented_proxy.py:73-80,84`).  Simplified: it fails for all of them. -/
def superSet (c : Cfg σ) (n v : Nat) : M (St σ) Unit :=
  if c.own n then M.raise .attribute else fwd (c.wrapped.setattr n v)

/-- `super().__delattr__` (`/repo/src/psygnal/containers/_evented_proxy.py:89`). -/
def superDel (c : Cfg σ) (n : Nat) : M (St σ) Unit :=
  if c.own n then M.raise .attribute else fwd (c.wrapped.delattr n)

/-- `__setattr__` (`/repo/src/psygnal/containers/_evented_proxy.py:82-86`). -/
def setattr (c : Cfg σ) (n v : Nat) : M (St σ) Unit := do
  let before ← getD c n
  superSet c n v
  let after ← getD c n
  if before ≠ after then emit c (.attributeSet n after) else pure ()

/-- `__delattr__` (`/repo/src/psygnal/containers/_evented_proxy.py:88-90`). -/
def delattr (c : Cfg σ) (n : Nat) : M (St σ) Unit := do
  superDel c n
  emit c (.attributeDeleted n)

/-- `__setitem__` (`/repo/src/psygnal/containers/_evented_proxy.py:92-96`). -/
def setitem (c : Cfg σ) (k v : Nat) : M (St σ) Unit := do
  let before ← fwd (c.wrapped.getitem k)
  fwd (c.wrapped.setitem k v)
  let after ← fwd (c.wrapped.getitem k)
  if before ≠ after then emit c (.itemSet k after) else pure ()

/-- `__delitem__` (`/repo/src/psygnal/containers/_evented_proxy.py:98-100`). -/
def delitem (c : Cfg σ) (k : Nat) : M (St σ) Unit := do
  fwd (c.wrapped.delitem k)
  emit c (.itemDeleted k)

/-- `__iadd__` to `__ior__` (`/repo/src/psygnal/containers/_evented_proxy.py:108-159`). -/
def inplace (c : Cfg σ) (op v : Nat) : M (St σ) Unit := do
  emit c (.inPlace op v)
  fwd (c.wrapped.inplace op v)

/-- `EventedCallableObjectProxy.__call__` (`/repo/src/psygnal/containers/_evented_proxy.py:208-211`). -/
def call (c : Cfg σ) (a : Nat) : M (St σ) Nat := do
  emit c (.called a)
  fwd (c.wrapped.call a)

/-- Reading an attribute of the proxy; names found on the proxy class are not forwarded
(`/repo/src/psygnal/containers/_evented_proxy.py:73-80`). -/
def getattr (c : Cfg σ) (n : Nat) : M (St σ) Nat :=
  if c.own n then M.pure n else fwd (c.wrapped.getattr n)

/-- Operations on an object or its proxy (`/repo/src/psygnal/containers/_evented_proxy.py:82-159,208-211`). -/
inductive Op
  | getattr (n : Nat)
  | setattr (n v : Nat)
  | delattr (n : Nat)
  | getitem (k : Nat)
  | setitem (k v : Nat)
  | delitem (k : Nat)
  | inplace (op v : Nat)
  | call (a : Nat)
  deriving DecidableEq, Repr

/-- The operation through the proxy (`/repo/src/psygnal/containers/_evented_proxy.py:82-159,208-211`);
operations without a result return `none`. -/
def step (c : Cfg σ) : Op → M (St σ) (Option Nat)
  | .getattr n => some <$> getattr c n
  | .setattr n v => (fun _ => none) <$> setattr c n v
  | .delattr n => (fun _ => none) <$> delattr c n
  | .getitem k => some <$> fwd (c.wrapped.getitem k)
  | .setitem k v => (fun _ => none) <$> setitem c k v
  | .delitem k => (fun _ => none) <$> delitem c k
  | .inplace o v => (fun _ => none) <$> inplace c o v
  | .call a => some <$> call c a

/-- The operation on the object itself (specification, Python without the proxy of
`/repo/src/psygnal/containers/_evented_proxy.py:70-211`). -/
def direct (o : Obj σ) : Op → M σ (Option Nat)
  | .getattr n => some <$> o.getattr n
  | .setattr n v => (fun _ => none) <$> o.setattr n v
  | .delattr n => (fun _ => none) <$> o.delattr n
  | .getitem k => some <$> o.getitem k
  | .setitem k v => (fun _ => none) <$> o.setitem k v
  | .delitem k => (fun _ => none) <$> o.delitem k
  | .inplace p v => (fun _ => none) <$> o.inplace p v
  | .call a => some <$> o.call a

/-- Operations one after the other, exceptions being handled by the caller: results and final state
(specification side; the methods are those of `/repo/src/psygnal/containers/_evented_proxy.py:70-211`). -/
def runAll {τ : Type} (f : Op → M τ (Option Nat)) : List Op → τ → List (Except Err (Option Nat)) × τ
  | [], s => ([], s)
  | o :: l, s =>
    let r := f o s
    let q := runAll f l r.2
    (r.1 :: q.1, q.2)

end Psygnal.Proxy
