import Verif.Py

/-!
# `EventedDict` (`/repo/src/psygnal/containers/_evented_dict.py`)

As for `EventedList`, listeners observe the events and may raise; most theorems are about listeners that do not
themselves operate on the dict (`Cfg.Passive`; not so in C64).  Keys are taken up to `==`: two keys that are equal (and have the same hash) are the same `K`.
-/

namespace Psygnal.ED
open Psygnal.Py (M Err)

/-! ## Built-in dicts: association lists in insertion order -/

variable {K V : Type} [DecidableEq K]

/-- `d.get(k)`, `None` if absent (`self._dict[key]`, `/repo/src/psygnal/containers/_evented_dict.py:60,182,189`). -/
def lookup : List (K × V) → K → Option V
  | [], _ => none
  | p :: d, k => if p.1 = k then some p.2 else lookup d k

/-- `d[k] = v`: a key that is present keeps its place, a new one goes to the end
(`/repo/src/psygnal/containers/_evented_dict.py:54`). -/
def put : List (K × V) → K → V → List (K × V)
  | [], k, v => [(k, v)]
  | p :: d, k, v => if p.1 = k then (p.1, v) :: d else p :: put d k v

/-- `del d[k]` (`/repo/src/psygnal/containers/_evented_dict.py:57`). -/
def del : List (K × V) → K → List (K × V)
  | [], _ => []
  | p :: d, k => if p.1 = k then d else p :: del d k

/-! ## The evented dict -/

/-- Events (`DictEvents`, `/repo/src/psygnal/containers/_evented_dict.py:134-139`). -/
inductive Ev (K V : Type)
  | adding (k : K)
  | added (k : K) (v : V)
  | changing (k : K)
  | changed (k : K) (old new : V)
  | removing (k : K)
  | removed (k : K) (v : V)
  deriving DecidableEq, Repr

/-- State: `_dict` and the emissions so far, each with the contents at that moment
(`/repo/src/psygnal/containers/_evented_dict.py:47,173`). -/
structure St (K V : Type) where
  dict : List (K × V)
  log : List (Ev K V × List (K × V)) := []

/-- What the dict depends on: which keys can be hashed, which values pass the check of `_basetypes`
(`/repo/src/psygnal/containers/_evented_dict.py:71-78`), and the listeners of the events, which are called after the
observer that keeps the log, or before it if `early = false`: `react` is what they do to the dict at the last emission of
the given history, `fails` whether they then raise.  `rounds` bounds the loop of `clear`, which listeners may prolong. -/
structure Cfg (K V : Type) where
  hashable : K → Bool
  okType : V → Bool
  fails : List (Ev K V × List (K × V)) → Bool
  react : List (Ev K V × List (K × V)) → M (St K V) Unit := fun _ => M.pure ()
  early : Bool := true
  rounds : Nat := 0

/-- The listeners do not operate on the dict (as assumed in C30; not so in C64)
(`/repo/src/psygnal/containers/_evented_dict.py:95-139`). -/
class Cfg.Passive {K V : Type} (c : Cfg K V) : Prop where
  react : c.react = fun _ => M.pure ()
  early : c.early = true

variable (c : Cfg K V)

/-- `self.events.<name>.emit(...)` (`/repo/src/psygnal/containers/_evented_dict.py:178,180,184,186,190,192`): the
listeners run, and an error of a listener comes back from `emit`; the listeners after it are not called then. -/
def emit (e : Ev K V) : M (St K V) Unit := fun s =>
  let log := s.log ++ [(e, s.dict)]
  if c.early then
    match c.react log { s with log := log } with
    | (.error _, s') => (.error .emitLoop, s')
    | (.ok _, s') => (if c.fails log then .error .emitLoop else .ok (), s')
  else
    match c.react log s with
    | (.error _, s') => (.error .emitLoop, s')
    | (.ok _, s') => (.ok (), { s' with log := s'.log ++ [(e, s'.dict)] })

/-- Hashing a key, done first by every dict operation (`/repo/src/psygnal/containers/_evented_dict.py:54,57,60,177`). -/
def hash (k : K) : M (St K V) Unit := if c.hashable k then pure () else M.raise .type

/-- `TypedMutableMapping.__getitem__` (`/repo/src/psygnal/containers/_evented_dict.py:59-60`). -/
def getItem (k : K) : M (St K V) V := do
  hash c k
  let s ← M.get
  match lookup s.dict k with
  | some v => pure v
  | none => M.raise .key

/-- `TypedMutableMapping.__setitem__` with `_type_check`
(`/repo/src/psygnal/containers/_evented_dict.py:53-54,71-78`). -/
def baseSet (k : K) (v : V) : M (St K V) Unit :=
  if c.okType v then M.modify fun s => { s with dict := put s.dict k v } else M.raise .type

/-- `EventedDict.__setitem__` (`/repo/src/psygnal/containers/_evented_dict.py:176-186`). -/
def setItem [DecidableEq V] (k : K) (v : V) : M (St K V) Unit := do
  hash c k
  let s ← M.get
  match lookup s.dict k with
  | none => do
    emit c (.adding k)
    baseSet c k v
    emit c (.added k v)
  | some old =>
    if v = old then pure () else do
      emit c (.changing k)
      baseSet c k v
      emit c (.changed k old v)

/-- `TypedMutableMapping.__delitem__`: `del self._dict[key]`
(`/repo/src/psygnal/containers/_evented_dict.py:56-57`). -/
def baseDel (k : K) : M (St K V) Unit := do
  let s ← M.get
  match lookup s.dict k with
  | some _ => M.modify fun s => { s with dict := del s.dict k }
  | none => M.raise .key

/-- `EventedDict.__delitem__` (`/repo/src/psygnal/containers/_evented_dict.py:188-192`). -/
def delItem (k : K) : M (St K V) Unit := do
  let v ← getItem c k
  emit c (.removing k)
  baseDel k
  emit c (.removed k v)

/-! Inherited from `collections.abc.MutableMapping` (`/repo/src/psygnal/containers/_evented_dict.py:27`). -/

/-- `Mapping.__contains__`: `self[key]`, with `KeyError` meaning no
(inherited, `/repo/src/psygnal/containers/_evented_dict.py:27`). -/
def contains (k : K) : M (St K V) Bool := fun s =>
  match getItem c k s with
  | (.ok _, s') => (.ok true, s')
  | (.error .key, s') => (.ok false, s')
  | (.error e, s') => (.error e, s')

/-- `Mapping.get(key, default)` (inherited, `/repo/src/psygnal/containers/_evented_dict.py:27`). -/
def get (k : K) (dflt : V) : M (St K V) V := fun s =>
  match getItem c k s with
  | (.error .key, s') => (.ok dflt, s')
  | r => r

/-- `MutableMapping.pop(key)` and `pop(key, default)` (inherited, `/repo/src/psygnal/containers/_evented_dict.py:27`). -/
def pop (k : K) (dflt : Option V) : M (St K V) V := fun s =>
  match getItem c k s with
  | (.error .key, s') => match dflt with
    | some v => (.ok v, s')
    | none => (.error .key, s')
  | (.error e, s') => (.error e, s')
  | (.ok v, s') => M.bind (delItem c k) (fun _ => M.pure v) s'

/-- `MutableMapping.popitem`: `key = next(iter(self))`
(inherited, `/repo/src/psygnal/containers/_evented_dict.py:27`). -/
def popItem : M (St K V) (K × V) := do
  let s ← M.get
  match s.dict with
  | [] => M.raise .key
  | p :: _ => do
    let v ← getItem c p.1
    delItem c p.1
    pure (p.1, v)

/-- The loop of `MutableMapping.clear`: `popitem` until `KeyError`; `n` bounds the number of rounds
(inherited, `/repo/src/psygnal/containers/_evented_dict.py:27`). -/
def clearLoop : Nat → M (St K V) Unit
  | 0 => M.pure ()
  | n + 1 => fun s =>
    match popItem c s with
    | (.ok _, s') => clearLoop n s'
    | (.error .key, s') => (.ok (), s')
    | (.error e, s') => (.error e, s')

/-- `MutableMapping.clear` (inherited, `/repo/src/psygnal/containers/_evented_dict.py:27`).  Each round removes an
item, so one round more than there are items suffices, unless listeners add items. -/
def clear : M (St K V) Unit := fun s => clearLoop c (s.dict.length + 1 + c.rounds) s

/-- `MutableMapping.update` with the items of its arguments in order, as done by the constructor, too
(inherited, `/repo/src/psygnal/containers/_evented_dict.py:27,51`). -/
def update [DecidableEq V] (items : List (K × V)) : M (St K V) Unit := M.forEach items fun p => setItem c p.1 p.2

/-- `MutableMapping.setdefault` (inherited, `/repo/src/psygnal/containers/_evented_dict.py:27`). -/
def setDefault [DecidableEq V] (k : K) (dflt : V) : M (St K V) V := fun s =>
  match getItem c k s with
  | (.error .key, s') => M.bind (setItem c k dflt) (fun _ => M.pure dflt) s'
  | r => r

/-- `copy` by `__newlike__`: a new dict without listeners is filled
(`/repo/src/psygnal/containers/_evented_dict.py:80-92`). -/
def copy [DecidableEq V] : M (St K V) (List (K × V)) := fun s =>
  match update { c with fails := fun _ => false, react := fun _ => M.pure (), early := true } s.dict { dict := [] } with
  | (.ok _, new) => (.ok new.dict, s)
  | (.error e, _) => (.error e, s)

/-! ## Operations -/

/-- The operations on a dict (`/repo/src/psygnal/containers/_evented_dict.py:27-195`). -/
inductive Op (K V : Type)
  | getItem (k : K)
  | setItem (k : K) (v : V)
  | delItem (k : K)
  | len
  | items
  | contains (k : K)
  | get (k : K) (dflt : V)
  | pop (k : K) (dflt : Option V)
  | popItem
  | clear
  | update (items : List (K × V))
  | setDefault (k : K) (dflt : V)
  | copy
  | reversed
  deriving Repr

/-- Result of an operation (`/repo/src/psygnal/containers/_evented_dict.py:27-195`). -/
inductive Res (K V : Type)
  | unit
  | val (v : V)
  | item (k : K) (v : V)
  | items (l : List (K × V))
  | int (n : Nat)
  | bool (b : Bool)
  | keys (l : List K)
  deriving DecidableEq, Repr

/-- One operation (`/repo/src/psygnal/containers/_evented_dict.py:27-195`): `items` is iteration (`keys`, `values`,
`items`, `list(d)`); `reversed(d)` is a `TypeError`, because `Mapping` sets `__reversed__ = None`. -/
def step [DecidableEq V] : Op K V → M (St K V) (Res K V)
  | .getItem k => do
    let v ← getItem c k
    pure (.val v)
  | .setItem k v => do
    setItem c k v
    pure .unit
  | .delItem k => do
    delItem c k
    pure .unit
  | .len => do
    let s ← M.get
    pure (.int s.dict.length)
  | .items => do
    let s ← M.get
    pure (.items s.dict)
  | .contains k => do
    let b ← contains c k
    pure (.bool b)
  | .get k v => do
    let v ← get c k v
    pure (.val v)
  | .pop k v => do
    let v ← pop c k v
    pure (.val v)
  | .popItem => do
    let p ← popItem c
    pure (.item p.1 p.2)
  | .clear => do
    clear c
    pure .unit
  | .update l => do
    update c l
    pure .unit
  | .setDefault k v => do
    let v ← setDefault c k v
    pure (.val v)
  | .copy => do
    let l ← copy c
    pure (.items l)
  | .reversed => M.raise .type

/-- A sequence of operations; one that raises does not stop the sequence
(`/repo/src/psygnal/containers/_evented_dict.py:27-195`). -/
def run [DecidableEq V] : List (Op K V) → St K V → List (Except Err (Res K V)) × St K V
  | [], s => ([], s)
  | op :: ops, s =>
    let r := step c op s
    let rs := run ops r.2
    (r.1 :: rs.1, rs.2)

/-! ## Listeners that operate on the dict -/

/-- What a listener does: any methods of the dict, one after the other, depending on their results (errors may be caught);
in the end it returns or raises (`/repo/src/psygnal/containers/_evented_dict.py:27-195`). -/
inductive Prog (K V : Type)
  | done
  | raise
  | op (o : Op K V) (k : Except Err (Res K V) → Prog K V)

/-- Execution of such a program (`/repo/src/psygnal/containers/_evented_dict.py:27-195`). -/
def exec [DecidableEq V] : Prog K V → M (St K V) Unit
  | .done => pure ()
  | .raise => M.raise .value
  | .op o k => fun s =>
    let r := step c o s
    exec (k r.1) r.2

/-- The dict with listeners that perform the program `p log` at each emission, whose emissions are listened to in the same
way, and so on; the listeners `n` levels deep get an error instead (`RecursionError`,
`/repo/src/psygnal/_signal.py:1265-1266`; `n` is arbitrary). -/
def listening [DecidableEq V] (p : List (Ev K V × List (K × V)) → Prog K V) : Nat → Cfg K V
  | 0 => { c with react := fun _ => M.raise .runtime }
  | n + 1 => { c with react := fun log => exec (listening p n) (p log) }

end Psygnal.ED
