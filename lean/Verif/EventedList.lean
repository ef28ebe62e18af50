import Verif.Py

/-!
# `EventedList` (`/repo/src/psygnal/containers/_evented_list.py`)

The list proper, its events, and the connections it makes to the signals of its children.
Listeners of the list's events are arbitrary callbacks that observe the event and may raise
(an arbitrary predicate on the history decides when).  They may operate on the list themselves
(`listening`, C64); most theorems are about those that do not (`Cfg.Passive`).  The signals of the list are ordinary psygnal signals, whose delivery is the subject
of the core model; here an emission is a log entry together with the contents of the list
at that moment.
-/

namespace Psygnal.EL
open Psygnal.Py (M Err Key Slice)

/-- An event of the list with its arguments
(`ListEvents`, `/repo/src/psygnal/containers/_evented_list.py:80-87`).
`changed` is split by the kind of key. -/
inductive Ev (α : Type)
  | inserting (i : Int)
  | inserted (i : Int) (v : α)
  | removing (i : Int)
  | removed (i : Int) (v : α)
  | moving (src dest : Int)
  | moved (src dest : Int) (v : α)
  | changed (i : Int) (old new : α)
  | changedSlice (s : Slice) (old new : List α)
  | reordered
  | childEvent (i : Int) (obj : α) (emitter : Nat) (args : List Nat)
  deriving DecidableEq, Repr

/-- State: `_data`, the emissions so far with the contents of the list at each of them,
whether `events.reordered` is blocked, and how many times `_reemit_child_event` is connected
to each signal (`/repo/src/psygnal/containers/_evented_list.py:124,397-405`). -/
structure St (α : Type) where
  data : List α
  log : List (Ev α × List α) := []
  blocked : Bool := false
  conns : Nat → Nat := fun _ => 0

/-- Everything the list depends on: `==` of the elements, which elements are built-in lists
and what `__newlike__` makes of them (`/repo/src/psygnal/containers/_evented_list.py:151-154,
213-215`), the signals found on a child (`iter_signal_instances`,
`/repo/src/psygnal/utils.py:87-120`), the `child_events` flag
(`/repo/src/psygnal/containers/_evented_list.py:116-125`), and the listeners
of the list's events, which are called after the observer that keeps the log, or before it if `early = false`:
`react` is what they do to the list at the last emission of the given history, `fails` whether they then raise.  `rounds`
bounds the loop of `clear`, which listeners may prolong. -/
structure Cfg (α : Type) where
  eq : α → α → Bool
  isList : α → Bool
  wrap : α → α
  sigs : α → List Nat
  childEvents : Bool
  fails : List (Ev α × List α) → Bool
  react : List (Ev α × List α) → M (St α) Unit := fun _ => M.pure ()
  early : Bool := true
  rounds : Nat := 0

/-- The listeners do not operate on the list (as assumed in most theorems; not so in C64)
(`/repo/src/psygnal/containers/_evented_list.py:80-87`). -/
class Cfg.Passive {α : Type} (c : Cfg α) : Prop where
  react : c.react = fun _ => M.pure ()
  early : c.early = true

variable {α : Type} (c : Cfg α)

/-- `self.events.<name>.emit(...)`
(`/repo/src/psygnal/containers/_evented_list.py:140,142,178,184,187,283,288`): the listeners run, and an error of a
listener comes back from `emit`; the listeners after it are not called then. -/
def emit (e : Ev α) : M (St α) Unit := fun s =>
  let log := s.log ++ [(e, s.data)]
  if c.early then
    match c.react log { s with log := log } with
    | (.error _, s') => (.error .emitLoop, s')
    | (.ok _, s') => (if c.fails log then .error .emitLoop else .ok (), s')
  else
    match c.react log s with
    | (.error _, s') => (.error .emitLoop, s')
    | (.ok _, s') => (.ok (), { s' with log := s'.log ++ [(e, s'.data)] })

/-- `self.events.reordered.emit()`
(`/repo/src/psygnal/containers/_evented_list.py:269,289,336`), which `move_multiple` blocks. -/
def emitReordered : M (St α) Unit := fun s =>
  if s.blocked then (.ok (), s) else emit c .reordered s

/-- Assignment to `self._data` (in place)
(`/repo/src/psygnal/containers/_evented_list.py:141,173,176,186,268,284,287`). -/
def setData (d : List α) : M (St α) Unit := M.modify fun s => { s with data := d }

/-- `emitter.connect(self._reemit_child_event)` for every signal of the child
(`/repo/src/psygnal/containers/_evented_list.py:397-400`). -/
def connectChild (x : α) : M (St α) Unit :=
  M.modify fun s => { s with conns := fun g => s.conns g + (c.sigs x).count g }

/-- `emitter.disconnect(self._reemit_child_event)` for every signal of the child; a missing
connection is no error (`/repo/src/psygnal/containers/_evented_list.py:402-405`). -/
def disconnectChild (x : α) : M (St α) Unit :=
  M.modify fun s => { s with conns := fun g => s.conns g - (c.sigs x).count g }

/-- The result of `self._data[i]` as handed out by `__getitem__`: an item that is a built-in
list is replaced by a new `EventedList`
(`/repo/src/psygnal/containers/_evented_list.py:151-154`). -/
def out (x : α) : α := if c.isList x then c.wrap x else x

/-- `self[i]` for an integer (`/repo/src/psygnal/containers/_evented_list.py:151-154`). -/
def getItem (i : Int) : M (St α) α := do
  let s ← M.get
  let x ← M.ofExcept (Py.getItem s.data i)
  pure (out c x)

/-- `_post_insert` (`/repo/src/psygnal/containers/_evented_list.py:203-206`). -/
def postInsert (x : α) : M (St α) Unit :=
  if c.childEvents then connectChild c x else pure ()

/-- `_pre_remove` (`/repo/src/psygnal/containers/_evented_list.py:208-211`). -/
def preRemove (i : Int) : M (St α) Unit :=
  if c.childEvents then do
    let x ← getItem c i
    disconnectChild c x
  else pure ()

/-- `insert` (`/repo/src/psygnal/containers/_evented_list.py:137-143`); `_pre_insert` is the
identity (199-201). -/
def insert (i : Int) (x : α) : M (St α) Unit := do
  emit c (.inserting i)
  let s ← M.get
  setData (Py.insert s.data i x)
  emit c (.inserted i x)
  postInsert c x

/-- `__setitem__` with an integer
(`/repo/src/psygnal/containers/_evented_list.py:162-178`). -/
def setItem [DecidableEq α] (i : Int) (x : α) : M (St α) Unit := do
  let s ← M.get
  let old ← M.ofExcept (Py.getItem s.data i)
  if x = old then pure ()
  else
    let d ← M.ofExcept (Py.setItem s.data i x)
    setData d
    emit c (.changed i old x)

/-- `__setitem__` with a slice; `none` is a value that is not iterable
(`/repo/src/psygnal/containers/_evented_list.py:162-178`). -/
def setSlice (k : Slice) (vs : Option (List α)) : M (St α) Unit := do
  let s ← M.get
  let old ← M.ofExcept (Py.getSlice s.data k)
  match vs with
  | none => M.raise .type
  | some vs =>
    let d ← M.ofExcept (Py.setSlice s.data k vs)
    setData d
    emit c (.changedSlice k old vs)

/-- Insertion into a descending sequence (part of `sortDesc`,
`/repo/src/psygnal/containers/_evented_list.py:183`). -/
def insertDesc (x : Int) : List Int → List Int
  | [] => [x]
  | y :: ys => if y ≤ x then x :: y :: ys else y :: insertDesc x ys

/-- `sorted(l, reverse=True)` on integers
(`/repo/src/psygnal/containers/_evented_list.py:183`). -/
def sortDesc (l : List Int) : List Int := l.foldr insertDesc []

/-- `_delitem_indices` followed by `sorted(..., reverse=True)`
(`/repo/src/psygnal/containers/_evented_list.py:183,189-197`). -/
def delIndices (n : Nat) : Key → Except Err (List Int)
  | .int i => .ok [if i ≥ 0 then i else i + n]
  | .slice k => match Py.sliceIdx k n with
    | .ok idx => .ok (sortDesc idx)
    | .error e => .error e
  | .indexable _ => .error .type
  | .other => .error .type

/-- One iteration of the loop of `__delitem__`
(`/repo/src/psygnal/containers/_evented_list.py:184-187`). -/
def delOne (i : Int) : M (St α) Unit := do
  emit c (.removing i)
  preRemove c i
  let s ← M.get
  let p ← M.ofExcept (Py.pop s.data i)
  setData p.2
  emit c (.removed i p.1)

/-- `__delitem__` (`/repo/src/psygnal/containers/_evented_list.py:180-187`). -/
def delItem (k : Key) : M (St α) Unit := do
  let s ← M.get
  let idx ← M.ofExcept (delIndices s.data.length k)
  M.forEach idx (delOne c)

/-! ## Methods inherited from `MutableSequence`
(`/repo/src/psygnal/containers/_evented_list.py:90,130-135`; `collections.abc`) -/

/-- `append`: `self.insert(len(self), value)`
(inherited, `/repo/src/psygnal/containers/_evented_list.py:131`). -/
def append (x : α) : M (St α) Unit := do
  let s ← M.get
  insert c s.data.length x

/-- `extend`: append one by one
(inherited, `/repo/src/psygnal/containers/_evented_list.py:133`; also `__iadd__`, 230-233,
and `__init__`, 125). -/
def extend (xs : List α) : M (St α) Unit := M.forEach xs (append c)

/-- `extend(self)`: the values are read first
(inherited, `/repo/src/psygnal/containers/_evented_list.py:133`). -/
def extendSelf : M (St α) Unit := do
  let s ← M.get
  extend c (s.data.map (out c))

/-- What `self[key]` yields for any key, as a list of items for slices
(`/repo/src/psygnal/containers/_evented_list.py:151-154`).  The first component tells whether
it is a single item. -/
def getKey (k : Key) : M (St α) (Bool × List α) := do
  let s ← M.get
  match k with
  | .int i | .indexable i => do
    let x ← getItem c i
    pure (true, [x])
  | .slice k => do
    let xs ← M.ofExcept (Py.getSlice s.data k)
    pure (false, xs)
  | .other => M.raise .type

/-- `pop`: read, then delete (inherited,
`/repo/src/psygnal/containers/_evented_list.py:134`). -/
def pop (k : Key) : M (St α) (Bool × List α) := do
  let r ← getKey c k
  delItem c k
  pure r

/-- `v is value or v == value` (inherited `index`, `count`, `__contains__`,
`/repo/src/psygnal/containers/_evented_list.py:90`). -/
def same [DecidableEq α] (v x : α) : Bool := decide (v = x) || c.eq v x

/-- The loop of the inherited `index`, from position `i`, over the remaining items `l`; `stop`
bounds the position (`/repo/src/psygnal/containers/_evented_list.py:90,414`). -/
def indexLoop [DecidableEq α] (x : α) (stop : Option Int) : List α → Int → Except Err Int
  | [], _ => .error .value
  | v :: vs, i =>
    if stop.all (i < ·) then
      if same c (out c v) x then .ok i else indexLoop x stop vs (i + 1)
    else .error .value

/-- `index(value, start, stop)` (inherited, used at
`/repo/src/psygnal/containers/_evented_list.py:414`). -/
def index [DecidableEq α] (x : α) (start : Int) (stop : Option Int) : M (St α) Int := do
  let s ← M.get
  let n : Int := s.data.length
  let start := if start < 0 then max (n + start) 0 else start
  let stop := stop.map fun b => if b < 0 then b + n else b
  M.ofExcept (indexLoop c x stop (s.data.drop start.toNat) start)

/-- `remove`: `del self[self.index(value)]` (inherited,
`/repo/src/psygnal/containers/_evented_list.py:135`). -/
def remove [DecidableEq α] (x : α) : M (St α) Unit := do
  let i ← index c x 0 none
  delItem c (.int i)

/-- The loop of `clear`: pop until `IndexError`; `fuel` bounds the number of iterations
(inherited, `/repo/src/psygnal/containers/_evented_list.py:132`). -/
def clearLoop : Nat → M (St α) Unit
  | 0 => pure ()
  | fuel + 1 => fun s =>
    match pop c (.int (-1)) s with
    | (.ok _, s') => clearLoop fuel s'
    | (.error .index, s') => (.ok (), s')
    | (.error e, s') => (.error e, s')

/-- `clear` (inherited, `/repo/src/psygnal/containers/_evented_list.py:132`).  Every
iteration shortens the list, so its length plus one bounds the iterations, unless listeners add items. -/
def clear : M (St α) Unit := do
  let s ← M.get
  clearLoop c (s.data.length + 1 + c.rounds)

/-- One swap of the inherited `reverse`: `self[i], self[n-i-1] = self[n-i-1], self[i]`
(`/repo/src/psygnal/containers/_evented_list.py:263-266`). -/
def swap [DecidableEq α] (n : Nat) (i : Nat) : M (St α) Unit := do
  let a ← getItem c (n - i - 1)
  let b ← getItem c i
  setItem c i a
  setItem c (n - i - 1) b

/-- `reverse(emit_individual_events=...)`
(`/repo/src/psygnal/containers/_evented_list.py:263-269`). -/
def reverse [DecidableEq α] (individual : Bool) : M (St α) Unit := do
  let s ← M.get
  if individual then M.forEach (List.range (s.data.length / 2)) (swap c s.data.length)
  else setData s.data.reverse
  emitReordered c

/-! ## Moving -/

/-- `move` (`/repo/src/psygnal/containers/_evented_list.py:271-290`). -/
def move (src dest : Int) : M (St α) Bool := do
  let s ← M.get
  let dest := if dest < 0 then dest + (s.data.length + 1) else dest
  if dest = src ∨ dest = src + 1 then pure false
  else do
    emit c (.moving src dest)
    let s ← M.get
    let p ← M.ofExcept (Py.pop s.data src)
    let dest := if dest > src then dest - 1 else dest
    setData (Py.insert p.2 dest p.1)
    emit c (.moved src dest p.1)
    emitReordered c
    pure true

/-- Expansion of the sources of `move_multiple`: slices become their positions
(`/repo/src/psygnal/containers/_evented_list.py:362-372`). -/
def expand (n : Nat) : List Key → Except Err (List Int)
  | [] => .ok []
  | k :: ks =>
    let here : Except Err (List Int) := match k with
      | .int i => .ok [i]
      | .slice s => Py.sliceIdx s n
      | _ => .error .type
    match here, expand n ks with
    | .ok a, .ok b => .ok (a ++ b)
    | .error e, _ => .error e
    | _, .error e => .error e

/-- `list(dict.fromkeys(l))`: the distinct items in order of first occurrence
(`/repo/src/psygnal/containers/_evented_list.py:374`). -/
def dedup (seen : List Int) : List Int → List Int
  | [] => []
  | x :: xs => if x ∈ seen then dedup seen xs else x :: dedup (x :: seen) xs

/-- The loop of `_move_plan`: `i` counts the sources, `inc` is `d_inc`, `popped` the
(adjusted) sources so far (`/repo/src/psygnal/containers/_evented_list.py:379-395`). -/
def planLoop (dest : Int) : List Int → (i inc : Nat) → (popped : List Int) → List (Int × Int)
  | [], _, _, _ => []
  | src :: rest, i, inc, popped =>
    let src' := src - (popped.countP (· ≤ src) : Nat)
    let src'' := if src = dest then src else if src' ≥ dest then src' + i else src'
    let next := planLoop dest rest (i + 1) (if dest ≤ src'' then inc + 1 else inc) (popped ++ [src''])
    if src = dest then next else (src'', dest + inc) :: next

/-- `_move_plan` (`/repo/src/psygnal/containers/_evented_list.py:339-395`). -/
def movePlan (n : Nat) (sources : List Key) (dest : Int) : Except Err (List (Int × Int)) :=
  match expand n sources with
  | .error e => .error e
  | .ok l =>
    let dest := if dest < 0 then dest + (n + 1) else dest
    .ok (planLoop dest (dedup [] l) 0 0 [])

/-- The `with self.events.reordered.blocked()` block: the signal is blocked, the body runs,
and unless it was blocked before it is unblocked, also after an error
(`/repo/src/psygnal/containers/_evented_list.py:332`,
`/repo/src/psygnal/_signal.py:1510-1525`). -/
def withBlocked (m : M (St α) Unit) : M (St α) Unit := fun s =>
  let r := m { s with blocked := true }
  (r.1, { r.2 with blocked := s.blocked })

/-- `move_multiple` (`/repo/src/psygnal/containers/_evented_list.py:292-337`). -/
def moveMultiple (sources : List Key) (dest : Int) : M (St α) Nat := do
  let s ← M.get
  let plan ← M.ofExcept (movePlan s.data.length sources dest)
  withBlocked (M.forEach plan fun p => do
    let _ ← move c p.1 p.2
    pure ())
  emitReordered c
  pure plan.length

/-! ## Child events -/

/-- An emission of a child's signal: its arguments, or the `EmissionInfo(emitter, args)` that a
group relay passes on (`/repo/src/psygnal/containers/_evented_list.py:417-423`). -/
inductive ChildMsg
  | plain (args : List Nat)
  | info (emitter : Nat) (args : List Nat)
  deriving DecidableEq, Repr

/-- `_reemit_child_event`: called in an emission of signal `g`, whose instance is `obj`
(`/repo/src/psygnal/containers/_evented_list.py:407-425`). -/
def reemit [DecidableEq α] (g : Nat) (obj : α) (m : ChildMsg) : M (St α) Unit := fun s =>
  match index c obj 0 none s with
  | (.error _, s') => (.ok (), s')
  | (.ok i, s') => match m with
    | .plain args => emit c (.childEvent i obj g args) s'
    | .info g' args => emit c (.childEvent i obj g' args) s'

/-- An emission of signal `g` of `obj`: each connection of the list's `_reemit_child_event`
is called (`/repo/src/psygnal/containers/_evented_list.py:397-425`,
`/repo/src/psygnal/_signal.py:1305-1308`). -/
def childEmit [DecidableEq α] (g : Nat) (obj : α) (m : ChildMsg) : M (St α) Unit := do
  let s ← M.get
  M.forEach (List.replicate (s.conns g) ()) fun _ => reemit c g obj m

/-! ## Operations -/

/-- The operations on a list.  Those after `count` exist on `EventedList` only
(`/repo/src/psygnal/containers/_evented_list.py:90-425`). -/
inductive Op (α : Type)
  | getItem (k : Key)
  | setItem (i : Int) (x : α)
  | setSlice (s : Slice) (vs : Option (List α))
  | setOther
  | delItem (k : Key)
  | insert (i : Int) (x : α)
  | append (x : α)
  | extend (xs : List α)
  | extendSelf
  | pop (k : Key)
  | remove (x : α)
  | clear
  | reverse (individual : Bool)
  | len
  | contents
  | add (xs : List α)
  | radd (xs : List α)
  | index (x : α) (start : Int) (stop : Option Int)
  | contains (x : α)
  | count (x : α)
  | move (src dest : Int)
  | moveMultiple (sources : List Key) (dest : Int)
  | childEmit (g : Nat) (obj : α) (m : ChildMsg)
  deriving Repr

/-- Result of an operation (`/repo/src/psygnal/containers/_evented_list.py:90-425`). -/
inductive Res (α : Type)
  | unit
  | item (x : α)
  | items (xs : List α)
  | int (n : Int)
  | bool (b : Bool)
  deriving DecidableEq, Repr

/-- A result of `getKey` as a `Res`
(`/repo/src/psygnal/containers/_evented_list.py:151-154`). -/
def keyRes : Bool × List α → Res α
  | (true, [x]) => .item x
  | (_, xs) => .items xs

/-- One operation (`/repo/src/psygnal/containers/_evented_list.py:90-425`): `contents` is
iteration (`list(self)`, `copy()`), `add` and `radd` are `self + xs` and `xs + self`
(217-237), `contains` and `count` are inherited. -/
def step [DecidableEq α] : Op α → M (St α) (Res α)
  | .getItem k => do
    let r ← getKey c k
    pure (keyRes r)
  | .setItem i x => do
    setItem c i x
    pure .unit
  | .setSlice k vs => do
    setSlice c k vs
    pure .unit
  | .setOther => M.raise .type
  | .delItem k => do
    delItem c k
    pure .unit
  | .insert i x => do
    insert c i x
    pure .unit
  | .append x => do
    append c x
    pure .unit
  | .extend xs => do
    extend c xs
    pure .unit
  | .extendSelf => do
    extendSelf c
    pure .unit
  | .pop k => do
    let r ← pop c k
    pure (keyRes r)
  | .remove x => do
    remove c x
    pure .unit
  | .clear => do
    clear c
    pure .unit
  | .reverse b => do
    reverse c b
    pure .unit
  | .len => do
    let s ← M.get
    pure (.int s.data.length)
  | .contents => do
    let s ← M.get
    pure (.items (s.data.map (out c)))
  | .add xs => do
    let s ← M.get
    pure (.items (s.data.map (out c) ++ xs))
  | .radd xs => do
    let s ← M.get
    pure (.items (xs ++ s.data.map (out c)))
  | .index x a b => do
    let i ← index c x a b
    pure (.int i)
  | .contains x => do
    let s ← M.get
    pure (.bool (s.data.any fun v => same c (out c v) x))
  | .count x => do
    let s ← M.get
    pure (.int (s.data.countP fun v => same c (out c v) x))
  | .move a b => do
    let r ← move c a b
    pure (.bool r)
  | .moveMultiple ks d => do
    let n ← moveMultiple c ks d
    pure (.int n)
  | .childEmit g x m => do
    childEmit c g x m
    pure .unit

/-- A sequence of operations: an operation that raises does not stop the sequence (the caller
may catch the error); the results are collected
(`/repo/src/psygnal/containers/_evented_list.py:90-425`). -/
def run [DecidableEq α] : List (Op α) → St α → List (Except Err (Res α)) × St α
  | [], s => ([], s)
  | op :: ops, s =>
    let r := step c op s
    let rs := run ops r.2
    (r.1 :: rs.1, rs.2)

/-! ## Listeners that operate on the list -/

/-- What a listener does: any methods of the list, one after the other, depending on their results (errors may be caught);
in the end it returns or raises (`/repo/src/psygnal/containers/_evented_list.py:80-425`). -/
inductive Prog (α : Type)
  | done
  | raise
  | op (o : Op α) (k : Except Err (Res α) → Prog α)

/-- Execution of such a program (`/repo/src/psygnal/containers/_evented_list.py:90-425`). -/
def exec [DecidableEq α] : Prog α → M (St α) Unit
  | .done => pure ()
  | .raise => M.raise .value
  | .op o k => fun s =>
    let r := step c o s
    exec (k r.1) r.2

/-- The list with listeners that perform the program `p log` at each emission, whose emissions are listened to in the same
way, and so on; the listeners `n` levels deep get an error instead (`RecursionError`,
`/repo/src/psygnal/_signal.py:1265-1266`; `n` is arbitrary). -/
def listening [DecidableEq α] (p : List (Ev α × List α) → Prog α) : Nat → Cfg α
  | 0 => { c with react := fun _ => M.raise .runtime }
  | n + 1 => { c with react := fun log => exec (listening p n) (p log) }

end Psygnal.EL
