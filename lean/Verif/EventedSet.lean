import Verif.Py

/-!
# `EventedSet`, `OrderedSet`, `EventedOrderedSet` (`/repo/src/psygnal/containers/_evented_set.py`)

Listeners of `items_changed` observe the event and may raise; most theorems are about listeners that do not themselves
operate on the set (`Cfg.Passive`; not so in C65).  At least one
listener is connected (without one, nothing is observed, and `resume` drops what was collected).  Elements are taken up
to `==` and are hashable; iterables given as arguments can be iterated more than once.
-/

namespace Psygnal.ES
open Psygnal.Py (M Err)

/-- The primitive calls on `_data`, recorded in the ghost history: `_do_add`, `_do_discard`, `_do_clear`
(`/repo/src/psygnal/containers/_evented_set.py:102-109,208-212`). -/
inductive Prim (α : Type)
  | ins (x : α)
  | del (x : α)
  | clr
  deriving DecidableEq, Repr

/-- State: the elements in iteration order; of the signal `items_changed`, whether it is paused, what was collected
meanwhile, and the emissions so far, each with the elements at that moment; the ghost history of primitive calls; and,
while listeners are being called, the emissions that wait for them (`_emit_queue`)
(`/repo/src/psygnal/containers/_evented_set.py:35,205,232,270`, `/repo/src/psygnal/_signal.py:1268-1271`). -/
structure St (α : Type) where
  data : List α
  paused : Bool := false
  queue : List (List α × List α) := []
  log : List ((List α × List α) × List α) := []
  hist : List (Prim α) := []
  pending : Option (List (List α × List α)) := none

/-- What the set depends on: where a new element shows up in the iteration (`place`; anywhere for a built-in `set`, at
the end for the `dict` of an `OrderedSet`, `/repo/src/psygnal/containers/_evented_set.py:34-36,204-212`), whether it is an
`EventedSet` or a plain `OrderedSet`, what the listeners do to the set (`react`) and whether they then raise (`fails`) at the
last emission of the given history, and how many emissions may be made by listeners in one emission
(`limit`, `/repo/src/psygnal/_signal.py:1326-1327`). -/
structure Cfg (α : Type) where
  place : List α → α → List α
  evented : Bool
  fails : List ((List α × List α) × List α) → Bool
  react : List ((List α × List α) × List α) → M (St α) Unit := fun _ => M.pure ()
  limit : Nat := 0

/-- The listeners do not operate on the set (as assumed in C31 and C32; not so in C65)
(`/repo/src/psygnal/containers/_evented_set.py:218-232`). -/
class Cfg.Passive {α : Type} (c : Cfg α) : Prop where
  react : c.react = fun _ => M.pure ()

variable {α : Type} [DecidableEq α] (c : Cfg α)

/-- `_run_emit_loop_queued`: the listeners are called with each emission that waits, also with those they make meanwhile
(`/repo/src/psygnal/_signal.py:1321-1328`); the first argument bounds their number. -/
def drain : Nat → M (St α) Unit
  | 0 => M.raise .emitLoop
  | n + 1 => fun s =>
    match s.pending with
    | some (a :: rest) =>
      let log := s.log ++ [(a, s.data)]
      match c.react log { s with log := log, pending := some rest } with
      | (.error _, s') => (.error .emitLoop, s')
      | (.ok _, s') => if c.fails log then (.error .emitLoop, s') else drain n s'
    | _ => (.ok (), s)

/-- `_run_emit_loop` of a signal with `reemission="queued"`: during an emission, further ones wait; in the end what still
waits is forgotten (`/repo/src/psygnal/_signal.py:1264-1303`, `/repo/src/psygnal/containers/_evented_set.py:232`). -/
def deliver (a : List α × List α) : M (St α) Unit := fun s =>
  match s.pending with
  | some q => (.ok (), { s with pending := some (q ++ [a]) })
  | none =>
    let r := drain c (c.limit + 2) { s with pending := some [a] }
    (r.1, { r.2 with pending := none })

/-- `_emit_change` (`/repo/src/psygnal/containers/_evented_set.py:320-322`) with `emit` on a paused signal
(`/repo/src/psygnal/_signal.py:1142-1201`).  The hooks of a plain `OrderedSet` do nothing
(`/repo/src/psygnal/containers/_evented_set.py:87-100`). -/
def emitChange (added removed : List α) : M (St α) Unit := fun s =>
  if c.evented then
    if s.paused then (.ok (), { s with queue := s.queue ++ [(added, removed)] }) else deliver c (added, removed) s
  else (.ok (), s)

/-- `_reduce_events` (`/repo/src/psygnal/containers/_evented_set.py:348-355`). -/
def reduceEvents (l : List (List α × List α)) : List α × List α := (l.flatMap (·.1), l.flatMap (·.2))

/-- `resume(_reduce_events)` (`/repo/src/psygnal/_signal.py:1373-1429`): an empty queue is not reported; the queue is
cleared only after the listeners have returned. -/
def resume : M (St α) Unit := fun s =>
  let s := { s with paused := false }
  if s.queue = [] then (.ok (), s)
  else match deliver c (reduceEvents s.queue) s with
    | (.ok _, s') => (.ok (), { s' with queue := [] })
    | (.error e, s') => (.error e, s')

/-- `with self.events.items_changed.paused(_reduce_events):` (`/repo/src/psygnal/containers/_evented_set.py:275,280,285,290,
299`, `/repo/src/psygnal/_signal.py:1528-1544`); an error of `resume` replaces one of the body. -/
def withPaused (m : M (St α) Unit) : M (St α) Unit := fun s =>
  if c.evented then
    match m { s with paused := true } with
    | (r, s') =>
      if s.paused then (r, s')
      else match resume c s' with
        | (.ok _, s'') => (r, s'')
        | (.error e, s'') => (.error e, s'')
  else m s

/-- `_do_add` on the underlying `set` or `dict` (`/repo/src/psygnal/containers/_evented_set.py:102-103,208-209`). -/
def insData (x : α) (d : List α) : List α := if x ∈ d then d else c.place d x

/-- `add` with its hooks (`/repo/src/psygnal/containers/_evented_set.py:38-46,302-306`).  (In an `OrderedSet` without
events adding a member again does nothing, either.) -/
def add (x : α) : M (St α) Unit := do
  let s ← M.get
  M.modify fun s => { s with hist := s.hist ++ [.ins x] }
  if x ∈ s.data then pure () else do
    M.modify fun s => { s with data := c.place s.data x }
    emitChange c [x] []

/-- `discard` with its hooks (`/repo/src/psygnal/containers/_evented_set.py:53-61,308-312`). -/
def discard (x : α) : M (St α) Unit := do
  let s ← M.get
  M.modify fun s => { s with hist := s.hist ++ [.del x] }
  if x ∈ s.data then do
    M.modify fun s => { s with data := s.data.erase x }
    emitChange c [] [x]
  else pure ()

/-- `clear` with its hooks (`/repo/src/psygnal/containers/_evented_set.py:63-67,278-281,314-318`). -/
def clear : M (St α) Unit := withPaused c do
  let s ← M.get
  M.modify fun s => { s with hist := s.hist ++ [.clr] }
  if s.data = [] then pure () else do
    M.modify fun s => { s with data := [] }
    emitChange c [] s.data

/-- `update(*others)` (`/repo/src/psygnal/containers/_evented_set.py:48-51,273-276`). -/
def update (others : List (List α)) : M (St α) Unit := withPaused c (M.forEach others.flatten (add c))

/-- `difference_update(*s)` (`/repo/src/psygnal/containers/_evented_set.py:127-130,283-286`). -/
def differenceUpdate (others : List (List α)) : M (St α) Unit := withPaused c (M.forEach others.flatten (discard c))

/-- `difference_update(self)`: iterating over `_data` while discarding
(`/repo/src/psygnal/containers/_evented_set.py:127-130`): after the first removal the iterator raises. -/
def differenceUpdateSelf : M (St α) Unit := withPaused c do
  let s ← M.get
  match s.data with
  | [] => pure ()
  | x :: _ => do
    discard c x
    M.raise .runtime

/-- `intersection_update(*s)`: `set.intersection()` without arguments is a `TypeError`
(`/repo/src/psygnal/containers/_evented_set.py:140-145,288-291`). -/
def intersectionUpdate (others : List (List α)) : M (St α) Unit := withPaused c do
  if others = [] then M.raise .type else do
    let s ← M.get
    M.forEach (s.data.filter fun x => !others.all (x ∈ ·)) (discard c)

/-- The body of the loop of `symmetric_difference_update` (`/repo/src/psygnal/containers/_evented_set.py:170`). -/
def toggle (x : α) : M (St α) Unit := do
  let s ← M.get
  if x ∈ s.data then discard c x else add c x

/-- `symmetric_difference_update` (`/repo/src/psygnal/containers/_evented_set.py:163-170,293-300`). -/
def symmetricDifferenceUpdate (xs : List α) : M (St α) Unit := withPaused c (M.forEach xs (toggle c))

/-- `symmetric_difference_update(self)`: as for `difference_update(self)`
(`/repo/src/psygnal/containers/_evented_set.py:163-170`). -/
def symmetricDifferenceUpdateSelf : M (St α) Unit := differenceUpdateSelf c

/-- A new set of the same class from an iterable (`/repo/src/psygnal/containers/_evented_set.py:34-36,204-206,269-271`);
nobody listens to it yet. -/
def mk (xs : List α) : List α := xs.foldl (fun d x => insData c x d) []

/-! Inherited from `collections.abc.MutableSet` (`/repo/src/psygnal/containers/_evented_set.py:31`). -/

/-- `MutableSet.remove` (inherited, `/repo/src/psygnal/containers/_evented_set.py:31`). -/
def remove (x : α) : M (St α) Unit := do
  let s ← M.get
  if x ∈ s.data then discard c x else M.raise .key

/-- `MutableSet.pop` (inherited, `/repo/src/psygnal/containers/_evented_set.py:31`). -/
def pop : M (St α) α := do
  let s ← M.get
  match s.data with
  | [] => M.raise .key
  | x :: _ => do
    discard c x
    pure x

/-- `self |= it` (inherited, `/repo/src/psygnal/containers/_evented_set.py:31`). -/
def ior (xs : List α) : M (St α) Unit := M.forEach xs (add c)

/-- `self &= it`: discards the members of `self - it` (inherited, `/repo/src/psygnal/containers/_evented_set.py:31`). -/
def iand (xs : List α) : M (St α) Unit := do
  let s ← M.get
  M.forEach (mk c (s.data.filter (· ∉ xs))) (discard c)

/-- `self -= it` for another set (inherited, `/repo/src/psygnal/containers/_evented_set.py:31`). -/
def isub (xs : List α) : M (St α) Unit := M.forEach xs (discard c)

/-- `self ^= it` for another set (inherited, `/repo/src/psygnal/containers/_evented_set.py:31`). -/
def ixor (xs : List α) : M (St α) Unit := M.forEach xs (toggle c)

/-! ## Operations -/

/-- The operations on a set; operators (`ior`, …, `eq`) are for arguments that are sets
(`/repo/src/psygnal/containers/_evented_set.py:31-345`). -/
inductive Op (α : Type)
  | add (x : α)
  | discard (x : α)
  | remove (x : α)
  | pop
  | clear
  | update (others : List (List α))
  | differenceUpdate (others : List (List α))
  | differenceUpdateSelf
  | intersectionUpdate (others : List (List α))
  | symmetricDifferenceUpdate (xs : List α)
  | symmetricDifferenceUpdateSelf
  | ior (xs : List α)
  | iand (xs : List α)
  | isub (xs : List α)
  | ixor (xs : List α)
  | isubSelf
  | ixorSelf
  | contains (x : α)
  | len
  | items
  | copy
  | difference (others : List (List α))
  | intersection (others : List (List α))
  | symmetricDifference (xs : List α)
  | union (others : List (List α))
  | issubset (xs : List α)
  | issuperset (xs : List α)
  | isdisjoint (xs : List α)
  | and (xs : List α)
  | or (xs : List α)
  | sub (xs : List α)
  | xor (xs : List α)
  | le (xs : List α)
  | lt (xs : List α)
  | ge (xs : List α)
  | gt (xs : List α)
  | eq (xs : List α)
  deriving Repr

/-- Result of an operation; `set l`: a new set with iteration order `l`
(`/repo/src/psygnal/containers/_evented_set.py:31-345`). -/
inductive Res (α : Type)
  | unit
  | item (x : α)
  | set (l : List α)
  | int (n : Nat)
  | bool (b : Bool)
  deriving DecidableEq, Repr

/-- `Set.__le__` (inherited, `/repo/src/psygnal/containers/_evented_set.py:31`). -/
def setLe (d xs : List α) : Bool := !(decide (d.length > xs.length)) && d.all (· ∈ xs)

/-- `Set.__ge__` (inherited, `/repo/src/psygnal/containers/_evented_set.py:31`). -/
def setGe (d xs : List α) : Bool := !(decide (d.length < xs.length)) && xs.all (· ∈ d)

/-- One operation (`/repo/src/psygnal/containers/_evented_set.py:31-345`): `difference` 119-125, `intersection` 132-138,
`issubset`/`issuperset` 147-153, `symmetric_difference` 155-161, `union` 172-179, `copy` 113-117; the rest is inherited. -/
def step : Op α → M (St α) (Res α)
  | .add x => do add c x; pure .unit
  | .discard x => do discard c x; pure .unit
  | .remove x => do remove c x; pure .unit
  | .pop => do
    let x ← pop c
    pure (.item x)
  | .clear => do clear c; pure .unit
  | .update o => do update c o; pure .unit
  | .differenceUpdate o => do differenceUpdate c o; pure .unit
  | .differenceUpdateSelf => do differenceUpdateSelf c; pure .unit
  | .intersectionUpdate o => do intersectionUpdate c o; pure .unit
  | .symmetricDifferenceUpdate xs => do symmetricDifferenceUpdate c xs; pure .unit
  | .symmetricDifferenceUpdateSelf => do symmetricDifferenceUpdateSelf c; pure .unit
  | .ior xs => do ior c xs; pure .unit
  | .iand xs => do iand c xs; pure .unit
  | .isub xs => do isub c xs; pure .unit
  | .ixor xs => do ixor c xs; pure .unit
  | .isubSelf => do clear c; pure .unit
  | .ixorSelf => do clear c; pure .unit
  | .contains x => do
    let s ← M.get
    pure (.bool (x ∈ s.data))
  | .len => do
    let s ← M.get
    pure (.int s.data.length)
  | .items => do
    let s ← M.get
    pure (.set s.data)
  | .copy => do
    let s ← M.get
    pure (.set (mk c s.data))
  | .difference o => do
    let s ← M.get
    pure (.set (mk c (s.data.filter (· ∉ o.flatten))))
  | .intersection o => do
    if o = [] then M.raise .type else do
      let s ← M.get
      pure (.set (mk c (s.data.filter fun x => o.all (x ∈ ·))))
  | .symmetricDifference xs => do
    let s ← M.get
    pure (.set (mk c (xs.filter (· ∉ s.data) ++ s.data.filter (· ∉ xs))))
  | .union o => do
    let s ← M.get
    pure (.set (o.flatten.foldl (fun d x => insData c x d) (mk c s.data)))
  | .issubset xs => do
    let s ← M.get
    pure (.bool (s.data.all (· ∈ xs)))
  | .issuperset xs => do
    let s ← M.get
    pure (.bool (xs.all (· ∈ s.data)))
  | .isdisjoint xs => do
    let s ← M.get
    pure (.bool (xs.all (· ∉ s.data)))
  | .and xs => do
    let s ← M.get
    pure (.set (mk c (xs.filter (· ∈ s.data))))
  | .or xs => do
    let s ← M.get
    pure (.set (mk c (s.data ++ xs)))
  | .sub xs => do
    let s ← M.get
    pure (.set (mk c (s.data.filter (· ∉ xs))))
  | .xor xs => do
    let s ← M.get
    pure (.set (mk c (mk c (s.data.filter (· ∉ xs)) ++ mk c (xs.filter (· ∉ s.data)))))
  | .le xs => do
    let s ← M.get
    pure (.bool (setLe s.data xs))
  | .lt xs => do
    let s ← M.get
    pure (.bool (decide (s.data.length < xs.length) && setLe s.data xs))
  | .ge xs => do
    let s ← M.get
    pure (.bool (setGe s.data xs))
  | .gt xs => do
    let s ← M.get
    pure (.bool (decide (s.data.length > xs.length) && setGe s.data xs))
  | .eq xs => do
    let s ← M.get
    pure (.bool (decide (s.data.length = xs.length) && setLe s.data xs))

/-- A sequence of operations; one that raises does not stop the sequence
(`/repo/src/psygnal/containers/_evented_set.py:31-345`). -/
def run : List (Op α) → St α → List (Except Err (Res α)) × St α
  | [], s => ([], s)
  | op :: ops, s =>
    let r := step c op s
    let rs := run ops r.2
    (r.1 :: rs.1, rs.2)

/-- A new set, filled by the constructor (`/repo/src/psygnal/containers/_evented_set.py:34-36,204-206,269-271`). -/
def new (xs : List α) : St α := { data := mk c xs, hist := xs.map .ins }

/-! ## Listeners that operate on the set -/

/-- What a listener does: any methods of the set, one after the other, depending on their results (errors may be caught);
in the end it returns or raises (`/repo/src/psygnal/containers/_evented_set.py:31-345`). -/
inductive Prog (α : Type)
  | done
  | raise
  | op (o : Op α) (k : Except Err (Res α) → Prog α)

/-- Execution of such a program (`/repo/src/psygnal/containers/_evented_set.py:31-345`). -/
def exec : Prog α → M (St α) Unit
  | .done => pure ()
  | .raise => M.raise .value
  | .op o k => fun s =>
    let r := step c o s
    exec (k r.1) r.2

/-- The set with listeners that perform the program `p log` at each emission.  They are never called within one another:
emissions made meanwhile wait (`/repo/src/psygnal/_signal.py:1268-1271`), so the listeners of `c` do not matter. -/
def listening (p : List ((List α × List α) × List α) → Prog α) : Cfg α :=
  { c with react := fun log => exec c (p log) }

end Psygnal.ES
