import Verif.Selection

/-!
# Listeners that operate on the selection they listen to
(`/repo/src/psygnal/containers/_selection.py`, `/repo/src/psygnal/containers/_evented_set.py`)

The methods of `Selection` again, as in `Verif.Selection`, but now the listeners of its three signals may call any of these
methods.  `items_changed` is a signal with `reemission="queued"`: what is emitted while its listeners are being called waits
for them.  `active` and `_current` have the default mode: listeners are called at once, also within one another.  Items are
taken up to `==`, are hashable, and none of them is `None`; the parent does not change.  Methods are called with arguments
other than the selection itself.  At least one listener is connected to each signal.
-/

namespace Psygnal.SelN
open Psygnal.Py (M Err)
open Psygnal.Sel (Ev)

/-- State: the selected items in order, `_active`, `_current_`, the items of the parent (if any); of `items_changed`
whether it is paused, what was collected, and, while its listeners are being called, what waits for them; the events
so far, each with the selected items at that moment; and, as a ghost, whether a listener has raised or the depth
of nesting was exceeded (`/repo/src/psygnal/containers/_selection.py:78-83`,
`/repo/src/psygnal/containers/_evented_set.py:205,232`, `/repo/src/psygnal/_signal.py:1268-1271`). -/
structure St (α : Type) where
  data : List α
  active : Option α := none
  current : Option α := none
  parent : Option (List α) := none
  paused : Bool := false
  queue : List (List α × List α) := []
  pending : Option (List (List α × List α)) := none
  log : List (Ev α × List α) := []
  failed : Bool := false

/-- `react`: what the listeners do at the last event of the given history; `limit`: how many emissions of `items_changed`
listeners may add in one emission; `depth`: how deep calls of `_update_active` may nest
(`/repo/src/psygnal/_signal.py:1326-1327`, `/repo/src/psygnal/containers/_selection.py:137-146`). -/
structure Cfg (α : Type) where
  react : List (Ev α × List α) → M (St α) Unit
  limit : Nat
  depth : Nat

variable {α : Type} [DecidableEq α] (c : Cfg α)

/-- The listeners of a signal are called with an event; an error of one of them is raised again as `EmitLoopError`
(`/repo/src/psygnal/_signal.py:1264-1303`). -/
def tell (e : Ev α) : M (St α) Unit := fun s =>
  let log := s.log ++ [(e, s.data)]
  match c.react log { s with log := log } with
  | (.ok _, s') => (.ok (), s')
  | (.error _, s') => (.error .emitLoop, { s' with failed := true })

/-- `_run_emit_loop_queued` (`/repo/src/psygnal/_signal.py:1321-1328`); the first argument bounds the number of emissions. -/
def drain : Nat → M (St α) Unit
  | 0 => fun s => (.error .emitLoop, { s with failed := true })
  | n + 1 => fun s =>
    match s.pending with
    | some (a :: rest) =>
      match tell c (.items a.1 a.2) { s with pending := some rest } with
      | (.ok _, s') => drain n s'
      | (.error e, s') => (.error e, s')
    | _ => (.ok (), s)

/-- `_run_emit_loop` of `items_changed` (`/repo/src/psygnal/_signal.py:1264-1303`,
`/repo/src/psygnal/containers/_evented_set.py:232`). -/
def deliver (a : List α × List α) : M (St α) Unit := fun s =>
  match s.pending with
  | some q => (.ok (), { s with pending := some (q ++ [a]) })
  | none =>
    let r := drain c (c.limit + 2) { s with pending := some [a] }
    (r.1, { r.2 with pending := none })

/-- The setter of `_current` (`/repo/src/psygnal/containers/_selection.py:91-96`). -/
def setCurrent (v : Option α) : M (St α) Unit := do
  let s ← M.get
  if v = s.current then pure () else do
    M.modify fun s => { s with current := v }
    tell c (.current v)

/-- `super()._emit_change` (`/repo/src/psygnal/containers/_evented_set.py:320-322`). -/
def emitItems (added removed : List α) : M (St α) Unit := fun s =>
  if s.paused then (.ok (), { s with queue := s.queue ++ [(added, removed)] }) else deliver c (added, removed) s

/-- `resume(_reduce_events)`: what was collected is forgotten only after the listeners have returned
(`/repo/src/psygnal/_signal.py:1373-1429`, `/repo/src/psygnal/containers/_evented_set.py:348-355`). -/
def resume : M (St α) Unit := fun s =>
  let s := { s with paused := false }
  if s.queue = [] then (.ok (), s)
  else match deliver c (s.queue.flatMap (·.1), s.queue.flatMap (·.2)) s with
    | (.ok _, s') => (.ok (), { s' with queue := [] })
    | (.error e, s') => (.error e, s')

/-- `with self.events.items_changed.paused(_reduce_events):`
(`/repo/src/psygnal/containers/_evented_set.py:275,280,285,290,299`, `/repo/src/psygnal/_signal.py:1528-1544`). -/
def withPaused (m : M (St α) Unit) : M (St α) Unit := fun s =>
  match m { s with paused := true } with
  | (r, s') =>
    if s.paused then (r, s')
    else match resume c s' with
      | (.ok _, s'') => (r, s'')
      | (.error e, s'') => (.error e, s'')

section
variable (upd : M (St α) Unit)

/-- `_emit_change` (`/repo/src/psygnal/containers/_selection.py:152-155`); `upd` is `_update_active`. -/
def emitChange (added removed : List α) : M (St α) Unit := do
  emitItems c added removed
  upd

/-- `add` with its hooks (`/repo/src/psygnal/containers/_evented_set.py:38-46,302-306`,
`/repo/src/psygnal/containers/_selection.py:157-162`). -/
def add (x : α) : M (St α) Unit := do
  let s ← M.get
  if s.parent.all (x ∈ ·) then
    if x ∈ s.data then pure () else do
      M.modify fun s => { s with data := s.data ++ [x] }
      emitChange c upd [x] []
  else M.raise .value

/-- `discard` with its hooks (`/repo/src/psygnal/containers/_evented_set.py:53-61,308-312`). -/
def discard (x : α) : M (St α) Unit := do
  let s ← M.get
  if x ∈ s.data then do
    M.modify fun s => { s with data := s.data.erase x }
    emitChange c upd [] [x]
  else pure ()

/-- `EventedSet.clear` (`/repo/src/psygnal/containers/_evented_set.py:63-67,278-281,314-318`). -/
def baseClear : M (St α) Unit := withPaused c do
  let s ← M.get
  if s.data = [] then pure () else do
    M.modify fun s => { s with data := [] }
    emitChange c upd [] s.data

/-- `clear` (`/repo/src/psygnal/containers/_selection.py:116-126`). -/
def clear (keepCurrent : Bool) : M (St α) Unit := do
  if keepCurrent then pure () else setCurrent c none
  baseClear c upd

/-- `update` (`/repo/src/psygnal/containers/_evented_set.py:48-51,273-276`). -/
def update (others : List (List α)) : M (St α) Unit := withPaused c (M.forEach others.flatten (add c upd))

/-- `difference_update` (`/repo/src/psygnal/containers/_evented_set.py:127-130,283-286`). -/
def differenceUpdate (others : List (List α)) : M (St α) Unit := withPaused c (M.forEach others.flatten (discard c upd))

/-- `intersection_update` (`/repo/src/psygnal/containers/_evented_set.py:140-145,288-291`). -/
def intersectionUpdate (others : List (List α)) : M (St α) Unit := withPaused c do
  if others = [] then M.raise .type else do
    let s ← M.get
    M.forEach (s.data.filter fun x => !others.all (x ∈ ·)) (discard c upd)

/-- The body of the loop of `symmetric_difference_update` (`/repo/src/psygnal/containers/_evented_set.py:170`). -/
def toggleOne (x : α) : M (St α) Unit := do
  let s ← M.get
  if x ∈ s.data then discard c upd x else add c upd x

/-- `symmetric_difference_update` (`/repo/src/psygnal/containers/_evented_set.py:163-170,293-300`). -/
def symmetricDifferenceUpdate (xs : List α) : M (St α) Unit := withPaused c (M.forEach xs (toggleOne c upd))

/-- `select_only` (`/repo/src/psygnal/containers/_selection.py:132-135`). -/
def selectOnly (x : α) : M (St α) Unit := do
  intersectionUpdate c upd [[x]]
  add c upd x

/-- The setter of `active` (`/repo/src/psygnal/containers/_selection.py:104-114`). -/
def setActive (v : Option α) : M (St α) Unit := do
  let s ← M.get
  if v = s.active then pure () else do
    M.modify fun s => { s with active := v }
    match v with
    | none => clear c upd false
    | some x => selectOnly c upd x
    setCurrent c v
    tell c (.active v)

end

/-- `_update_active` (`/repo/src/psygnal/containers/_selection.py:137-146`), with a bound on its nesting. -/
def updateActive : Nat → M (St α) Unit
  | 0 => fun s => (.error .runtime, { s with failed := true })
  | n + 1 => do
    let s ← M.get
    match s.data with
    | [x] => setActive c (updateActive n) (some x)
    | _ =>
      if s.active = none then pure () else do
        M.modify fun s => { s with active := none }
        tell c (.active none)

/-- The operations on a selection; `items`, `getActive`, `getCurrent` read (`/repo/src/psygnal/containers/_selection.py:38-185`,
`/repo/src/psygnal/containers/_evented_set.py:31-325`). -/
inductive Op (α : Type)
  | add (x : α)
  | discard (x : α)
  | remove (x : α)
  | pop
  | clear (keepCurrent : Bool)
  | update (others : List (List α))
  | differenceUpdate (others : List (List α))
  | intersectionUpdate (others : List (List α))
  | symmetricDifferenceUpdate (xs : List α)
  | ior (xs : List α)
  | iand (xs : List α)
  | isub (xs : List α)
  | ixor (xs : List α)
  | setActive (v : Option α)
  | toggle (x : α)
  | selectOnly (x : α)
  | items
  | getActive
  | getCurrent
  deriving Repr

/-- What an operation returns (`/repo/src/psygnal/containers/_selection.py:38-185`). -/
inductive Res (α : Type)
  | unit
  | item (x : α)
  | items (l : List α)
  | opt (v : Option α)
  deriving DecidableEq, Repr

/-- One operation (`/repo/src/psygnal/containers/_selection.py:38-185`, `/repo/src/psygnal/containers/_evented_set.py:31-325`). -/
def step : Op α → M (St α) (Res α)
  | .add x => do add c (updateActive c c.depth) x; pure .unit
  | .discard x => do discard c (updateActive c c.depth) x; pure .unit
  | .remove x => do
    let s ← M.get
    if x ∈ s.data then discard c (updateActive c c.depth) x else M.raise .key
    pure .unit
  | .pop => do
    let s ← M.get
    match s.data with
    | [] => M.raise .key
    | x :: _ => do
      discard c (updateActive c c.depth) x
      pure (.item x)
  | .clear k => do clear c (updateActive c c.depth) k; pure .unit
  | .update o => do update c (updateActive c c.depth) o; pure .unit
  | .differenceUpdate o => do differenceUpdate c (updateActive c c.depth) o; pure .unit
  | .intersectionUpdate o => do intersectionUpdate c (updateActive c c.depth) o; pure .unit
  | .symmetricDifferenceUpdate xs => do symmetricDifferenceUpdate c (updateActive c c.depth) xs; pure .unit
  | .ior xs => do M.forEach xs (add c (updateActive c c.depth)); pure .unit
  | .iand xs => do
    let s ← M.get
    M.forEach (s.data.filter (· ∉ xs)) (discard c (updateActive c c.depth))
    pure .unit
  | .isub xs => do M.forEach xs (discard c (updateActive c c.depth)); pure .unit
  | .ixor xs => do M.forEach xs (toggleOne c (updateActive c c.depth)); pure .unit
  | .setActive v => do setActive c (updateActive c c.depth) v; pure .unit
  | .toggle x => do symmetricDifferenceUpdate c (updateActive c c.depth) [x]; pure .unit
  | .selectOnly x => do selectOnly c (updateActive c c.depth) x; pure .unit
  | .items => do
    let s ← M.get
    pure (.items s.data)
  | .getActive => do
    let s ← M.get
    pure (.opt s.active)
  | .getCurrent => do
    let s ← M.get
    pure (.opt s.current)

/-- A sequence of operations; one that raises does not stop the sequence
(`/repo/src/psygnal/containers/_selection.py:38-185`). -/
def run : List (Op α) → St α → List (Except Err (Res α)) × St α
  | [], s => ([], s)
  | op :: ops, s =>
    let r := step c op s
    let rs := run ops r.2
    (r.1 :: rs.1, rs.2)

/-! ## The listeners -/

/-- What the listeners do at an event: any methods of the selection, one after the other, depending on their results (errors
may be caught); in the end they return or raise (`/repo/src/psygnal/containers/_selection.py:38-185`). -/
inductive Prog (α : Type)
  | done
  | raise
  | op (o : Op α) (k : Except Err (Res α) → Prog α)

/-- Execution of such a program (`/repo/src/psygnal/containers/_selection.py:38-185`). -/
def exec : Prog α → M (St α) Unit
  | .done => pure ()
  | .raise => M.raise .value
  | .op o k => fun s =>
    let r := step c o s
    exec (k r.1) r.2

/-- Listeners that perform the program `p log` at each event, nested at most `n` deep (the recursion limits of the signals
and of Python, `/repo/src/psygnal/_signal.py:1305-1318,1326-1327`). -/
def listening (p : List (Ev α × List α) → Prog α) (limit depth : Nat) : Nat → Cfg α
  | 0 => { react := fun _ => M.raise .runtime, limit := limit, depth := depth }
  | n + 1 => { react := fun log => exec (listening p limit depth n) (p log), limit := limit, depth := depth }

/-- A selection whose constructor has run (`/repo/src/psygnal/containers/_selection.py:78-83`); nobody has listened yet. -/
def new (xs : List α) (parent : Option (List α)) : St α :=
  let s := (Sel.new (α := α) { fails := fun _ => false, depth := 1 } xs parent).2
  { data := s.data, active := s.active, current := s.current, parent := s.parent }

end Psygnal.SelN
