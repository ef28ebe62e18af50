import Verif.EventedSetSpec
import Verif.EventedList

/-!
# `Selection` and `SelectableEventedList`
(`/repo/src/psygnal/containers/_selection.py`, `/repo/src/psygnal/containers/_selectable_evented_list.py`)

As for the other containers, listeners observe and may raise, but do not operate on the selection.  Items are taken up to
`==`, are hashable, and none of them is `None` (which `active` uses for "no item").
-/

namespace Psygnal.Sel
open Psygnal.Py (M Err Key Slice)

/-- An event of a selection (`SelectionEvents`, `/repo/src/psygnal/containers/_selection.py:17-35`,
`/repo/src/psygnal/containers/_evented_set.py:232`). -/
inductive Ev (α : Type)
  | items (added removed : List α)
  | active (v : Option α)
  | current (v : Option α)
  deriving DecidableEq, Repr

/-- `fails`: whether some listener raises at the last emission of the given history; `depth`: how deep calls of
`_update_active` may nest (the recursion limit of Python; one is enough, see `updateActive_depth`)
(`/repo/src/psygnal/containers/_selection.py:137-146`). -/
structure Cfg (α : Type) where
  fails : List (Ev α × List α) → Bool
  depth : Nat

/-- State: the selected items in order, `_active`, `_current_`, the items of the parent (if any); of the signal
`items_changed` whether it is paused and what was collected; the emissions so far, with the selected items at that moment
(`/repo/src/psygnal/containers/_selection.py:78-83`, `/repo/src/psygnal/containers/_evented_set.py:205,232`). -/
structure St (α : Type) where
  data : List α
  active : Option α := none
  current : Option α := none
  parent : Option (List α) := none
  paused : Bool := false
  queue : List (List α × List α) := []
  log : List (Ev α × List α) := []

variable {α : Type} [DecidableEq α] (c : Cfg α)

/-- The listeners of a signal run (`/repo/src/psygnal/_signal.py:1142-1201`). -/
def emit (e : Ev α) : M (St α) Unit := fun s =>
  let log := s.log ++ [(e, s.data)]
  (if c.fails log then .error .emitLoop else .ok (), { s with log := log })

/-- The setter of `_current` (`/repo/src/psygnal/containers/_selection.py:91-96`). -/
def setCurrent (v : Option α) : M (St α) Unit := do
  let s ← M.get
  if v = s.current then pure () else do
    M.modify fun s => { s with current := v }
    emit c (.current v)

/-- `super()._emit_change` (`/repo/src/psygnal/containers/_evented_set.py:320-322`): `items_changed` is emitted, or collected
while paused. -/
def emitItems (added removed : List α) : M (St α) Unit := fun s =>
  if s.paused then (.ok (), { s with queue := s.queue ++ [(added, removed)] }) else emit c (.items added removed) s

/-- `resume(_reduce_events)` (`/repo/src/psygnal/_signal.py:1373-1429`). -/
def resume : M (St α) Unit := fun s =>
  let s := { s with paused := false }
  if s.queue = [] then (.ok (), s)
  else match emit c (.items (s.queue.flatMap (·.1)) (s.queue.flatMap (·.2))) s with
    | (.ok _, s') => (.ok (), { s' with queue := [] })
    | (.error e, s') => (.error e, s')

/-- `with self.events.items_changed.paused(_reduce_events):`
(`/repo/src/psygnal/containers/_evented_set.py:275,280,285,290,299`, `/repo/src/psygnal/_signal.py:1528-1544`). -/
def withPaused (m : M (St α) Unit) : M (St α) Unit := fun s =>
  match m { s with paused := true } with
  | (r, s') =>
    if s.paused then (r, s')
    else match resume c s' with
      | (.ok _, s'') => (r, s'')
      | (.error e, s'') => (.error e, s'')

/-- `item in self._parent` (`/repo/src/psygnal/containers/_selection.py:158`). -/
def St.inParent (s : St α) (x : α) : Bool := s.parent.all (x ∈ ·)

/-! The methods that end in `_emit_change` call `_update_active`, which may call them; it is the parameter `upd`. -/

section
variable (upd : M (St α) Unit)

/-- `_emit_change` (`/repo/src/psygnal/containers/_selection.py:152-155`). -/
def emitChange (added removed : List α) : M (St α) Unit := do
  emitItems c added removed
  upd

/-- `add` with its hooks (`/repo/src/psygnal/containers/_evented_set.py:38-46,302-306`,
`/repo/src/psygnal/containers/_selection.py:157-162`). -/
def add (x : α) : M (St α) Unit := do
  let s ← M.get
  if s.inParent x then
    if x ∈ s.data then pure () else do
      M.modify fun s => { s with data := s.data ++ [x] }
      emitChange c upd [x] []
  else M.raise .value

/-- `discard` with its hooks (`/repo/src/psygnal/containers/_evented_set.py:53-61,308-312`). -/
def discard (x : α) : M (St α) Unit := do
  let s ← M.get
  if x ∈ s.data then do
    M.modify fun s => { s with data := s.data.erase x }
    emitChange c upd [] [x]
  else pure ()

/-- `EventedSet.clear` (`/repo/src/psygnal/containers/_evented_set.py:63-67,278-281,314-318`). -/
def baseClear : M (St α) Unit := withPaused c do
  let s ← M.get
  if s.data = [] then pure () else do
    M.modify fun s => { s with data := [] }
    emitChange c upd [] s.data

/-- `clear` (`/repo/src/psygnal/containers/_selection.py:116-126`). -/
def clear (keepCurrent : Bool) : M (St α) Unit := do
  if keepCurrent then pure () else setCurrent c none
  baseClear c upd

/-- `update` (`/repo/src/psygnal/containers/_evented_set.py:48-51,273-276`). -/
def update (others : List (List α)) : M (St α) Unit := withPaused c (M.forEach others.flatten (add c upd))

/-- `difference_update` (`/repo/src/psygnal/containers/_evented_set.py:127-130,283-286`). -/
def differenceUpdate (others : List (List α)) : M (St α) Unit := withPaused c (M.forEach others.flatten (discard c upd))

/-- `difference_update(self)`: the iterator raises after the first removal
(`/repo/src/psygnal/containers/_evented_set.py:127-130`). -/
def differenceUpdateSelf : M (St α) Unit := withPaused c do
  let s ← M.get
  match s.data with
  | [] => pure ()
  | x :: _ => do
    discard c upd x
    M.raise .runtime

/-- `intersection_update` (`/repo/src/psygnal/containers/_evented_set.py:140-145,288-291`). -/
def intersectionUpdate (others : List (List α)) : M (St α) Unit := withPaused c do
  if others = [] then M.raise .type else do
    let s ← M.get
    M.forEach (s.data.filter fun x => !others.all (x ∈ ·)) (discard c upd)

/-- The body of the loop of `symmetric_difference_update` (`/repo/src/psygnal/containers/_evented_set.py:170`). -/
def toggleOne (x : α) : M (St α) Unit := do
  let s ← M.get
  if x ∈ s.data then discard c upd x else add c upd x

/-- `symmetric_difference_update` (`/repo/src/psygnal/containers/_evented_set.py:163-170,293-300`). -/
def symmetricDifferenceUpdate (xs : List α) : M (St α) Unit := withPaused c (M.forEach xs (toggleOne c upd))

/-- `select_only` (`/repo/src/psygnal/containers/_selection.py:132-135`). -/
def selectOnly (x : α) : M (St α) Unit := do
  intersectionUpdate c upd [[x]]
  add c upd x

/-- The setter of `active` (`/repo/src/psygnal/containers/_selection.py:104-114`). -/
def setActive (v : Option α) : M (St α) Unit := do
  let s ← M.get
  if v = s.active then pure () else do
    M.modify fun s => { s with active := v }
    match v with
    | none => clear c upd false
    | some x => selectOnly c upd x
    setCurrent c v
    emit c (.active v)

end

/-- `_update_active` (`/repo/src/psygnal/containers/_selection.py:137-146`), with a bound on its nesting. -/
def updateActive : Nat → M (St α) Unit
  | 0 => M.raise .runtime
  | n + 1 => do
    let s ← M.get
    match s.data with
    | [x] => setActive c (updateActive n) (some x)
    | _ =>
      if s.active = none then pure () else do
        M.modify fun s => { s with active := none }
        emit c (.active none)

/-! ## Operations -/

/-- The operations on a selection: those of sets, and its own (`/repo/src/psygnal/containers/_selection.py:38-185`). -/
inductive Op (α : Type)
  | set (op : ES.Op α)
  | setActive (v : Option α)
  | clear (keepCurrent : Bool)
  | toggle (x : α)
  | selectOnly (x : α)
  deriving Repr

/-- The selection as a plain ordered set, for the operations that only read it
(`/repo/src/psygnal/containers/_evented_set.py:113-161`). -/
def St.asSet (s : St α) : ES.St α := { data := s.data }

/-- New sets that read-only operations return have no parent and no listeners
(`/repo/src/psygnal/containers/_evented_set.py:116-117`). -/
def setCfg : ES.Cfg α := { place := fun l x => l ++ [x], evented := true, fails := fun _ => false }

/-- An operation of sets on a selection: `MutableSet` and `_BaseMutableSet` on top of the overridden hooks
(`/repo/src/psygnal/containers/_evented_set.py:31-325`). -/
def setStep (upd : M (St α) Unit) : ES.Op α → M (St α) (ES.Res α)
  | .add x => do add c upd x; pure .unit
  | .discard x => do discard c upd x; pure .unit
  | .remove x => do
    let s ← M.get
    if x ∈ s.data then discard c upd x else M.raise .key
    pure .unit
  | .pop => do
    let s ← M.get
    match s.data with
    | [] => M.raise .key
    | x :: _ => do
      discard c upd x
      pure (.item x)
  | .clear | .isubSelf | .ixorSelf => do clear c upd false; pure .unit
  | .update o => do update c upd o; pure .unit
  | .differenceUpdate o => do differenceUpdate c upd o; pure .unit
  | .differenceUpdateSelf | .symmetricDifferenceUpdateSelf => do differenceUpdateSelf c upd; pure .unit
  | .intersectionUpdate o => do intersectionUpdate c upd o; pure .unit
  | .symmetricDifferenceUpdate xs => do symmetricDifferenceUpdate c upd xs; pure .unit
  | .ior xs => do M.forEach xs (add c upd); pure .unit
  | .iand xs => do
    let s ← M.get
    M.forEach (s.data.filter (· ∉ xs)) (discard c upd)
    pure .unit
  | .isub xs => do M.forEach xs (discard c upd); pure .unit
  | .ixor xs => do M.forEach xs (toggleOne c upd); pure .unit
  | op => fun s => ((ES.step setCfg op s.asSet).1, s)

/-- One operation (`/repo/src/psygnal/containers/_selection.py:38-185`). -/
def step : Op α → M (St α) (ES.Res α)
  | .set op => setStep c (updateActive c c.depth) op
  | .setActive v => do setActive c (updateActive c c.depth) v; pure .unit
  | .clear k => do clear c (updateActive c c.depth) k; pure .unit
  | .toggle x => do symmetricDifferenceUpdate c (updateActive c c.depth) [x]; pure .unit
  | .selectOnly x => do selectOnly c (updateActive c c.depth) x; pure .unit

/-- A sequence of operations; one that raises does not stop the sequence
(`/repo/src/psygnal/containers/_selection.py:38-185`). -/
def run : List (Op α) → St α → List (Except Err (ES.Res α)) × St α
  | [], s => ([], s)
  | op :: ops, s =>
    let r := step c op s
    let rs := run ops r.2
    (r.1 :: rs.1, rs.2)

/-- The constructor (`/repo/src/psygnal/containers/_selection.py:78-83`): nobody listens yet, so the events are dropped. -/
def new (xs : List α) (parent : Option (List α)) : Except Err Unit × St α :=
  let c' : Cfg α := { c with fails := fun _ => false }
  let r := (do
    update c' (updateActive c' c.depth) [xs]
    updateActive c' c.depth : M (St α) Unit) { data := [], parent := parent }
  (r.1, { r.2 with log := [] })

/-! ## `SelectableEventedList`

The list is the parent of its selection, and is kept there.  Listeners of the list's own events do not raise. -/

/-- The list (`/repo/src/psygnal/containers/_selection.py:172-174`). -/
def St.list (s : St α) : List α := s.parent.getD []

/-- Assignment to the list's `_data` (`/repo/src/psygnal/containers/_evented_list.py:141,173,176,186,268,284,287`). -/
def setList (l : List α) : M (St α) Unit := M.modify fun s => { s with parent := some l }

/-- `EventedList` with these items: `==` of items, no built-in lists among them (they cannot be selected)
(`/repo/src/psygnal/containers/_evented_list.py:90-128`). -/
def listCfg : EL.Cfg α :=
  { eq := fun a b => decide (a = b), isList := fun _ => false, wrap := id, sigs := fun _ => [], childEvents := false,
    fails := fun _ => false }

/-- A method inherited from `EventedList` that neither inserts nor deletes
(`/repo/src/psygnal/containers/_evented_list.py:90-425`). -/
def liftList {β : Type} (m : M (EL.St α) β) : M (St α) β := fun s =>
  let r := m { data := s.list }
  (r.1, { s with parent := some r.2.data })

/-- `insert` (`/repo/src/psygnal/containers/_selectable_evented_list.py:54-58`). -/
def linsert (i : Int) (x : α) : M (St α) Unit := do
  let s ← M.get
  setList (Py.insert s.list i x)
  setActive c (updateActive c c.depth) (some x)

/-- `append` (inherited, `/repo/src/psygnal/containers/_evented_list.py:131`). -/
def lappend (x : α) : M (St α) Unit := do
  let s ← M.get
  linsert c s.list.length x

/-- An error in a callback comes out of `emit` as `EmitLoopError` (`/repo/src/psygnal/_signal.py:1264-1303`). -/
def wrapErr {β : Type} (m : M (St α) β) : M (St α) β := fun s =>
  match m s with
  | (.ok a, s') => (.ok a, s')
  | (.error _, s') => (.error .emitLoop, s')

/-- One iteration of `__delitem__` with `_on_item_removed` (`/repo/src/psygnal/containers/_evented_list.py:184-187`,
`/repo/src/psygnal/containers/_selectable_evented_list.py:51-52`). -/
def ldelOne (i : Int) : M (St α) Unit := do
  let s ← M.get
  let p ← M.ofExcept (Py.pop s.list i)
  setList p.2
  wrapErr (discard c (updateActive c c.depth) p.1)

/-- `__delitem__` (`/repo/src/psygnal/containers/_evented_list.py:180-187`). -/
def ldelItem (k : Key) : M (St α) Unit := do
  let s ← M.get
  let idx ← M.ofExcept (EL.delIndices s.list.length k)
  M.forEach idx (ldelOne c)

/-- `pop` (inherited, `/repo/src/psygnal/containers/_evented_list.py:133`). -/
def lpop (k : Key) : M (St α) Unit := do
  let _ ← liftList (EL.getKey listCfg k)
  ldelItem c k

/-- `index(x)` (inherited, `/repo/src/psygnal/containers/_evented_list.py:90`). -/
def lindex (x : α) : M (St α) Int := liftList (EL.index listCfg x 0 none)

/-- `remove` (inherited, `/repo/src/psygnal/containers/_evented_list.py:135`). -/
def lremove (x : α) : M (St α) Unit := do
  let i ← lindex x
  ldelItem c (.int i)

/-- The loop of `clear` (inherited, `/repo/src/psygnal/containers/_evented_list.py:132`): every iteration shortens the list
or ends the loop. -/
def lclearLoop : Nat → M (St α) Unit
  | 0 => pure ()
  | n + 1 => fun s =>
    match lpop c (.int (-1)) s with
    | (.ok _, s') => lclearLoop n s'
    | (.error .index, s') => (.ok (), s')
    | (.error e, s') => (.error e, s')

/-- `select_next` (`/repo/src/psygnal/containers/_selectable_evented_list.py:68-100`); `select_previous` (102-108) is
`step = -1`. -/
def selectNext (stp : Int) (expand wrap : Bool) : M (St α) Unit := do
  let s ← M.get
  if s.list = [] then pure () else do
    let n : Int := s.list.length
    let dflt : Int := if stp > 0 then -1 else 0
    let idx ← if s.data = [] then pure dflt else do
      match s.current with
      | none => M.raise .value
      | some x => do
        let i ← lindex x
        pure (i + stp)
    let idx := if wrap then idx % n else if n > idx ∧ idx ≥ 0 then idx else dflt
    let x ← M.ofExcept (Py.getItem s.list idx)
    if expand then do
      add c (updateActive c c.depth) x
      setCurrent c (some x)
    else setActive c (updateActive c c.depth) (some x)

/-- The loop of `remove_selected`; `idx` is the last position
(`/repo/src/psygnal/containers/_selectable_evented_list.py:120-122`). -/
def removeLoop : List α → Int → M (St α) Int
  | [], idx => pure idx
  | x :: xs, _ => do
    let i ← lindex x
    lremove c x
    removeLoop xs i

/-- `remove_selected` (`/repo/src/psygnal/containers/_selectable_evented_list.py:110-126`). -/
def removeSelected : M (St α) (List α) := do
  let s ← M.get
  let idx ← removeLoop c s.data 0
  let s' ← M.get
  let i := max 0 (idx - 1)
  if (s'.list.length : Int) > i then do
    let x ← M.ofExcept (Py.getItem s'.list i)
    add c (updateActive c c.depth) x
  pure s.data

/-- The operations on a list with a selection (`/repo/src/psygnal/containers/_selectable_evented_list.py:12-126`,
`/repo/src/psygnal/containers/_selection.py:182-185`). -/
inductive LOp (α : Type)
  | sel (op : Op α)
  | assignSelection (xs : List α)
  | insert (i : Int) (x : α)
  | append (x : α)
  | extend (xs : List α)
  | delItem (k : Key)
  | pop (k : Key)
  | remove (x : α)
  | clear
  | setItem (i : Int) (x : α)
  | setSlice (k : Slice) (vs : Option (List α))
  | reverse (individual : Bool)
  | move (src dest : Int)
  | moveMultiple (sources : List Key) (dest : Int)
  | selectAll
  | deselectAll
  | selectNext (step : Int) (expand wrap : Bool)
  | removeSelected
  deriving Repr

/-- One operation; only whether it raises is kept of its result
(`/repo/src/psygnal/containers/_selectable_evented_list.py:12-126`, `/repo/src/psygnal/containers/_selection.py:182-185`). -/
def lstep : LOp α → M (St α) Unit
  | .sel op => do
    let _ ← step c op
    pure ()
  | .assignSelection xs => do
    intersectionUpdate c (updateActive c c.depth) [xs]
    update c (updateActive c c.depth) [xs]
  | .insert i x => linsert c i x
  | .append x => lappend c x
  | .extend xs => M.forEach xs (lappend c)
  | .delItem k => ldelItem c k
  | .pop k => lpop c k
  | .remove x => lremove c x
  | .clear => do
    let s ← M.get
    lclearLoop c (s.list.length + 1)
  | .setItem i x => liftList (EL.setItem listCfg i x)
  | .setSlice k vs => liftList (EL.setSlice listCfg k vs)
  | .reverse b => liftList (EL.reverse listCfg b)
  | .move a b => do
    let _ ← liftList (EL.move listCfg a b)
    pure ()
  | .moveMultiple ks d => do
    let _ ← liftList (EL.moveMultiple listCfg ks d)
    pure ()
  | .selectAll => do
    let s ← M.get
    update c (updateActive c c.depth) [s.list]
  | .deselectAll => clear c (updateActive c c.depth) false
  | .selectNext n e w => selectNext c n e w
  | .removeSelected => do
    let _ ← removeSelected c
    pure ()

/-- A sequence of operations; one that raises does not stop the sequence
(`/repo/src/psygnal/containers/_selectable_evented_list.py:12-126`). -/
def lrun : List (LOp α) → St α → St α
  | [], s => s
  | op :: ops, s => lrun ops (lstep c op s).2

/-- An empty list with its selection; a list made from data is then extended
(`/repo/src/psygnal/containers/_selectable_evented_list.py:40-49`). -/
def lnew : St α := { data := [], parent := some [] }

end Psygnal.Sel
