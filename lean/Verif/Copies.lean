/-!
# Copies of evented containers
(`/repo/src/psygnal/containers/_evented_list.py:116-128,213-260`, `/repo/src/psygnal/containers/_evented_dict.py:41-51,80-92`,
`/repo/src/psygnal/containers/_evented_set.py:113-117`, `/repo/src/psygnal/containers/_selectable_evented_list.py:40-58`)

Containers are objects that refer to the built-in container with their contents (`_data`, `_dict`) and to a signal group (`events`), each
in a memory cell, so that two of them might share one.  What single operations do to the contents is the subject of C27-C34; here a change
of the contents is an arbitrary function.  Simplified: the callbacks do not use the containers; a group has one list of callbacks, called
with everything it emits.
-/

namespace Psygnal.CC

/-- The classes (`/repo/src/psygnal/containers/__init__.py:1-30`): `EventedList`, `SelectableEventedList`, `EventedDict` (and its base), the
sets, and `Selection`. -/
inductive Cls
  | list | selectable | dict | set | selection
  deriving DecidableEq, Repr

/-- Options of the constructors: `hashable`, `child_events` (`/repo/src/psygnal/containers/_evented_list.py:116-122`), `basetype`
(`/repo/src/psygnal/containers/_evented_dict.py:41-50`) and `parent` (`/repo/src/psygnal/containers/_selection.py:77-85`); classes
ignore those they do not have. -/
structure Opts where
  hashable : Bool := true
  childEvents : Bool := false
  base : Nat := 0
  parent : Option Nat := none
  deriving DecidableEq, Repr

/-- What a container tells its listeners (`/repo/src/psygnal/containers/_evented_list.py:80-87`); `other` is any other event. -/
inductive Ev (α : Type)
  | inserted (x : α)
  | removed (x : α)
  | child (x : α) (n : Nat)
  | other (n : Nat)
  deriving DecidableEq, Repr

/-- A slot of a group: a callback of the program, or `_on_item_removed` of a `SelectableEventedList`
(`/repo/src/psygnal/containers/_selectable_evented_list.py:49-52`). -/
inductive Slot
  | cb (n : Nat)
  | desel (o : Nat)
  deriving DecidableEq, Repr

/-- A container: the cells of its contents and of its group (`/repo/src/psygnal/containers/_evented_list.py:124-127`), and the items that are
selected, for a `SelectableEventedList` (`/repo/src/psygnal/containers/_selection.py:172-180`). -/
structure Obj (α : Type) where
  cls : Cls
  data : Nat
  group : Nat
  opts : Opts
  sel : List α

/-- The memory: containers, contents, groups; which children's signals are connected to which list
(`/repo/src/psygnal/containers/_evented_list.py:397-400`); and the calls of callbacks. -/
structure Heap (α : Type) where
  objs : List (Obj α) := []
  datas : List (List α) := []
  groups : List (List Slot) := []
  kids : List (α × Nat) := []
  calls : List (Nat × Ev α) := []

variable {α : Type} [DecidableEq α]

/-- The contents of an object (`/repo/src/psygnal/containers/_evented_list.py:124`). -/
def Heap.contents (h : Heap α) (o : Nat) : List α := match h.objs[o]? with
  | some ob => h.datas.getD ob.data []
  | none => []

/-- The slots of its group (`/repo/src/psygnal/containers/_evented_list.py:127`). -/
def Heap.slots (h : Heap α) (o : Nat) : List Slot := match h.objs[o]? with
  | some ob => h.groups.getD ob.group []
  | none => []

/-- A new object with new contents and a new group (`/repo/src/psygnal/containers/_evented_list.py:124-128`). -/
def Heap.alloc (h : Heap α) (cls : Cls) (opts : Opts) (xs : List α) (slots : List Slot) (sel : List α) : Heap α :=
  { h with
    objs := h.objs ++ [⟨cls, h.datas.length, h.groups.length, opts, sel⟩]
    datas := h.datas ++ [xs]
    groups := h.groups ++ [slots] }

/-- The constructors (`/repo/src/psygnal/containers/_evented_list.py:116-128,203-206`,
`/repo/src/psygnal/containers/_selectable_evented_list.py:40-58`: every inserted item becomes the selected one,
`/repo/src/psygnal/containers/_evented_dict.py:41-51`, `/repo/src/psygnal/containers/_evented_set.py:268-270`). -/
def Heap.create (h : Heap α) (cls : Cls) (opts : Opts) (xs : List α) : Heap α :=
  let h' := h.alloc cls opts xs (if cls = .selectable then [.desel h.objs.length] else [])
    (if cls = .selectable then xs.getLast?.toList else [])
  if opts.childEvents = true ∧ (cls = .list ∨ cls = .selectable) then { h' with kids := h'.kids ++ xs.map fun x => (x, h.objs.length) } else h'

/-- The options that `__newlike__` passes on: those of a dict (`/repo/src/psygnal/containers/_evented_dict.py:80-85`); lists and sets are made
with `self.__class__(iterable)` (`/repo/src/psygnal/containers/_evented_list.py:213-215`, `/repo/src/psygnal/containers/_evented_set.py:117`). -/
def Opts.newlike (cls : Cls) (o : Opts) : Opts := match cls with
  | .dict => { base := o.base }
  | _ => {}

/-- A new container like `ob` with the given items: `copy()`, `copy.copy`, slices, `+`, `union` etc.
(`/repo/src/psygnal/containers/_evented_list.py:151-154,213-228`, `/repo/src/psygnal/containers/_evented_dict.py:80-92`,
`/repo/src/psygnal/containers/_evented_set.py:113-180`). -/
def Heap.newlike (h : Heap α) (ob : Obj α) (xs : List α) : Heap α := h.create ob.cls (ob.opts.newlike ob.cls) xs

/-- `self[i]` for the items of a list: built-in lists come back as new containers, and so do they when a list is copied by iteration
(`/repo/src/psygnal/containers/_evented_list.py:151-154,217-219`). -/
def items (item : α → α) (cls : Cls) (xs : List α) : List α := match cls with
  | .list | .selectable => xs.map item
  | _ => xs

/-- A slot is called (`/repo/src/psygnal/_signal.py:1308`, `/repo/src/psygnal/containers/_selectable_evented_list.py:51-52`). -/
def Heap.call (ev : Ev α) (h : Heap α) : Slot → Heap α
  | .cb n => { h with calls := h.calls ++ [(n, ev)] }
  | .desel o => match ev with
    | .removed x => { h with objs := h.objs.modify o fun ob => { ob with sel := ob.sel.filter (· ≠ x) } }
    | _ => h

/-- `for caller in self._slots` in an emission of a group (`/repo/src/psygnal/_signal.py:1307-1308`). -/
def Heap.fire (h : Heap α) (ev : Ev α) (ss : List Slot) : Heap α := ss.foldl (Heap.call ev) h

/-- What a program does with containers: constructor; `copy()` (`copy.copy`); a new container with some of the items and others (slices, `+`,
set operations); `copy.deepcopy`; any change of the contents, with an event; `append` and `remove` on lists; `select_only` of items of a
`SelectableEventedList`; connecting a callback to the events; an emission of a child
(`/repo/src/psygnal/containers/_evented_list.py:116-425`, `/repo/src/psygnal/containers/_selectable_evented_list.py:40-67`,
`/repo/src/psygnal/containers/_evented_dict.py:27-195`, `/repo/src/psygnal/containers/_evented_set.py:31-345`). -/
inductive Op (α : Type)
  | new (cls : Cls) (opts : Opts) (xs : List α)
  | copy (o : Nat)
  | derive (o : Nat) (f : List α → List α)
  | deepcopy (o : Nat)
  | change (o : Nat) (f : List α → List α) (n : Nat)
  | append (o : Nat) (x : α)
  | remove (o : Nat) (x : α)
  | select (o : Nat) (xs : List α)
  | connect (o : Nat) (cb : Nat)
  | childEmit (x : α) (n : Nat)

/-- `_reemit_child_event` of all lists connected to a child (`/repo/src/psygnal/containers/_evented_list.py:407-425`; C79 says more). -/
def Heap.report (h : Heap α) (x : α) (n : Nat) : List (α × Nat) → Heap α
  | [] => h
  | (y, o) :: ks => if y = x ∧ x ∈ h.contents o then Heap.report (h.fire (.child x n) (h.slots o)) x n ks else Heap.report h x n ks

/-- One operation; `item` is `self[i]` for an item of a list, `dup` is `copy.deepcopy` of an item.  `deepcopy` copies the attributes
(`copy.deepcopy` without `__deepcopy__`), the group by `/repo/src/psygnal/_group.py:427-432`; a selection is copied only together with its
list.  (`/repo/src/psygnal/containers/_evented_list.py:116-425`, `/repo/src/psygnal/containers/_selectable_evented_list.py:40-67`.) -/
def step (item dup : α → α) (h : Heap α) : Op α → Heap α
  | .new cls opts xs => h.create cls opts xs
  | .copy o => match h.objs[o]? with
    | some ob => h.newlike ob (items item ob.cls (h.contents o))
    | none => h
  | .derive o f => match h.objs[o]? with
    | some ob => h.newlike ob (f (h.contents o))
    | none => h
  | .deepcopy o => match h.objs[o]? with
    | some ob => h.alloc ob.cls ob.opts ((h.contents o).map dup) [] (ob.sel.map dup)
    | none => h
  | .change o f n => match h.objs[o]? with
    | some ob => Heap.fire { h with datas := h.datas.modify ob.data f } (.other n) (h.slots o)
    | none => h
  | .append o x => match h.objs[o]? with
    | some ob =>
      let h1 := Heap.fire { h with datas := h.datas.modify ob.data (· ++ [x]) } (.inserted x) (h.slots o)
      let h2 := if ob.opts.childEvents then { h1 with kids := h1.kids ++ [(x, o)] } else h1
      if ob.cls = .selectable then { h2 with objs := h2.objs.modify o fun ob => { ob with sel := [x] } } else h2
    | none => h
  | .remove o x => match h.objs[o]? with
    | some ob => if x ∈ h.contents o then
        let h1 := if ob.opts.childEvents then { h with kids := h.kids.erase (x, o) } else h
        Heap.fire { h1 with datas := h1.datas.modify ob.data (·.erase x) } (.removed x) (h.slots o)
      else h
    | none => h
  | .select o xs => { h with objs := h.objs.modify o fun ob =>
      if ob.cls = .selectable then { ob with sel := xs.filter (· ∈ h.contents o) } else ob }
  | .connect o cb => match h.objs[o]? with
    | some ob => { h with groups := h.groups.modify ob.group (· ++ [.cb cb]) }
    | none => h
  | .childEmit x n => h.report x n h.kids

/-- A program (`/repo/src/psygnal/containers/_evented_list.py:116-425`). -/
def run (item dup : α → α) (ops : List (Op α)) (h : Heap α) : Heap α := ops.foldl (step item dup) h

/-- `hash(o)`: `none` for `TypeError` (`/repo/src/psygnal/containers/_evented_list.py:251-260`,
`/repo/src/psygnal/containers/_selection.py:164-166`; other containers define `__eq__` only). -/
def Heap.hash (h : Heap α) (o : Nat) : Option Nat := match h.objs[o]? with
  | some ob => match ob.cls with
    | .list | .selectable => if ob.opts.hashable then some o else none
    | .selection => some o
    | _ => none
  | none => none

/-- `o == o'` for lists: as many items, equal one by one; `same` is `==` of items
(`/repo/src/psygnal/containers/_evented_list.py:247-249`). -/
def Heap.eq (h : Heap α) (same : α → α → Bool) (o o' : Nat) : Bool :=
  decide ((h.contents o).length = (h.contents o').length) && ((h.contents o).zip (h.contents o')).all fun p => same p.1 p.2

end Psygnal.CC
