/-!
# Which `SignalGroup` an attribute access returns

A model of `SignalGroupDescriptor.__get__` and its caches
(`/repo/src/psygnal/_group_descriptor.py:511-655`) together with the part of the interpreter it relies on: identity and
addresses of objects and classes, instance dicts, weak references and their finalizers.  Objects, classes and groups are
numbered in the order of their creation and numbers are never reused; addresses are.

Simplified: `collect_fields=True` only; the signals of a group are represented by the class whose fields they come from;
an object is collected at the event `die`, at any time after the last strong reference; `copy.deepcopy`, pickling and
deleting the attribute from the instance are left out.
-/
namespace Psygnal.Desc

/-- A class.  `eqAttr`: it has, or inherits, an attribute `__eq_operators__`; if not, the first access puts it into the
global dict `_EQ_OPERATORS` (`/repo/src/psygnal/_group_descriptor.py:50-57`), where it stays (`kept`). -/
structure Cls where
  addr : Nat
  eqAttr : Bool
  alive : Bool
  kept : Bool
  deriving DecidableEq, Repr

/-- An object.  `settable`: `setattr` works on it (`/repo/src/psygnal/_group_descriptor.py:613-615`); `dict` is the part
of its `__dict__` that holds groups; `fin`: its finalizer that pops from `_instance_map` is registered (`:618-619`). -/
structure Obj where
  cls : Nat
  addr : Nat
  settable : Bool
  weakrefable : Bool
  alive : Bool
  fin : Bool
  dict : List (Nat × Nat)
  deriving DecidableEq, Repr

/-- A `SignalGroup` instance: the descriptor that made it, the class from whose fields its signals were made
(`/repo/src/psygnal/_group_descriptor.py:640-645`), its `instance`, held strongly if it cannot be weakly referenced
(`/repo/src/psygnal/_signal.py:569-578`). -/
structure Grp where
  desc : Nat
  cls : Nat
  owner : Nat
  strong : Bool
  deriving DecidableEq, Repr

/-- For each descriptor the attribute it is assigned to and `cache_on_instance`
(`/repo/src/psygnal/_group_descriptor.py:515-557`). -/
structure Cfg where
  attr : Nat → Nat
  cacheOn : Nat → Bool

/-- The state: classes, objects and groups by number, `_signal_groups` of every descriptor
(`/repo/src/psygnal/_group_descriptor.py:553`; descriptor, address of the class, class whose group type it is),
`_instance_map`, which all descriptors share (`:513`; address, group), and a ghost log of the accesses. -/
structure St where
  clss : List Cls
  objs : List Obj
  grps : List Grp
  types : List ((Nat × Nat) × Nat)
  imap : List (Nat × Nat)
  log : List (Nat × Nat × Nat)
  deriving DecidableEq, Repr

/-- Nothing was created yet (`/repo/src/psygnal/_group_descriptor.py:513,553`). -/
def St.init : St := ⟨[], [], [], [], [], []⟩

/-- `d.get(k)` (built-in `dict`; `/repo/src/psygnal/_group_descriptor.py:608,621,625-627`). -/
def find {κ : Type} [DecidableEq κ] (k : κ) : List (κ × Nat) → Option Nat
  | [] => none
  | (k', v) :: d => if k' = k then some v else find k d

/-- What happens in the interpreter (`/repo/src/psygnal/_group_descriptor.py:595-655`): classes and objects are created
at an address and die, the attribute of a descriptor is read, an object is copied with `copy.copy`, which copies its
`__dict__`. -/
inductive Op
  | newCls (addr : Nat) (eqAttr : Bool)
  | dieCls (c : Nat)
  | new (cls addr : Nat) (settable weakrefable : Bool)
  | die (o : Nat)
  | get (d o : Nat)
  | copy (o addr : Nat)
  deriving DecidableEq, Repr

/-- `_get_signal_group(owner)` for the class `c` (`/repo/src/psygnal/_group_descriptor.py:623-627`): the class whose
group type it is; `_create_group` (`:629-655`) uses the map of equality operators (`:50-57,181`). -/
def groupType (st : St) (d c : Nat) (k : Cls) : Nat × St :=
  match find (d, k.addr) st.types with
  | some c' => (c', st)
  | none => (c, { st with
      types := ((d, k.addr), c) :: st.types
      clss := st.clss.set c { k with kept := k.kept || !k.eqAttr } })

/-- `obj.events` for the live object `o` (`/repo/src/psygnal/_group_descriptor.py:595-621`); the instance dict comes
first because the descriptor has no `__set__`. -/
def get (c : Cfg) (st : St) (d o : Nat) (ob : Obj) (k : Cls) : Nat × St :=
  match find (c.attr d) ob.dict with
  | some g => (g, st)
  | none =>
    let r := groupType st d ob.cls k
    match find ob.addr r.2.imap with
    | some g => (g, r.2)
    | none =>
      let g := r.2.grps.length
      (g, { r.2 with
        grps := r.2.grps ++ [⟨d, r.1, o, !ob.weakrefable⟩]
        imap := (ob.addr, g) :: r.2.imap
        objs := r.2.objs.set o { ob with
          dict := if ob.settable && c.cacheOn d then (c.attr d, g) :: ob.dict else ob.dict
          fin := ob.weakrefable } })

/-- An object is kept alive by a group in `_instance_map` that refers to it strongly
(`/repo/src/psygnal/_group_descriptor.py:610`, `/repo/src/psygnal/_signal.py:576-578`). -/
def pinned (st : St) (o : Nat) : Bool :=
  st.imap.any fun e => match st.grps[e.2]? with
    | some x => x.owner = o && x.strong
    | none => false

/-- Is there a live object or class at this address?  (What `id()` guarantees;
`/repo/src/psygnal/_group_descriptor.py:607,624`.) -/
def used (st : St) (a : Nat) : Bool :=
  st.objs.any (fun ob => ob.alive && ob.addr = a) || st.clss.any (fun k => k.alive && k.addr = a)

/-- One event.  An address is given to something new only if nothing alive has it; an object can die only if nothing
refers to it strongly, a class only if it has no live instances and is not in `_EQ_OPERATORS`; the finalizer of an
object removes the entry for its address (`/repo/src/psygnal/_group_descriptor.py:618-619`).  Impossible events change
nothing. -/
def step (c : Cfg) (st : St) : Op → St
  | .newCls a e => if used st a then st else { st with clss := st.clss ++ [⟨a, e, true, false⟩] }
  | .dieCls i => match st.clss[i]? with
    | none => st
    | some k =>
      if k.alive = false ∨ k.kept = true ∨ st.objs.any (fun ob => ob.alive && ob.cls = i) = true then st
      else { st with clss := st.clss.set i { k with alive := false } }
  | .new i a se w => match st.clss[i]? with
    | none => st
    | some k =>
      if k.alive = false ∨ used st a = true then st
      else { st with objs := st.objs ++ [⟨i, a, se, w, true, false, []⟩] }
  | .die o => match st.objs[o]? with
    | none => st
    | some ob =>
      if ob.alive = false ∨ pinned st o = true then st
      else { st with
        objs := st.objs.set o { ob with alive := false }
        imap := if ob.fin then st.imap.filter fun e => e.1 ≠ ob.addr else st.imap }
  | .get d o => match st.objs[o]? with
    | none => st
    | some ob => match st.clss[ob.cls]? with
      | none => st
      | some k =>
        if ob.alive = false then st
        else
          let r := get c st d o ob k
          { r.2 with log := r.2.log ++ [(d, o, r.1)] }
  | .copy o a => match st.objs[o]? with
    | none => st
    | some ob =>
      if ob.alive = false ∨ used st a = true then st
      else { st with objs := st.objs ++ [{ ob with addr := a, fin := false }] }

/-- A history (`/repo/src/psygnal/_group_descriptor.py:595-655`). -/
def run (c : Cfg) : List Op → St → St
  | [], st => st
  | o :: os, st => run c os (step c st o)

end Psygnal.Desc
