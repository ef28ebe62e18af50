/-!
# Copies of evented objects
(`/repo/src/psygnal/_group_descriptor.py:306-318, 387-405, 595-621`, `/repo/src/psygnal/_group.py:265-280, 427-432`)

One evented class and its objects.  `copy.copy` gives an object with the same entries in `__dict__`, `copy.deepcopy` one with deep copies of them.
The descriptor of the group has no `__set__`, so that an entry with its name in the `__dict__` of the object is found first.  Every field has a signal, values are
compared with `==`, callbacks do nothing to the objects.
-/
namespace Psygnal.EvCopy

/-- A group: the object it is bound to and the connections, as pairs of field and callback (`/repo/src/psygnal/_group.py:265-280`). -/
structure Grp where
  inst : Nat
  slots : List (Nat × Nat)
  deriving DecidableEq, Repr

/-- An object: the group in its `__dict__` and the values of the fields (`/repo/src/psygnal/_group_descriptor.py:613-615`). -/
structure Obj where
  entry : Option Nat := none
  vals : Nat → Int := fun _ => 0

/-- One call of a callback: field, new and old value, and the object that the group of the signal is bound to, `group.all.instance`
(`/repo/src/psygnal/_group_descriptor.py:318`). -/
structure Call where
  cb : Nat
  field : Nat
  new : Int
  old : Int
  inst : Nat
  deriving DecidableEq, Repr

/-- The objects (those with a number below `n` exist), the groups, `_instance_map`, whether `__setattr__` of the class has been patched, the calls made
(`/repo/src/psygnal/_group_descriptor.py:511-513, 562-587`). -/
structure St where
  n : Nat := 1
  objs : Nat → Obj := fun _ => {}
  groups : List Grp := []
  imap : Nat → Option Nat := fun _ => none
  patched : Bool := false
  log : List Call := []

/-- Changing one object (`/repo/src/psygnal/_group_descriptor.py:402,615`). -/
def St.setObj (s : St) (o : Nat) (x : Obj) : St := { s with objs := fun o' => if o' = o then x else s.objs o' }

/-- Assigning to a field without events (`/repo/src/psygnal/_group_descriptor.py:399,402`). -/
def Obj.put (x : Obj) (f : Nat) (v : Int) : Obj := { x with vals := fun f' => if f' = f then v else x.vals f' }

/-- `obj.events` (`/repo/src/psygnal/_group_descriptor.py:595-621`); `stored` is `cache_on_instance` for objects with a `__dict__`. -/
def get (stored : Bool) (o : Nat) (s : St) : Nat × St :=
  match (s.objs o).entry with
  | some g => (g, s)
  | none => match s.imap o with
    | some g => (g, { s with patched := true })
    | none =>
      let s' := { s with patched := true, groups := s.groups ++ [⟨o, []⟩], imap := fun o' => if o' = o then some s.groups.length else s.imap o' }
      (s.groups.length, if stored then s'.setObj o { s.objs o with entry := some s.groups.length } else s')

/-- `obj.events.field.connect(cb)` (`/repo/src/psygnal/_group.py:382-384`). -/
def connect (stored : Bool) (o f cb : Nat) (s : St) : St :=
  let r := get stored o s
  { r.2 with groups := r.2.groups.modify r.1 fun g => { g with slots := g.slots ++ [(f, cb)] } }

/-- The callbacks connected to a field (`/repo/src/psygnal/_group_descriptor.py:397-399`). -/
def Grp.cbs (g : Grp) (f : Nat) : List Nat := (g.slots.filter fun x => x.1 = f).map (·.2)

/-- `obj.field = v` (`/repo/src/psygnal/_group_descriptor.py:387-402, 306-318`). -/
def assign (stored : Bool) (o f : Nat) (v : Int) (s : St) : St :=
  if s.patched = false then s.setObj o ((s.objs o).put f v) else
  let r := get stored o s
  match r.2.groups[r.1]? with
  | none => r.2
  | some g =>
    let s' := r.2.setObj o ((r.2.objs o).put f v)
    if (g.cbs f).length < 1 then s' else
    let old := (r.2.objs o).vals f
    if v = old then s' else { s' with log := s'.log ++ (g.cbs f).map fun cb => ⟨cb, f, v, old, g.inst⟩ }

/-- `copy.copy(obj)`: the entries of `__dict__` are the same objects (`/repo/src/psygnal/_group_descriptor.py:613-615`). -/
def copy (o : Nat) (s : St) : St := { s.setObj s.n (s.objs o) with n := s.n + 1 }

/-- `copy.deepcopy(obj)`: a group in `__dict__` is copied by `SignalGroup.__deepcopy__` (`/repo/src/psygnal/_group.py:427-432`). -/
def deepcopy (o : Nat) (s : St) : St :=
  match (s.objs o).entry with
  | none => copy o s
  | some g => match s.groups[g]? with
    | none => copy o s
    | some gr => { s.setObj s.n { s.objs o with entry := some s.groups.length } with n := s.n + 1, groups := s.groups ++ [⟨gr.inst, []⟩] }

/-- Operations of programs (`/repo/src/psygnal/_group_descriptor.py:387,595`, `/repo/src/psygnal/_group.py:427`). -/
inductive Op
  | get (o : Nat)
  | connect (o f cb : Nat)
  | assign (o f : Nat) (v : Int)
  | copy (o : Nat)
  | deepcopy (o : Nat)
  deriving DecidableEq, Repr

/-- The object of an operation (`/repo/src/psygnal/_group_descriptor.py:387,595`). -/
def Op.obj : Op → Nat
  | .get o => o
  | .connect o _ _ => o
  | .assign o _ _ => o
  | .copy o => o
  | .deepcopy o => o

/-- One operation on an object that exists (`/repo/src/psygnal/_group_descriptor.py:387-402,595-621`, `/repo/src/psygnal/_group.py:427-432`). -/
def step (stored : Bool) (op : Op) (s : St) : St :=
  if op.obj < s.n then
    match op with
    | .get o => (get stored o s).2
    | .connect o f cb => connect stored o f cb s
    | .assign o f v => assign stored o f v s
    | .copy o => copy o s
    | .deepcopy o => deepcopy o s
  else s

/-- A program (`/repo/src/psygnal/_group_descriptor.py:387-402,595-621`). -/
def run (stored : Bool) : List Op → St → St
  | [], s => s
  | op :: ops, s => run stored ops (step stored op s)

end Psygnal.EvCopy
