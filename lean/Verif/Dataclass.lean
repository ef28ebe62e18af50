/-!
# Evented attributes

A model of `/repo/src/psygnal/_group_descriptor.py`: equality of field values, the signal group
built for a class, and the patched `__setattr__`.  Names are numbers.
-/
namespace Psygnal.DC

/-! ## Equality -/

/-- Values: objects by identity, and the sentinel `_NULL` for a missing attribute
(`/repo/src/psygnal/_group_descriptor.py:47`). -/
inductive Val
  | null
  | obj (n : Nat)
  deriving DecidableEq, Repr

/-- Equality operators: `operator.eq`, `np.array_equal`, `operator.is_`, others
(`/repo/src/psygnal/_group_descriptor.py:95,112,118,122-132,202`). -/
inductive Op
  | eq
  | arrayEqual
  | is
  | custom (n : Nat)
  deriving DecidableEq, Repr

/-- User code that comparison may run: the operators, with the truth value of their result,
and `hasattr(x, "__array__")`; both may raise.  `numpy`: it is loaded
(`/repo/src/psygnal/_group_descriptor.py:98,106-111`). -/
structure Env where
  apply : Op → Val → Val → Except Unit Bool
  hasArray : Val → Except Unit Bool
  numpy : Bool

/-- `bool(op(after, before))` (`/repo/src/psygnal/_group_descriptor.py:98`). -/
def Env.run (env : Env) (o : Op) (after before : Val) : Except Unit Bool :=
  match o with
  | .is => .ok (after = before)
  | o => env.apply o after before

/-- The map of operators of the class, field by field
(`/repo/src/psygnal/_group_descriptor.py:50-57`). -/
abbrev EqMap := Nat → Option Op

/-- `eq_map[name] = op` (`/repo/src/psygnal/_group_descriptor.py:95,112,118`). -/
def EqMap.set (m : EqMap) (name : Nat) (o : Op) : EqMap := fun n => if n = name then some o else m n

/-- The call with `operator.is_` and `_fail=True` (`/repo/src/psygnal/_group_descriptor.py:118-119`). -/
def checkIs (env : Env) (m : EqMap) (name : Nat) (before after : Val) : Except Unit Bool × EqMap :=
  let m := m.set name .is
  (env.run .is after before, m)

/-- The call with `np.array_equal` (`/repo/src/psygnal/_group_descriptor.py:112-119`). -/
def checkArray (env : Env) (m : EqMap) (name : Nat) (before after : Val) : Except Unit Bool × EqMap :=
  let m := m.set name .arrayEqual
  match env.run .arrayEqual after before with
  | .ok b => (.ok b, m)
  | .error _ =>
    match env.hasArray after with
    | .error e => (.error e, m)
    | .ok _ => checkIs env m name before after

/-- `_check_field_equality` (`/repo/src/psygnal/_group_descriptor.py:60-119`). -/
def checkEq (env : Env) (m : EqMap) (name : Nat) (before after : Val) : Except Unit Bool × EqMap :=
  if before = .null then (.ok (after = .null), m)
  else
    let o := (m name).getD .eq
    let m := m.set name o
    match env.run o after before with
    | .ok b => (.ok b, m)
    | .error _ =>
      match env.hasArray after with
      | .error e => (.error e, m)
      | .ok h =>
        if h = true ∧ env.numpy = true ∧ o ≠ .arrayEqual then checkArray env m name before after
        else checkIs env m name before after

/-- A type annotation: from a module of dask, with `__array__`, or neither
(`/repo/src/psygnal/_group_descriptor.py:125-132`). -/
structure Ty where
  dask : Bool
  array : Bool
  deriving DecidableEq, Repr

/-- `_pick_equality_operator` (`/repo/src/psygnal/_group_descriptor.py:122-132`). -/
def pickOp (numpy : Bool) (t : Ty) : Op :=
  if t.dask then .is else if numpy = true ∧ t.array = true then .arrayEqual else .eq

/-! ## The signal group of a class -/

/-- A dict of aliases, the newest entry first (`/repo/src/psygnal/_group_descriptor.py:185-194`). -/
abbrev Aliases := List (Nat × Option Nat)

/-- `d.get(name)` with a separate value for a missing key
(`/repo/src/psygnal/_group_descriptor.py:208-212,300`). -/
def Aliases.get (l : Aliases) (name : Nat) : Option (Option Nat) := (l.find? (·.1 = name)).map (·.2)

/-- The argument `signal_aliases`: a mapping, empty if it was `None`, or a callable
(`/repo/src/psygnal/_group_descriptor.py:184-189`). -/
inductive AliasArg
  | mapping (l : Aliases)
  | callable (f : Nat → Option Nat)

/-- A `SignalGroup` class: its signals by name and `_psygnal_aliases`
(`/repo/src/psygnal/_group.py:258-261,302-336`). -/
structure Group where
  sigs : List Nat
  aliases : Aliases

/-- A field of the dataclass (`/repo/src/psygnal/_group_descriptor.py:198`). -/
structure Field where
  name : Nat
  type : Ty

/-- The local variables of the loop: `signals` and `_signal_aliases`
(`/repo/src/psygnal/_group_descriptor.py:185,196`). -/
structure Acc where
  signals : List Nat
  aliases : Aliases

/-- The resolution of the signal name (`/repo/src/psygnal/_group_descriptor.py:206-215`): the name
and `_signal_aliases` afterwards. -/
def resolve (arg : AliasArg) (grp : Group) (aliases : Aliases) (name : Nat) : Option Nat × Aliases :=
  match aliases.get name with
  | some x => (x, aliases)
  | none => match arg with
    | .callable f => (f name, (name, f name) :: aliases)
    | .mapping _ => match grp.aliases.get name with
      | some x => (x, (name, x) :: aliases)
      | none => (some name, aliases)

/-- The body of the loop after the operators (`/repo/src/psygnal/_group_descriptor.py:206-244`). -/
def addField (arg : AliasArg) (grp : Group) (a : Acc) (f : Field) : Acc :=
  let r := resolve arg grp a.aliases f.name
  match r.1 with
  | none => ⟨a.signals, r.2⟩
  | some s =>
    if s ∈ a.signals then ⟨a.signals, r.2⟩
    else if s ∈ grp.sigs then ⟨a.signals, r.2⟩
    else ⟨a.signals ++ [s], r.2⟩

/-- `_signal_aliases` before the loop (`/repo/src/psygnal/_group_descriptor.py:184-189`). -/
def AliasArg.start : AliasArg → Aliases
  | .mapping l => l
  | .callable _ => []

/-- `_build_dataclass_signal_group` (`/repo/src/psygnal/_group_descriptor.py:149-249`) with
`SignalGroup.__init_subclass__` (`/repo/src/psygnal/_group.py:282-341`); `none`: `TypeError` for a
signal whose name starts with `_psygnal` (`:290-297`). -/
def build (reserved : Nat → Bool) (fields : List Field) (grp : Group) (arg : AliasArg) : Option Group :=
  let a := fields.foldl (addField arg grp) ⟨[], arg.start⟩
  if a.signals.any reserved then none
  else some ⟨grp.sigs ++ a.signals, a.aliases ++ grp.aliases⟩

/-- The operators of the fields (`/repo/src/psygnal/_group_descriptor.py:199-204`); `custom` is the
argument `equality_operators`. -/
def operators (numpy : Bool) (custom : Nat → Option Op) (fields : List Field) (m : EqMap) : EqMap :=
  fields.foldl (fun m f => m.set f.name ((custom f.name).getD (pickOp numpy f.type))) m

/-- `get_signal_from_field` (`/repo/src/psygnal/_group_descriptor.py:284-303`). -/
def Group.signal (g : Group) (name : Nat) : Option Nat :=
  match (g.aliases.get name).getD (some name) with
  | none => none
  | some s => if s ∈ g.sigs then some s else none

/-! ## Setting attributes -/

/-- Exceptions: from the original `__setattr__`, from a listener, from a comparison
(`/repo/src/psygnal/_group_descriptor.py:315-318,401-402`). -/
inductive Err
  | setter (n : Nat)
  | emitLoop
  | comparison
  deriving DecidableEq, Repr

/-- The attributes of the object, the operators of its class, and the emissions: signal, new value,
old value (`/repo/src/psygnal/_group_descriptor.py:312-318`). -/
structure St where
  attrs : Nat → Val
  eqmap : EqMap
  log : List (Nat × Val × Val)

/-- `super_setattr(self, name, value)`: any code (`/repo/src/psygnal/_group_descriptor.py:321,402`). -/
abbrev Setter := Nat → Val → St → Except Err Unit × St

/-- `object.__setattr__` (the usual `super_setattr`, `/repo/src/psygnal/_group_descriptor.py:402`). -/
def plain : Setter := fun name v s => (.ok (), { s with attrs := fun n => if n = name then v else s.attrs n })

/-- What the patched method knows: the name of the group attribute, the flag `with_aliases`, the
group of the object, which signals have slots, and whether listeners raise
(`/repo/src/psygnal/_group_descriptor.py:377-402`). -/
structure Cfg where
  env : Env
  groupName : Nat
  withAliases : Bool
  group : Group
  listeners : Nat → Bool
  raises : Nat → Val → Val → Bool

/-- The signal that is looked up (`/repo/src/psygnal/_group_descriptor.py:383-385,392-397`). -/
def Cfg.lookup (c : Cfg) (name : Nat) : Option Nat :=
  if c.withAliases then c.group.signal name
  else if name ∈ c.group.sigs then some name else none

/-- `self.signal.emit(new, self._prev)` (`/repo/src/psygnal/_group_descriptor.py:318`). -/
def emit (c : Cfg) (sig : Nat) (new old : Val) (s : St) : Bool × St :=
  (c.raises sig new old, { s with log := s.log ++ [(sig, new, old)] })

/-- `_changes_emitted` around the original `__setattr__`
(`/repo/src/psygnal/_group_descriptor.py:306-318,401-402`): an exception of the comparison or of a
listener replaces that of the setter. -/
def changesEmitted (c : Cfg) (super : Setter) (sig name : Nat) (v : Val) (s : St) : Except Err Unit × St :=
  let prev := s.attrs name
  let r := super name v s
  let new := r.2.attrs name
  let q := checkEq c.env r.2.eqmap name prev new
  let s2 := { r.2 with eqmap := q.2 }
  match q.1 with
  | .error _ => (.error .comparison, s2)
  | .ok true => (r.1, s2)
  | .ok false =>
    let e := emit c sig new prev s2
    if e.1 then (.error .emitLoop, e.2) else (r.1, e.2)

/-- `_setattr_and_emit_` (`/repo/src/psygnal/_group_descriptor.py:387-402`). -/
def setattrAndEmit (c : Cfg) (super : Setter) (name : Nat) (v : Val) (s : St) : Except Err Unit × St :=
  if name = c.groupName then super name v s
  else match c.lookup name with
    | none => super name v s
    | some sig => if c.listeners sig then changesEmitted c super sig name v s else super name v s

/-! ## Patching classes -/

/-- `_do_patch_setattr` and `evented_setattr`
(`/repo/src/psygnal/_group_descriptor.py:377-380,404-405,562-587,654`): `inherited` is the flag
`with_aliases` of the patched `__setattr__` the class has already, be it its own or its base's. -/
def doPatch (inherited : Option Bool) (g : Group) : Bool :=
  match inherited with
  | some flag => flag
  | none => !g.aliases.isEmpty

end Psygnal.DC
