/-! # Group classes shared by descriptors (`/repo/src/psygnal/_group_descriptor.py:149-249,284-303,387-402,515-553,562-655`)

User-written `SignalGroup` classes with aliases, descriptors that collect fields (`collect_fields=True`: a new class for every owner) or
use the given class itself (`collect_fields=False`: `copy.deepcopy` of a class is that class), owner classes, instances, listeners.
Simplified: aliases are mappings (functions: C41), values are compared with `==` (C42), owner classes do not inherit from each other
(C61), callbacks return at once, `psygnal` names and conflicts are C54. -/
namespace Psygnal.Sha

/-- A dict from fields to signal names (`/repo/src/psygnal/_group.py:334-335`); the first entry counts. -/
abbrev Aliases := List (Nat × Option Nat)

/-- A subclass of `SignalGroup` (`/repo/src/psygnal/_group.py:258-261`): `_psygnal_signals` and `_psygnal_aliases`.  `stated` are the
aliases that the class statements give, `base` is its base class, `made` tells that a descriptor made it: for specifications. -/
structure GCls where
  sigs : List Nat
  aliases : Aliases
  stated : Aliases
  base : Option Nat
  made : Bool

/-- `SignalGroupDescriptor(signal_group_class=…, collect_fields=…, signal_aliases=…)` (`/repo/src/psygnal/_group_descriptor.py:515-553`). -/
structure Desc where
  base : Nat
  collect : Bool
  aliases : Aliases

/-- A class with a descriptor: its fields, its group class, if that has been made (`_signal_groups`), and whether its `__setattr__` was
patched `with_aliases` (`/repo/src/psygnal/_group_descriptor.py:553,562-581`). -/
structure Owner where
  desc : Nat
  fields : List Nat
  group : Option (Nat × Bool)

/-- An instance: its class, its attributes, and the signals of its group that have listeners
(`/repo/src/psygnal/_group_descriptor.py:386-402`). -/
structure Obj where
  cls : Nat
  attrs : Nat → Nat
  heard : List Nat

/-- An emission: object, signal, new and old value (`/repo/src/psygnal/_group_descriptor.py:318`). -/
structure Ev where
  obj : Nat
  sig : Nat
  new : Nat
  old : Nat
  deriving DecidableEq

/-- The state: classes, descriptors, instances (`/repo/src/psygnal/_group_descriptor.py:513-583`), and what was emitted (`:318`). -/
structure St where
  classes : List GCls := []
  descs : List Desc := []
  owners : List Owner := []
  objs : List Obj := []
  log : List Ev := []

/-- The signal name for one field, and `_signal_aliases` after that (`/repo/src/psygnal/_group_descriptor.py:206-215`). -/
def resolve (base : GCls) (f : Nat) (sa : Aliases) : Option Nat × Aliases :=
  match sa.lookup f with
  | some r => (r, sa)
  | none => match base.aliases.lookup f with
    | some r => (r, (f, r) :: sa)
    | none => (some f, sa)

/-- The fields of an owner, one after the other (`/repo/src/psygnal/_group_descriptor.py:196-244`): signals made so far, `_signal_aliases`. -/
def collect (base : GCls) : List Nat → List Nat → Aliases → List Nat × Aliases
  | [], sigs, sa => (sigs, sa)
  | f :: fs, sigs, sa => match (resolve base f sa).1 with
    | none => collect base fs sigs (resolve base f sa).2
    | some g =>
      if g ∈ sigs ∨ g ∈ base.sigs then collect base fs sigs (resolve base f sa).2 else collect base fs (sigs ++ [g]) (resolve base f sa).2

/-- `_create_group(owner)` and `_do_patch_setattr` (`/repo/src/psygnal/_group_descriptor.py:562-587,629-655`; the new class:
`/repo/src/psygnal/_group_descriptor.py:246-249`, `/repo/src/psygnal/_group.py:306-335`). -/
def create (s : St) (w : Nat) (ow : Owner) (d : Desc) (b : GCls) : St :=
  if d.collect then
    let r := collect b ow.fields [] d.aliases
    let c : GCls := ⟨b.sigs ++ r.1, r.2 ++ b.aliases, [], some d.base, true⟩
    { s with classes := s.classes ++ [c],
             owners := s.owners.set w { ow with group := some (s.classes.length, !c.aliases.isEmpty) } }
  else
    let c : GCls := { b with aliases := d.aliases ++ b.aliases }
    { s with classes := s.classes.set d.base c, owners := s.owners.set w { ow with group := some (d.base, !c.aliases.isEmpty) } }

/-- `obj.events`: the group class of the owner is made at the first access (`/repo/src/psygnal/_group_descriptor.py:623-627`). -/
def access (s : St) (w : Nat) : St :=
  match s.owners[w]? with
  | none => s
  | some ow => match ow.group with
    | some _ => s
    | none => match s.descs[ow.desc]? with
      | none => s
      | some d => match s.classes[d.base]? with
        | none => s
        | some b => create s w ow d b

/-- The group class of an owner and its flag, once made (`/repo/src/psygnal/_group_descriptor.py:623-627`). -/
def St.groupOf (s : St) (w : Nat) : Option (GCls × Bool) :=
  ((s.owners[w]?).bind Owner.group).bind (fun p => (s.classes[p.1]?).map (fun c => (c, p.2)))

/-- The signal that `_setattr_and_emit_` looks up (`/repo/src/psygnal/_group_descriptor.py:284-303,382-397`). -/
def signalFor (c : GCls) (withAliases : Bool) (f : Nat) : Option Nat :=
  if withAliases then
    match (c.aliases.lookup f).getD (some f) with
    | none => none
    | some g => if g ∈ c.sigs then some g else none
  else if f ∈ c.sigs then some f else none

/-- What a program does (`/repo/src/psygnal/_group_descriptor.py:387,515,595`, `/repo/src/psygnal/_group.py:282`). -/
inductive Op
  | group (base : Option Nat) (sigs : List Nat) (aliases : Aliases)
  | desc (base : Nat) (collect : Bool) (aliases : Aliases)
  | owner (desc : Nat) (fields : List Nat)
  | new (w : Nat)
  | access (o : Nat)
  | connect (o g : Nat)
  | set (o f v : Nat)

/-- A user-written class? (`made`: `/repo/src/psygnal/_group_descriptor.py:246-249`). -/
def St.user (s : St) (k : Nat) : Option GCls := (s.classes[k]?).bind (fun c => if c.made then none else some c)

/-- The effect of `obj.f = v` (`/repo/src/psygnal/_group_descriptor.py:306-318,387-402`).  Before the first access `__setattr__` is not
patched. -/
def assign (s : St) (o f v : Nat) (x : Obj) : St :=
  let s1 := { s with objs := s.objs.set o { x with attrs := fun g => if g = f then v else x.attrs g } }
  match s.groupOf x.cls with
  | none => s1
  | some (c, wa) => match signalFor c wa f with
    | none => s1
    | some g => if g ∈ x.heard ∧ v ≠ x.attrs f then { s1 with log := s1.log ++ [⟨o, g, v, x.attrs f⟩] } else s1

/-- One operation (`/repo/src/psygnal/_group_descriptor.py:387,515,595`, `/repo/src/psygnal/_group.py:282-335`): a `SignalGroup` class
statement, a descriptor, a class that has it, an instance, `obj.events`, `obj.events[g].connect(…)`, `obj.f = v`.  What refers to
something that does not exist does nothing. -/
def step (s : St) : Op → St
  | .group none sigs aliases => { s with classes := s.classes ++ [⟨sigs, aliases, aliases, none, false⟩] }
  | .group (some p) sigs aliases => match s.user p with
    | none => s
    | some c => { s with classes := s.classes ++ [⟨c.sigs ++ sigs, aliases ++ c.aliases, aliases ++ c.stated, some p, false⟩] }
  | .desc base collect aliases => match s.user base with
    | none => s
    | some _ => { s with descs := s.descs ++ [⟨base, collect, aliases⟩] }
  | .owner d fields => if d < s.descs.length then { s with owners := s.owners ++ [⟨d, fields, none⟩] } else s
  | .new w => if w < s.owners.length then { s with objs := s.objs ++ [⟨w, fun _ => 0, []⟩] } else s
  | .access o => match s.objs[o]? with
    | none => s
    | some x => Sha.access s x.cls
  | .connect o g => match s.objs[o]? with
    | none => s
    | some x =>
      let s' := Sha.access s x.cls
      match s'.groupOf x.cls with
      | none => s'
      | some (c, _) => if g ∈ c.sigs then { s' with objs := s'.objs.set o { x with heard := g :: x.heard } } else s'
  | .set o f v => match s.objs[o]? with
    | none => s
    | some x => assign s o f v x

/-- A program (`/repo/src/psygnal/_group_descriptor.py:387,515,595`). -/
def run : List Op → St → St
  | [], s => s
  | o :: os, s => run os (step s o)

end Psygnal.Sha
