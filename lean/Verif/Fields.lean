import Verif.Dataclass
/-!
# The fields of evented classes

A model of `/repo/src/psygnal/_dataclass_utils.py:iter_fields`, of the decorator `evented`
(`/repo/src/psygnal/_evented_decorator.py`) and of `is_evented` and `get_evented_namespace`
(`/repo/src/psygnal/_group_descriptor.py`).  A class is given by the chain of its bases, each with
the library that made it and its annotations; names are numbers.  What the libraries store on the
class (`__dataclass_fields__`, `model_fields`, `__attrs_attrs__`, `__struct_fields__`) is modelled
after their documentation.  Multiple inheritance is left out, and so are pydantic's private
attributes.
-/
namespace Psygnal.Flds

/-- How a class was made: by `class` alone, `dataclasses` (or `pydantic.dataclasses`), pydantic,
attrs, msgspec (`/repo/src/psygnal/_dataclass_utils.py:163-189`). -/
inductive Lib
  | plain
  | dc
  | pyd
  | attrs
  | msg
  deriving DecidableEq, Repr

/-- What is annotated: an attribute of instances, `ClassVar`, or `InitVar` (`dataclasses` has
`_FIELD`, `_FIELD_CLASSVAR`, `_FIELD_INITVAR`, `/repo/src/psygnal/_dataclass_utils.py:165`). -/
inductive Kind
  | field
  | classVar
  | initVar
  deriving DecidableEq, Repr

/-- An annotation in the body of a class.  `frozen`: the field itself is declared frozen
(`/repo/src/psygnal/_dataclass_utils.py:172,176`). -/
structure Decl where
  name : Nat
  type : DC.Ty
  kind : Kind
  frozen : Bool
  deriving DecidableEq, Repr

/-- One class of the chain: how it was made, `cls.__dict__["__annotations__"]`
(`/repo/src/psygnal/_dataclass_utils.py:187`), and the attributes that are assigned to it, in
order, by its body or by decorators, with whether the value is a `SignalGroupDescriptor`
(`/repo/src/psygnal/_group_descriptor.py:555-560`).  `frozen`: what `is_frozen` tells of it
(`/repo/src/psygnal/_dataclass_utils.py:110-138`), a function that is not used. -/
structure Layer where
  lib : Lib
  decls : List Decl
  attrs : List (Nat × Bool)
  frozen : Bool
  deriving DecidableEq, Repr

/-- A class with its bases, the base first: `cls.__mro__` reversed
(`/repo/src/psygnal/_dataclass_utils.py:163,169,180,185` look there). -/
abbrev Cls := List Layer

/-- `d[x.name] = x` in a dict (`__dataclass_fields__`, `model_fields`,
`/repo/src/psygnal/_dataclass_utils.py:164,171`). -/
def put (l : List Decl) (d : Decl) : List Decl :=
  if l.any (·.name = d.name) then l.map (fun x => if x.name = d.name then d else x) else l ++ [d]

/-- `__dataclass_fields__` of a class: the entries of the base, then all annotations, also those
that are not fields (`/repo/src/psygnal/_dataclass_utils.py:163-165`). -/
def dcOwn (base ds : List Decl) : List Decl := ds.foldl put base

/-- `model_fields` of a pydantic model (`/repo/src/psygnal/_dataclass_utils.py:170-172`; `__fields__`
of version 1, `:175`, likewise). -/
def pydOwn (base ds : List Decl) : List Decl := (ds.filter (·.kind ≠ .classVar)).foldl put base

/-- `__attrs_attrs__` and `__struct_fields__`: what is not declared again of the base, then the own
fields (`/repo/src/psygnal/_dataclass_utils.py:180-181,186`). -/
def seqOwn (base ds : List Decl) : List Decl :=
  base.filter (fun d => !(ds.filter (·.kind ≠ .classVar)).any (·.name = d.name)) ++
    ds.filter (·.kind ≠ .classVar)

/-- What a library stores on the class: the nearest class it made, found by `getattr`, extends
what its bases have (`/repo/src/psygnal/_dataclass_utils.py:163,169-170,180,185-186`). -/
def collect (mine : Lib) (own : List Decl → List Decl → List Decl) (c : Cls) : Option (List Decl) :=
  c.foldl (fun acc l => if l.lib = mine then some (own (acc.getD []) l.decls) else acc) none

/-- `cls.__annotations__.get(name, None)`: only the annotations of the class itself
(`/repo/src/psygnal/_dataclass_utils.py:187`; Python 3.10 and later). -/
def ownType (c : Cls) (name : Nat) : Option DC.Ty :=
  match c.getLast? with
  | none => none
  | some l => (l.decls.find? (·.name = name)).map (·.type)

/-- `iter_fields` (`/repo/src/psygnal/_dataclass_utils.py:141-189`). -/
def iterFields (c : Cls) (excludeFrozen : Bool) : List (Nat × Option DC.Ty) :=
  match collect .dc dcOwn c with
  | some fs => (fs.filter (·.kind = .field)).map fun d => (d.name, some d.type)
  | none => match collect .pyd pydOwn c with
    | some fs => (fs.filter fun d => !d.frozen || !excludeFrozen).map fun d => (d.name, some d.type)
    | none => match collect .attrs seqOwn c with
      | some fs => fs.map fun d => (d.name, some d.type)
      | none => match collect .msg seqOwn c with
        | some fs => fs.map fun d => (d.name, ownType c d.name)
        | none => []

/-- The fields as `_build_dataclass_signal_group` uses them: `None` has neither `__array__` nor a
module of dask (`/repo/src/psygnal/_group_descriptor.py:122-132,198-204`). -/
def fields (c : Cls) : List DC.Field :=
  (iterFields c true).map fun f => ⟨f.1, f.2.getD ⟨false, false⟩⟩

/-- `evented` applied to a class: `none` for the `TypeError`.  `reserved`: the name starts with
`_psygnal`; `ns` is `events_namespace`
(`/repo/src/psygnal/_evented_decorator.py:123-138`, `/repo/src/psygnal/_group_descriptor.py:555-560`). -/
def evented (reserved : Nat → Bool) (ns : Nat) (c : Cls) : Option Cls :=
  match c.getLast? with
  | none => none
  | some l =>
    if l.decls.any (fun d => reserved d.name) then none
    else some (c.dropLast ++ [{ l with attrs := l.attrs ++ [(ns, true)] }])

/-- `setattr(owner, "_psygnal_group_", name)` for each descriptor: what the own dict of a class holds
under that name (`/repo/src/psygnal/_group_descriptor.py:557-560`). -/
def Layer.flag (l : Layer) : Option Nat := (l.attrs.reverse.find? (·.2)).map (·.1)

/-- `get_evented_namespace(cls)`: `getattr(cls, "_psygnal_group_", None)`
(`/repo/src/psygnal/_group_descriptor.py:260-281`). -/
def namespace? (c : Cls) : Option Nat := c.reverse.findSome? Layer.flag

/-- `is_evented(cls)`; the second flag is found on patched `__setattr__` methods only
(`/repo/src/psygnal/_group_descriptor.py:252-257`). -/
def isEvented (c : Cls) : Bool := (namespace? c).isSome

/-- `getattr(cls, name)`: `some true` for a `SignalGroupDescriptor`
(`/repo/src/psygnal/_group_descriptor.py:263-265`). -/
def lookup (c : Cls) (name : Nat) : Option Bool :=
  c.reverse.findSome? fun l => (l.attrs.reverse.find? (·.1 = name)).map (·.2)

end Psygnal.Flds
