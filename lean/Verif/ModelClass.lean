import Verif.EvModel

/-! # Classes of evented models (`EventedMetaclass`, `/repo/src/psygnal/_evented_model.py:199-370`)

Class definitions one after the other.  Simplified: pydantic's `model_fields` and merged `model_config`, and Python's MRO, are
given; a name that a `SignalGroup` cannot have is C54's subject; dicts are lists of pairs with the newest first. -/
namespace Psygnal.MCls

/-- What a class body can bind a name to: a property (which one; has it a setter? the names its getter's code uses), or
something else (`/repo/src/psygnal/_evented_model.py:277-281,364-368`). -/
inductive Attr
  | prop (id : Nat) (setter : Bool) (reads : List Nat)
  | other
  deriving DecidableEq

/-- A property object: which one, and the names its getter's code uses (`/repo/src/psygnal/_evented_model.py:365-368`). -/
structure Prp where
  id : Nat
  reads : List Nat
  deriving DecidableEq

/-- A property with a setter (`/repo/src/psygnal/_evented_model.py:280`). -/
def Attr.settable : Attr → Option Prp
  | .prop id true reads => some ⟨id, reads⟩
  | _ => none

/-- The configuration `reemission` (`/repo/src/psygnal/_evented_model.py:229-244`): one mode, or a mapping.  Valid modes are 0
(immediate), 1 (queued) and 2 (latest-only), `/repo/src/psygnal/_signal.py:193-219`. -/
inductive Reem
  | one (m : Nat)
  | each (l : List (Nat × Nat))

/-- `model_config` (`/repo/src/psygnal/_evented_model.py:229,266,333-335,361`): `allow_property_setters`,
`guess_property_dependencies`, `field_dependencies`, the deprecated `property_dependencies`, `reemission`. -/
structure Conf where
  allow : Bool
  guess : Bool
  deps : List (Nat × List Nat)
  oldDeps : List (Nat × List Nat)
  reem : Reem

/-- The code of a class: is `EventedModel` itself one of its bases? its other bases, what Python finds after it in the MRO, its namespace, pydantic's
`model_fields` (with flag `frozen`) and `model_config` (`/repo/src/psygnal/_evented_model.py:217-227`). -/
structure Decl where
  root : Bool
  bases : List Nat
  mro : List Nat
  ns : List (Nat × Attr)
  fields : List (Nat × Bool)
  conf : Conf

/-- A class: what was written, was it made by `EventedMetaclass`? and what that stored
(`/repo/src/psygnal/_evented_model.py:461-467`): `__property_setters__`, the signals of `__signal_group__` with their modes, `__field_dependents__` as pairs. -/
structure Cls where
  decl : Decl
  evented : Bool
  setters : List (Nat × Prp)
  signals : List (Nat × Nat)
  deps : List (Nat × Nat)

/-- Exceptions of class creation: a base that does not exist, `ValueError`
(`/repo/src/psygnal/_evented_model.py:241-244,289-292,350-353`). -/
inductive Err
  | name
  | reemission
  | allow
  | depends
  deriving DecidableEq

/-- `ReemissionMode.validate` of the configuration (`/repo/src/psygnal/_evented_model.py:232-244`). -/
def Reem.valid : Reem → Bool
  | .one m => m < 3
  | .each l => l.all (fun p => p.2 < 3)

/-- `emission_map.get(n, default_strategy)` (`/repo/src/psygnal/_evented_model.py:230-233,249,282`). -/
def Reem.mode (n : Nat) : Reem → Nat
  | .one m => m
  | .each l => (l.lookup n).getD 2

/-- The properties with setters of the namespace (`/repo/src/psygnal/_evented_model.py:277-281`). -/
def Decl.own (d : Decl) : List (Nat × Prp) := d.ns.filterMap (fun p => p.2.settable.map (fun x => (p.1, x)))

/-- `__property_setters__` of a class, if it is one (`/repo/src/psygnal/_evented_model.py:273-275`). -/
def settersOf (σ : List Cls) (c : Nat) : List (Nat × Prp) := ((σ[c]?).map Cls.setters).getD []

/-- `allow_property_setters` of a base: plain classes have no configuration
(`/repo/src/psygnal/_evented_model.py:286-288`). -/
def allows (σ : List Cls) (c : Nat) : Bool := ((σ[c]?).map (fun x => x.evented && x.decl.conf.allow)).getD false

/-- `cls.__property_setters__` (`/repo/src/psygnal/_evented_model.py:268-281`): bases from the last to the first, then the own
ones, each replacing what was there. -/
def Decl.setters (σ : List Cls) (d : Decl) : List (Nat × Prp) :=
  if d.conf.allow then d.own ++ d.bases.flatMap (settersOf σ) else []

/-- `signals` (`/repo/src/psygnal/_evented_model.py:246-250,282-283`): fields that are not frozen, properties of the namespace. -/
def Decl.signals (d : Decl) : List (Nat × Nat) :=
  (if d.conf.allow then d.own.map (fun p => (p.1, d.conf.reem.mode p.1)) else []) ++
    (d.fields.filter (fun p => !p.2)).map (fun p => (p.1, d.conf.reem.mode p.1))

/-- `cfg_deps` (`/repo/src/psygnal/_evented_model.py:333-335`). -/
def Conf.depends (c : Conf) : List (Nat × List Nat) := if c.deps.isEmpty then c.oldDeps else c.deps

/-- The keys of `setters`, each with the property it stands for (`/repo/src/psygnal/_evented_model.py:365`). -/
def items (l : List (Nat × Prp)) : List (Nat × Prp) := l.filter (fun p => l.lookup p.1 == some p.2)

/-- `_get_field_dependents` (`/repo/src/psygnal/_evented_model.py:331-370`): pairs of a field and what depends on it. -/
def Decl.dependents (σ : List Cls) (d : Decl) : List (Nat × Nat) :=
  d.conf.depends.flatMap (fun p => p.2.map (fun f => (f, p.1))) ++
    if d.conf.guess then (items (d.setters σ)).flatMap (fun p =>
      (p.2.reads.filter (fun n => (d.fields.lookup n).isSome)).map (fun f => (f, p.1))) else []

/-- Is the class made by `EventedMetaclass`? A metaclass is inherited (`/repo/src/psygnal/_evented_model.py:216,373`). -/
def Decl.evented (σ : List Cls) (d : Decl) : Bool := d.root || d.bases.any (fun b => ((σ[b]?).map Cls.evented).getD false)

/-- A class statement: `EventedMetaclass.__new__` (`/repo/src/psygnal/_evented_model.py:216-302`); plain classes are made by
`type`. -/
def mkClass (σ : List Cls) (d : Decl) : Except Err Cls :=
  if (d.bases ++ d.mro).any (fun b => σ.length ≤ b) then .error .name
  else if d.evented σ then
    if d.conf.reem.valid = false then .error .reemission
    else if d.conf.allow = false ∧ d.bases.any (allows σ) then .error .allow
    else if d.conf.depends.all (fun p => (d.fields.lookup p.1).isSome || ((d.setters σ).lookup p.1).isSome) = false then .error .depends
    else .ok ⟨d, true, d.setters σ, d.signals, d.dependents σ⟩
  else .ok ⟨d, false, [], [], []⟩

/-- Class statements one after the other; one that raises defines no class (`/repo/src/psygnal/_evented_model.py:216`). -/
def run : List Decl → List Cls → List Cls
  | [], σ => σ
  | d :: ds, σ => match mkClass σ d with
    | .ok c => run ds (σ ++ [c])
    | .error _ => run ds σ

/-- `getattr(cls, name)` as the MRO says (Python; what `/repo/src/psygnal/_evented_model.py:610-611` should use). -/
def attr (σ : List Cls) (d : Decl) (k : Nat) : Option Attr :=
  ((d.ns.lookup k) :: d.mro.map (fun c => (σ[c]?).bind (fun x => x.decl.ns.lookup k))).findSome? id

/-- The instances of a class (`/repo/src/psygnal/_evented_model.py:294-301,598,610`); `c` says the rest: values, listeners,
setters, callbacks. -/
def Cls.instances (cl : Cls) (c : EM.Cfg) : EM.Cfg :=
  { c with
    sig := fun n => (cl.signals.lookup n).isSome
    isProp := fun n => (cl.setters.lookup n).isSome
    deps := fun n => (cl.deps.filter (fun p => p.1 == n)).map (·.2)
    noDeps := cl.deps.isEmpty }

end Psygnal.MCls
