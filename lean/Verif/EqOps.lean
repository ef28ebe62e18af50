import Verif.Dataclass

/-!
# Which operator compares the values of a field

Classes that inherit from each other, their dicts `__eq_operators__` and the global dict `_EQ_OPERATORS`
(`/repo/src/psygnal/_group_descriptor.py:43-57`), the descriptors that fill them when the first group of a class is made, and the comparisons that use
and change them.  One comparison is that of C42 (`DC.checkEq`).  Simplified: classes are not collected (then: C50), operators are callable, attributes
can be read without exceptions other than `AttributeError`, and comparing values does not itself compare fields.
-/
namespace Psygnal.EqO

open Psygnal.DC (Op Val EqMap Ty Field Env pickOp checkEq)

/-- A class: the others in its MRO, its own `__eq_operators__`, and what `iter_fields` yields
(`/repo/src/psygnal/_group_descriptor.py:52-55,198`, `/repo/src/psygnal/_dataclass_utils.py:141-190`). -/
structure Cls where
  bases : List Nat
  attr : Option (List (Nat × Op))
  fields : List Field

/-- A `SignalGroupDescriptor` (`/repo/src/psygnal/_group_descriptor.py:515-553`): its `equality_operators` and `collect_fields`. -/
structure Desc where
  custom : Nat → Option Op
  collect : Bool

/-- The classes and descriptors of a program, and its values (`/repo/src/psygnal/_group_descriptor.py:50-132,511`). -/
structure Prg where
  env : Env
  cls : Nat → Cls
  desc : Nat → Desc

/-- `cls.__eq_operators__` as `EventedMetaclass` makes it (`/repo/src/psygnal/_evented_model.py:223,246-247`). -/
def modelAttr (numpy : Bool) (fs : List Field) : List (Nat × Op) := fs.map fun f => (f.name, pickOp numpy f.type)

/-- Where a dict of operators is kept: attribute of a class, or entry of `_EQ_OPERATORS` (`/repo/src/psygnal/_group_descriptor.py:54-57`). -/
inductive Loc
  | attr (c : Nat)
  | entry (c : Nat)
  deriving DecidableEq, Repr

/-- A dict of operators, and its keys in the order of the dict (`/repo/src/psygnal/_group_descriptor.py:50`). -/
structure D where
  ops : EqMap
  keys : List Nat

/-- After `d[name]` has been set (`/repo/src/psygnal/_group_descriptor.py:95,112,118,202-204`). -/
def D.put (d : D) (name : Nat) (m : EqMap) : D := ⟨m, if name ∈ d.keys then d.keys else d.keys ++ [name]⟩

/-- `_get_eq_operator_map(cls)` (`/repo/src/psygnal/_group_descriptor.py:50-57`): `hasattr` and `getattr` look along the MRO. -/
def Prg.loc (p : Prg) (c : Nat) : Loc :=
  match (c :: (p.cls c).bases).find? (fun b => (p.cls b).attr.isSome) with
  | some b => .attr b
  | none => .entry c

/-- The dicts, and the groups that descriptors have made (`_signal_groups`; descriptor, class) (`/repo/src/psygnal/_group_descriptor.py:43,553`). -/
structure St where
  dicts : Loc → D
  built : List (Nat × Nat)

/-- The entries of a dict display (`/repo/src/psygnal/_group_descriptor.py:55`). -/
def D.ofList (l : List (Nat × Op)) : D := l.foldl (fun d e => d.put e.1 (d.ops.set e.1 e.2)) ⟨fun _ => none, []⟩

/-- Before any group is made: the attributes as written, nothing in `_EQ_OPERATORS` (`/repo/src/psygnal/_group_descriptor.py:43-44`). -/
def Prg.init (p : Prg) : St where
  dicts := fun
    | .attr c => D.ofList ((p.cls c).attr.getD [])
    | .entry _ => ⟨fun _ => none, []⟩
  built := []

/-- One dict is replaced (`/repo/src/psygnal/_group_descriptor.py:57`). -/
def St.set (σ : St) (l : Loc) (d : D) : St := { σ with dicts := fun k => if k = l then d else σ.dicts k }

/-- What happens: `obj.events` for an object of class `c` through descriptor `d` (`/repo/src/psygnal/_group_descriptor.py:595-627`); an attribute is
assigned and someone listens (`:391-402`); an `EventedModel` compares a field or property after an assignment
(`/repo/src/psygnal/_evented_model.py:573,584,634`); two models, the first of class `c`, are compared (`:498-516`; the attributes they have). -/
inductive Ev
  | access (d c : Nat)
  | assign (d c name : Nat) (before after : Val)
  | compare (c name : Nat) (before after : Val)
  | same (c : Nat) (a b : Nat → Option Val)

/-- What one sees: the answers of comparisons, of fields and of models (`/repo/src/psygnal/_group_descriptor.py:317`, `/repo/src/psygnal/_evented_model.py:514-516`). -/
inductive Out
  | cmp (c name : Nat) (before after : Val) (r : Except Unit Bool)
  | same (c : Nat) (r : Except Unit Bool)

/-- The loop over the fields in `_build_dataclass_signal_group` (`/repo/src/psygnal/_group_descriptor.py:198-204`). -/
def fill (numpy : Bool) (custom : Nat → Option Op) (fs : List Field) (d : D) : D :=
  fs.foldl (fun d f => d.put f.name (d.ops.set f.name ((custom f.name).getD (pickOp numpy f.type)))) d

/-- `_get_signal_group(owner)` and `_create_group` (`/repo/src/psygnal/_group_descriptor.py:623-655`). -/
def Prg.access (p : Prg) (d c : Nat) (σ : St) : St :=
  if (d, c) ∈ σ.built then σ
  else
    let σ := { σ with built := (d, c) :: σ.built }
    if (p.desc d).collect then σ.set (p.loc c) (fill p.env.numpy (p.desc d).custom (p.cls c).fields (σ.dicts (p.loc c))) else σ

/-- `_check_field_equality(cls, name, before, after)` (`/repo/src/psygnal/_group_descriptor.py:60-119`). -/
def Prg.check (p : Prg) (c name : Nat) (before after : Val) (σ : St) : Except Unit Bool × St :=
  let d := σ.dicts (p.loc c)
  let r := checkEq p.env d.ops name before after
  (r.1, σ.set (p.loc c) (if before = .null then d else d.put name r.2))

/-- The loop of `EventedModel.__eq__` (`/repo/src/psygnal/_evented_model.py:509-516`). -/
def Prg.same (p : Prg) (c : Nat) (a b : Nat → Option Val) : List Nat → St → List Out × Except Unit Bool × St
  | [], σ => ([], .ok true, σ)
  | n :: ns, σ =>
    match a n, b n with
    | some x, some y =>
      match p.check c n x y σ with
      | (.ok true, σ') =>
        let r := p.same c a b ns σ'
        (.cmp c n x y (.ok true) :: r.1, r.2)
      | (r, σ') => ([.cmp c n x y r], r, σ')
    | _, _ => ([], .ok false, σ)

/-- One event (`/repo/src/psygnal/_group_descriptor.py:391-402,595-655`, `/repo/src/psygnal/_evented_model.py:498-516,573,584,634`). -/
def Prg.step (p : Prg) (σ : St) : Ev → List Out × St
  | .access d c => ([], p.access d c σ)
  | .assign d c name before after =>
    let r := p.check c name before after (p.access d c σ)
    ([.cmp c name before after r.1], r.2)
  | .compare c name before after =>
    let r := p.check c name before after σ
    ([.cmp c name before after r.1], r.2)
  | .same c a b =>
    let r := p.same c a b (σ.dicts (p.loc c)).keys σ
    (r.1 ++ [.same c r.2.1], r.2.2)

/-- A history: what one sees, and the state afterwards (`/repo/src/psygnal/_group_descriptor.py:391-402`). -/
def Prg.run (p : Prg) : List Ev → St → List Out × St
  | [], σ => ([], σ)
  | e :: es, σ =>
    let r := p.step σ e
    let q := p.run es r.2
    (r.1 ++ q.1, q.2)

end Psygnal.EqO
