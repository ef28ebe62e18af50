/-! # Patching `__setattr__` in class hierarchies (`/repo/src/psygnal/_group_descriptor.py:387-405,562-655`)

Classes with descriptors (`SignalGroupDescriptor`, `@evented`) and `__setattr__` methods, their instances, listeners of fields.
Simplified: no aliases (C41), `==` of values is equality (C42), callbacks return at once, one group per object (C50: ids, copies), Python's
MRO is given. -/
namespace Psygnal.Pat

/-- What a `__setattr__` written by the user does: pass the assignment on with `super()`, do it with `object.__setattr__`, or not at all
(the code that `/repo/src/psygnal/_group_descriptor.py:577-581` wraps). -/
inductive Body
  | super
  | direct
  | ignore
  deriving DecidableEq

/-- A function that is the `__setattr__` of some class: that of `object`, one from the body of class `c`, or `_setattr_and_emit_` for the
group called `n`, with the function it wraps (`/repo/src/psygnal/_group_descriptor.py:377-405`). -/
inductive Fn
  | object
  | custom (c : Nat) (b : Body)
  | patched (n : Nat) (inner : Fn)
  deriving DecidableEq

/-- A class: the classes after it in its MRO; its descriptors (names, with `patch_setattr`); the fields that have signals; the
`__setattr__` of its body; its present one, if it has one of its own (`/repo/src/psygnal/_group_descriptor.py:555-581`). -/
structure Cls where
  mro : List Nat
  desc : List (Nat × Bool)
  sigs : List Nat
  body : Option Body
  own : Option Fn

/-- An object: its class, its attributes, and which fields have listeners, in which group
(`/repo/src/psygnal/_group_descriptor.py:386-402`). -/
structure Obj where
  cls : Nat
  attrs : Nat → Nat
  heard : List (Nat × Nat)

/-- An emission: object, group, field, new and old value (`/repo/src/psygnal/_group_descriptor.py:318`). -/
structure Ev where
  obj : Nat
  group : Nat
  field : Nat
  new : Nat
  old : Nat
  deriving DecidableEq

/-- The state: classes, objects, the groups that descriptors have made (class with the descriptor, its name, owner:
`_signal_groups`, `/repo/src/psygnal/_group_descriptor.py:553,623-627`), the emissions. -/
structure St where
  classes : List Cls := []
  objs : List Obj := []
  made : List (Nat × Nat × Nat) := []
  log : List Ev := []

/-- The classes where Python looks for attributes of instances of a class (Python; used at `/repo/src/psygnal/_group_descriptor.py:390,394,399,402`). -/
def St.line (s : St) (t : Nat) : List Nat := t :: ((s.classes[t]?).map Cls.mro).getD []

/-- `cls.__dict__.get("__setattr__")` (`/repo/src/psygnal/_group_descriptor.py:566,577`). -/
def St.own (s : St) (d : Nat) : Option Fn := (s.classes[d]?).bind Cls.own

/-- `owner.__setattr__` (`/repo/src/psygnal/_group_descriptor.py:566,579`). -/
def St.lookup (s : St) (t : Nat) : Fn := ((s.line t).findSome? s.own).getD .object

/-- `PATCHED_BY_PSYGNAL` (`/repo/src/psygnal/_group_descriptor.py:379,404,566`). -/
def Fn.isPatched : Fn → Bool
  | .patched _ _ => true
  | _ => false

/-- The class whose descriptor called `n` Python finds, with its flag `patch_setattr` (Python, `/repo/src/psygnal/_group_descriptor.py:555-560`). -/
def St.desc (s : St) (t n : Nat) : Option (Nat × Bool) :=
  (s.line t).findSome? (fun d => ((s.classes[d]?).bind (fun c => c.desc.lookup n)).map (fun p => (d, p)))

/-- `_do_patch_setattr(owner)` (`/repo/src/psygnal/_group_descriptor.py:562-587`). -/
def patch (s : St) (t n : Nat) : St :=
  if (s.lookup t).isPatched then s
  else { s with classes := s.classes.modify t (fun c => { c with own := some (.patched n (s.lookup t)) }) }

/-- `getattr(obj, n)` for an object of class `t`: `__get__`, `_get_signal_group`, `_create_group`
(`/repo/src/psygnal/_group_descriptor.py:599-655`). -/
def access (s : St) (t n : Nat) : St :=
  match s.desc t n with
  | none => s
  | some (k, p) =>
    if (k, n, t) ∈ s.made then s
    else
      let s' := { s with made := (k, n, t) :: s.made }
      if p then patch s' t n else s'

/-- The value of an attribute (`/repo/src/psygnal/_group_descriptor.py:313,316`). -/
def St.value (s : St) (o f : Nat) : Nat := ((s.objs[o]?).map (fun x => x.attrs f)).getD 0

/-- `object.__setattr__(obj, f, v)` (Python; reached from `/repo/src/psygnal/_group_descriptor.py:390,394,399,402`). -/
def setObj (o f v : Nat) (s : St) : St :=
  { s with objs := s.objs.modify o (fun x => { x with attrs := fun g => if g = f then v else x.attrs g }) }

/-- Has the group of the object a signal for the field that somebody listens to?
(`/repo/src/psygnal/_group_descriptor.py:393-399`). -/
def St.listened (s : St) (o n f : Nat) : Bool :=
  ((s.objs[o]?).map (fun x => decide ((n, f) ∈ x.heard))).getD false

/-- A call of a `__setattr__` (`/repo/src/psygnal/_group_descriptor.py:306-318,387-402`); `sup c` is `super().__setattr__` in a method of class
`c`. -/
def callFn (o f v : Nat) (sup : Nat → St → St) : Fn → St → St
  | .object, s => setObj o f v s
  | .custom c .super, s => sup c s
  | .custom _ .direct, s => setObj o f v s
  | .custom _ .ignore, s => s
  | .patched n inner, s =>
    if f = n then callFn o f v sup inner s
    else
      let s1 := access s (((s.objs[o]?).map Obj.cls).getD 0) n
      if s1.listened o n f then
        let s2 := callFn o f v sup inner s1
        if s1.value o f = s2.value o f then s2
        else { s2 with log := s2.log ++ [⟨o, n, f, s2.value o f, s1.value o f⟩] }
      else callFn o f v sup inner s1

mutual
/-- `__setattr__` found from here in the MRO (Python; `/repo/src/psygnal/_group_descriptor.py:577-581`). -/
def callFrom (o f v : Nat) : List Nat → St → St
  | [], s => setObj o f v s
  | d :: rest, s => match s.own d with
    | none => callFrom o f v rest s
    | some fn => callFn o f v (fun c r => if c = d then callFrom o f v rest r else callAfter o f v rest c r) fn s

/-- `super().__setattr__` in a method of class `c` (Python; `/repo/src/psygnal/_group_descriptor.py:390,394,399,402` call the method found before). -/
def callAfter (o f v : Nat) : List Nat → Nat → St → St
  | [], _, s => setObj o f v s
  | d :: rest, c, s => if c = d then callFrom o f v rest s else callAfter o f v rest c s
end

/-- What a program does (`/repo/src/psygnal/_group_descriptor.py:387,555,595`). -/
inductive Op
  | cls (mro : List Nat) (desc : List (Nat × Bool)) (sigs : List Nat) (body : Option Body)
  | new (c : Nat)
  | access (o n : Nat)
  | connect (o n f : Nat)
  | set (o f v : Nat)

/-- One operation (`/repo/src/psygnal/_group_descriptor.py:387,555,595`): a class statement, an instance, `obj.n`, `obj.n.f.connect(…)`,
`obj.f = v`.  Operations on what does not exist do nothing. -/
def step (s : St) : Op → St
  | .cls mro desc sigs body =>
    if mro.all (· < s.classes.length) then
      { s with classes := s.classes ++ [⟨mro, desc, sigs, body, body.map (.custom s.classes.length)⟩] }
    else s
  | .new c => if c < s.classes.length then { s with objs := s.objs ++ [⟨c, fun _ => 0, []⟩] } else s
  | .access o n => match s.objs[o]? with
    | none => s
    | some x => Pat.access s x.cls n
  | .connect o n f => match s.objs[o]? with
    | none => s
    | some x =>
      let s' := Pat.access s x.cls n
      if (s.desc x.cls n).isSome ∧ ((s.classes[x.cls]?).map (fun c => decide (f ∈ c.sigs))).getD false = true then
        { s' with objs := s'.objs.modify o (fun y => { y with heard := (n, f) :: y.heard }) }
      else s'
  | .set o f v => match s.objs[o]? with
    | none => s
    | some x => callFrom o f v (s.line x.cls) s

/-- A program (`/repo/src/psygnal/_group_descriptor.py:387,555,595`). -/
def run : List Op → St → St
  | [], s => s
  | o :: os, s => run os (step s o)

end Psygnal.Pat
