/-! # `EventedModel.update`, `reset` and `==` (`/repo/src/psygnal/_evented_model.py:107-132,498-555`)

Models are trees: fields hold models or other values.  Simplified: no object is at two places; no properties and no field
dependencies (see `EvModel.lean`); fields are compared with `==`; pydantic assigns without validation (its default); callbacks only
listen; every signal has a listener. -/
namespace Psygnal.Upd

mutual
/-- Values: `None`, pydantic's marker for "no default", anything that is neither a dict nor a model, a dict, the
`EventedModel` number `i` of class `c` (`/repo/src/psygnal/_evented_model.py:373`). -/
inductive Val
  | none
  | undef
  | atom (x : Nat)
  | dict (fs : Flds)
  | model (i c : Nat) (fs : Flds)
/-- Names with values, in order: a dict, or the fields of a model (pydantic's `__dict__`, used at
`/repo/src/psygnal/_evented_model.py:541`). -/
inductive Flds
  | nil
  | cons (n : Nat) (v : Val) (fs : Flds)
end

mutual
/-- Are they the same? (For examples; like comparing `model_dump()`s and identities, `/repo/src/psygnal/_evented_model.py:131`.) -/
def Val.beq : Val → Val → Bool
  | .none, .none => true
  | .undef, .undef => true
  | .atom x, .atom y => x == y
  | .dict fs, .dict gs => fs.beq gs
  | .model i c fs, .model j d gs => i == j && c == d && fs.beq gs
  | _, _ => false
/-- See `Val.beq` (`/repo/src/psygnal/_evented_model.py:131`). -/
def Flds.beq : Flds → Flds → Bool
  | .nil, .nil => true
  | .cons n v fs, .cons m w gs => n == m && v.beq w && fs.beq gs
  | _, _ => false
end

/-- `getattr(self, key)` of a field, `d[key]` of a dict (`/repo/src/psygnal/_evented_model.py:541`). -/
def Flds.get (k : Nat) : Flds → Option Val
  | .nil => Option.none
  | .cons n v fs => if n = k then some v else fs.get k

/-- pydantic's `__setattr__` of an existing field (`/repo/src/psygnal/_evented_model.py:616`). -/
def Flds.set (k : Nat) (x : Val) : Flds → Flds
  | .nil => .nil
  | .cons n v fs => if n = k then .cons n x fs else .cons n v (fs.set k x)

/-- The names of fields (`/repo/src/psygnal/_evented_model.py:540`). -/
def Flds.names : Flds → List Nat
  | .nil => []
  | .cons n _ fs => n :: fs.names

mutual
/-- `_model_dump` (`/repo/src/psygnal/_evented_model.py:131-132`): models become dicts, at all depths. -/
def Val.dump : Val → Val
  | .dict fs => .dict fs.dump
  | .model _ _ fs => .dict fs.dump
  | v => v
/-- `_model_dump` of the fields (`/repo/src/psygnal/_evented_model.py:131-132`). -/
def Flds.dump : Flds → Flds
  | .nil => .nil
  | .cons n v fs => .cons n v.dump fs.dump
end

mutual
/-- How deep models are nested (for the recursion of `/repo/src/psygnal/_evented_model.py:498-516`). -/
def Val.depth : Val → Nat
  | .dict fs => fs.depth + 1
  | .model _ _ fs => fs.depth + 1
  | _ => 0
/-- See `Val.depth` (`/repo/src/psygnal/_evented_model.py:498-516`). -/
def Flds.depth : Flds → Nat
  | .nil => 0
  | .cons _ v fs => max v.depth fs.depth
end

/-- The default of a field (pydantic's `FieldInfo`, used at `/repo/src/psygnal/_evented_model.py:114-115`): none, a value, what a
`default_factory` returns. -/
inductive Dflt
  | required
  | value (v : Val)
  | factory (v : Val)

/-- A field of a class: name, default, the class if the annotation is a model class (`:116-121`), is it frozen? (`:554`) -/
structure Decl where
  name : Nat
  dflt : Dflt
  ann : Option Nat
  frozen : Bool

/-- The fields of classes, frozen classes (`/repo/src/psygnal/_evented_model.py:554`), `==` of values that are no models. -/
structure Env where
  decls : Nat → List Decl
  frozen : Nat → Bool
  eq : Val → Val → Bool

/-- The declaration of a field (`model_fields[name]`, `/repo/src/psygnal/_evented_model.py:554`). -/
def Env.decl (e : Env) (c k : Nat) : Option Decl := (e.decls c).find? (fun d => d.name == k)

/-- Can pydantic assign the field? (`/repo/src/psygnal/_evented_model.py:554`.) -/
def Env.fixed (e : Env) (c k : Nat) : Bool := e.frozen c || ((e.decl c k).map Decl.frozen).getD false

/-- The loop over the fields (`/repo/src/psygnal/_evented_model.py:509-515`): the fields `fs` of the left model decide; their
values are compared the other way round (`/repo/src/psygnal/_group_descriptor.py:98`). -/
def feq (eq : Val → Val → Bool) (gs : Flds) : Flds → Bool
  | .nil => true
  | .cons k a fs =>
    match gs.get k with
    | Option.none => false
    | some b => eq b a && feq eq gs fs

/-- `a == b` (`/repo/src/psygnal/_evented_model.py:498-516`), models nested at most `n` deep.  A model is compared with something
else by its dump (`:506-507`). -/
def veq (e : Env) : Nat → Val → Val → Bool
  | 0, a, b => e.eq a b
  | n + 1, .model _ _ fs, .model _ _ gs => feq (veq e n) gs fs
  | _ + 1, .model _ _ fs, b => e.eq (.dict fs.dump) b
  | _ + 1, a, .model _ _ gs => e.eq (.dict gs.dump) a
  | _ + 1, a, b => e.eq a b

/-- `a == b` (`/repo/src/psygnal/_evented_model.py:498-516`). -/
def pyeq (e : Env) (a b : Val) : Bool := veq e (a.depth + b.depth) a b

/-- What listeners of a field's signal and of the group are told: field `k` of model `i` is now `v`; `seen` is what the
fields of the model are at that time.  (The pausing of the relay at `/repo/src/psygnal/_evented_model.py:539` holds nothing
back, see C21: `/repo/src/psygnal/_group.py:97-100` does not look at it.) -/
structure Ev where
  i : Nat
  k : Nat
  v : Val
  seen : Flds

/-- `AttributeError` (`/repo/src/psygnal/_evented_model.py:541,553`), pydantic's `ValidationError` for frozen fields (`:545`),
`TypeError` (`:536-537`), `RecursionError` (`:121`). -/
inductive Err
  | attr
  | frozen
  | type
  | recursion
  deriving DecidableEq

/-- Fields afterwards, what happened, the exception if one was raised (`/repo/src/psygnal/_evented_model.py:518,547`). -/
structure Res where
  fs : Flds
  log : List Ev
  err : Option Err

/-- `setattr(self, key, value)` (`/repo/src/psygnal/_evented_model.py:594-616,626-635`). -/
def assign (e : Env) (i c : Nat) (k : Nat) (old v : Val) (fs : Flds) : Res :=
  if e.fixed c k then ⟨fs, [], some .frozen⟩
  else if pyeq e old v then ⟨fs.set k v, [], Option.none⟩
  else ⟨fs.set k v, [⟨i, k, v, fs.set k v⟩], Option.none⟩

mutual
/-- `update(values, recurse)` on model `i` (`/repo/src/psygnal/_evented_model.py:518-545`).  `d`: the values are what
`_model_dump` gives for those here. -/
def upd (e : Env) (r : Bool) (d : Bool) (i c : Nat) (fs : Flds) : Val → Res
  | .dict vs => loop e r d i c vs fs
  | .model _ _ vs => loop e r true i c vs fs
  | _ => ⟨fs, [], some .type⟩
/-- The loop over the values (`/repo/src/psygnal/_evented_model.py:540-545`). -/
def loop (e : Env) (r : Bool) (d : Bool) (i c : Nat) : Flds → Flds → Res
  | .nil, fs => ⟨fs, [], Option.none⟩
  | .cons k v vs, fs =>
    match fs.get k with
    | Option.none => ⟨fs, [], some .attr⟩
    | some old =>
      let a : Res :=
        match old, r with
        | .model j c' gs, true =>
          let u := upd e r d j c' gs v
          ⟨fs.set k (.model j c' u.fs), u.log, u.err⟩
        | _, _ => assign e i c k old (if d then v.dump else v) fs
      match a.err with
      | some x => ⟨a.fs, a.log, some x⟩
      | Option.none =>
        let b := loop e r d i c vs a.fs
        ⟨b.fs, a.log ++ b.log, b.err⟩
end

/-- `model.update(values, recurse)` (`/repo/src/psygnal/_evented_model.py:518-545`). -/
def update (e : Env) (r : Bool) (i c : Nat) (fs : Flds) (v : Val) : Res := upd e r false i c fs v

/-- `_get_defaults` (`/repo/src/psygnal/_evented_model.py:109-123`) of a field: a factory is not called, a field without default
gives pydantic's marker; `None` becomes the dict of defaults of the annotated class, within `n` nested calls. -/
def default (e : Env) : Nat → Decl → Option Val
  | 0, _ => Option.none
  | n + 1, d =>
    let x : Val := match d.dflt with
      | .required => .undef
      | .value v => v
      | .factory _ => .none
    match x, d.ann with
    | .none, some c => ((e.decls c).foldr (fun d acc =>
        match acc, default e n d with
        | some fs, some v => some (.cons d.name v fs)
        | _, _ => Option.none) (some .nil)).map .dict
    | x, _ => some x

mutual
/-- `reset()` (`/repo/src/psygnal/_evented_model.py:547-555`) of a value: `AttributeError` if it is not a model (`:553`).  All
defaults are computed first (`:551`); `n` is the recursion limit. -/
def resetV (e : Env) (n : Nat) : Val → Val × List Ev × Option Err
  | .model i c fs =>
    if (e.decls c).all (fun d => (default e n d).isSome) then
      let r := resetF e n i c fs fs
      (.model i c r.fs, r.log, r.err)
    else (.model i c fs, [], some .recursion)
  | v => (v, [], some .attr)
/-- The loop of `reset()` (`/repo/src/psygnal/_evented_model.py:551-555`) over the fields, which are in the order of the class. -/
def resetF (e : Env) (n : Nat) (i c : Nat) : Flds → Flds → Res
  | .nil, fs => ⟨fs, [], Option.none⟩
  | .cons k old gs, fs =>
    let a : Res :=
      match (e.decl c k).bind (default e n) with
      | Option.none => ⟨fs, [], Option.none⟩
      | some (.model _ _ _) => let u := resetV e n old; ⟨fs.set k u.1, u.2.1, u.2.2⟩
      | some v => if e.fixed c k then ⟨fs, [], Option.none⟩ else assign e i c k old v fs
    match a.err with
    | some x => ⟨a.fs, a.log, some x⟩
    | Option.none =>
      let b := resetF e n i c gs a.fs
      ⟨b.fs, a.log ++ b.log, b.err⟩
end

/-- The fields of `Class(**given)` (pydantic; `/repo/src/psygnal/_evented_model.py:480-486`). -/
def fresh (e : Env) (c : Nat) (given : Nat → Val) : Flds :=
  (e.decls c).foldr (fun d fs => .cons d.name (match d.dflt with
    | .required => given d.name
    | .value v => v
    | .factory v => v) fs) .nil

end Psygnal.Upd
