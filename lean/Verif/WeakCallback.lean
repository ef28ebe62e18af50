import Verif.Py

/-!
# Weak callbacks: construction, calling, identity

A model of `/repo/src/psygnal/_weak_callback.py`.  Every Python object is an `ObjId`.
Calling a callable does not run user code here: it yields an `Act`, the call that
Python performs.  Liveness of objects is a parameter of `cb`.
-/
namespace Psygnal.WC

/-- An object, by its identity (`id(obj)`, `/repo/src/psygnal/_weak_callback.py:286,293`). -/
abbrev ObjId := Nat

/-- A `**kwargs` dict in insertion order (`/repo/src/psygnal/_weak_callback.py:121-125`). -/
abbrev Kw := List (String × ObjId)

/-- `d[k] = v` on a kwargs dict (built-in `dict`; `_weak_callback.py:358,362`). -/
def Kw.put : Kw → String → ObjId → Kw
  | [], k, v => [(k, v)]
  | p :: d, k, v => if p.1 = k then (k, v) :: d else p :: Kw.put d k v

/-- `{**a, **b}` as done by `functools.partial.__call__`
(trusted built-in; see `_weak_callback.py:358,401,454`). -/
def Kw.update (a b : Kw) : Kw := b.foldl (fun d p => Kw.put d p.1 p.2) a

/-- The kinds of callable distinguished by `weak_callback`
(`/repo/src/psygnal/_weak_callback.py:118-193`): `func` a `FunctionType`, `method` a
`MethodType` with `__self__` and `__func__`, `builtin` a method-wrapper or built-in
method with `__self__`, `__name__` and its C implementation, `setattr` the built-in
function itself, `obj` any other callable object, `part` a `functools.partial`
object, `curry` a `toolz.curry` object with the contents of its `_partial`. -/
inductive Callable
  | func (f : ObjId)
  | method (self f : ObjId)
  | builtin (self : ObjId) (name : String) (impl : ObjId)
  | setattr
  | obj (o : ObjId)
  | part (p : ObjId) (c : Callable) (args : List ObjId) (kw : Kw)
  | curry (p : ObjId) (c : Callable) (args : List ObjId) (kw : Kw)
  deriving DecidableEq, Repr

/-- A value passed in a call: an object, or a tuple packed by the callback
(`/repo/src/psygnal/_weak_callback.py:539,578`). -/
inductive Arg
  | one (v : ObjId)
  | tuple (vs : List ObjId)
  deriving DecidableEq, Repr

/-- The call that is finally performed: a function, C function or callable object `f`
called with arguments, or an attribute assignment
(`/repo/src/psygnal/_weak_callback.py:358,401,454,502-505,539,578`). -/
inductive Act
  | call (f : ObjId) (args : List Arg) (kw : Kw)
  | setattr (o attr : ObjId) (v : Arg)
  deriving DecidableEq, Repr

/-- Exceptions raised here (`/repo/src/psygnal/_weak_callback.py:141,154,175,193,239,398`;
`value` is what unpacking too few values raises at `:160`). -/
inductive Err
  | reference | type | value | notImplemented
  deriving DecidableEq, Repr

/-- What the callbacks ask the interpreter: `id()`, `__module__`, `__name__`
(`_weak_callback.py:286-295`), `repr` (`:524,563`), whether `weakref.ref` works
(`:257`), `getattr` (`:499`), `type(o).__setitem__` (`:578`), `None`, and the
`builtins` module, which is the `__self__` of `setattr`. -/
structure Env where
  addr : ObjId → Nat
  module : ObjId → String
  name : ObjId → String
  typeName : ObjId → String
  typeModule : ObjId → String
  repr : ObjId → List Char
  weakrefable : ObjId → Bool
  attr : ObjId → String → Option Callable
  setitem : ObjId → ObjId
  none : ObjId
  builtins : ObjId

/-- Python's own semantics of `c(*args, **kw)`
(trusted built-in; called at `/repo/src/psygnal/_weak_callback.py:358,401,454,502-505`). -/
def invoke : Callable → List ObjId → Kw → Except Err Act
  | .func f, args, kw => .ok (.call f (args.map .one) kw)
  | .obj o, args, kw => .ok (.call o (args.map .one) kw)
  | .method o f, args, kw => .ok (.call f (.one o :: args.map .one) kw)
  | .builtin o _ impl, args, kw => .ok (.call impl (.one o :: args.map .one) kw)
  | .setattr, [o, a, v], [] => .ok (.setattr o a (.one v))
  | .setattr, _, _ => .error .type
  | .part _ c a k, args, kw => invoke c (a ++ args) (k.update kw)
  | .curry _ c a k, args, kw => invoke c (a ++ args) (k.update kw)

/-- `on_ref_error` (`/repo/src/psygnal/_weak_callback.py:25,44`). -/
inductive OnRefError
  | raise | warn | ignore
  deriving DecidableEq, Repr

/-- The result of `_try_ref`: a `weakref.ref`, or a closure with a strong reference
(`/repo/src/psygnal/_weak_callback.py:250-271`). -/
inductive Ref
  | weak (o : ObjId)
  | strong (o : ObjId)
  deriving DecidableEq, Repr

/-- `_try_ref` (`/repo/src/psygnal/_weak_callback.py:250-271`). The warning is not
modelled; `TypeError` is what `weakref.ref` raises. -/
def tryRef (env : Env) (onErr : OnRefError) (o : ObjId) : Except Err Ref :=
  if env.weakrefable o then .ok (.weak o)
  else if onErr = .raise then .error .type
  else .ok (.strong o)

/-- Calling the reference (`/repo/src/psygnal/_weak_callback.py:396,447,499,534,573`). -/
def Ref.deref (alive : ObjId → Bool) : Ref → Option ObjId
  | .weak o => if alive o then some o else none
  | .strong o => some o

/-- The part that differs between the `WeakCallback` classes: `strong` `StrongFunction`
(`/repo/src/psygnal/_weak_callback.py:335-371`), `weakFunc` `WeakFunction` (`:374-409`;
`c` is the callable that the reference leads to), `method` `WeakMethod` (`:412-464`),
`builtin` `WeakBuiltin` (`:467-508`), `setattr` `WeakSetattr` (`:511-543`), `setitem`
`WeakSetitem` (`:550-582`). -/
inductive Kind
  | strong (f : ObjId) (args : List ObjId) (kw : Kw)
  | weakFunc (r : Ref) (c : Callable) (args : List ObjId) (kw : Kw)
  | method (obj func : Ref) (args : List ObjId) (kw : Kw)
  | builtin (obj : Ref) (name : String) (args : List ObjId)
  | setattr (obj : Ref) (attr : ObjId)
  | setitem (obj : Ref) (key : ObjId)
  deriving DecidableEq, Repr

/-- A `WeakCallback` (`/repo/src/psygnal/_weak_callback.py:211-226`).  `_alive`, the
module, qualified name and repr kept for messages are not modelled. -/
structure WeakCb where
  key : List Char
  maxArgs : Option Nat
  priority : Int
  kind : Kind
  deriving DecidableEq, Repr

/-- The object whose identity is that of a callable without `__self__`
(`id(obj)`, `/repo/src/psygnal/_weak_callback.py:293`); `setattr` has a `__self__`. -/
def Callable.ident (env : Env) : Callable → ObjId
  | .func f => f
  | .method o _ => o
  | .builtin o _ _ => o
  | .setattr => env.builtins
  | .obj o => o
  | .part p _ _ _ => p
  | .curry p _ _ _ => p

/-- The string `f"{module}:{obj_name}@{hex(obj_id)}"`
(`/repo/src/psygnal/_weak_callback.py:296`). -/
def fmt (module objName : List Char) (id : Nat) : List Char :=
  module ++ ':' :: (objName ++ '@' :: '0' :: 'x' :: Nat.toDigits 16 id)

/-- `object_key` of an object without `__self__`
(`/repo/src/psygnal/_weak_callback.py:292-296`). -/
def plainKey (env : Env) (o : ObjId) : List Char :=
  fmt (env.module o).toList (env.name o).toList (env.addr o)

/-- `object_key` of an object with `__self__`
(`/repo/src/psygnal/_weak_callback.py:284-291`). -/
def boundKey (env : Env) (self : ObjId) (name : String) : List Char :=
  fmt (env.typeModule self).toList ((env.typeName self).toList ++ '.' :: name.toList)
    (env.addr self)

/-- `object_key` (`/repo/src/psygnal/_weak_callback.py:276-296`).  The `__name__` of a
method is that of its function.  Objects that merely define `__self__` are not modelled. -/
def objectKey (env : Env) : Callable → List Char
  | .method o f => boundKey env o (env.name f)
  | .builtin o n _ => boundKey env o n
  | .setattr => boundKey env env.builtins "setattr"
  | c => plainKey env (c.ident env)

/-- The suffix of the key of a `WeakSetattr` (`/repo/src/psygnal/_weak_callback.py:524`). -/
def attrSuffix (env : Env) (a : ObjId) : List Char :=
  ['.', '_', '_', 's', 'e', 't', 'a', 't', 't', 'r', '_', '_', '('] ++ (env.repr a ++ [')'])

/-- The suffix of the key of a `WeakSetitem` (`/repo/src/psygnal/_weak_callback.py:563`). -/
def itemSuffix (env : Env) (k : ObjId) : List Char :=
  ['.', '_', '_', 's', 'e', 't', 'i', 't', 'e', 'm', '_', '_', '('] ++ (env.repr k ++ [')'])

/-- The optional arguments of `weak_callback` (`/repo/src/psygnal/_weak_callback.py:38-46`).
`finalize` is not modelled here (see `Verif/Core.lean`, `die`). -/
structure Opts where
  maxArgs : Option Nat := none
  strongFunc : Bool := true
  onErr : OnRefError := .warn
  priority : Int := 0

/-- `WeakFunction.__init__` (`/repo/src/psygnal/_weak_callback.py:377-390`). -/
def mkWeakFunc (env : Env) (o : Opts) (c : Callable) (args : List ObjId) (kw : Kw) :
    Except Err WeakCb :=
  match tryRef env o.onErr (c.ident env) with
  | .ok r => .ok ⟨objectKey env c, o.maxArgs, o.priority, .weakFunc r c args kw⟩
  | .error e => .error e

/-- `WeakMethod.__init__` (`/repo/src/psygnal/_weak_callback.py:423-437`). -/
def mkMethod (env : Env) (o : Opts) (self f : ObjId) (args : List ObjId) (kw : Kw) :
    Except Err WeakCb :=
  match tryRef env o.onErr self, tryRef env o.onErr f with
  | .ok r, .ok r' => .ok ⟨boundKey env self (env.name f), o.maxArgs, o.priority, .method r r' args kw⟩
  | .error e, _ => .error e
  | _, .error e => .error e

/-- `WeakBuiltin.__init__` (`/repo/src/psygnal/_weak_callback.py:478-490`). -/
def mkBuiltin (env : Env) (o : Opts) (self : ObjId) (name : String) (args : List ObjId) :
    Except Err WeakCb :=
  match tryRef env o.onErr self with
  | .ok r => .ok ⟨boundKey env self name, o.maxArgs, o.priority, .builtin r name args⟩
  | .error e => .error e

/-- `WeakSetattr.__init__` (`/repo/src/psygnal/_weak_callback.py:514-526`). -/
def mkSetattr (env : Env) (o : Opts) (obj attr : ObjId) : Except Err WeakCb :=
  match tryRef env o.onErr obj with
  | .ok r => .ok ⟨plainKey env obj ++ attrSuffix env attr, o.maxArgs, o.priority, .setattr r attr⟩
  | .error e => .error e

/-- `WeakSetitem.__init__` (`/repo/src/psygnal/_weak_callback.py:553-565`). -/
def mkSetitem (env : Env) (o : Opts) (obj key : ObjId) : Except Err WeakCb :=
  match tryRef env o.onErr obj with
  | .ok r => .ok ⟨plainKey env obj ++ itemSuffix env key, o.maxArgs, o.priority, .setitem r key⟩
  | .error e => .error e

/-- The tests on the type of the callable, after the outermost `partial` was taken apart
(`/repo/src/psygnal/_weak_callback.py:127-193`).  A `curry` object restarts with its
`_partial` (`:172-186`): its positional arguments go first, its own keyword arguments
replace those collected so far, and `strong_func` has its default. -/
def dispatch (env : Env) (o : Opts) : Callable → List ObjId → Kw → Except Err WeakCb
  | .func f, args, kw =>
    if o.strongFunc then .ok ⟨plainKey env f, o.maxArgs, o.priority, .strong f args kw⟩
    else mkWeakFunc env o (.func f) args kw
  | .method self f, args, kw =>
    if env.name f = "__setitem__" then
      match args with
      | [] => .error .type
      | k :: _ => mkSetitem env o self k
    else mkMethod env o self f args kw
  | .setattr, args, kw =>
    if kw ≠ [] then .error .notImplemented
    else match args with
      | obj :: attr :: _ => mkSetattr env o obj attr
      | _ => .error .value
  | .builtin self name _, args, kw =>
    if kw ≠ [] then .error .notImplemented
    else mkBuiltin env o self name args
  | .curry _ c a k, args, _ => dispatch env { o with strongFunc := true } c (a ++ args) k
  | .obj x, args, kw => mkWeakFunc env o (.obj x) args kw
  | .part p c a k, args, kw => mkWeakFunc env o (.part p c a k) args kw

/-- `weak_callback(cb, ...)` for a callable that is not a `WeakCallback` yet
(`/repo/src/psygnal/_weak_callback.py:118-193`), without extra positional arguments. -/
def weakCallback (env : Env) (o : Opts) : Callable → Except Err WeakCb
  | .part _ c a k => dispatch env o c a k
  | c => dispatch env o c [] []

/-- `args[: self._max_args]` (`/repo/src/psygnal/_weak_callback.py:356-357`). -/
def cut (maxArgs : Option Nat) (args : List ObjId) : List ObjId :=
  match maxArgs with
  | none => args
  | some n => args.take n

/-- `args[0] if len(args) == 1 else args` (`/repo/src/psygnal/_weak_callback.py:539,578`). -/
def pack : List ObjId → Arg
  | [v] => .one v
  | vs => .tuple vs

/-- `cb(args)` of each class (`/repo/src/psygnal/_weak_callback.py:355-358,395-401,446-454,
498-505,533-539,572-578`).  `obj[key] = v` is a call of `type(obj).__setitem__`.
`WeakBuiltin` looks the method up by name, on `None` if the object is gone. -/
def WeakCb.cb (env : Env) (alive : ObjId → Bool) (w : WeakCb) (args : List ObjId) :
    Except Err Act :=
  let args := cut w.maxArgs args
  match w.kind with
  | .strong f a k => invoke (.func f) (a ++ args) k
  | .weakFunc r c a k => match r.deref alive with
    | none => .error .reference
    | some _ => invoke c (a ++ args) k
  | .method r r' a k => match r.deref alive, r'.deref alive with
    | some o, some f => invoke (.func f) (o :: (a ++ args)) k
    | _, _ => .error .reference
  | .builtin r name a => match env.attr ((r.deref alive).getD env.none) name with
    | none => .error .reference
    | some c => invoke c (a ++ args) []
  | .setattr r attr => match r.deref alive with
    | none => .error .reference
    | some o => .ok (.setattr o attr (pack args))
  | .setitem r key => match r.deref alive with
    | none => .error .reference
    | some o => .ok (.call (env.setitem o) [.one o, .one key, pack args] [])

/-- `partial(c, *a, **k)` if there is anything to bind, else `c`
(`/repo/src/psygnal/_weak_callback.py:361-363`; the new object gets the identity `p`). -/
def rebind (p : ObjId) (c : Callable) (a : List ObjId) (k : Kw) : Callable :=
  if a = [] ∧ k = [] then c else .part p c a k

/-- `dereference()` (`/repo/src/psygnal/_weak_callback.py:360-363,403-409,456-464,507-508,
541-543,580-582`).  `p` is the identity of a new `partial` object.  `func.__get__(obj)`
gives back the method; `obj.__setitem__` is the method of the type. -/
def WeakCb.dereference (env : Env) (alive : ObjId → Bool) (p : ObjId) (w : WeakCb) :
    Option Callable :=
  match w.kind with
  | .strong f a k => some (rebind p (.func f) a k)
  | .weakFunc r c a k => (r.deref alive).map fun _ => rebind p c a k
  | .method r r' a k => match r.deref alive, r'.deref alive with
    | some o, some f => some (rebind p (.method o f) a k)
    | _, _ => none
  | .builtin r name _ => env.attr ((r.deref alive).getD env.none) name
  | .setattr r attr => (r.deref alive).map fun o => .part p .setattr [o, attr] []
  | .setitem r key => (r.deref alive).map fun o =>
      .part p (.method o (env.setitem o)) [key] []

/-- `WeakCallback.__call__` (`/repo/src/psygnal/_weak_callback.py:236-242`). -/
def WeakCb.call (env : Env) (alive : ObjId → Bool) (p : ObjId) (w : WeakCb)
    (args : List ObjId) (kw : Kw) : Except Err Act :=
  match w.dereference env alive p with
  | none => .error .reference
  | some c => invoke c (cut w.maxArgs args) kw

/-- `__eq__` on two weak callbacks (`/repo/src/psygnal/_weak_callback.py:244-248`). -/
def WeakCb.eq (a b : WeakCb) : Bool := a.key = b.key

/-- `_slot_index` (`/repo/src/psygnal/_signal.py:1097-1103`): the first slot that equals
the normalised callback. -/
def slotIndex (slots : List WeakCb) (w : WeakCb) : Option Nat :=
  slots.findIdx? fun s => s.eq w

end Psygnal.WC
