import Verif.WeakCallbackLemmas

/-! # Vocabulary for the claims about weak callbacks -/
namespace Psygnal.WC

/-- The objects that a callable refers to. -/
def mentions : Callable → List ObjId
  | .func f => [f]
  | .method o f => [o, f]
  | .builtin o _ _ => [o]
  | .setattr => []
  | .obj o => [o]
  | .part p c a _ => p :: a ++ mentions c
  | .curry p c a _ => p :: a ++ mentions c

/-- After the outermost `partial` with keywords `kw`: an ordinary callable, i.e. neither
`setattr` nor a `__setitem__` method, a built-in method is the one found under its name,
and a curried function is not wrapped in a `partial` with keywords. -/
def OrdinaryIn (env : Env) : Callable → Kw → Prop
  | .func _, _ | .obj _, _ | .part .., _ => True
  | .method _ f, _ => env.name f ≠ "__setitem__"
  | .builtin o n i, _ => env.attr o n = some (.builtin o n i)
  | .setattr, _ => False
  | .curry _ c _ k, kw => kw = [] ∧ OrdinaryIn env c k

/-- A callable for which "the same call" is meant literally. -/
def Ordinary (env : Env) : Callable → Prop
  | .part _ c _ k => OrdinaryIn env c k
  | c => OrdinaryIn env c []

/-- A built-in function does not get keyword arguments. -/
def NoBuiltinKw : Callable → Kw → Prop
  | .builtin .., kw => kw = []
  | .curry _ c _ k, _ => NoBuiltinKw c k
  | _, _ => True

/-- What a callable denotes. -/
inductive Target
  | obj (o : ObjId)
  | method (o f : ObjId)
  | builtin (o impl : ObjId)
  | attr (o a : ObjId)
  | item (o k : ObjId)
  deriving DecidableEq, Repr

/-- `Denotes env c t`: the callable `c` (without bound arguments, except those that
name the attribute or item) denotes `t`. -/
inductive Denotes (env : Env) : Callable → Target → Prop
  | func (f) : Denotes env (.func f) (.obj f)
  | obj (o) : Denotes env (.obj o) (.obj o)
  | method (o f) (h : env.name f ≠ "__setitem__") : Denotes env (.method o f) (.method o f)
  | builtin (o n i) : Denotes env (.builtin o n i) (.builtin o i)
  | attr (p o a) : Denotes env (.part p .setattr [o, a] []) (.attr o a)
  | item (p o f k) (h : env.name f = "__setitem__") :
      Denotes env (.part p (.method o f) [k] []) (.item o k)

/-- Names as the Python compiler produces them: no `:` in modules, no `@` or dot in
names of functions, methods and classes. -/
structure CleanNames (env : Env) : Prop where
  module (o) : ':' ∉ (env.module o).toList
  typeModule (o) : ':' ∉ (env.typeModule o).toList
  name (o) : '@' ∉ (env.name o).toList ∧ '.' ∉ (env.name o).toList
  typeName (o) : '@' ∉ (env.typeName o).toList

/-- The owner, the `__name__` and the implementation of a bound method. -/
def boundName (env : Env) : Callable → Option (ObjId × String × ObjId)
  | .method o f => some (o, env.name f, f)
  | .builtin o n i => some (o, n, i)
  | _ => none

/-- The object whose `id` goes into the key of a target. -/
def Target.owner : Target → ObjId
  | .obj o | .method o _ | .builtin o _ | .attr o _ | .item o _ => o

/-- The name of the attribute or the key of the item. -/
def Target.sel : Target → Option ObjId
  | .attr _ a => some a
  | .item _ k => some k
  | _ => none

/-- Two targets are the same; names of attributes and keys of items are compared by the
Python equality `eqv`. -/
def Target.Same (eqv : ObjId → ObjId → Prop) : Target → Target → Prop
  | .attr o a, .attr o' a' => o = o' ∧ eqv a a'
  | .item o k, .item o' k' => o = o' ∧ eqv k k'
  | t, u => t = u

/-- A built-in method has no `@` in its name. -/
def CleanBuiltin : Callable → Prop
  | .builtin _ n _ => '@' ∉ n.toList
  | _ => True

/-- A connection: what the user passed, what it denotes and the callback stored for it. -/
structure Conn where
  c : Callable
  t : Target
  w : WeakCb

/-- `x` was stored by `weak_callback`. -/
def Conn.Stored (env : Env) (x : Conn) : Prop :=
  Denotes env x.c x.t ∧ CleanBuiltin x.c ∧ ∃ o, weakCallback env o x.c = .ok x.w

/-- The assumptions under which two connections can be told apart (see `C24_partial`). -/
structure Apart (env : Env) (eqv : ObjId → ObjId → Prop) (x y : Conn) : Prop where
  id : env.addr x.t.owner = env.addr y.t.owner → x.t.owner = y.t.owner
  repr : ∀ a b, x.t.sel = some a → y.t.sel = some b → (env.repr a = env.repr b ↔ eqv a b)
  names : ∀ s n i j, boundName env x.c = some (s, n, i) → boundName env y.c = some (s, n, j) →
    x.c = y.c
  builtins : ∀ s n m i, x.c = .builtin s n i → y.c = .builtin s m i → n = m

/-! ## A concrete interpreter state

`0` is `None`, `1` the module `builtins`, `2` a function `f`, `3` an object of class `T`
with methods `4` (`meth`), `5` (also named `meth`), `10` (`__setitem__`), `6` a list,
`7` the C function of `list.append`, `8` and `9` strings, `11` an override of `append`. -/
namespace Ex

/-- Example state; see the section comment.  (Not part of the model of
`/repo/src/psygnal/_weak_callback.py`; an instance of `Env`.) -/
def env : Env where
  addr o := 4096 + 16 * o
  module o := if o = 2 then "mod" else if o = 3 then "mod" else ""
  name o := if o = 2 then "f" else if o = 4 then "meth" else if o = 5 then "meth"
    else if o = 10 then "__setitem__" else if o = 11 then "append" else ""
  typeName o := if o = 6 then "list" else "T"
  typeModule o := if o = 6 then "builtins" else "mod"
  repr o := '\'' :: (List.replicate o 'x' ++ ['\''])
  weakrefable o := o != 6
  attr o n := if o = 6 ∧ n = "append" then some (.builtin 6 "append" 7)
    else if o = 3 ∧ n = "append" then some (.method 3 11)
    else if o = 0 ∧ n = "__eq__" then some (.builtin 0 "__eq__" 99) else none
  setitem _ := 10
  none := 0
  builtins := 1

theorem clean : CleanNames env where
  module o := by simp only [env]; (repeat' split) <;> decide
  typeModule o := by simp only [env]; (repeat' split) <;> decide
  name o := by simp only [env]; (repeat' split) <;> decide
  typeName o := by simp only [env]; (repeat' split) <;> decide

end Ex

end Psygnal.WC
