/-! # Attributes bound to signals of fields (`/repo/src/psygnal/_signal.py:820-930`)

One thread, default reemission mode; a node is an attribute of an object.  Signals of fields emit the new and the old
value (`/repo/src/psygnal/_group_descriptor.py:315-318`).  Other callbacks return at once or raise. -/
namespace Psygnal.Bind

/-- Values, with the tuples of no and of two that `WeakSetattr` may set (`/repo/src/psygnal/_weak_callback.py:539`). -/
inductive Val
  | leaf (n : Nat)
  | unit
  | pair (a b : Val)
  deriving DecidableEq, Repr

/-- `WeakSetattr` (`/repo/src/psygnal/_weak_callback.py:511-527`): the attribute that is set, `max_args`. -/
structure Binding where
  tgt : Nat
  maxArgs : Option Nat
  deriving DecidableEq, Repr

/-- A slot of a field's signal (`/repo/src/psygnal/_signal.py:551`): a binding, or another callback
(`/repo/src/psygnal/_weak_callback.py:335-508`). -/
inductive Slot
  | bind (b : Binding)
  | call (k : Nat)
  deriving DecidableEq, Repr

/-- Which attributes are fields with a signal (`/repo/src/psygnal/_group_descriptor.py:284-303`), which attributes exist
(`/repo/src/psygnal/_signal.py:892`), the operator by which field `n` is compared (`/repo/src/psygnal/_group_descriptor.py:95-98`;
after, before), `RECURSION_LIMIT` (`/repo/src/psygnal/_signal.py:1265`), which callbacks raise for which new and old value (`:1308`), and
which object has the attribute. -/
structure Env where
  evented : Nat → Bool
  exist : Nat → Bool
  eq : Nat → Val → Val → Bool
  limit : Nat
  raises : Nat → Val → Val → Bool
  owner : Nat → Nat

/-- The values, the slots of each field's signal (`/repo/src/psygnal/_signal.py:551`), its recursion depth (`:556`), what has been
emitted (the field, the new and the old value), and the calls of callbacks (`:1308`). -/
structure St where
  val : Nat → Val
  slots : Nat → List Slot
  depth : Nat → Nat
  log : List (Nat × Val × Val)
  calls : List (Nat × Val × Val)

/-- Change a function at one place (assignment to an attribute, e.g. `/repo/src/psygnal/_group_descriptor.py:402`). -/
def set {α : Type} (f : Nat → α) (n : Nat) (v : α) : Nat → α := fun m => if m = n then v else f m

/-- The value to be set by `WeakSetattr.cb` (`/repo/src/psygnal/_weak_callback.py:537-539`), for arguments `new, old`. -/
def Binding.arg (b : Binding) (new old : Val) : Val :=
  match b.maxArgs with
  | some 0 => .unit
  | some 1 => new
  | _ => .pair new old

/-- `for caller in self._slots: caller.cb(args)` (`/repo/src/psygnal/_signal.py:1307-1308`), `g` being `setattr`; `none`: not finished,
`false`: an exception. -/
def loop (e : Env) (g : Nat → Val → St → Option (Bool × St)) (new old : Val) : List Slot → St → Option (Bool × St)
  | [], σ => some (true, σ)
  | .bind b :: bs, σ =>
    match g b.tgt (b.arg new old) σ with
    | some (true, σ') => loop e g new old bs σ'
    | r => r
  | .call k :: bs, σ =>
    let σ' := { σ with calls := σ.calls ++ [(k, new, old)] }
    if e.raises k new old then some (false, σ') else loop e g new old bs σ'

/-- `SignalInstance._run_emit_loop` (`/repo/src/psygnal/_signal.py:1264-1308`) of the signal of `n`. -/
def emit (e : Env) (g : Nat → Val → St → Option (Bool × St)) (n : Nat) (new old : Val) (σ : St) : Option (Bool × St) :=
  if e.limit ≤ σ.depth n then some (false, σ)
  else
    match loop e g new old (σ.slots n)
        { σ with depth := set σ.depth n (σ.depth n + 1), log := σ.log ++ [(n, new, old)] } with
    | none => none
    | some (ok, σ') => some (ok, { σ' with depth := set σ'.depth n (σ'.depth n - 1) })

/-- `_setattr_and_emit_` and `_changes_emitted` (`/repo/src/psygnal/_group_descriptor.py:312-318,387-404`), for an attribute that is no
field just `setattr`.  The number bounds the depth of calls. -/
def assign (e : Env) : Nat → Nat → Val → St → Option (Bool × St)
  | 0, _, _, _ => none
  | f + 1, n, v, σ =>
    let σ' := { σ with val := set σ.val n v }
    if e.evented n = false ∨ σ.slots n = [] then some (true, σ')
    else if e.eq n v (σ.val n) then some (true, σ')
    else emit e (assign e f) n v (σ.val n) σ'

/-- `signal.connect_setattr(obj, attr, maxargs)` (`/repo/src/psygnal/_signal.py:892-905`; priority 0; for fields
`maxargs` is 1 by default, `/repo/src/psygnal/_group_descriptor.py:134-146`) of the signal of field `n`; `none`: `AttributeError`. -/
def connect (e : Env) (n m : Nat) (maxArgs : Option Nat) (σ : St) : Option St :=
  if e.exist m then some { σ with slots := set σ.slots n (σ.slots n ++ [.bind ⟨m, maxArgs⟩]) } else none

/-- `list.remove` of the slot equal to a `WeakSetattr` for `m` (`/repo/src/psygnal/_weak_callback.py:244-248`: `max_args` does not
matter; `/repo/src/psygnal/_signal.py:802`). -/
def remove (m : Nat) : List Slot → List Slot
  | [] => []
  | .bind b :: bs => if b.tgt = m then bs else .bind b :: remove m bs
  | .call k :: bs => .call k :: remove m bs

/-- `signal.disconnect_setattr(obj, attr)` (`/repo/src/psygnal/_signal.py:928-930`, `:804-818`, `missing_ok=True`). -/
def disconnect (n m : Nat) (σ : St) : St := { σ with slots := set σ.slots n (remove m (σ.slots n)) }

/-- `signal.connect(callback)` (`/repo/src/psygnal/_signal.py:728-768`; priority 0). -/
def listen (n k : Nat) (σ : St) : St := { σ with slots := set σ.slots n (σ.slots n ++ [.call k]) }

/-- `signal.disconnect(callback)` (`/repo/src/psygnal/_signal.py:1105-1132`). -/
def ignore (n k : Nat) (σ : St) : St := { σ with slots := set σ.slots n ((σ.slots n).erase (.call k)) }

/-- An object is collected: its weak references call `_try_discard` in every signal
(`/repo/src/psygnal/_weak_callback.py:323-331,525`, `/repo/src/psygnal/_signal.py:804-818,900`). -/
def die (e : Env) (o : Nat) (σ : St) : St :=
  { σ with slots := fun n => (σ.slots n).filter fun
      | .bind b => e.owner b.tgt ≠ o
      | .call _ => true }

/-- What a program does with the signals between assignments (lines of `/repo/src/psygnal/_signal.py` at the functions above). -/
inductive Op
  | bind (n m : Nat)
  | unbind (n m : Nat)
  | listen (n k : Nat)
  | ignore (n k : Nat)
  | die (o : Nat)
  deriving DecidableEq, Repr

/-- One operation; `connect_setattr` with `maxargs=1` (`/repo/src/psygnal/_signal.py:728-768,804-818,892-905,928-930`). -/
def step (e : Env) : Op → St → St
  | .bind n m, σ => (connect e n m (some 1) σ).getD σ
  | .unbind n m, σ => disconnect n m σ
  | .listen n k, σ => listen n k σ
  | .ignore n k, σ => ignore n k σ
  | .die o, σ => die e o σ

/-- A history (`/repo/src/psygnal/_signal.py:728-768,804-818,892-905,928-930`). -/
def run (e : Env) : List Op → St → St
  | [], σ => σ
  | o :: l, σ => run e l (step e o σ)

end Psygnal.Bind
