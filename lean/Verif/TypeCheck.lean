import Verif.Signature

/-! # Type checking on connect and on emit (`/repo/src/psygnal/_signal.py:723-760,1171-1201,1597-1602,1675-1718`)

One signal; classes are numbers, `sub n m` is `issubclass(n, m)`.  Simplified: the signature of a slot is given (with the types that
`get_type_hints` finds for annotations that are strings); callbacks return at once (nested emissions: C04-C11); Python ≥ 3.10, where
`issubclass(int, Union[int, str])` is allowed; slots are not removed and `unique` is not used (C02, C03). -/
namespace Psygnal.TC

/-- A type: a class, `typing.Union` of classes and others (`none`), or what `issubclass` does not accept as first argument: `Any`,
`list[int]`, `int | str`, `None` (`/repo/src/psygnal/_signal.py:1714-1718`). -/
inductive Ty
  | cls (n : Nat)
  | union (ms : List (Option Nat))
  | special
  deriving DecidableEq

/-- The annotation of a parameter: none, a type, or a string, with what `get_type_hints` makes of it, if it is something
(`/repo/src/psygnal/_signal.py:1699-1707`). -/
inductive Ann
  | empty
  | ty (t : Ty)
  | str (t : Option Ty)
  deriving DecidableEq

/-- `inspect.Parameter` (`/repo/src/psygnal/_signal.py:1598-1601,1698-1700`). -/
structure P where
  param : Param
  ann : Ann
  deriving DecidableEq

/-- Exceptions: `ValueError`, `TypeError` (`/repo/src/psygnal/_signal.py:754,1178,1186,1671`; raised by `issubclass` or
`get_type_hints`: the latter's `NameError` is not told apart). -/
inductive Err
  | value
  | type
  deriving DecidableEq

/-- `issubclass(n, right)` for a class `n` and an annotation of the signal (`/repo/src/psygnal/_signal.py:1717-1718`).
`inspect.Parameter.empty` is a class without other subclasses. -/
def subR (sub : Nat → Nat → Bool) (n : Nat) : Ann → Except Err Bool
  | .empty => .ok false
  | .str _ => .error .type
  | .ty .special => .error .type
  | .ty (.cls m) => .ok (sub n m)
  | .ty (.union ms) => ms.foldr (fun m r => match m with
      | none => .error .type
      | some m => if sub n m then .ok true else r) (.ok false)

/-- `_is_subclass(left, right)` (`/repo/src/psygnal/_signal.py:1714-1718`). -/
def isSub (sub : Nat → Nat → Bool) (l : Ty) (r : Ann) : Except Err Bool :=
  match l with
  | .special => .error .type
  | .cls n => subR sub n r
  | .union ms => ms.foldr (fun m x => match m with
      | none => .error .type
      | some n => match subR sub n r with
        | .ok false => x
        | e => e) (.ok false)

/-- `_parameter_types_match(function, spec, func_sig)` (`/repo/src/psygnal/_signal.py:1675-1711`). -/
def typesMatch (sub : Nat → Nat → Bool) : List P → List P → Except Err Bool
  | f :: fs, s :: ss => match f.ann with
    | .empty => typesMatch sub fs ss
    | .str none => .error .type
    | .str (some t) => match isSub sub t s.ann with
      | .ok true => typesMatch sub fs ss
      | e => e
    | .ty t => match isSub sub t s.ann with
      | .ok true => typesMatch sub fs ss
      | e => e
  | _, _ => .ok true

/-- A value: its class, and which one (`type(a)`, `/repo/src/psygnal/_signal.py:1184`). -/
structure V where
  cls : Nat
  id : Nat
  deriving DecidableEq

/-- A connected slot: the signature, and how many arguments it is given at most (`/repo/src/psygnal/_signal.py:745-766`). -/
structure Slot where
  sig : List P
  maxArgs : Option Nat
  deriving DecidableEq

/-- The signal: slots, flags, emissions kept while paused; the calls made so far: which slot, which arguments
(`/repo/src/psygnal/_signal.py:543-567`). -/
structure St where
  slots : List Slot := []
  blocked : Bool := false
  paused : Bool := false
  queue : List (List V) := []
  calls : List (Nat × List V) := []
  deriving DecidableEq

/-- `_build_signature(*types)` (`/repo/src/psygnal/_signal.py:1597-1602`). -/
def build (ts : List Ann) : List P := ts.map (fun t => ⟨⟨.posOnly, false⟩, t⟩)

/-- `_check_nargs` (`/repo/src/psygnal/_signal.py:1046-1088`) for slots whose signature can be found: `max_args`. -/
def nargs (spec sig : List P) : Except Err (Option Nat) :=
  match posargRange (sig.map P.param) with
  | none => .error .value
  | some (lo, hi) => if spec.length < lo then .error .value else .ok hi

/-- `connect(slot, check_nargs=cn, check_types=ct)` (`/repo/src/psygnal/_signal.py:723-768`). -/
def connect (sub : Nat → Nat → Bool) (spec : List P) (sig : List P) (cn ct : Bool) (s : St) : Except Err St :=
  match if cn then nargs spec sig else .ok none with
  | .error e => .error e
  | .ok m => match if ct then typesMatch sub sig spec else .ok true with
    | .error e => .error e
    | .ok false => .error .value
    | .ok true => .ok { s with slots := s.slots ++ [⟨sig, m⟩] }

/-- The arguments a slot is given (`/repo/src/psygnal/_weak_callback.py:240-241,356-357,399-400,452-453`). -/
def Slot.given (x : Slot) (args : List V) : List V := match x.maxArgs with
  | none => args
  | some m => args.take m

/-- `_run_emit_loop(args)` (`/repo/src/psygnal/_signal.py:1264-1329`): every slot is called. -/
def deliver (args : List V) (s : St) : St :=
  { s with calls := s.calls ++ s.slots.mapIdx (fun i x => (i, x.given args)) }

/-- `emit(*args, check_nargs=cn, check_types=ct)` (`/repo/src/psygnal/_signal.py:1171-1201`). -/
def emit (sub : Nat → Nat → Bool) (spec : List P) (args : List V) (cn ct : Bool) (s : St) : Except Err St :=
  if s.blocked then .ok s
  else if cn ∧ bindsPos (spec.map P.param) args.length = false then .error .type
  else match if ct then typesMatch sub (build (args.map (fun a => .ty (.cls a.cls)))) spec else .ok true with
    | .error e => .error e
    | .ok false => .error .type
    | .ok true => if s.paused then .ok { s with queue := s.queue ++ [args] } else .ok (deliver args s)

/-- `resume()` without reducer (`/repo/src/psygnal/_signal.py:1407-1429`). -/
def resume (s : St) : St :=
  let r := s.queue.foldl (fun r a => deliver a r) { s with paused := false }
  { r with queue := [] }

/-- What a program does with a signal (`/repo/src/psygnal/_signal.py:633-768,1142-1201,1330-1340,1365-1429`). -/
inductive Op
  | connect (sig : List P) (cn ct : Bool)
  | emit (args : List V) (cn ct : Bool)
  | block
  | unblock
  | pause
  | resume

/-- One operation (`/repo/src/psygnal/_signal.py:633-768,1142-1201,1330-1340,1365-1429`); one that raises changes nothing. -/
def step (sub : Nat → Nat → Bool) (spec : List P) : Op → St → Except Err St
  | .connect sig cn ct, s => TC.connect sub spec sig cn ct s
  | .emit args cn ct, s => TC.emit sub spec args cn ct s
  | .block, s => .ok { s with blocked := true }
  | .unblock, s => .ok { s with blocked := false }
  | .pause, s => .ok { s with paused := true }
  | .resume, s => .ok (TC.resume s)

/-- A program; exceptions are caught (`/repo/src/psygnal/_signal.py:633-768,1142-1201`). -/
def run (sub : Nat → Nat → Bool) (spec : List P) : List Op → St → St
  | [], s => s
  | o :: os, s => match step sub spec o s with
    | .ok s' => run sub spec os s'
    | .error _ => run sub spec os s

end Psygnal.TC
