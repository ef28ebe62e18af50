import Verif.Signature

/-! # Qt signals as callbacks (`/repo/src/psygnal/_signal.py:728-768,1046-1088,1616-1672,1721-1761`)

What Python tells about a callable is data; a Qt signal is described by its name and the names of the types of its parameters. -/
namespace Psygnal.QtSlot

/-- Strings (Python's; `/repo/src/psygnal/_signal.py:1650,1730-1760`). -/
abbrev Str := List Char

/-- `pat in s` (`/repo/src/psygnal/_signal.py:1648,1730,1742,1759`). -/
def has (pat : Str) : Str → Bool
  | [] => pat.isEmpty
  | c :: s => pat.isPrefixOf (c :: s) || has pat s

/-- `s.split(pat)[0]` (`/repo/src/psygnal/_signal.py:1760`). -/
def before (pat : Str) : Str → Str
  | [] => []
  | c :: s => if pat.isPrefixOf (c :: s) then [] else c :: before pat s

/-- White space (`str.strip`, `/repo/src/psygnal/_signal.py:1760`). -/
def space (c : Char) : Bool := c == ' ' || c == '\t' || c == '\n'

/-- `s.strip()` (`/repo/src/psygnal/_signal.py:1760`). -/
def strip (s : Str) : Str := ((s.dropWhile space).reverse.dropWhile space).reverse

/-- `"pyqtBoundSignal"` (`/repo/src/psygnal/_signal.py:1730`). -/
def pyqtBoundSignal : Str := ['p', 'y', 'q', 't', 'B', 'o', 'u', 'n', 'd', 'S', 'i', 'g', 'n', 'a', 'l']

/-- `"pyqtBoundSignal.emit"` (`/repo/src/psygnal/_signal.py:1733`). -/
def pyqtEmit : Str := pyqtBoundSignal ++ ['.', 'e', 'm', 'i', 't']

/-- `"SignalInstance"` (`/repo/src/psygnal/_signal.py:1742`). -/
def signalInstance : Str := ['S', 'i', 'g', 'n', 'a', 'l', 'I', 'n', 's', 't', 'a', 'n', 'c', 'e']

/-- `"SignalInstance.emit"` (`/repo/src/psygnal/_signal.py:1738`). -/
def signalInstanceEmit : Str := signalInstance ++ ['.', 'e', 'm', 'i', 't']

/-- `"builtin"` (`/repo/src/psygnal/_signal.py:1738`). -/
def builtin : Str := ['b', 'u', 'i', 'l', 't', 'i', 'n']

/-- `"QtCore"` (`/repo/src/psygnal/_signal.py:1742`). -/
def qtCore : Str := ['Q', 't', 'C', 'o', 'r', 'e']

/-- `"only accepts"` (`/repo/src/psygnal/_signal.py:1759-1760`). -/
def onlyAccepts : Str := ['o', 'n', 'l', 'y', ' ', 'a', 'c', 'c', 'e', 'p', 't', 's']

/-- Exceptions: `ValueError` (`/repo/src/psygnal/_signal.py:1064,1081-1086,1649,1671`), `TypeError`
(`/repo/src/psygnal/_weak_callback.py:260`), those of callbacks that run (`/repo/src/psygnal/_signal.py:1757`). -/
inductive Err
  | value | type | other
  deriving DecidableEq, Repr

/-- What happens when `emit` of a signal is called with 255 values (`/repo/src/psygnal/_signal.py:1749,1757`): it emits them; it refuses them with a
`TypeError`; it emits them and a callback raises. -/
inductive Reply
  | accepts
  | typeError (msg : Str)
  | raises (e : Err)
  deriving DecidableEq, Repr

/-- What is asked about a callable: `type(obj).__name__`, `type(obj).__module__`, `__qualname__`, `obj.signal` or
`obj.__self__.signal`, what its `emit` does (`/repo/src/psygnal/_signal.py:1729-1745`), `inspect.signature` (`:1551-1558`; `none`: `ValueError`), whether
`weakref.ref` works (`/repo/src/psygnal/_weak_callback.py:257`). -/
structure Callee where
  tname : Str
  tmodule : Str
  qualname : Str
  signal : Str
  reply : Reply
  sig : Option PySig
  weakable : Bool

/-- `_ridiculously_call_emit` (`/repo/src/psygnal/_signal.py:1754-1761`): what it returns, and the emissions it causes, each with the number
of values. -/
def probe (c : Callee) : Except Err (Option Str) × List Nat :=
  match c.reply with
  | .accepts => (.ok none, [255])
  | .typeError m => (.ok (if has onlyAccepts m then some (strip (before onlyAccepts m)) else none), [])
  | .raises .type => (.ok none, [255])
  | .raises e => (.error e, [255])

/-- `_guess_qtsignal_signature` (`/repo/src/psygnal/_signal.py:1721-1746`). -/
def guess (c : Callee) : Except Err (Option Str) × List Nat :=
  if has pyqtBoundSignal c.tname then (.ok (some c.signal), [])
  else if c.qualname = pyqtEmit then (.ok (some c.signal), [])
  else if c.qualname = signalInstanceEmit ∧ builtin.isPrefixOf c.tname = true then probe c
  else if has signalInstance c.tname = true ∧ has qtCore c.tmodule = true then probe c
  else (.ok none, [])

/-- `sig.split("(", 1)[1].split(")", 1)[0]` (`/repo/src/psygnal/_signal.py:1650`). -/
def inner (s : Str) : Str := ((s.dropWhile (· ≠ '(')).drop 1).takeWhile (· ≠ ')')

/-- `_acceptable_posarg_range` of a string (`/repo/src/psygnal/_signal.py:1647-1652`); `none`: `ValueError`. -/
def rangeQt (s : Str) : Option (Nat × Option Nat) :=
  if '(' ∈ s then
    let n := if inner s = [] then 0 else (inner s).count ',' + 1
    some (n, some n)
  else none

/-- The second half of `_check_nargs` (`/repo/src/psygnal/_signal.py:1070-1088`): `max_args` and `is_qt`. -/
def checkRange (k : Nat) : Option (Nat × Option Nat) → Except Err (Option Nat × Bool)
  | none => .error .value
  | some (lo, hi) => if k < lo then .error .value else .ok (hi, true)

/-- `_check_nargs(slot, spec)` (`/repo/src/psygnal/_signal.py:1046-1088`, with `_get_signature_possibly_qt`, `:1616-1621`) for a signal with `k`
parameters. -/
def checkNargs (k : Nat) (c : Callee) : Except Err (Option Nat × Bool) × List Nat :=
  match guess c with
  | (.error .value, l) => (.ok (none, false), l)
  | (.error e, l) => (.error e, l)
  | (.ok (some s), l) => (checkRange k (rangeQt s), l)
  | (.ok none, l) =>
    match c.sig with
    | none => (.ok (none, false), l)
    | some sg => (checkRange k (posargRange sg), l)

/-- `on_ref_error` (`/repo/src/psygnal/_weak_callback.py:25`). -/
inductive OnRef
  | raise | warn | ignore
  deriving DecidableEq, Repr

/-- Arguments of `connect` (`/repo/src/psygnal/_signal.py:633-644`): `check_nargs`, `max_args`, `on_ref_error`; no type checks, not `unique`. -/
structure Opts where
  check : Bool := true
  maxArgs : Option Nat := none
  onRef : OnRef := .warn

/-- The slot (`/repo/src/psygnal/_weak_callback.py:211-226`): `max_args`, and whether the reference is strong (`:268-271`). -/
structure Slot where
  maxArgs : Option Nat
  strong : Bool
  deriving DecidableEq, Repr

/-- `weak_callback` as far as it concerns the reference (`/repo/src/psygnal/_weak_callback.py:250-271`). -/
def ref (c : Callee) (m : Option Nat) (r : OnRef) : Except Err Slot :=
  if c.weakable then .ok ⟨m, false⟩
  else if r = .raise then .error .type else .ok ⟨m, true⟩

/-- `connect` (`/repo/src/psygnal/_signal.py:728-768`) to a signal with `k` parameters: the slot, and the emissions that connecting causes. -/
def connect (o : Opts) (k : Nat) (c : Callee) : Except Err Slot × List Nat :=
  if o.check = true ∧ o.maxArgs = none then
    match checkNargs k c with
    | (.error e, l) => (.error e, l)
    | (.ok (m, isqt), l) => (ref c m (if isqt then .ignore else o.onRef), l)
  else (ref c o.maxArgs o.onRef, [])

/-- The arguments the callback gets (`/repo/src/psygnal/_weak_callback.py:399-401`). -/
def Slot.given {α : Type} (s : Slot) (args : List α) : List α :=
  match s.maxArgs with
  | none => args
  | some n => args.take n

/-! ## Qt (specification) -/

/-- The libraries (specification; told apart at `/repo/src/psygnal/_signal.py:1730-1745`). -/
inductive Lib
  | pyqt | pyside
  deriving DecidableEq, Repr

/-- A signal of Qt (specification). -/
structure Qt where
  lib : Lib
  name : Str
  types : List Str

/-- `a,b,c` (specification). -/
def join : List Str → Str
  | [] => []
  | [t] => t
  | t :: ts => t ++ ',' :: join ts

/-- `name(a,b,c)` (specification). -/
def Qt.text (q : Qt) : Str := q.name ++ '(' :: (join q.types ++ [')'])

/-- How the libraries present a signal (`bound`) and its `emit` method (specification, after the comments at
`/repo/src/psygnal/_signal.py:1617-1620,1724-1741`). -/
def Qt.callee (q : Qt) (bound : Bool) : Callee where
  tname := if bound then (match q.lib with | .pyqt => ['p', 'y', 'q', 't', 'B', 'o', 'u', 'n', 'd', 'S', 'i', 'g', 'n', 'a', 'l'] | .pyside => ['S', 'i', 'g', 'n', 'a', 'l', 'I', 'n', 's', 't', 'a', 'n', 'c', 'e'])
    else ['b', 'u', 'i', 'l', 't', 'i', 'n', '_', 'f', 'u', 'n', 'c', 't', 'i', 'o', 'n', '_', 'o', 'r', '_', 'm', 'e', 't', 'h', 'o', 'd']
  tmodule := match q.lib with | .pyqt => ['P', 'y', 'Q', 't', '5', '.', 'Q', 't', 'C', 'o', 'r', 'e'] | .pyside => ['P', 'y', 'S', 'i', 'd', 'e', '2', '.', 'Q', 't', 'C', 'o', 'r', 'e']
  qualname := if bound then [] else (match q.lib with
    | .pyqt => ['p', 'y', 'q', 't', 'B', 'o', 'u', 'n', 'd', 'S', 'i', 'g', 'n', 'a', 'l', '.', 'e', 'm', 'i', 't']
    | .pyside => ['S', 'i', 'g', 'n', 'a', 'l', 'I', 'n', 's', 't', 'a', 'n', 'c', 'e', '.', 'e', 'm', 'i', 't'])
  signal := '2' :: q.text
  reply := if q.types.length = 255 then .accepts
    else .typeError (q.text ++ [' ', 'o', 'n', 'l', 'y', ' ', 'a', 'c', 'c', 'e', 'p', 't', 's', ' '] ++ Nat.toDigits 10 q.types.length ++
      [' ', 'a', 'r', 'g', 'u', 'm', 'e', 'n', 't', '(', 's', ')', ',', ' ', '2', '5', '5', ' ', 'g', 'i', 'v', 'e', 'n', '!'])
  sig := if bound then none else some [⟨.varPos, false⟩]
  weakable := false

/-- Qt emits exactly as many values as the signal has parameters, and raises otherwise (specification). -/
def Qt.takes (q : Qt) (n : Nat) : Prop := n = q.types.length

end Psygnal.QtSlot
