import Verif.Core

/-!
# What an emission that fails says

A model of `/repo/src/psygnal/_exceptions.py`: the construction of an `EmitLoopError`, with the user code and
the inspection of frames that it runs on the way, all of which may raise.
-/
namespace Psygnal.Msg

/-- Texts (`/repo/src/psygnal/_exceptions.py:64-128`). -/
abbrev Text := List Char

/-- What user code or `inspect` raises: an `IndexError`, another `Exception`, or a `BaseException` that is not an
`Exception` (the difference matters at `/repo/src/psygnal/_exceptions.py:77,80,87`). -/
inductive Raised
  | index
  | exc (n : Nat)
  | base (n : Nat)
  deriving DecidableEq, Repr

/-- A `FrameInfo` (`/repo/src/psygnal/_exceptions.py:78,88,91`), with whether its file lies in the package (`ROOT in
fi.filename`, `:78,94`). -/
structure Frame where
  id : Nat
  inPkg : Bool
  deriving DecidableEq, Repr

/-- The object that owns the signal: `bool(instance)`, the module of its class, empty if there is none, and the
`__qualname__` of its class (`/repo/src/psygnal/_exceptions.py:42-47`). -/
structure Owner where
  truth : Except Raised Bool
  module : Text
  qualname : Text

/-- The pieces of the message, in the order in which they are appended (`/repo/src/psygnal/_exceptions.py:54-58,67-106`). -/
inductive Part
  | heading (sig : Text)
  | error (cls text : Text)
  | nested (n : Int)
  | emission
  | back (t : Text)
  | emitHere (t : Text)
  | chain
  | callback (t : Text)
  | more (n : Int)
  | errorHere (t : Text)
  | localsHead
  | locals (lines : List Text)
  | note (depth : Int) (args : Text)
  deriving DecidableEq, Repr

/-- What the construction asks of its surroundings: the class and `str` of the exception (`/repo/src/psygnal/_exceptions.py:68`),
`inspect.stack()` (`:76`), `inspect.getinnerframes` of the traceback, if there is one (`:86-88`), the text of a frame
without and with its line of code (`:111-115`), the local variables of a frame with their `repr` (`:103,118-124`), and
whether `PSYGNAL_HIDE_LOCALS` is set (`:104`). -/
structure Ask where
  cls : Text
  str : Except Raised Text
  stack : Except Raised (List Frame)
  inner : Option (Except Raised (List Frame))
  fmt : Frame → Bool → Except Raised Text
  locals : Frame → List (Text × Except Raised Text)
  hide : Bool

/-- The message so far, and what was raised, if anything (`/repo/src/psygnal/_exceptions.py:77-106`: `msg` keeps what was appended before
an exception). -/
abbrev Out := List Part × Option Raised

/-- Sequence (`/repo/src/psygnal/_exceptions.py:77-106`). -/
def Out.andThen : Out → Out → Out
  | (m, none), k => (m ++ k.1, k.2)
  | (m, some r), _ => (m, some r)

/-- `with suppress(Exception)` (`/repo/src/psygnal/_exceptions.py:77,87`). -/
def suppress : Out → Out
  | (m, some (.base n)) => (m, some (.base n))
  | (m, _) => (m, none)

/-- `msg += part(_fmt_frame(f))` (`/repo/src/psygnal/_exceptions.py:82-83,98,102`). -/
def frame (a : Ask) (f : Frame) (ctx : Bool) (part : Text → Part) : Out :=
  match a.fmt f ctx with
  | .ok t => ([part t], none)
  | .error r => ([], some r)

/-- `with suppress(IndexError)` around the frame behind the emitting one (`/repo/src/psygnal/_exceptions.py:80-82`). -/
def back (a : Ask) (stack : List Frame) (f : Frame) : Out :=
  match stack[stack.idxOf f + 1]? with
  | none => ([], none)
  | some b =>
    match frame a b true .back with
    | (m, some .index) => (m, none)
    | o => o

/-- `SIGNAL EMISSION` (`/repo/src/psygnal/_exceptions.py:78-83`); `next` raises `StopIteration` if all frames are of the
package. -/
def emissionSection (a : Ask) (stack : List Frame) : Out :=
  match stack.find? (!·.inPkg) with
  | none => ([], some (.exc 0))
  | some f => Out.andThen ([.emission], none) ((back a stack f).andThen (frame a f true .emitHere))

/-- `len(val_repr) > 60` (`/repo/src/psygnal/_exceptions.py:125-126`). -/
def shorten (t : Text) : Text := if t.length > 60 then t.take 60 ++ ['.', '.', '.'] else t

/-- `"{:>{}} = {}".format(name, name_width, val_repr)` (`/repo/src/psygnal/_exceptions.py:127`). -/
def line (name value : Text) : Text := List.replicate (20 - name.length) ' ' ++ name ++ [' ', '=', ' '] ++ value

/-- `_fmt_locals` (`/repo/src/psygnal/_exceptions.py:118-128`); the `repr` of `self` and `cls` is not taken. -/
def fmtLocals : List (Text × Except Raised Text) → Except Raised (List Text)
  | [] => .ok []
  | (name, v) :: l =>
    if name = ['s', 'e', 'l', 'f'] ∨ name = ['c', 'l', 's'] then fmtLocals l
    else match v with
      | .error r => .error r
      | .ok t => match fmtLocals l with
        | .error r => .error r
        | .ok ls => .ok (line name (shorten t) :: ls)

/-- `Local variables` (`/repo/src/psygnal/_exceptions.py:103-106`). -/
def localsSection (a : Ask) (f : Frame) : Out :=
  if (a.locals f).isEmpty then ([], none)
  else if a.hide then ([], none)
  else match fmtLocals (a.locals f) with
    | .ok ls => ([.localsHead, .locals ls], none)
    | .error r => ([.localsHead], some r)

/-- `CALLBACK CHAIN` (`/repo/src/psygnal/_exceptions.py:93-99`); `x` is the last frame. -/
def chainSection (a : Ask) (inner : List Frame) (x : Frame) : Out :=
  match inner.find? (!·.inPkg) with
  | none => ([], none)
  | some f =>
    if f = x then ([], none)
    else Out.andThen ([.chain], none) ((frame a f false .callback).andThen
      ([.more ((inner.length : Int) - inner.idxOf f - 2)], none))

/-- The part about the traceback (`/repo/src/psygnal/_exceptions.py:88-106`). -/
def errorSection (a : Ask) (inner : Except Raised (List Frame)) : Out :=
  match inner with
  | .error r => ([], some r)
  | .ok fs =>
    match fs.getLast? with
    | none => ([], none)
    | some x => (chainSection a fs x).andThen ((frame a x true .errorHere).andThen (localsSection a x))

/-- `_build_psygnal_exception_msg` (`/repo/src/psygnal/_exceptions.py:64-108`). -/
def build (a : Ask) (name : Text) (depth : Int) : Except Raised (List Part) :=
  match a.str with
  | .error r => .error r
  | .ok t =>
    match a.stack with
    | .error r => .error r
    | .ok st =>
      match (suppress (emissionSection a st)).andThen (match a.inner with
        | none => ([], none)
        | some i => suppress (errorSection a i)) with
      | (_, some r) => .error r
      | (m, none) => .ok (.heading name :: .error a.cls t :: (if depth ≠ 0 then [.nested depth] else []) ++ m)

/-- The name of the signal (`/repo/src/psygnal/_exceptions.py:39-49`): no signal, or its name and `signal.instance`. -/
def sigName : Option (Text × Option Owner) → Except Raised Text
  | none => .ok []
  | some (n, none) => .ok n
  | some (n, some o) =>
    match o.truth with
    | .error r => .error r
    | .ok false => .ok n
    | .ok true => .ok ((if o.module ≠ [] then o.module ++ ['.'] else []) ++ o.qualname ++ '.' :: n)

/-- The note on queued emissions (`/repo/src/psygnal/_exceptions.py:53-58`); `repr` of the last queued arguments, `IndexError` if there
are none. -/
def addNote {α : Type} (repr : α → Except Raised Text) (queued : Bool) (q : List α) (m : List Part) : Except Raised (List Part) :=
  if queued = true ∧ (q.length : Int) - 1 ≠ 0 then
    match q.getLast? with
    | none => .error .index
    | some x => match repr x with
      | .error r => .error r
      | .ok t => .ok (m ++ [.note ((q.length : Int) - 1) t])
  else .ok m

/-- `EmitLoopError.__init__` (`/repo/src/psygnal/_exceptions.py:25-61`): the message, or what escapes. -/
def init {α : Type} (a : Ask) (repr : α → Except Raised Text) (sig : Option (Text × Option Owner)) (depth : Int) (queued : Bool)
    (q : List α) : Except Raised (List Part) :=
  match sigName sig with
  | .error r => .error r
  | .ok n => match build a n depth with
    | .error r => .error r
    | .ok m => addNote repr queued q m

/-- What the caller of a failing emission gets: an `EmitLoopError` with its cause and message, or what was raised while it was made
(`/repo/src/psygnal/_signal.py:1248-1253,1287-1296`). -/
inductive Outcome (ε : Type)
  | loopError (cause : ε) (msg : List Part)
  | other (r : Raised)

/-- `raise EmitLoopError(exc=cb_err, …) from cb_err` (`/repo/src/psygnal/_signal.py:1248-1253,1287-1296`). -/
def outcome {ε : Type} (cause : ε) : Except Raised (List Part) → Outcome ε
  | .ok m => .loopError cause m
  | .error r => .other r

/-- The `except` clause of `_run_emit_loop` for signal `s` in state `w` (`/repo/src/psygnal/_signal.py:1287-1296`). -/
def raised (env : Env) (a : Ask) (repr : Args → Except Raised Text) (sig : Text × Option Owner) (s : SigId) (w : World) (e : Exc) :
    Outcome Exc :=
  outcome e (init a repr (some sig) ((w.sig s).depth - 1) ((env.decl s).mode = .queued) (w.sig s).emitQueue)

/-- The `except` clause of `emit_fast` (`/repo/src/psygnal/_signal.py:1248-1253`). -/
def raisedFast (a : Ask) (sig : Text × Option Owner) (e : Exc) : Outcome Exc :=
  outcome e (init (α := Args) a (fun _ => .ok []) (some sig) 0 false [])

/-- The `except` clause of `emit_queued` (`/repo/src/psygnal/_queue.py:93-94`). -/
def raisedQueued (a : Ask) (e : Exc) : Outcome Exc := outcome e (init (α := Args) a (fun _ => .ok []) none 0 false [])

end Psygnal.Msg
