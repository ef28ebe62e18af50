import Verif.Throttle

/-! # Throttled and debounced functions as callbacks (`/repo/src/psygnal/_throttler.py:155-261`)

Any number of signals and of throttled functions, and the references that keep the throttlers alive.  Methods and timer
callbacks run as a whole, wrapped functions return; priorities, `unique`, threads and queues are left out. -/
namespace Psygnal.ThS

/-- A `Throttler` or `Debouncer` (`/repo/src/psygnal/_throttler.py:81,119`) around a function that needs `lo` positional arguments and accepts at
most `hi` (`none`: any number): its state, the arguments of its calls so far (the numbers in `st` are positions in this list; `:106-110,144-148`),
whether the program has a reference to it, and whether it has not been collected. -/
structure Wrap where
  cfg : Thr.Cfg
  lo : Nat
  hi : Option Nat
  st : Thr.St
  seen : List (List Nat)
  held : Bool
  live : Bool
  deriving DecidableEq, Repr

/-- A connection: the signal, the throttler, and `max_args` (`/repo/src/psygnal/_signal.py:756-762`). -/
structure Slot where
  sig : Nat
  tgt : Nat
  maxArgs : Option Nat
  deriving DecidableEq, Repr

/-- Whether throttlers can be weakly referenced (if not, the connection has a strong reference; `/repo/src/psygnal/_weak_callback.py:250-271`), and
how many parameters the signals have (`/repo/src/psygnal/_signal.py:324-326`). -/
structure Env where
  weak : Bool
  arity : Nat → Nat

/-- All throttlers ever made, and the slots of all signals in one list (`/repo/src/psygnal/_signal.py:551`; each signal's slots are a part of it, in
order). -/
structure St where
  wraps : List Wrap
  slots : List Slot
  deriving DecidableEq, Repr

/-- `throttled(func, timeout, leading)` and `debounced(...)` (`/repo/src/psygnal/_throttler.py:201-205,257-261`); the policy follows from
`leading`. -/
def make (kind : Thr.Kind) (timeout : Nat) (leading : Bool) (lo : Nat) (hi : Option Nat) (σ : St) : St :=
  { σ with wraps := σ.wraps ++ [⟨⟨kind, leading, timeout⟩, lo, hi, Thr.St.init, [], true, true⟩] }

/-- `args[: self._max_args]` (`/repo/src/psygnal/_weak_callback.py:399-400`). -/
def cut (m : Option Nat) (args : List Nat) : List Nat :=
  match m with
  | none => args
  | some n => args.take n

/-- `__call__` of the throttler (`/repo/src/psygnal/_throttler.py:106-116,144-152`). -/
def Wrap.call (args : List Nat) (x : Wrap) : Wrap :=
  { x with st := Thr.step x.cfg (fun _ => false) x.st (.call x.seen.length), seen := x.seen ++ [args] }

/-- Another event of the throttler (`/repo/src/psygnal/_throttler.py:57-69`). -/
def Wrap.event (ev : Thr.Ev) (x : Wrap) : Wrap := { x with st := Thr.step x.cfg (fun _ => false) x.st ev }

/-- A thread of a timer whose function is a method of the throttler refers to it while it is alive (`/repo/src/psygnal/_throttler.py:59-60`). -/
def Wrap.busy (x : Wrap) : Bool := x.st.timers.any fun t => t.cb && t.alive

/-- Nothing refers to throttler `w` but itself (`/repo/src/psygnal/_weak_callback.py:268-271` for strong references). -/
def free (e : Env) (σ : St) (w : Nat) : Bool :=
  match σ.wraps[w]? with
  | none => false
  | some x => !x.held && !x.busy && (e.weak || !(σ.slots.any fun b => b.tgt == w))

/-- The throttler is deallocated: its weak references remove the slots (`/repo/src/psygnal/_weak_callback.py:255-257,321-330`,
`/repo/src/psygnal/_signal.py:804-818`). -/
def kill (w : Nat) (σ : St) : St :=
  ⟨σ.wraps.modify w (fun x => { x with live := false }), σ.slots.filter fun b => b.tgt ≠ w⟩

/-- The cyclic garbage collector looks at throttler `w` (`/repo/src/psygnal/_throttler.py:59`: the timer refers to the throttler and the throttler
to the timer). -/
def gc (e : Env) (w : Nat) (σ : St) : St := if free e σ w then kill w σ else σ

/-- Reference counting: without a timer of its own the throttler is in no cycle (`/repo/src/psygnal/_throttler.py:34`: the function of the first timer
does not refer to it). -/
def unref (e : Env) (w : Nat) (σ : St) : St :=
  match σ.wraps[w]? with
  | none => σ
  | some x => if x.st.timers.length ≤ 1 then gc e w σ else σ

/-- `signal.connect(throttler)` (`/repo/src/psygnal/_signal.py:728-768`): `inspect.signature` gives that of the wrapped function
(`/repo/src/psygnal/_throttler.py:74-78`), `max_args` is what it accepts (`/repo/src/psygnal/_signal.py:1070-1088`); `false`: `ValueError`. -/
def connect (e : Env) (s w : Nat) (σ : St) : Bool × St :=
  match σ.wraps[w]? with
  | none => (false, σ)
  | some x =>
    if x.held then
      if x.lo ≤ e.arity s then (true, { σ with slots := σ.slots ++ [⟨s, w, x.hi⟩] }) else (false, σ)
    else (false, σ)

/-- The first slot of signal `s` with throttler `w` is removed (`/repo/src/psygnal/_signal.py:794-818,1128-1132`). -/
def remove (s w : Nat) : List Slot → List Slot
  | [] => []
  | b :: l => if b.sig = s ∧ b.tgt = w then l else b :: remove s w l

/-- `for caller in self._slots: caller.cb(args)` (`/repo/src/psygnal/_signal.py:1307-1308`) of signal `s`; `false`: `ReferenceError`
(`/repo/src/psygnal/_weak_callback.py:396-398`). -/
def emitLoop (s : Nat) (args : List Nat) : List Slot → List Wrap → Bool × List Wrap
  | [], ws => (true, ws)
  | b :: l, ws =>
    if b.sig = s then
      match ws[b.tgt]? with
      | none => (false, ws)
      | some x => if x.live then emitLoop s args l (ws.modify b.tgt (Wrap.call (cut b.maxArgs args))) else (false, ws)
    else emitLoop s args l ws

/-- What happens (lines of `/repo/src/psygnal/_throttler.py` and `/repo/src/psygnal/_signal.py` at the functions above): the program makes, connects,
disconnects, calls, cancels and flushes throttlers it has a reference to, emits signals, and drops references; the collector runs; time passes,
timers fire and threads of cancelled timers end. -/
inductive Op
  | make (kind : Thr.Kind) (timeout : Nat) (leading : Bool) (lo : Nat) (hi : Option Nat)
  | connect (s w : Nat)
  | disconnect (s w : Nat)
  | emit (s : Nat) (args : List Nat)
  | call (w : Nat) (args : List Nat)
  | cancel (w : Nat)
  | flush (w : Nat)
  | drop (w : Nat)
  | gc (w : Nat)
  | tick
  | fire (w k : Nat)
  | reap (w k : Nat)
  deriving DecidableEq, Repr

/-- Is a reference to throttler `w` left in the program? (names bound to the result, `/repo/src/psygnal/_throttler.py:205,261`) -/
def St.held (σ : St) (w : Nat) : Bool := ((σ.wraps[w]?).map Wrap.held).getD false

/-- One operation; `false`: an exception (`/repo/src/psygnal/_throttler.py:62-69,106-152,201-261`, `/repo/src/psygnal/_signal.py:728-768,1128-1132,1307-1308`). -/
def step (e : Env) (σ : St) : Op → Bool × St
  | .make kind t l lo hi => (true, make kind t l lo hi σ)
  | .connect s w => connect e s w σ
  | .disconnect s w => if σ.held w then (true, { σ with slots := remove s w σ.slots }) else (false, σ)
  | .emit s args => let r := emitLoop s args σ.slots σ.wraps; (r.1, { σ with wraps := r.2 })
  | .call w args => if σ.held w then (true, { σ with wraps := σ.wraps.modify w (Wrap.call args) }) else (false, σ)
  | .cancel w => if σ.held w then (true, { σ with wraps := σ.wraps.modify w (Wrap.event .cancel) }) else (false, σ)
  | .flush w => if σ.held w then (true, { σ with wraps := σ.wraps.modify w (Wrap.event .flush) }) else (false, σ)
  | .drop w => (true, unref e w { σ with wraps := σ.wraps.modify w fun x => { x with held := false } })
  | .gc w => (true, gc e w σ)
  | .tick => (true, { σ with wraps := σ.wraps.map (Wrap.event .tick) })
  | .fire w k => (true, { σ with wraps := σ.wraps.modify w (Wrap.event (.fire k)) })
  | .reap w k => (true, { σ with wraps := σ.wraps.modify w (Wrap.event (.reap k)) })

/-- A history (`/repo/src/psygnal/_throttler.py:106-261`). -/
def run (e : Env) : List Op → St → St
  | [], σ => σ
  | o :: l, σ => run e l (step e σ o).2

/-- Before anything is made (`/repo/src/psygnal/_throttler.py:155-261`). -/
def init : St := ⟨[], []⟩

end Psygnal.ThS
