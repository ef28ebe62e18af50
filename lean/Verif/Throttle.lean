/-!
# Throttlers and debouncers

A model of `/repo/src/psygnal/_throttler.py` and of `threading.Timer`, which it uses.  The methods
are programs of single reads and writes of attributes (`Prog`).  Two machines run them: in `step`
every method and every timer callback runs as a whole, in `micro` any number of threads take
turns after each instruction.  Time is a natural number that grows by `tick`; timers may be late.
-/
namespace Psygnal.Thr

/-- `threading.Timer` as a thread: not started, waiting, in its callback, ended
(`/repo/src/psygnal/_throttler.py:34-35,59-60`). -/
inductive Status
  | created
  | waiting (deadline : Nat)
  | running
  | dead
  deriving DecidableEq, Repr

/-- A timer; `cb`: its function is `_call_if_has_pending`, otherwise `lambda: None`
(`/repo/src/psygnal/_throttler.py:34,59`); `finished` is the event that `Timer.cancel` sets. -/
structure Timer where
  cb : Bool
  status : Status
  finished : Bool
  deriving DecidableEq, Repr

/-- What can be observed: calls of the wrapper with time and argument, invocations of the wrapped
function with time, `_args` and `_kwargs`, and cancellations
(`/repo/src/psygnal/_throttler.py:48-51,62-65,106-110`). -/
inductive Obs
  | called (t a : Nat)
  | invoked (t a k : Nat)
  | cancelled (t : Nat)
  deriving DecidableEq, Repr

/-- The attributes of the throttler (`/repo/src/psygnal/_throttler.py:30-37`) with the clock, all
timers ever made and a ghost trace.  The arguments of one call are a number, which stands in
`args` for the positional ones and in `kwargs` for the keywords. -/
structure St where
  now : Nat
  pending : Bool
  args : Nat
  kwargs : Nat
  cur : Nat
  timers : List Timer
  trace : List Obs
  deriving DecidableEq, Repr

/-- A new throttler (`/repo/src/psygnal/_throttler.py:24-37`): its first timer waits for 0 seconds. -/
def St.init : St := ⟨0, false, 0, 0, 0, [⟨false, .waiting 0, false⟩], []⟩

/-- `Throttler` or `Debouncer` (`/repo/src/psygnal/_throttler.py:81,119`). -/
inductive Kind
  | throttler
  | debouncer
  deriving DecidableEq, Repr

/-- The constructor arguments (`/repo/src/psygnal/_throttler.py:24-29`). -/
structure Cfg where
  kind : Kind
  leading : Bool
  interval : Nat
  deriving DecidableEq, Repr

/-- Python code of the methods as a sequence of single accesses: assignments to `_has_pending`,
`_args`, `_kwargs`; tests of `_timer.is_alive()` and `_has_pending`; the call of the wrapped
function; `_timer.cancel()`; `_timer = Timer(...)`; `_timer.start()`
(`/repo/src/psygnal/_throttler.py:48-69,106-116,144-152`). -/
inductive Prog
  | done
  | note (o : Nat → Obs) (k : Prog)
  | pend (b : Bool) (k : Prog)
  | args (a : Nat) (k : Prog)
  | kwargs (a : Nat) (k : Prog)
  | ifAlive (yes no : Prog)
  | ifPending (yes no : Prog)
  | invoke (k : Prog)
  | cancel (k : Prog)
  | newTimer (k : Prog)
  | start (k : Prog)

/-- `_start_timer` (`/repo/src/psygnal/_throttler.py:57-60`). -/
def startTimer (k : Prog) : Prog := .cancel (.newTimer (.start k))

/-- `_actually_call` (`/repo/src/psygnal/_throttler.py:48-51`). -/
def actuallyCall (k : Prog) : Prog := .pend false (.invoke (startTimer k))

/-- `_call_if_has_pending` (`/repo/src/psygnal/_throttler.py:53-55`). -/
def callIfHasPending : Prog := .ifPending (actuallyCall .done) .done

/-- `cancel` (`/repo/src/psygnal/_throttler.py:62-65`). -/
def cancelProg : Prog := .pend false (.cancel (.note .cancelled .done))

/-- `flush` (`/repo/src/psygnal/_throttler.py:67-69`). -/
def flushProg : Prog := callIfHasPending

/-- `__call__` (`/repo/src/psygnal/_throttler.py:106-116` and `:144-152`). -/
def callProg (c : Cfg) (a : Nat) : Prog :=
  .note (.called · a) <| .pend true <| .args a <| .kwargs a <|
  match c.kind with
  | .throttler => .ifAlive .done (if c.leading then actuallyCall .done else startTimer .done)
  | .debouncer =>
    .ifAlive (startTimer .done) (if c.leading then actuallyCall (startTimer .done) else startTimer .done)

/-- `Thread.is_alive` (used in `/repo/src/psygnal/_throttler.py:112,150`). -/
def Timer.alive (t : Timer) : Bool :=
  match t.status with
  | .waiting _ => true
  | .running => true
  | _ => false

/-- `self._timer.is_alive()` (`/repo/src/psygnal/_throttler.py:112,150`). -/
def St.alive (s : St) : Bool := (s.timers[s.cur]?.map Timer.alive).getD false

/-- Changes timer `k` (`/repo/src/psygnal/_throttler.py:58-60`). -/
def St.upd (s : St) (k : Nat) (f : Timer → Timer) : St :=
  { s with timers := s.timers.modify k f }

/-- Appends to the ghost trace (observations of `/repo/src/psygnal/_throttler.py:50`). -/
def St.obs (s : St) (o : Obs) : St := { s with trace := s.trace ++ [o] }

/-- `self._timer.cancel()` (`/repo/src/psygnal/_throttler.py:58,65`). -/
def St.cancelCur (s : St) : St := s.upd s.cur fun t => { t with finished := true }

/-- `self._timer = Timer(self._interval, self._call_if_has_pending)`
(`/repo/src/psygnal/_throttler.py:59`). -/
def St.newTimer (s : St) : St :=
  { s with cur := s.timers.length, timers := s.timers ++ [⟨true, .created, false⟩] }

/-- `self._timer.start()` (`/repo/src/psygnal/_throttler.py:60`); `none`: `RuntimeError`, threads
can only be started once. -/
def St.startCur (c : Cfg) (s : St) : Option St :=
  match s.timers[s.cur]? with
  | some ⟨_, .created, _⟩ => some (s.upd s.cur fun t => { t with status := .waiting (s.now + c.interval) })
  | _ => none

/-- The wrapped function is called (`/repo/src/psygnal/_throttler.py:50`). -/
def St.invoke (s : St) : St := s.obs (.invoked s.now s.args s.kwargs)

/-- A method runs as a whole; `rs s` says that the wrapped function raises when it is called in
state `s`, which ends the method (`/repo/src/psygnal/_throttler.py:48-51`). -/
def exec (c : Cfg) (rs : St → Bool) : Prog → St → St
  | .done, s => s
  | .note o k, s => exec c rs k (s.obs (o s.now))
  | .pend b k, s => exec c rs k { s with pending := b }
  | .args a k, s => exec c rs k { s with args := a }
  | .kwargs a k, s => exec c rs k { s with kwargs := a }
  | .ifAlive y n, s => if s.alive then exec c rs y s else exec c rs n s
  | .ifPending y n, s => if s.pending then exec c rs y s else exec c rs n s
  | .invoke k, s => if rs s then s.invoke else exec c rs k s.invoke
  | .cancel k, s => exec c rs k s.cancelCur
  | .newTimer k, s => exec c rs k s.newTimer
  | .start k, s => match s.startCur c with
    | some s' => exec c rs k s'
    | none => s

/-- Events: time passes, a method is called, timer `k` fires, the thread of the cancelled timer
`k` notices and ends (`/repo/src/psygnal/_throttler.py:57-69`). -/
inductive Ev
  | tick
  | call (a : Nat)
  | cancel
  | flush
  | fire (k : Nat)
  | reap (k : Nat)
  deriving DecidableEq, Repr

/-- Timer `k` can fire: it is waiting, due and was not cancelled (`threading.Timer.run`, used in
`/repo/src/psygnal/_throttler.py:59-60`). -/
def due (s : St) (k : Nat) : Option Timer :=
  match s.timers[k]? with
  | some ⟨cb, .waiting d, false⟩ => if d ≤ s.now then some ⟨cb, .waiting d, false⟩ else none
  | _ => none

/-- The thread of a cancelled timer ends (`threading.Timer.run`, used in
`/repo/src/psygnal/_throttler.py:59-60`). -/
def reap (s : St) (k : Nat) : St :=
  match s.timers[k]? with
  | some ⟨_, .waiting _, true⟩ => s.upd k fun t => { t with status := .dead }
  | _ => s

/-- One event, with methods and timer callbacks as a whole
(`/repo/src/psygnal/_throttler.py:48-69,106-116,144-152`). -/
def step (c : Cfg) (rs : St → Bool) (s : St) : Ev → St
  | .tick => { s with now := s.now + 1 }
  | .call a => exec c rs (callProg c a) s
  | .cancel => exec c rs cancelProg s
  | .flush => exec c rs flushProg s
  | .fire k => match due s k with
    | none => s
    | some t =>
      let s := s.upd k fun t => { t with status := .running }
      let s := if t.cb then exec c rs callIfHasPending s else s
      s.upd k fun t => { t with status := .dead, finished := true }
  | .reap k => reap s k

/-- A history (`/repo/src/psygnal/_throttler.py:48-152`). -/
def run (c : Cfg) (rs : St → Bool) : List Ev → St → St
  | [], s => s
  | e :: es, s => run c rs es (step c rs s e)

/-! ## Threads -/

/-- What the wrapped function does when it is called: return, raise, or call the throttled
function itself (`/repo/src/psygnal/_throttler.py:50`). -/
inductive Beh
  | returns
  | raises
  | calls (a : Nat)
  deriving DecidableEq, Repr

/-- A thread: the rest of its code, inner calls first, and the timer it belongs to
(`/repo/src/psygnal/_throttler.py:59`). -/
structure Thread where
  stack : List Prog
  timer : Option Nat

/-- The throttler and the threads that use it (`/repo/src/psygnal/_throttler.py:48-152`). -/
structure World where
  st : St
  threads : List Thread

/-- One instruction (`/repo/src/psygnal/_throttler.py:48-69,106-116,144-152`): the new state and
what is left to do, `none` after an exception. -/
def instr (c : Cfg) (beh : St → Beh) (s : St) : Prog → St × Option (List Prog)
  | .done => (s, some [])
  | .note o k => (s.obs (o s.now), some [k])
  | .pend b k => ({ s with pending := b }, some [k])
  | .args a k => ({ s with args := a }, some [k])
  | .kwargs a k => ({ s with kwargs := a }, some [k])
  | .ifAlive y n => (s, some [if s.alive then y else n])
  | .ifPending y n => (s, some [if s.pending then y else n])
  | .invoke k => (s.invoke, match beh s with
    | .returns => some [k]
    | .raises => none
    | .calls a => some [callProg c a, k])
  | .cancel k => (s.cancelCur, some [k])
  | .newTimer k => (s.newTimer, some [k])
  | .start k => match s.startCur c with
    | some s' => (s', some [k])
    | none => (s, none)

/-- Events of the threaded machine (`/repo/src/psygnal/_throttler.py:48-152`). -/
inductive MEv
  | tick
  | call (a : Nat)
  | cancel
  | flush
  | fire (k : Nat)
  | reap (k : Nat)
  | go (i : Nat)
  deriving DecidableEq, Repr

/-- Thread `i` takes one step; a timer's thread ends with its code
(`/repo/src/psygnal/_throttler.py:48-152`). -/
def go (c : Cfg) (beh : St → Beh) (w : World) (i : Nat) : World :=
  match w.threads[i]? with
  | none => w
  | some ⟨p :: ps, tm⟩ =>
    match instr c beh w.st p with
    | (s, some new) => ⟨s, w.threads.set i ⟨new ++ ps, tm⟩⟩
    | (s, none) => ⟨s, w.threads.set i ⟨[], tm⟩⟩
  | some ⟨[], some k⟩ =>
    ⟨w.st.upd k fun t => { t with status := .dead, finished := true }, w.threads.set i ⟨[], none⟩⟩
  | some ⟨[], none⟩ => w

/-- One event of the threaded machine (`/repo/src/psygnal/_throttler.py:48-152`); every call runs
in its own thread. -/
def micro (c : Cfg) (beh : St → Beh) (w : World) : MEv → World
  | .tick => ⟨{ w.st with now := w.st.now + 1 }, w.threads⟩
  | .call a => ⟨w.st, w.threads ++ [⟨[callProg c a], none⟩]⟩
  | .cancel => ⟨w.st, w.threads ++ [⟨[cancelProg], none⟩]⟩
  | .flush => ⟨w.st, w.threads ++ [⟨[flushProg], none⟩]⟩
  | .fire k => match due w.st k with
    | none => w
    | some t => ⟨w.st.upd k fun t => { t with status := .running },
        w.threads ++ [⟨if t.cb then [callIfHasPending] else [], some k⟩]⟩
  | .reap k => ⟨reap w.st k, w.threads⟩
  | .go i => go c beh w i

/-- A schedule (`/repo/src/psygnal/_throttler.py:48-152`). -/
def microRun (c : Cfg) (beh : St → Beh) : List MEv → World → World
  | [], w => w
  | e :: es, w => microRun c beh es (micro c beh w e)

end Psygnal.Thr
