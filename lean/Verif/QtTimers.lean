/-! # Timers that empty the queues (`/repo/src/psygnal/qt.py:22-76`, with `/repo/src/psygnal/_queue.py:59-94`)

Any number of threads, each with a Qt event loop.  Each runs code that emits signals with queued callbacks, starts and stops timers;
event loops run the timers that live in their thread.  One step of one thread is atomic.  Simplified: one argument per emission (the
callback, a number, stands for callback and arguments); the timer type, which only says how precise the timer is, is left out; an
exception that leaves a handler ends it and the event loop goes on.  The rules of Qt: a timer lives in the thread that made it, its
`timeout` slot is called there, and it is to be started and stopped there; what an attempt from another thread does to it is left open
(the action says whether it is active then). -/
namespace Psygnal.Qtt

/-- What code does: emit a signal whose callback `j` is connected with `thread=t` (`/repo/src/psygnal/_queue.py:59-63`), raise an
exception, let the event loop run (`processEvents`), `start_emitting_from_queue(ms, thread=t)` (`/repo/src/psygnal/qt.py:25`),
`stop_emitting_from_queue(thread=t)` (`/repo/src/psygnal/qt.py:67`).  `qt`: whether the timer is active after that, if it lives in another
thread. -/
inductive Act
  | emit (t j : Nat)
  | raise
  | spin
  | start (t : Option Nat) (ms : Nat) (qt : Bool)
  | stop (t : Option Nat) (qt : Bool)
  deriving DecidableEq

/-- Frames of the stack of a thread: code, and the loop of `emit_queued` (`/repo/src/psygnal/_queue.py:86-94`). -/
inductive Frame
  | code (acts : List Act)
  | drain

/-- A `QTimer` (`/repo/src/psygnal/qt.py:56`): the thread it lives in, `isActive()`, `interval()`. -/
structure Timer where
  owner : Nat
  active : Bool
  ms : Nat
  deriving DecidableEq

/-- What happens: thread `p` puts callback `j` into the queue of thread `t` (`/repo/src/psygnal/_queue.py:63`), takes it from there (`:90`),
runs it (`:61,92`), raises, has a timer run (`/repo/src/psygnal/qt.py:58`), starts, stops the timer of `t` (`:60-64,76`);
its event loop runs other code. -/
inductive Ev
  | called (p : Nat) (acts : List Act)
  | put (p t j : Nat)
  | got (p t j : Nat)
  | ran (p t j : Nat)
  | raised (p : Nat)
  | tick (p : Nat)
  | started (p t ms : Nat)
  | stopped (p t : Nat)
  deriving DecidableEq

/-- The state: `_TIMERS` (`/repo/src/psygnal/qt.py:22`), `_GLOBAL_QUEUE` (`/repo/src/psygnal/_queue.py:29-31`), the stacks, what has happened. -/
structure St where
  timers : Nat → Option Timer := fun _ => none
  queue : Nat → List Nat := fun _ => []
  stack : Nat → List Frame := fun _ => []
  trace : List Ev := []

/-- A function changed at one place (`d[k] = v`, `/repo/src/psygnal/qt.py:56`). -/
def upd {α : Type} (f : Nat → α) (k : Nat) (v : α) : Nat → α := fun i => if i = k then v else f i

/-- The event at the end of the trace (`/repo/src/psygnal/qt.py:22`: bookkeeping of the model). -/
def St.note (s : St) (e : Ev) : St := { s with trace := s.trace ++ [e] }

/-- `QTimer.start(msec)` or `setInterval(msec)`, called in thread `p` (`/repo/src/psygnal/qt.py:60-64`). -/
def Timer.start (tm : Timer) (p ms : Nat) (qt : Bool) : Timer :=
  if tm.active then ⟨tm.owner, if tm.owner = p then true else qt, ms⟩
  else ⟨tm.owner, if tm.owner = p then true else qt, ms⟩

/-- `start_emitting_from_queue(ms, thread=t)` in thread `p` (`/repo/src/psygnal/qt.py:54-64`). -/
def startIn (s : St) (p t ms : Nat) (qt : Bool) : St :=
  let tm := (s.timers t).getD ⟨p, false, 0⟩
  { s with timers := upd s.timers t (some (tm.start p ms qt)) }.note (.started p t ms)

/-- `stop_emitting_from_queue(thread=t)` in thread `p` (`/repo/src/psygnal/qt.py:74-76`). -/
def stopIn (s : St) (p t : Nat) (qt : Bool) : St :=
  match s.timers t with
  | none => s.note (.stopped p t)
  | some tm => { s with timers := upd s.timers t (some { tm with active := if tm.owner = p then false else qt }) }.note (.stopped p t)

/-- One step of thread `p` (`/repo/src/psygnal/_queue.py:59-63,86-94`; `body j` is the code of callback `j`). -/
def stepThread (body : Nat → List Act) (s : St) (p : Nat) : St :=
  match s.stack p with
  | [] => s
  | .drain :: r => match s.queue p with
    | [] => { s with stack := upd s.stack p r }
    | j :: js => { s with queue := upd s.queue p js, stack := upd s.stack p (.code (body j) :: .drain :: r),
                          trace := s.trace ++ [.got p p j, .ran p p j] }
  | .code [] :: r => { s with stack := upd s.stack p r }
  | .code (.emit t j :: as) :: r =>
    if t = p then { s with stack := upd s.stack p (.code (body j) :: .code as :: r), trace := s.trace ++ [.ran p t j] }
    else { s with queue := upd s.queue t (s.queue t ++ [j]), stack := upd s.stack p (.code as :: r), trace := s.trace ++ [.put p t j] }
  | .code (.raise :: _) :: _ => { s with stack := upd s.stack p [] }.note (.raised p)
  | .code (.spin :: as) :: r => { s with stack := upd s.stack p (.code as :: r) }
  | .code (.start t ms qt :: as) :: r => startIn { s with stack := upd s.stack p (.code as :: r) } p (t.getD p) ms qt
  | .code (.stop t qt :: as) :: r => stopIn { s with stack := upd s.stack p (.code as :: r) } p (t.getD p) qt

/-- The event loop of a thread runs: nothing else does, or code lets it (`/repo/src/psygnal/qt.py:58`: the timer calls the slot then). -/
def looping : List Frame → Bool
  | [] => true
  | .code (.spin :: _) :: _ => true
  | _ => false

/-- What the scheduler does: code is run in thread `p` by its event loop (`/repo/src/psygnal/_queue.py:59`), the timer of `_TIMERS[k]` times
out in thread `p` and calls `emit_queued()` (`/repo/src/psygnal/qt.py:58`), thread `p` makes a step. -/
inductive Sch
  | call (p : Nat) (acts : List Act)
  | fire (p k : Nat)
  | step (p : Nat)

/-- One move of the scheduler (`/repo/src/psygnal/qt.py:58`, `/repo/src/psygnal/_queue.py:69`).  What cannot happen does nothing. -/
def move (body : Nat → List Act) (s : St) : Sch → St
  | .call p acts => if looping (s.stack p) then { s with stack := upd s.stack p (.code acts :: s.stack p) }.note (.called p acts) else s
  | .fire p k => match s.timers k with
    | none => s
    | some tm =>
      if tm.owner = p ∧ tm.active = true ∧ looping (s.stack p) = true then
        { s with stack := upd s.stack p (.drain :: s.stack p) }.note (.tick p)
      else s
  | .step p => stepThread body s p

/-- A schedule (`/repo/src/psygnal/qt.py:58`, `/repo/src/psygnal/_queue.py:69`). -/
def run (body : Nat → List Act) : List Sch → St → St
  | [], s => s
  | m :: ms, s => run body ms (move body s m)

end Psygnal.Qtt
