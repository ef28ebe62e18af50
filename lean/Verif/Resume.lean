/-! # Emitting while another thread resumes (`/repo/src/psygnal/_signal.py:1171-1201,1365-1429`)

One signal, any number of threads.  Every access to `_is_blocked`, `_is_paused`, `_args_queue` and `_slots` is a
step.  `_run_emit_loop` is one step, "handing over", followed by the code the callbacks run; its lock only
excludes schedules, so what holds here for all schedules holds with the lock.  That what is handed over reaches
the callbacks is the subject of other properties. -/
namespace Psygnal.Res

/-- What is observed: an emission has been recorded (`/repo/src/psygnal/_signal.py:1193`) or is handed over directly
(`:1201`); values, reduced to one or alone, are handed over to `_run_emit_loop` (`:1201`, `:1425`, `:1428`);
values are given up because nobody is connected (`:1412`). -/
inductive Ev
  | emitted (v : Nat)
  | handed (vs : List Nat)
  | dropped (vs : List Nat)
  deriving DecidableEq, Repr

/-- User code, in threads and callbacks: `emit` (`/repo/src/psygnal/_signal.py:1142`), `pause` (`:1365`),
`resume` with or without a reducer (`:1373`), `block` and `unblock` (`:1330-1340`), connecting the first and disconnecting
the last callback (`:736`, `:1122`). -/
inductive Code
  | ret
  | raise
  | emit (v : Nat) (k : Bool → Code)
  | pause (k : Code)
  | resume (reducer : Bool) (k : Bool → Code)
  | block (b : Bool) (k : Code)
  | slots (b : Bool) (k : Code)

/-- What the callbacks do with the values handed over, knowing what happened before (`/repo/src/psygnal/_signal.py:1308`),
and whether the reducer returns (`:1416-1424`). -/
structure Env where
  body : List Ev → List Nat → Code
  reduces : List Nat → Bool

/-- What a thread does next (`/repo/src/psygnal/_signal.py:1171-1201,1365-1429`, lines at each place). -/
inductive Ctl
  | run (c : Code)
  /-- the code on top has ended -/
  | fin (ok : Bool)
  /-- `if self._is_blocked` (`/repo/src/psygnal/_signal.py:1171`) -/
  | emit0 (v : Nat)
  /-- `if self._is_paused` (`:1192`) -/
  | emit1 (v : Nat)
  /-- `self._args_queue.append(args)` (`:1193`) -/
  | append (v : Nat)
  /-- `self._run_emit_loop(args)` (`:1201`) -/
  | deliver (v : Nat)
  /-- `self._is_paused = False` (`:1407`) -/
  | resume0 (r : Bool)
  /-- `if not getattr(self, "_args_queue", None)` (`:1410`) -/
  | resume1 (r : Bool)
  /-- `if len(self._slots) == 0` (`:1412`) -/
  | resume2 (r : Bool)
  /-- the next item of the iterator over the queue (`:1427`) -/
  | iter (i : Nat)
  /-- the same in the reducer (`:1418-1424`), which has seen `acc` -/
  | reduce (acc : List Nat) (i : Nat)
  /-- `self._args_queue.clear()` (`:1413`, `:1429`) -/
  | clear

/-- Frames of the stack: code waiting for `emit` or `resume`, the loop of `resume`
(`/repo/src/psygnal/_signal.py:1428`), `resume` after `:1425`. -/
inductive Frame
  | cont (k : Bool → Code)
  | iter (i : Nat)
  | clear

/-- A thread (Python's, running `/repo/src/psygnal/_signal.py:1171-1201,1365-1429`). -/
structure Thread where
  ctl : Ctl
  stack : List Frame

/-- `_is_paused`, `_is_blocked`, `bool(_slots)`, `_args_queue` (`/repo/src/psygnal/_signal.py:547-553`), the threads,
the observations. -/
structure St where
  paused : Bool
  blocked : Bool
  slots : Bool
  queue : List Nat
  thr : Nat → Thread
  log : List Ev

/-- Thread `t` goes on at `c` with stack `st` (Python's interpreter, running `/repo/src/psygnal/_signal.py:1171-1201,1365-1429`). -/
def St.at (σ : St) (t : Nat) (c : Ctl) (st : List Frame) : St :=
  { σ with thr := fun t' => if t' = t then ⟨c, st⟩ else σ.thr t' }

/-- One step of thread `t`; `none` if it has ended (`/repo/src/psygnal/_signal.py:1171-1201,1365-1429`). -/
def step (e : Env) (t : Nat) (σ : St) : Option St :=
  let st := (σ.thr t).stack
  match (σ.thr t).ctl with
  | .run .ret => some (σ.at t (.fin true) st)
  | .run .raise => some (σ.at t (.fin false) st)
  | .run (.emit v k) => some (σ.at t (.emit0 v) (.cont k :: st))
  | .run (.pause k) => some ({ σ with paused := true }.at t (.run k) st)
  | .run (.resume r k) => some (σ.at t (.resume0 r) (.cont k :: st))
  | .run (.block b k) => some ({ σ with blocked := b }.at t (.run k) st)
  | .run (.slots b k) => some ({ σ with slots := b }.at t (.run k) st)
  | .fin ok =>
    match st with
    | [] => none
    | .cont k :: st => some (σ.at t (.run (k ok)) st)
    | .iter i :: st => if ok then some (σ.at t (.iter i) st) else some (σ.at t (.fin false) st)
    | .clear :: st => if ok then some (σ.at t .clear st) else some (σ.at t (.fin false) st)
  | .emit0 v => if σ.blocked then some (σ.at t (.fin true) st) else some (σ.at t (.emit1 v) st)
  | .emit1 v => if σ.paused then some (σ.at t (.append v) st) else some (σ.at t (.deliver v) st)
  | .append v =>
    some ({ σ with queue := σ.queue ++ [v], log := σ.log ++ [Ev.emitted v] }.at t (.fin true) st)
  | .deliver v =>
    some ({ σ with log := σ.log ++ [Ev.emitted v, Ev.handed [v]] }.at t (.run (e.body σ.log [v])) st)
  | .resume0 r => some ({ σ with paused := false }.at t (.resume1 r) st)
  | .resume1 r => if σ.queue = [] then some (σ.at t (.fin true) st) else some (σ.at t (.resume2 r) st)
  | .resume2 r =>
    if σ.slots then some (σ.at t (if r then .reduce [] 0 else .iter 0) st)
    else some ({ σ with log := σ.log ++ [Ev.dropped σ.queue] }.at t .clear st)
  | .iter i =>
    match σ.queue[i]? with
    | some v => some ({ σ with log := σ.log ++ [Ev.handed [v]] }.at t (.run (e.body σ.log [v])) (.iter (i + 1) :: st))
    | none => some (σ.at t .clear st)
  | .reduce acc i =>
    match σ.queue[i]? with
    | some v => some (σ.at t (.reduce (acc ++ [v]) (i + 1)) st)
    | none =>
      if e.reduces acc then
        some ({ σ with log := σ.log ++ [Ev.handed acc] }.at t (.run (e.body σ.log acc)) (.clear :: st))
      else some (σ.at t (.fin false) st)
  | .clear => some ({ σ with queue := [] }.at t (.fin true) st)

/-- Run a schedule; a thread that has ended does nothing (the interpreter's choice of threads running
`/repo/src/psygnal/_signal.py:1171-1201,1365-1429`). -/
def run (e : Env) : List Nat → St → St
  | [], σ => σ
  | t :: l, σ => run e l ((step e t σ).getD σ)

/-- Thread `t` is about to run `prog t`; the signal is new, with a callback
(`/repo/src/psygnal/_signal.py:547-553`). -/
def init (prog : Nat → Code) : St := ⟨false, false, true, [], fun t => ⟨.run (prog t), []⟩, []⟩

end Psygnal.Res
