/-! # Threads that emit (`/repo/src/psygnal/_signal.py:1264-1328`)

Each attribute access that another thread can observe is a step of its own; within a region where the
lock is held and only that region touches the attribute, several are one step.  Connections may change at any
time.
`emit_fast`, which takes no lock, is not modelled. -/
namespace Psygnal.Conc

/-- `ReemissionMode` (`/repo/src/psygnal/_signal.py:193-204`). -/
inductive Mode
  | immediate | queued | latest
  deriving DecidableEq, Repr

/-- What a thread, or a callback, does (user code): call `Signal.current_emitter()`
(`/repo/src/psygnal/_signal.py:418-434`), emit a signal (`:1142-1201`; `k false` after an exception), or do something
while holding the lock of a signal, as `connect` and `disconnect` do (`:736`, `:1122`), or change the list of callbacks of a
signal (`:770-802`), which happens under the lock, except when a callback's owner has died (`:804-818`). -/
inductive Code
  | ret
  | raise
  | see (k : Option Nat → Code)
  | emit (s a : Nat) (k : Bool → Code)
  | hold (s : Nat) (c : Code) (k : Bool → Code)
  | slots (s : Nat) (f : List Nat → List Nat) (k : Code)

/-- Signals with their callbacks at first (`/repo/src/psygnal/_signal.py:551`), what those do, the reemission modes
(`:557-564`) and `RECURSION_LIMIT` (`:1265`). -/
structure Env where
  slots : Nat → List Nat
  body : Nat → Nat → Nat → Code
  mode : Nat → Mode
  limit : Nat

/-- Where a loop over the slots is (`/repo/src/psygnal/_signal.py:1305-1328`): the arguments, the index of the
next slot in the list, which may change meanwhile, the index in the queue. -/
structure Loop where
  args : Nat
  j : Nat
  i : Nat

/-- What a thread does next; `p` is the local variable `previous` (`/repo/src/psygnal/_signal.py:412`). -/
inductive Ctl
  | run (c : Code)
  /-- the code on top has ended -/
  | fin (ok : Bool)
  /-- `if self._recursion_depth >= RECURSION_LIMIT` (`/repo/src/psygnal/_signal.py:1265`) -/
  | check (s a : Nat)
  /-- `with self._lock:` (`:1268`) -/
  | wait (s a : Nat)
  /-- `with s._lock:` elsewhere (`:1122`) -/
  | waitHold (s : Nat) (c : Code)
  /-- `self._emit_queue.append(args)` (`:1269-1277`) -/
  | locked (s a : Nat)
  /-- right hand side of `:412` -/
  | readPrev (s : Nat)
  /-- left hand side of `:412` -/
  | writeCur (s : Nat) (p : Option Nat)
  /-- beginning of `_run_emit_loop_inner` (`:1306`, `:1311`, `:1321-1323`) -/
  | start (s : Nat) (p : Option Nat)
  /-- next iteration (`:1307`, `:1312-1317`, `:1322-1325`) -/
  | next (s : Nat) (p : Option Nat) (l : Loop)
  /-- `cls._current_emitter = previous` (`:416`) -/
  | restore (s : Nat) (p : Option Nat) (ok : Bool)
  /-- the `finally` block (`:1297-1303`) -/
  | cleanup (s : Nat) (ok : Bool)
  /-- the end of `with self._lock` -/
  | release (s : Nat) (ok : Bool)
  /-- the end of `with s._lock` elsewhere -/
  | unhold (s : Nat) (ok : Bool)

/-- The frames of a thread's stack: code waiting for an emission, a loop waiting for a callback
(`/repo/src/psygnal/_signal.py:1308`), a lock held (`:1122`). -/
inductive Frame
  | cont (k : Bool → Code)
  | loop (s : Nat) (p : Option Nat) (l : Loop)
  | hold (s : Nat)

/-- A thread: what it does next and its stack (Python's, running `/repo/src/psygnal/_signal.py:1264-1303`). -/
structure Thread where
  ctl : Ctl
  stack : List Frame

/-- What is observed: thread `t` calls callback `x` of signal `s` with `a` (`/repo/src/psygnal/_signal.py:1308`); it has
left its outermost emission of `s` (`:1268-1303`); it calls `Signal.current_emitter()` (`:434`) while the innermost
emission it is in is that of `here`. -/
inductive Ev
  | call (t s x a : Nat)
  | done (t s : Nat)
  | saw (t : Nat) (here : Option Nat) (v : Option Nat)
  deriving DecidableEq, Repr

/-- Locks (owner and count, `threading.RLock`), queues and depths of the signals
(`/repo/src/psygnal/_signal.py:554-557`), their callbacks (`:551`), the class attribute `_current_emitter` (`:293`), the
threads, the observations.  Ghosts: for each signal the emissions that got the lock, in that order, with the thread
and the argument (`:1269`), and whether an exception has ended a loop (`:1279-1296`). -/
structure St where
  locks : Nat → Option (Nat × Nat)
  queue : Nat → List Nat
  depth : Nat → Nat
  maxd : Nat → Nat
  slots : Nat → List Nat
  cur : Option Nat
  thr : Nat → Thread
  log : List Ev
  acc : Nat → List (Nat × Nat)
  lost : Nat → Bool

/-- Change a function at one place (assignment to an attribute of one object, e.g.
`/repo/src/psygnal/_signal.py:1274`). -/
def set {α : Type} (f : Nat → α) (n : Nat) (v : α) : Nat → α := fun m => if m = n then v else f m

/-- `RLock.acquire` (`/repo/src/psygnal/_signal.py:1268`): `none` if another thread has it. -/
def acquire (t : Nat) : Option (Nat × Nat) → Option (Nat × Nat)
  | none => some (t, 1)
  | some (o, n) => if o = t then some (t, n + 1) else none

/-- `RLock.release` (`/repo/src/psygnal/_signal.py:1268`). -/
def unlock : Option (Nat × Nat) → Option (Nat × Nat)
  | some (o, n + 2) => some (o, n + 1)
  | _ => none

/-- The signal of the innermost emission on a stack (specification: what `current_emitter` of
`/repo/src/psygnal/_signal.py:418-434` is about). -/
def innermost : List Frame → Option Nat
  | [] => none
  | .loop s _ _ :: _ => some s
  | _ :: st => innermost st

/-- Is there a loop of signal `s` on the stack?  (Specification: whether an emission of
`/repo/src/psygnal/_signal.py:1264` is nested in another.) -/
def looping (s : Nat) : List Frame → Bool
  | [] => false
  | .loop s' _ _ :: st => s' = s || looping s st
  | _ :: st => looping s st

/-- One step of thread `t` (`/repo/src/psygnal/_signal.py:1264-1328`, `:410-416`); `none` if it has ended or waits for a
lock. -/
def step (e : Env) (t : Nat) (σ : St) : Option St :=
  let th := σ.thr t
  let go (c : Ctl) (σ : St) : Option St := some { σ with thr := set σ.thr t ⟨c, th.stack⟩ }
  let push (c : Ctl) (f : Frame) (σ : St) : Option St := some { σ with thr := set σ.thr t ⟨c, f :: th.stack⟩ }
  match th.ctl with
  | .run .ret => go (.fin true) σ
  | .run .raise => go (.fin false) σ
  | .run (.see k) => go (.run (k σ.cur)) { σ with log := σ.log ++ [.saw t (innermost th.stack) σ.cur] }
  | .run (.emit s a k) => push (.check s a) (.cont k) σ
  | .run (.hold s c k) => push (.waitHold s c) (.cont k) σ
  | .run (.slots s f k) => go (.run k) { σ with slots := set σ.slots s (f (σ.slots s)) }
  | .check s a => if e.limit ≤ σ.depth s then go (.fin false) σ else go (.wait s a) σ
  | .wait s a =>
    match acquire t (σ.locks s) with
    | none => none
    | some l => go (.locked s a) { σ with locks := set σ.locks s (some l) }
  | .waitHold s c =>
    match acquire t (σ.locks s) with
    | none => none
    | some l => push (.run c) (.hold s) { σ with locks := set σ.locks s (some l) }
  | .locked s a =>
    let q := σ.queue s ++ [a]
    let acc := set σ.acc s (σ.acc s ++ [(t, a)])
    if 1 < q.length then go (.release s true) { σ with queue := set σ.queue s q, acc := acc }
    else
      let d := σ.depth s + 1
      go (.readPrev s) { σ with
        queue := set σ.queue s q, depth := set σ.depth s d, maxd := set σ.maxd s (max (σ.maxd s) d), acc := acc }
  | .readPrev s => go (.writeCur s σ.cur) σ
  | .writeCur s p => go (.start s p) { σ with cur := some s }
  | .start s p =>
    match σ.queue s with
    | [] => go (.restore s p false) { σ with lost := set σ.lost s true }
    | a :: q =>
      if e.mode s = .queued then go (.next s p ⟨a, 0, 0⟩) σ
      else go (.next s p ⟨a, 0, 0⟩) { σ with queue := set σ.queue s q }
  | .next s p ⟨a, j, i⟩ =>
    match (σ.slots s)[j]? with
    | some x =>
      if e.mode s = .latest ∧ σ.depth s < σ.maxd s then go (.restore s p true) σ
      else push (.run (e.body s x a)) (.loop s p ⟨a, j + 1, i⟩) { σ with log := σ.log ++ [.call t s x a] }
    | none =>
      if e.mode s = .queued then
        match (σ.queue s)[i + 1]? with
        | some a => go (.next s p ⟨a, 0, i + 1⟩) σ
        | none => go (.restore s p true) σ
      else go (.restore s p true) σ
  | .restore s p ok => go (.cleanup s ok) { σ with cur := p }
  | .cleanup s ok =>
    let d := σ.depth s - 1
    go (.release s ok) { σ with
      depth := set σ.depth s d, maxd := set σ.maxd s (if d = 0 then 0 else σ.maxd s), queue := set σ.queue s [] }
  | .release s ok =>
    go (.fin ok) { σ with
      locks := set σ.locks s (unlock (σ.locks s)),
      log := if looping s th.stack then σ.log else σ.log ++ [.done t s] }
  | .unhold s ok => go (.fin ok) { σ with locks := set σ.locks s (unlock (σ.locks s)) }
  | .fin ok =>
    match th.stack with
    | [] => none
    | .cont k :: st => some { σ with thr := set σ.thr t ⟨.run (k ok), st⟩ }
    | .hold s :: st => some { σ with thr := set σ.thr t ⟨.unhold s ok, st⟩ }
    | .loop s p l :: st =>
      if ok = false ∨ (e.mode s = .queued ∧ e.limit < (σ.queue s).length) then
        some { σ with thr := set σ.thr t ⟨.restore s p false, st⟩, lost := set σ.lost s true }
      else some { σ with thr := set σ.thr t ⟨.next s p l, st⟩ }

/-- Run a schedule: which thread tries to do a step; a thread that waits or has ended does nothing
(threads of CPython, e.g. of `/repo/src/psygnal/_signal.py:1264`). -/
def run (e : Env) : List Nat → St → St
  | [], σ => σ
  | t :: ts, σ => run e ts ((step e t σ).getD σ)

/-- Nothing emitted yet, thread `t` is about to run `prog t` (`/repo/src/psygnal/_signal.py:552-557`). -/
def init (e : Env) (prog : Nat → Code) : St where
  locks _ := none
  queue _ := []
  depth _ := 0
  maxd _ := 0
  slots := e.slots
  cur := none
  thr t := ⟨.run (prog t), []⟩
  log := []
  acc _ := []
  lost _ := false

end Psygnal.Conc
