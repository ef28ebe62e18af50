/-!
# Queued callbacks with several threads

An interleaving model of `QueuedCallback.cb` and `emit_queued` (`/repo/src/psygnal/_queue.py:59-94`): any number of
threads, each step of a thread is one access to something shared.  In `Verif/Core.lean` one thread of control runs at a
time; here they all do.

The table `_GLOBAL_QUEUE` is a `defaultdict(Queue)`: looking up a missing key calls `Queue()`, which is Python code during
which other threads run, then stores the result.  The n-th queue made for thread `T` is called `(T, n)`.

Simplified: the emission around a queued callback (`Verif/Conc.lean` has that) and the weak reference in it; `put` never
blocks because the queues have no maximal size (`:29-31`); an exception in a callback is a `Bool`.
-/
namespace Psygnal.QC

/-- What a thread executes: user code may have a queued callback invoked for an emission
(`/repo/src/psygnal/_signal.py:1308`, `/repo/src/psygnal/_queue.py:59`), or call `emit_queued`, for its own thread or a
given one (`:69`); it learns whether that raised. -/
inductive Code
  | ret
  | raise
  | send (x a : Nat) (k : Bool → Code)
  | drain (T : Option Nat) (k : Bool → Code)

/-- The callbacks: the thread each is bound to (`/repo/src/psygnal/_queue.py:56`) and its code. -/
structure Env where
  home : Nat → Nat
  body : Nat → Nat → Code

/-- An entry of a queue: a ghost number, the callback, the argument (`/repo/src/psygnal/_queue.py:63`). -/
abbrev Entry := Nat × Nat × Nat

/-- Why a queue is looked up (`/repo/src/psygnal/_queue.py:63,87`). -/
inductive Why
  | put (x a : Nat)
  | drain

/-- What a thread does next (`/repo/src/psygnal/_queue.py:59-94`). -/
inductive Ctl
  | run (c : Code)
  /-- `_GLOBAL_QUEUE[T]` (`:63`, `:87`) -/
  | look (T : Nat) (y : Why)
  /-- the key was missing: `Queue()` runs -/
  | make (T : Nat) (y : Why)
  /-- the `defaultdict` stores the new queue -/
  | store (T v : Nat) (y : Why)
  /-- the queue is found: `put` (`:63`) or start of the loop -/
  | found (T v : Nat) (y : Why)
  /-- `while not queue.empty()` (`:89`) -/
  | poll (T v : Nat)
  /-- `queue.get()` (`:90`) -/
  | take (T v : Nat)
  | fin (ok : Bool)

/-- The frames of a thread's stack: code waiting for an emission or for `emit_queued` (`/repo/src/psygnal/_queue.py:69`), the
loop of `emit_queued` waiting for a callback (`:92`). -/
inductive Frame
  | cont (k : Bool → Code)
  | drain (T : Nat) (k : Bool → Code)
  | loop (T v : Nat)

/-- A thread: what it does next and its stack (Python's; e.g. `/repo/src/psygnal/_queue.py:89-94`). -/
structure Thread where
  ctl : Ctl
  stack : List Frame

/-- What is observed: thread `t` puts an entry for thread `T` (`/repo/src/psygnal/_queue.py:63`), takes one (`:90`), calls a
callback (`:61`, `:92`); calls `emit_queued` for thread `T` (`:69`), finds the queue empty (`:89`), gets back from that call. -/
inductive Ev
  | put (t T : Nat) (n : Entry)
  | get (t T : Nat) (n : Entry)
  | call (t x a : Nat)
  | start (t T : Nat)
  | empty (t T : Nat)
  | back (t T : Nat) (ok : Bool)
  deriving DecidableEq, Repr

/-- The table and how many queues were made for each thread, the queues (`/repo/src/psygnal/_queue.py:29-31`), a counter
for the ghost numbers, the threads, the observations. -/
structure St where
  tab : Nat → Option Nat
  made : Nat → Nat
  q : Nat → Nat → List Entry
  next : Nat
  thr : Nat → Thread
  log : List Ev

/-- Change a function at one place (assignment to one item, e.g. `/repo/src/psygnal/_queue.py:63`). -/
def set {α : Type} (f : Nat → α) (n : Nat) (v : α) : Nat → α := fun m => if m = n then v else f m

/-- Change one queue (`/repo/src/psygnal/_queue.py:63,90`). -/
def setQ (f : Nat → Nat → List Entry) (T v : Nat) (l : List Entry) : Nat → Nat → List Entry :=
  fun T' v' => if T' = T ∧ v' = v then l else f T' v'

/-- One step of thread `t` (`/repo/src/psygnal/_queue.py:59-94`); `none` if it has ended or waits in `queue.get()`. -/
def step (e : Env) (t : Nat) (σ : St) : Option St :=
  match σ.thr t with
  | ⟨.run .ret, st⟩ => some { σ with thr := set σ.thr t ⟨.fin true, st⟩ }
  | ⟨.run .raise, st⟩ => some { σ with thr := set σ.thr t ⟨.fin false, st⟩ }
  | ⟨.run (.send x a k), st⟩ =>
    if t = e.home x then
      some { σ with thr := set σ.thr t ⟨.run (e.body x a), .cont k :: st⟩, log := σ.log ++ [.call t x a] }
    else some { σ with thr := set σ.thr t ⟨.look (e.home x) (.put x a), .cont k :: st⟩ }
  | ⟨.run (.drain T k), st⟩ =>
    some { σ with
      thr := set σ.thr t ⟨.look (T.getD t) .drain, .drain (T.getD t) k :: st⟩, log := σ.log ++ [.start t (T.getD t)] }
  | ⟨.look T y, st⟩ =>
    match σ.tab T with
    | some v => some { σ with thr := set σ.thr t ⟨.found T v y, st⟩ }
    | none => some { σ with thr := set σ.thr t ⟨.make T y, st⟩ }
  | ⟨.make T y, st⟩ =>
    some { σ with thr := set σ.thr t ⟨.store T (σ.made T) y, st⟩, made := set σ.made T (σ.made T + 1) }
  | ⟨.store T v y, st⟩ => some { σ with thr := set σ.thr t ⟨.found T v y, st⟩, tab := set σ.tab T (some v) }
  | ⟨.found T v (.put x a), st⟩ =>
    some { σ with
      thr := set σ.thr t ⟨.fin true, st⟩, q := setQ σ.q T v (σ.q T v ++ [(σ.next, x, a)]), next := σ.next + 1,
      log := σ.log ++ [.put t T (σ.next, x, a)] }
  | ⟨.found T v .drain, st⟩ => some { σ with thr := set σ.thr t ⟨.poll T v, st⟩ }
  | ⟨.poll T v, st⟩ =>
    match σ.q T v with
    | [] => some { σ with thr := set σ.thr t ⟨.fin true, st⟩, log := σ.log ++ [.empty t T] }
    | _ :: _ => some { σ with thr := set σ.thr t ⟨.take T v, st⟩ }
  | ⟨.take T v, st⟩ =>
    match σ.q T v with
    | [] => none
    | (n, x, a) :: l =>
      some { σ with
        thr := set σ.thr t ⟨.run (e.body x a), .loop T v :: st⟩, q := setQ σ.q T v l,
        log := σ.log ++ [.get t T (n, x, a), .call t x a] }
  | ⟨.fin _, []⟩ => none
  | ⟨.fin ok, .cont k :: st⟩ => some { σ with thr := set σ.thr t ⟨.run (k ok), st⟩ }
  | ⟨.fin ok, .drain T k :: st⟩ =>
    some { σ with thr := set σ.thr t ⟨.run (k ok), st⟩, log := σ.log ++ [.back t T ok] }
  | ⟨.fin true, .loop T v :: st⟩ => some { σ with thr := set σ.thr t ⟨.poll T v, st⟩ }
  | ⟨.fin false, .loop _ _ :: st⟩ => some { σ with thr := set σ.thr t ⟨.fin false, st⟩ }

/-- Run a schedule: which thread tries to do a step; one that waits or has ended does nothing (threads of CPython, e.g.
of `/repo/src/psygnal/_queue.py:87`). -/
def run (e : Env) : List Nat → St → St
  | [], σ => σ
  | t :: ts, σ => run e ts ((step e t σ).getD σ)

/-- No callback queued yet; the queues of the threads in `ready` exist already; thread `t` is about to run `prog t`
(`/repo/src/psygnal/_queue.py:29-31`). -/
def init (ready : Nat → Bool) (prog : Nat → Code) : St where
  tab T := if ready T then some 0 else none
  made T := if ready T then 1 else 0
  q _ _ := []
  next := 0
  thr t := ⟨.run (prog t), []⟩
  log := []

end Psygnal.QC
