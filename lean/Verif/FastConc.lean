/-!
# `emit_fast` with several threads

`emit_fast` takes no lock, and `self._recursion_depth += 1` is a load and a store.  A thread runs code that emits with
`emit_fast` or `emit`; a schedule says which thread does the next step.

Simplifications: the connected callbacks do not change; no pauses and blocks; of `emit` the modes immediate and latest-only,
whose queue is empty whenever the lock is free and at each callback (`Conc.C52_rest`), so it is left out; exceptions are
all alike.
-/
namespace Psygnal.FC

/-- Code of the threads and callbacks: emit with `emit_fast` (`/repo/src/psygnal/_signal.py:1203`) or with `emit` (`:1142`,
`:1264`); the continuation is told whether the emission returned. -/
inductive Code where
  | ret
  | raise
  | emit (fast : Bool) (s a : Nat) (k : Bool → Code)

/-- An emission: number in its thread (ghost), by `emit_fast` or not, signal, argument
(`/repo/src/psygnal/_signal.py:1203`, `:1264`). -/
structure Em where
  i : Nat
  fast : Bool
  s : Nat
  a : Nat
  deriving DecidableEq, Repr

/-- Where a thread is (`/repo/src/psygnal/_signal.py:1203-1303`, lines at each place). -/
inductive Ctl where
  /-- in code of the user -/
  | run (c : Code)
  /-- `:1232`, `:1265` -/
  | check (fast : Bool) (s a : Nat)
  /-- `:1268` -/
  | wait (s a : Nat)
  /-- `:1238`, `:1274`: read the counter -/
  | load (m : Em)
  /-- `:1238`, `:1274`: store the number read and one -/
  | store (m : Em) (v : Int)
  /-- `:1275` -/
  | maxd (m : Em)
  /-- `:1240`, `:1307`, `:1312` -/
  | next (m : Em) (j : Nat)
  /-- `:1255` -/
  | test (m : Em) (ok : Bool)
  /-- `:1256`, `:1298`: read the counter -/
  | dload (m : Em) (ok : Bool)
  /-- `:1256`, `:1298`: store the number read less one -/
  | dstore (m : Em) (ok : Bool) (v : Int)
  /-- `:1300` -/
  | reset (m : Em) (ok : Bool)
  /-- `:1301-1302` -/
  | zero (m : Em) (ok : Bool)
  /-- the end of `:1268` -/
  | release (m : Em) (ok : Bool)
  /-- the end of code, of a callback or of an emission -/
  | fin (ok : Bool)

/-- What a thread returns to: the code that emits, or the loop over the callbacks, of which `j` have been called
(`/repo/src/psygnal/_signal.py:1240`, `:1307`). -/
inductive Frame where
  | cont (k : Bool → Code)
  | loop (m : Em) (j : Nat)

/-- What is observed: a callback is called, an emission ends (by `:1240-1256`, `:1264-1303` of
`/repo/src/psygnal/_signal.py`), the recursion limit refuses one (`:1232`, `:1265`). -/
inductive Ev where
  | call (m : Em) (x : Nat)
  | done (m : Em) (ok : Bool)
  | refused (fast : Bool) (s a : Nat)
  deriving DecidableEq, Repr

/-- A thread: control, stack, number of emissions so far, what happened (`/repo/src/psygnal/_signal.py:1203`). -/
structure Thread where
  ctl : Ctl
  stack : List Frame
  n : Nat
  log : List Ev

/-- The connected callbacks (`/repo/src/psygnal/_signal.py:551`), what they do, the signals with latest-only reemission
(`:1310`), the limit (`:191`). -/
structure Env where
  slots : Nat → List Nat
  body : Nat → Nat → Nat → Code
  latest : Nat → Bool
  limit : Int

/-- Locks with owner and count, the counters (`/repo/src/psygnal/_signal.py:554-557`), the threads.  The counter is an
integer: it can become negative. -/
structure St where
  locks : Nat → Option (Nat × Nat)
  depth : Nat → Int
  maxd : Nat → Int
  thr : Nat → Thread

/-- Change a function at one place (assignment, e.g. `/repo/src/psygnal/_signal.py:1238`). -/
def set {α : Type} (f : Nat → α) (n : Nat) (v : α) : Nat → α := fun m => if m = n then v else f m

/-- `RLock.acquire` (`/repo/src/psygnal/_signal.py:1268`). -/
def acquire (t : Nat) : Option (Nat × Nat) → Option (Nat × Nat)
  | none => some (t, 1)
  | some (o, n) => if o = t then some (t, n + 1) else none

/-- `RLock.release` (`/repo/src/psygnal/_signal.py:1268`). -/
def unlock : Option (Nat × Nat) → Option (Nat × Nat)
  | some (o, n + 2) => some (o, n + 1)
  | _ => none

/-- One step of thread `t` (`/repo/src/psygnal/_signal.py:1225-1256`, `:1264-1318`); `none` if it has ended or waits. -/
def step (e : Env) (t : Nat) (σ : St) : Option St :=
  let th := σ.thr t
  let go (c : Ctl) (σ : St) : Option St := some { σ with thr := set σ.thr t { th with ctl := c } }
  let new (f : Bool) (s a : Nat) (σ : St) : Option St :=
    some { σ with thr := set σ.thr t { th with ctl := .load ⟨th.n, f, s, a⟩, n := th.n + 1 } }
  let done (m : Em) (ok : Bool) (σ : St) : Option St :=
    some { σ with thr := set σ.thr t { th with ctl := .fin ok, log := th.log ++ [.done m ok] } }
  match th.ctl with
  | .run .ret => go (.fin true) σ
  | .run .raise => go (.fin false) σ
  | .run (.emit f s a k) => some { σ with thr := set σ.thr t { th with ctl := .check f s a, stack := .cont k :: th.stack } }
  | .check f s a =>
    if e.limit ≤ σ.depth s then
      some { σ with thr := set σ.thr t { th with ctl := .fin false, log := th.log ++ [.refused f s a] } }
    else if f then new f s a σ
    else go (.wait s a) σ
  | .wait s a =>
    match acquire t (σ.locks s) with
    | none => none
    | some l => new false s a { σ with locks := set σ.locks s (some l) }
  | .load m => go (.store m (σ.depth m.s)) σ
  | .store m v =>
    if m.fast then go (.next m 0) { σ with depth := set σ.depth m.s (v + 1) }
    else go (.maxd m) { σ with depth := set σ.depth m.s (v + 1) }
  | .maxd m => go (.next m 0) { σ with maxd := set σ.maxd m.s (max (σ.maxd m.s) (σ.depth m.s)) }
  | .next m j =>
    match (e.slots m.s)[j]? with
    | none => go (if m.fast then .test m true else .dload m true) σ
    | some x =>
      if m.fast = false ∧ e.latest m.s ∧ σ.depth m.s < σ.maxd m.s then go (.dload m true) σ
      else
        let th' : Thread := ⟨.run (e.body m.s x m.a), .loop m (j + 1) :: th.stack, th.n, th.log ++ [.call m x]⟩
        some { σ with thr := set σ.thr t th' }
  | .test m ok => if 0 < σ.depth m.s then go (.dload m ok) σ else done m ok σ
  | .dload m ok => go (.dstore m ok (σ.depth m.s)) σ
  | .dstore m ok v =>
    if m.fast then done m ok { σ with depth := set σ.depth m.s (v - 1) }
    else go (.reset m ok) { σ with depth := set σ.depth m.s (v - 1) }
  | .reset m ok => if σ.depth m.s ≤ 0 then go (.zero m ok) σ else go (.release m ok) σ
  | .zero m ok => go (.release m ok) { σ with depth := set σ.depth m.s 0, maxd := set σ.maxd m.s 0 }
  | .release m ok => done m ok { σ with locks := set σ.locks m.s (unlock (σ.locks m.s)) }
  | .fin ok =>
    match th.stack with
    | [] => none
    | .cont k :: st => some { σ with thr := set σ.thr t { th with ctl := .run (k ok), stack := st } }
    | .loop m j :: st =>
      if ok then some { σ with thr := set σ.thr t { th with ctl := .next m j, stack := st } }
      else some { σ with thr := set σ.thr t { th with ctl := if m.fast then .test m false else .dload m false, stack := st } }

/-- Run a schedule (threads of CPython, e.g. of `/repo/src/psygnal/_signal.py:1203`). -/
def run (e : Env) : List Nat → St → St
  | [], σ => σ
  | t :: ts, σ => run e ts ((step e t σ).getD σ)

/-- Nothing emitted yet, thread `t` is about to run `prog t` (`/repo/src/psygnal/_signal.py:552-557`). -/
def init (prog : Nat → Code) : St where
  locks _ := none
  depth _ := 0
  maxd _ := 0
  thr t := ⟨.run (prog t), [], 0, []⟩

/-- The calls of the `i`-th emission of a thread (specification, of the loop at `/repo/src/psygnal/_signal.py:1240`). -/
def calls (i : Nat) (log : List Ev) : List Ev := log.filter fun
  | .call m _ => m.i = i
  | _ => false

end Psygnal.FC
