import Verif.Spec

/-!
# Context manager objects: `sig.blocked()` and `sig.paused()` as values

`Core` has `with sig.blocked(): …` as a statement.  Here the objects are values: they can be created at one time and entered at another,
entered again, and used by several threads at once (`contextlib.ExitStack`, generators, `with` statements of different threads).  The
steps of a history are `__init__`, `__enter__`, `__exit__` of one object and programs of `Core`; threads may be switched between steps.
-/
namespace Psygnal

/-- A `_SignalBlocker` (`_signal.py:1510-1518`) or `_SignalPauser` (`:1528-1537`) with what `__init__` remembers of the signal. -/
inductive Ctx where
  | blocker (s : SigId) (exclude : List SigId) (was : Bool)
  | pauser (s : SigId) (red : Option Reducer) (was : Bool)

/-- One step: `i = s.blocked(exclude)` (`_signal.py:1342-1363`, `_group.py:174-185`), `i = s.paused(reducer, initial)` (`_signal.py:1431-1463`),
`i.__enter__()` (`:1520,1539`), `i.__exit__()` (`:1523,1542`), or any other code. -/
inductive CtxOp where
  | blocked (i : Nat) (s : SigId) (exclude : List SigId)
  | paused (i : Nat) (s : SigId) (red : Option Reducer)
  | enter (i : Nat)
  | exit (i : Nat)
  | run (p : Prog)

/-- The signals and the variables that hold context managers (everything that calls `_signal.py:1342,1431` keeps the results somewhere). -/
structure CtxWorld where
  w : World
  ctx : Nat → Option Ctx

/-- The variables after a step: `__init__` reads the flag of the signal (`_signal.py:1518,1534`). -/
def CtxWorld.vars (σ : CtxWorld) : CtxOp → Nat → Option Ctx
  | .blocked i s ex => fun j => if j = i then some (.blocker s ex (σ.w.sig s).blocked) else σ.ctx j
  | .paused i s red => fun j => if j = i then some (.pauser s red (σ.w.sig s).paused) else σ.ctx j
  | _ => σ.ctx

/-- What a step does: `_SignalBlocker.__enter__`, `__exit__` (`_signal.py:1520-1525`), `_SignalPauser.__enter__`, `__exit__` (`:1539-1544`).
A variable that holds nothing holds `None`. -/
def CtxWorld.comp (env : Env) (σ : CtxWorld) : CtxOp → Comp
  | .blocked .. => .done σ.w (.ok ())
  | .paused .. => .done σ.w (.ok ())
  | .enter i =>
    match σ.ctx i with
    | none => .done σ.w (.error .typeError)
    | some (.blocker s ex _) => .done (σ.w.block env s ex) (.ok ())
    | some (.pauser s _ _) => .done (σ.w.pause s) (.ok ())
  | .exit i =>
    match σ.ctx i with
    | none => .done σ.w (.error .typeError)
    | some (.blocker s _ was) => .done (if was then σ.w else σ.w.unblock env s) (.ok ())
    | some (.pauser s red was) => if was then .done σ.w (.ok ()) else .call (.resume s red) σ.w .done
  | .run p => .call (.prog p) σ.w .done

/-- Steps of several threads, one after the other, with their results (no code of `/repo`: what users of `_signal.py:1510-1544` do). -/
inductive CtxRun (env : Env) : List (ThreadId × CtxOp) → CtxWorld → List Res → CtxWorld → Prop where
  | nil {σ : CtxWorld} : CtxRun env [] σ [] σ
  | cons (n : Nat) {t : ThreadId} {op : CtxOp} {l : List (ThreadId × CtxOp)} {σ σ' : CtxWorld} {w : World} {r : Res} {rs : List Res} :
      runComp (exec env n) (CtxWorld.comp env { σ with w := { σ.w with thread := t } } op) = some (w, r) → CtxRun env l ⟨w, σ.vars op⟩ rs σ' →
      CtxRun env ((t, op) :: l) σ (r :: rs) σ'

/-! ## Vocabulary of C85 -/

/-- Every context manager is entered right when it is created and left once, in any order, by any thread; `o` are those that are open at
the beginning and `o'` those at the end.  None is for a group that `s` is a member of, and other code changes the flags of `s` only with
`with` statements. -/
def Overlap (env : Env) (s : SigId) : List Nat → List (ThreadId × CtxOp) → List Nat → Prop
  | o, [], o' => o' = o
  | o, (_, .run p) :: l, o' => p.Calm env s ∧ Overlap env s o l o'
  | o, (_, .blocked i x _) :: (_, .enter j) :: l, o' => j = i ∧ i ∉ o ∧ ¬ MemberOf env s x ∧ Overlap env s (i :: o) l o'
  | o, (_, .paused i x _) :: (_, .enter j) :: l, o' => j = i ∧ i ∉ o ∧ ¬ MemberOf env s x ∧ Overlap env s (i :: o) l o'
  | o, (_, .exit i) :: l, o' => i ∈ o ∧ Overlap env s (o.erase i) l o'
  | _, _, _ => False

/-- Nothing comes after a `with` statement: an exception goes on. -/
def leave (r : Except Exc Unit) : Prog := match r with
  | .ok _ => .ret
  | .error e => .raise e

/-- The step does not assign variable `i`. -/
def CtxOp.spares (i : Nat) : CtxOp → Prop
  | .blocked j _ _ => j ≠ i
  | .paused j _ _ => j ≠ i
  | _ => True

/-- Code that has nothing to do with the emissions of `s`: it does not emit `s`, nor change its flags or connections. -/
def Apart (env : Env) (s : SigId) (a : Act) : Prop :=
  a.Calm env s ∧ Keeps env s a ∧ ∀ args, (∀ c, a ≠ .emit s args c) ∧ a ≠ .emitFast s args

/-- Steps for counting emissions of `s`: no blocker for `s`, no reducer for a pauser of `s`; code either emits `s` once, by itself or before
other code (an exception of the emission is raised), or has nothing to do with `s`. -/
def CtxOp.Counted (env : Env) (s : SigId) : CtxOp → Prop
  | .blocked _ x _ => x ≠ s
  | .paused _ x red => x = s → red = none
  | .run p => p.Only (Apart env s) ∨
      ∃ a c k, p = .api (.emit s a c) k ∧ (∀ e, k (.error e) = .raise e) ∧ ∀ v, (k (.ok v)).Only (Apart env s)
  | _ => True

/-- The emissions of `s` in such a history, in order. -/
def emitsOf (s : SigId) : List (ThreadId × CtxOp) → List Args
  | [] => []
  | (_, .run (.api (.emit x a _) _)) :: l => if x = s then a :: emitsOf s l else emitsOf s l
  | _ :: l => emitsOf s l

end Psygnal
