/-!
# Assigning evented attributes in several threads

One object with evented attributes - an evented dataclass (`/repo/src/psygnal/_group_descriptor.py:306-402`) or an evented model without properties
(`/repo/src/psygnal/_evented_model.py:626-635`) - and any number of threads that assign and read them.  Every access to an attribute is a step of its own.
Someone listens to every attribute (else an assignment only stores).  Simplified: the operator of a field is a fixed function (else: C42, C91), storing
a value does nothing else and stores it as it is (no validation), listeners do not assign (those: C69), an emission is one step (its inside: C45).
Listeners of a model are told the new value only; the old one in the log is then the one the assignment compared with.
-/
namespace Psygnal.AtC

/-- User code of a thread: assignments, and reads on which it may depend (calls of `/repo/src/psygnal/_group_descriptor.py:387`). -/
inductive Code
  | ret
  | set (n v : Nat) (k : Code)
  | get (n : Nat) (k : Nat → Code)

/-- What happens: an assignment begins, the value is stored, listeners are told the new and old value, or nothing because they are equal; the
assignment is over with that (`/repo/src/psygnal/_group_descriptor.py:387,402,317-318`, `/repo/src/psygnal/_evented_model.py:626,633-635`). -/
inductive Ev
  | call (t n v : Nat)
  | wrote (t n v : Nat)
  | told (t n v new old : Nat)
  | same (t n v new old : Nat)
  deriving DecidableEq, Repr

/-- What a thread does next. -/
inductive Ctl
  | run (c : Code)
  /-- read the old value (`/repo/src/psygnal/_group_descriptor.py:313`, `/repo/src/psygnal/_evented_model.py:632`) -/
  | prev (n v : Nat) (k : Code)
  /-- store the value (`/repo/src/psygnal/_group_descriptor.py:402`, `/repo/src/psygnal/_evented_model.py:633`) -/
  | write (n v old : Nat) (k : Code)
  /-- read it again (`/repo/src/psygnal/_group_descriptor.py:316`; models do not) -/
  | new (n v old : Nat) (k : Code)
  /-- compare (`/repo/src/psygnal/_group_descriptor.py:317`, `/repo/src/psygnal/_evented_model.py:634`) -/
  | test (n v new old : Nat) (k : Code)
  /-- emit (`/repo/src/psygnal/_group_descriptor.py:318`, `/repo/src/psygnal/_evented_model.py:635`) -/
  | emit (n v new old : Nat) (k : Code)

/-- The kind of object: does it read the attribute again after storing it (dataclasses do, `/repo/src/psygnal/_group_descriptor.py:316`); and the
operator of the field (`:95`). -/
structure Cfg where
  reread : Bool
  eq : Nat → Nat → Bool

/-- Are the values equal?  The operator gets what `_check_field_equality` calls `after` and `before` (`/repo/src/psygnal/_group_descriptor.py:98`).
Dataclasses pass the old value as `before` (`:317`), models the new one (`/repo/src/psygnal/_evented_model.py:634`). -/
def Cfg.unchanged (c : Cfg) (new old : Nat) : Bool := if c.reread then c.eq new old else c.eq old new

/-- The attributes of the object, what the threads do, what happened (`/repo/src/psygnal/_group_descriptor.py:307-318`). -/
structure St where
  attr : Nat → Nat
  thr : Nat → Ctl
  log : List Ev

/-- Thread `t` goes on with `c` (`/repo/src/psygnal/_group_descriptor.py:401`). -/
def St.go (σ : St) (t : Nat) (c : Ctl) : St := { σ with thr := fun u => if u = t then c else σ.thr u }

/-- One step of thread `t` (`/repo/src/psygnal/_group_descriptor.py:306-318,387-402`, `/repo/src/psygnal/_evented_model.py:626-635`). -/
def step (c : Cfg) (σ : St) (t : Nat) : St :=
  match σ.thr t with
  | .run .ret => σ
  | .run (.set n v k) => { (σ.go t (.prev n v k)) with log := σ.log ++ [.call t n v] }
  | .run (.get n k) => σ.go t (.run (k (σ.attr n)))
  | .prev n v k => σ.go t (.write n v (σ.attr n) k)
  | .write n v old k =>
    { (σ.go t (if c.reread then .new n v old k else .test n v v old k)) with
      attr := fun m => if m = n then v else σ.attr m, log := σ.log ++ [.wrote t n v] }
  | .new n v old k => σ.go t (.test n v (σ.attr n) old k)
  | .test n v new old k =>
    if c.unchanged new old then { (σ.go t (.run k)) with log := σ.log ++ [.same t n v new old] } else σ.go t (.emit n v new old k)
  | .emit n v new old k => { (σ.go t (.run k)) with log := σ.log ++ [.told t n v new old] }

/-- A schedule: which thread makes the next step (`/repo/src/psygnal/_group_descriptor.py:387-402`). -/
def run (c : Cfg) (s : List Nat) (σ : St) : St := s.foldl (step c) σ

/-- The beginning (`/repo/src/psygnal/_group_descriptor.py:595-621`): attributes have values, threads begin. -/
def init (attr : Nat → Nat) (prog : Nat → Code) : St := ⟨attr, fun t => .run (prog t), []⟩

end Psygnal.AtC
