/-!
# Assigning fields of evented models with dependent properties in several threads

One evented model with properties (`/repo/src/psygnal/_evented_model.py:637-668`): assignments share a counter `_delay_check_semaphore`, a dict
`_changes_queue` and a set `_primary_changes`, without a lock.  Every access to one of these or to a field is a step of its own.  Simplified: all signals
have listeners, which do not assign (one thread: C40) and do not raise; values are stored as they are; fields are assigned, not properties; computing a property is one step;
the operator of a field is a fixed function (else: C42, C91); a set is iterated in the order in which elements were added, the dependent properties
of a field in any fixed order; iterating a dict or set whose
size has not changed goes on with what is at the next position; an emission is one step.
-/
namespace Psygnal.DlC

/-- The class: dependent properties of a field (`/repo/src/psygnal/_evented_model.py:652-656`), how properties are computed from the fields, the operator
for a name, given the old and the new value in this order (`:573`; `/repo/src/psygnal/_group_descriptor.py:98`). -/
structure Cls where
  deps : Nat → List Nat
  prop : Nat → Option ((Nat → Nat) → Nat)
  eq : Nat → Nat → Nat → Bool

/-- `getattr` (`/repo/src/psygnal/_evented_model.py:572`): a field, or a property that is computed. -/
def Cls.get (c : Cls) (m : Nat) (a : Nat → Nat) : Nat :=
  match c.prop m with
  | none => a m
  | some f => f a

/-- Errors: `KeyError` (`/repo/src/psygnal/_evented_model.py:571,575`), `RuntimeError` (size changed during iteration, `:568,581`). -/
inductive Err
  | key
  | size
  deriving DecidableEq, Repr

/-- What happens: an assignment begins, stores, tells listeners of a name its new value, returns or raises
(`/repo/src/psygnal/_evented_model.py:637,668,592`). -/
inductive Ev
  | call (t n v : Nat)
  | wrote (t n v : Nat)
  | told (t m x : Nat)
  | done (t : Nat)
  | raised (t : Nat) (e : Err)
  deriving DecidableEq, Repr

/-- What a thread does next; `acc` is `to_emit`, `i` and `size` the state of an iterator. -/
inductive Ctl
  /-- between assignments -/
  | idle
  /-- `+= 1` (`/repo/src/psygnal/_evented_model.py:192`): read -/
  | semR (n v : Nat)
  /-- `+= 1`: write (`/repo/src/psygnal/_evented_model.py:192`) -/
  | semW (n v : Nat) (x : Int)
  /-- `_primary_changes.add` (`/repo/src/psygnal/_evented_model.py:661`) -/
  | add (n v : Nat)
  /-- is the next name in the queue? (`/repo/src/psygnal/_evented_model.py:662,666`) -/
  | qTest (n v : Nat) (ms : List Nat)
  /-- read the old value (`/repo/src/psygnal/_evented_model.py:663,667`) -/
  | qRead (n v m : Nat) (ms : List Nat)
  /-- put it in the queue (`/repo/src/psygnal/_evented_model.py:663,667`) -/
  | qPut (n v m x : Nat) (ms : List Nat)
  /-- store the value (`/repo/src/psygnal/_evented_model.py:668`) -/
  | store (n v : Nat)
  /-- `-= 1` (`/repo/src/psygnal/_evented_model.py:195`): read -/
  | exR
  /-- `-= 1`: write (`/repo/src/psygnal/_evented_model.py:195`) -/
  | exW (x : Int)
  /-- test the counter (`/repo/src/psygnal/_evented_model.py:564`) -/
  | ckSem
  /-- test the queue (`/repo/src/psygnal/_evented_model.py:564`) -/
  | ckLen
  /-- `iter(_primary_changes)` (`/repo/src/psygnal/_evented_model.py:568`) -/
  | pIter
  /-- the next primary change (`/repo/src/psygnal/_evented_model.py:568`) -/
  | pNext (i size : Nat) (acc : List (Nat × Nat))
  /-- its old value (`/repo/src/psygnal/_evented_model.py:571`) -/
  | pOld (m i size : Nat) (acc : List (Nat × Nat))
  /-- its new value, compared (`/repo/src/psygnal/_evented_model.py:572-574`) -/
  | pNew (m old i size : Nat) (acc : List (Nat × Nat))
  /-- `pop` (`/repo/src/psygnal/_evented_model.py:575`) -/
  | pPop (m i size : Nat) (acc : List (Nat × Nat))
  /-- `iter(_changes_queue.items())` (`/repo/src/psygnal/_evented_model.py:581`) -/
  | dIter (acc : List (Nat × Nat))
  /-- the next dependent property (`/repo/src/psygnal/_evented_model.py:581`) -/
  | dNext (i size : Nat) (acc : List (Nat × Nat))
  /-- its new value, compared (`/repo/src/psygnal/_evented_model.py:583-585`) -/
  | dNew (m old i size : Nat) (acc : List (Nat × Nat))
  /-- `_changes_queue.clear()` (`/repo/src/psygnal/_evented_model.py:578,586`) -/
  | clearQ (acc : List (Nat × Nat))
  /-- `_primary_changes.clear()` (`/repo/src/psygnal/_evented_model.py:579,587`) -/
  | clearP (acc : List (Nat × Nat))
  /-- `+= 1` of the second delay (`/repo/src/psygnal/_evented_model.py:589,192`): read -/
  | eR (acc : List (Nat × Nat))
  /-- `+= 1` of the second delay: write (`/repo/src/psygnal/_evented_model.py:589,192`) -/
  | eW (x : Int) (acc : List (Nat × Nat))
  /-- emit (`/repo/src/psygnal/_evented_model.py:591-592`) -/
  | emit (acc : List (Nat × Nat))
  deriving DecidableEq, Repr

/-- The fields, `_delay_check_semaphore`, `_changes_queue`, `_primary_changes` (`/repo/src/psygnal/_evented_model.py:470-472`); what threads do now and
which assignments they will make; what happened. -/
structure St where
  attr : Nat → Nat
  sem : Int
  queue : List (Nat × Nat)
  prim : List Nat
  thr : Nat → Ctl
  todo : Nat → List (Nat × Nat)
  log : List Ev

/-- Thread `t` goes on with `x` (`/repo/src/psygnal/_evented_model.py:639`). -/
def St.go (σ : St) (t : Nat) (x : Ctl) : St := { σ with thr := fun u => if u = t then x else σ.thr u }

/-- Something happens (`/repo/src/psygnal/_evented_model.py:592`). -/
def St.say (σ : St) (e : Ev) : St := { σ with log := σ.log ++ [e] }

/-- One step of thread `t` (`/repo/src/psygnal/_evented_model.py:557-592,637-668`). -/
def step (c : Cls) (σ : St) (t : Nat) : St :=
  match σ.thr t with
  | .idle =>
    match σ.todo t with
    | [] => σ
    | (n, v) :: r => { (σ.go t (.semR n v)).say (.call t n v) with todo := fun u => if u = t then r else σ.todo u }
  | .semR n v => σ.go t (.semW n v σ.sem)
  | .semW n v x => { σ.go t (.add n v) with sem := x + 1 }
  | .add n v => { σ.go t (.qTest n v (n :: c.deps n)) with prim := if n ∈ σ.prim then σ.prim else σ.prim ++ [n] }
  | .qTest n v [] => σ.go t (.store n v)
  | .qTest n v (m :: ms) => if σ.queue.any (fun e => e.1 == m) then σ.go t (.qTest n v ms) else σ.go t (.qRead n v m ms)
  | .qRead n v m ms => σ.go t (.qPut n v m (c.get m σ.attr) ms)
  | .qPut n v m x ms =>
    { σ.go t (.qTest n v ms) with
      queue := if σ.queue.any (fun e => e.1 == m) then σ.queue.map (fun e => if e.1 = m then (m, x) else e) else σ.queue ++ [(m, x)] }
  | .store n v => { (σ.go t .exR).say (.wrote t n v) with attr := fun m => if m = n then v else σ.attr m }
  | .exR => σ.go t (.exW σ.sem)
  | .exW x => { σ.go t .ckSem with sem := x - 1 }
  | .ckSem => if σ.sem > 0 then (σ.go t .idle).say (.done t) else σ.go t .ckLen
  | .ckLen => if σ.queue = [] then (σ.go t .idle).say (.done t) else σ.go t .pIter
  | .pIter => σ.go t (.pNext 0 σ.prim.length [])
  | .pNext i size acc =>
    if σ.prim.length ≠ size then (σ.go t .idle).say (.raised t .size)
    else match σ.prim[i]? with
      | some m => σ.go t (.pOld m i size acc)
      | none => if acc = [] then σ.go t (.clearQ []) else σ.go t (.dIter acc)
  | .pOld m i size acc =>
    match σ.queue.find? (fun e => e.1 == m) with
    | some e => σ.go t (.pNew m e.2 i size acc)
    | none => (σ.go t .idle).say (.raised t .key)
  | .pNew m old i size acc =>
    σ.go t (.pPop m i size (if c.eq m old (c.get m σ.attr) then acc else acc ++ [(m, c.get m σ.attr)]))
  | .pPop m i size acc =>
    if σ.queue.any (fun e => e.1 == m) then { σ.go t (.pNext (i + 1) size acc) with queue := σ.queue.filter (fun e => e.1 != m) }
    else (σ.go t .idle).say (.raised t .key)
  | .dIter acc => σ.go t (.dNext 0 σ.queue.length acc)
  | .dNext i size acc =>
    if σ.queue.length ≠ size then (σ.go t .idle).say (.raised t .size)
    else match σ.queue[i]? with
      | some e => σ.go t (.dNew e.1 e.2 i size acc)
      | none => σ.go t (.clearQ acc)
  | .dNew m old i size acc =>
    σ.go t (.dNext (i + 1) size (if c.eq m old (c.get m σ.attr) then acc else acc ++ [(m, c.get m σ.attr)]))
  | .clearQ acc => { σ.go t (.clearP acc) with queue := [] }
  | .clearP acc =>
    if acc = [] then { (σ.go t .idle).say (.done t) with prim := [] } else { σ.go t (.eR acc) with prim := [] }
  | .eR acc => σ.go t (.eW σ.sem acc)
  | .eW x acc => { σ.go t (.emit acc) with sem := x + 1 }
  | .emit [] => σ.go t .exR
  | .emit (e :: acc) => (σ.go t (.emit acc)).say (.told t e.1 e.2)

/-- A schedule: which thread makes the next step (`/repo/src/psygnal/_evented_model.py:637-640`). -/
def run (c : Cls) (s : List Nat) (σ : St) : St := s.foldl (step c) σ

/-- A new model (`/repo/src/psygnal/_evented_model.py:470-472`). -/
def init (attr : Nat → Nat) (todo : Nat → List (Nat × Nat)) : St := ⟨attr, 0, [], [], fun _ => .idle, todo, []⟩

end Psygnal.DlC
