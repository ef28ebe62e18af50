/-! # `EventedModel` (`/repo/src/psygnal/_evented_model.py`)

Names are numbers and so are values, which stand for values up to the equality of their field.
`pydantic.BaseModel.__setattr__` is not part of the repository: it validates the value of one field
(`coerce`) and stores it.  Validators that change other fields are not modelled, nor is the switch of
the equality operator after a comparison that raises (that is C42). -/
namespace Psygnal.EM

/-- User code, i.e. a callback or a property setter: it reads attributes, assigns attributes, learns
whether that raised, and may raise (`/repo/src/psygnal/_evented_model.py:592,611`). -/
inductive Prog
  | ret
  | raise
  | get (n : Nat) (k : Option Nat → Prog)
  | set (n v : Nat) (k : Bool → Prog)

/-- Exceptions: of user code, of validation, `KeyError`, `AttributeError`, and `EmitLoopError`
(`/repo/src/psygnal/_evented_model.py:571-592,652-653`). -/
inductive Err
  | user | validation | key | attribute | emitLoop
  deriving DecidableEq, Repr

/-- The class and the listeners of a model (`/repo/src/psygnal/_evented_model.py:461-472`). -/
structure Cfg where
  /-- `name in self._events` (`:598`). -/
  sig : Nat → Bool
  /-- `name in self.__property_setters__` (`:610`). -/
  isProp : Nat → Bool
  /-- `__field_dependents__` (`:466`). -/
  deps : Nat → List Nat
  /-- Which `_setattr_default` the metaclass has chosen (`:298-301`). -/
  noDeps : Bool
  /-- `len(group[name]) > 0`: somebody listens, directly or through the group (`:630,653,656`). -/
  listens : Nat → Bool
  /-- `len(group._psygnal_relay) > 0` (`:658`). -/
  relay : Bool
  /-- Validation by pydantic (`:616`). -/
  coerce : Nat → Nat → Option Nat
  fset : Nat → Nat → Prog
  /-- Property getter; `none`: it raises `AttributeError` (`:572,583,663,667`). -/
  fget : Nat → (Nat → Nat) → Option Nat
  /-- The equality operator of the field (`:573,584,634`). -/
  same : Nat → Nat → Nat → Bool
  /-- The order in which a set of names is iterated (`:568`). -/
  order : List Nat → List Nat
  /-- What the listeners of a signal do, one after the other (`:592`). -/
  cb : Nat → Nat → Prog
  /-- The field is called like an attribute of `SignalGroup`, so `getattr(self._events, name)` is not
  its signal (`:592,635`). -/
  conflict : Nat → Bool

/-- The private state of a model: stored fields, `_changes_queue` (old value, `none` for a fresh
`object()`), `_primary_changes`, `_delay_check_semaphore`
(`/repo/src/psygnal/_evented_model.py:470-472`).  `log`: emissions so far; `lost`: an emission was
abandoned because a listener raised; both are observations only. -/
structure St where
  F : Nat → Nat
  queue : List (Nat × Option Nat)
  primary : List Nat
  sem : Nat
  log : List (Nat × Nat)
  lost : Bool

/-- `getattr(self, name)` (`/repo/src/psygnal/_evented_model.py:572,583,632,663,667`). -/
def Cfg.get (c : Cfg) (n : Nat) (F : Nat → Nat) : Option Nat :=
  if c.isProp n then c.fget n F else some (F n)

/-- `not _check_field_equality(type(self), name, new, old)`; a fresh `object()` equals nothing
(`/repo/src/psygnal/_evented_model.py:573,584,634`). -/
def Cfg.changed (c : Cfg) (n new : Nat) : Option Nat → Bool
  | none => true
  | some o => !c.same n new o

/-- `name in self._changes_queue` and its value (`/repo/src/psygnal/_evented_model.py:571,662,666`). -/
def lookup (q : List (Nat × Option Nat)) (n : Nat) : Option (Option Nat) :=
  (q.find? (·.1 = n)).map (·.2)

/-- Record the old value (`/repo/src/psygnal/_evented_model.py:662-663,666-667`). -/
def addQ (c : Cfg) (F : Nat → Nat) (q : List (Nat × Option Nat)) (n : Nat) : List (Nat × Option Nat) :=
  if (lookup q n).isSome then q else q ++ [(n, c.get n F)]

/-- `deps_with_callbacks` (`/repo/src/psygnal/_evented_model.py:650-654`). -/
def Cfg.liveDeps (c : Cfg) (n : Nat) : List Nat := (c.deps n).filter (c.listens ·)

/-- Somebody listens to the field or to what depends on it
(`/repo/src/psygnal/_evented_model.py:655-659`). -/
def Cfg.tracked (c : Cfg) (n : Nat) : Bool := c.listens n || !(c.liveDeps n).isEmpty || c.relay

/-- The bookkeeping before the assignment (`/repo/src/psygnal/_evented_model.py:661-667`). -/
def track (c : Cfg) (n : Nat) (s : St) : St :=
  { s with
    primary := if n ∈ s.primary then s.primary else s.primary ++ [n]
    queue := (c.liveDeps n).foldl (addQ c s.F) (addQ c s.F s.queue n) }

/-- The loop over the directly assigned names (`/repo/src/psygnal/_evented_model.py:568-575`). -/
def loop1 (c : Cfg) (F : Nat → Nat) :
    List Nat → List (Nat × Option Nat) → List (Nat × Nat) → Except Err (List (Nat × Nat)) × List (Nat × Option Nat)
  | [], q, acc => (.ok acc, q)
  | x :: l, q, acc =>
    match lookup q x with
    | none => (.error .key, q)
    | some old =>
      match c.get x F with
      | none => (.error .attribute, q)
      | some v => loop1 c F l (q.filter (·.1 ≠ x)) (if c.changed x v old then acc ++ [(x, v)] else acc)

/-- The loop over the dependent names (`/repo/src/psygnal/_evented_model.py:581-585`). -/
def loop2 (c : Cfg) (F : Nat → Nat) : List (Nat × Option Nat) → List (Nat × Nat) → Except Err (List (Nat × Nat))
  | [], acc => .ok acc
  | (x, old) :: l, acc =>
    match c.get x F with
    | none => .error .attribute
    | some v => loop2 c F l (if c.changed x v old then acc ++ [(x, v)] else acc)

/-- The comparisons (`/repo/src/psygnal/_evented_model.py:567-587`): what to emit, and the state with
the bookkeeping cleared; if reading an attribute raises, it is not cleared. -/
def compare (c : Cfg) (s : St) : Except Err (List (Nat × Nat)) × St :=
  match loop1 c s.F (c.order s.primary) s.queue [] with
  | (.error e, q) => (.error e, { s with queue := q })
  | (.ok [], _) => (.ok [], { s with queue := [], primary := [] })
  | (.ok (e :: l), q) =>
    match loop2 c s.F q (e :: l) with
    | .error e => (.error e, { s with queue := q })
    | .ok l => (.ok l, { s with queue := [], primary := [] })

/-- What can be under way (`/repo/src/psygnal/_evented_model.py:185-196,557-668`). -/
inductive Task
  /-- User code. -/
  | prog (p : Prog)
  /-- `__setattr__` (`:594-604`). -/
  | set (n v : Nat)
  /-- `_super_setattr_` (`:606-616`). -/
  | super (n v : Nat)
  /-- `_setattr_impl` (`:642-668`). -/
  | impl (n v : Nat)
  /-- `ComparisonDelayer.__exit__` (`:194-196`) at the end of a block with result `r`. -/
  | exit (r : Except Err Unit)
  /-- `_check_if_values_changed_and_emit_if_needed` when there is something to do (`:557-592`). -/
  | check
  /-- The loop of emissions (`:591-592`). -/
  | emits (l : List (Nat × Nat))

/-- Whether something raised (`/repo/src/psygnal/_evented_model.py:192-196`). -/
def isOk : Except Err Unit → Bool
  | .ok _ => true
  | .error _ => false

/-- Run a task; `none`: the nesting is deeper than the bound.  Cited per case at `Task`
(`/repo/src/psygnal/_evented_model.py:185-196,557-668`). -/
def exec (c : Cfg) : Nat → Task → St → Option (Except Err Unit × St)
  | 0, _, _ => none
  | f + 1, .prog p, s =>
    match p with
    | .ret => some (.ok (), s)
    | .raise => some (.error .user, s)
    | .get n k => exec c f (.prog (k (c.get n s.F))) s
    | .set n v k =>
      match exec c f (.set n v) s with
      | none => none
      | some (r, s) => exec c f (.prog (k (isOk r))) s
  | f + 1, .set n v, s =>
    if c.sig n = false then exec c f (.super n v) s
    else if c.noDeps then
      -- `_setattr_no_dependants` (`:626-635`)
      if c.listens n = false then exec c f (.super n v) s
      else
        let old := c.get n s.F
        match exec c f (.super n v) s with
        | none => none
        | some (.error e, s) => some (.error e, s)
        | some (.ok _, s) => if c.changed n v old then exec c f (.emits [(n, v)]) s else some (.ok (), s)
    else
      -- `_setattr_with_dependents` (`:637-640`)
      match exec c f (.impl n v) { s with sem := s.sem + 1 } with
      | none => none
      | some (r, s) => exec c f (.exit r) s
  | f + 1, .super n v, s =>
    if c.isProp n then exec c f (.prog (c.fset n v)) s
    else match c.coerce n v with
      | none => some (.error .validation, s)
      | some w => some (.ok (), { s with F := fun x => if x = n then w else s.F x })
  | f + 1, .impl n v, s =>
    if (c.deps n).any (fun d => !c.sig d) then some (.error .key, s)
    else exec c f (.super n v) (if c.tracked n then track c n s else s)
  | f + 1, .exit r, s =>
    if s.sem - 1 > 0 ∨ s.queue = [] then some (r, { s with sem := s.sem - 1 })
    else match exec c f .check { s with sem := s.sem - 1 } with
      | none => none
      | some (.ok _, s) => some (r, s)
      | some (.error e, s) => some (.error e, s)
  | f + 1, .check, s =>
    match compare c s with
    | (.error e, s) => some (.error e, s)
    | (.ok [], s) => some (.ok (), s)
    | (.ok (e :: l), s) =>
      match exec c f (.emits (e :: l)) { s with sem := s.sem + 1 } with
      | none => none
      | some (r, s) => exec c f (.exit r) s
  | f + 1, .emits l, s =>
    match l with
    | [] => some (.ok (), s)
    | (n, x) :: l =>
      if c.conflict n then some (.error .attribute, { s with lost := true })
      else if c.listens n = false then exec c f (.emits l) s
      else match exec c f (.prog (c.cb n x)) { s with log := s.log ++ [(n, x)] } with
        | none => none
        | some (.ok _, s) => exec c f (.emits l) s
        | some (.error _, s) => some (.error .emitLoop, { s with lost := true })

/-- Assignments one after the other, each exception being handled by the caller
(`/repo/src/psygnal/_evented_model.py:594-604`). -/
def assigns (c : Cfg) (f : Nat) : List (Nat × Nat) → St → Option St
  | [], s => some s
  | (n, v) :: l, s => match exec c f (.set n v) s with
    | none => none
    | some (_, s) => assigns c f l s

/-! ## The metaclass -/

/-- A class: fields with their flag `frozen`, the property setters of its own namespace and those of its
bases, and `field_dependencies`, which is inherited with the configuration
(`/repo/src/psygnal/_evented_model.py:226,247-250,266-283,333`). -/
structure Decl where
  fields : List (Nat × Bool)
  own : List Nat
  inherited : List Nat
  depends : List (Nat × List Nat)

/-- `signals` (`/repo/src/psygnal/_evented_model.py:247-250,277-283`). -/
def Decl.signals (d : Decl) : List Nat := (d.fields.filter (!·.2)).map (·.1) ++ d.own

/-- `__property_setters__` (`/repo/src/psygnal/_evented_model.py:270-281`). -/
def Decl.setters (d : Decl) : List Nat := d.inherited ++ d.own

/-- The check of `_get_field_dependents` (`/repo/src/psygnal/_evented_model.py:349-354`). -/
def Decl.accepted (d : Decl) : Bool :=
  d.depends.all fun p => p.1 ∈ d.fields.map (·.1) || p.1 ∈ d.setters

/-- `__field_dependents__` (`/repo/src/psygnal/_evented_model.py:355-360`). -/
def Decl.dependents (d : Decl) (x : Nat) : List Nat :=
  (d.depends.filter (fun p => x ∈ p.2)).map (·.1)

/-- `not cls.__field_dependents__` (`/repo/src/psygnal/_evented_model.py:298`). -/
def Decl.noDeps (d : Decl) : Bool := d.depends.all (·.2.isEmpty)

/-- The class of a declaration (`/repo/src/psygnal/_evented_model.py:294-301`). -/
def Decl.apply (d : Decl) (c : Cfg) : Cfg :=
  { c with sig := fun n => n ∈ d.signals, isProp := fun n => n ∈ d.setters, deps := d.dependents, noDeps := d.noDeps }

end Psygnal.EM
