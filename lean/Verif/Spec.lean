import Verif.Core

/-!
# Specification vocabulary

Definitions used in the statements of the property theorems (not part of the model).
-/
namespace Psygnal

/-- `c.Reaches P t' w'`: while computation `c` runs (nested calls behaving as `P`), the nested
procedure call `t'` is started in world `w'`. -/
def Comp.Reaches (P : Task → World → World → Res → Prop) : Comp → Task → World → Prop
  | .done _ _, _, _ => False
  | .call t w k, t', w' =>
    (t' = t ∧ w' = w) ∨ ∃ w1 r1, P t w w1 r1 ∧ (k w1 r1).Reaches P t' w'

/-- `p.Only Q`: every API call the program can ever make satisfies `Q` (context managers count as
the calls they make). -/
def Prog.Only (Q : Act → Prop) : Prog → Prop
  | .ret => True
  | .raise _ => True
  | .user _ k => ∀ m, (k m).Only Q
  | .api a k => Q a ∧ ∀ r, (k r).Only Q
  | .withBlocked s ex b k => Q (.block s ex) ∧ Q (.unblock s) ∧ b.Only Q ∧ ∀ r, (k r).Only Q
  | .withPaused s red b k => Q (.pause s) ∧ Q (.resume s red) ∧ b.Only Q ∧ ∀ r, (k r).Only Q

/-- All callbacks of the environment only make calls satisfying `Q`. -/
def Env.Only (env : Env) (Q : Act → Prop) : Prop := ∀ b a, (env.body b a).Only Q

/-- No restriction on the API calls. -/
def anyAct : Act → Prop := fun _ => True

/-- API calls that cannot make an emission run forever: emissions only of the signals in `S`, no new
connections, no debug hook, no `resume` (it iterates over a list that callbacks can extend), no
`emit_queued` (it runs until a queue that callbacks can extend is empty). -/
def Bounded (S : List SigId) : Act → Prop
  | .emit s _ _ => s ∈ S
  | .emitFast s _ => s ∈ S
  | .connect .. => False
  | .connectRaw .. => False
  | .resume .. => False
  | .emitQueued _ => False
  | .setHook h => h = none
  | _ => True

/-- Reachable worlds: any finite history of top-level programs (making only API calls allowed by
`Q`), each run to completion — normally or with an exception — by some thread. -/
inductive Reachable (env : Env) (Q : Act → Prop) : World → Prop where
  | init : Reachable env Q .init
  | step {w w' : World} {r : Res} (t : ThreadId) (p : Prog) : p.Only Q →
      Reachable env Q w → Runs env (.prog p) { w with thread := t } w' r → Reachable env Q w'

/-- `Live env Q t w`: in some history of top-level programs (making only API calls allowed by `Q`),
procedure `t` is started in world `w` — at top level or at any depth inside a running (possibly
never ending) program or callback. -/
inductive Live (env : Env) (Q : Act → Prop) : Task → World → Prop where
  | top {w : World} : Reachable env Q w → (t : ThreadId) → (p : Prog) → p.Only Q →
      Live env Q (.prog p) { w with thread := t }
  | sub {t t' : Task} {w w' : World} : Live env Q t w → (body env t w).Reaches (Runs env) t' w' →
      Live env Q t' w'

/-- Slots are called from high to low priority, and in connection order among equals (`serial`
numbers all connections ever made, in order). -/
def SlotBefore (a b : Slot) : Prop :=
  a.priority > b.priority ∨ (a.priority = b.priority ∧ a.serial < b.serial)

/-- `Cont env p w p' w'`: user code `p`, started in `w`, gets to continue as `p'` in `w'` (after some
of its API calls, or inside its `with` blocks; not inside other callbacks). -/
inductive Cont (env : Env) (p : Prog) (w : World) : Prog → World → Prop where
  | refl : Cont env p w p w
  | step {p1 p2 : Prog} {w1 w2 : World} : Cont env p w p1 w1 →
      (body env (.prog p1) w1).Reaches (Runs env) (.prog p2) w2 → Cont env p w p2 w2

/-- The number of callback invocations made by emit loops of `s` that have not yet ended. -/
def openCalls (s : SigId) : List Ev → Int
  | [] => 0
  | .call _ src _ _ _ _ _ :: l => (if src = some s then 1 else 0) + openCalls s l
  | .ret _ src _ _ :: l => (if src = some s then -1 else 0) + openCalls s l
  | _ :: l => openCalls s l

/-- `Within env t w t' w'`: while procedure `t`, started in `w`, runs, procedure `t'` is started in
`w'` (at any depth; `t` itself included).  User code is a procedure call after each of its steps, so
this covers every moment of the execution. -/
inductive Within (env : Env) (t : Task) (w : World) : Task → World → Prop where
  | refl : Within env t w t w
  | step {t1 t2 : Task} {w1 w2 : World} : Within env t w t1 w1 →
      (body env t1 w1).Reaches (Runs env) t2 w2 → Within env t w t2 w2

/-- The emit loop that produced an event. -/
def Ev.em? : Ev → Option Nat
  | .req _ _ => none
  | .fast _ _ em => some em
  | .call em .. => em
  | .ret em .. => em
  | .put _ _ _ em => em
  | .get .. => none

/-- What the user's callable receives for an emission with `args`: its partial arguments, then the
first `max_args` emitted ones; for `setattr`/`setitem` connections one value, a tuple unless exactly
one argument is passed. -/
def Slot.receives (x : Slot) (args : Args) : Args :=
  match x.base with
  | .setattr .. | .setitem .. =>
    match args.take (x.maxArgs.getD args.length) with
    | [v] => [v]
    | vs => [.tup vs]
  | _ => x.bound ++ args.take (x.maxArgs.getD args.length)

/-- `Delivery s em th args x seg r`: the piece `seg` of the log is the delivery of `args` to the slot
`x` by emit loop `em` of signal `s` running on thread `th`, ending with `r`: either one invocation of
the callable, from its start to its end, inside which emit loop `em` does nothing else; or, if the
slot belongs to another thread, one entry in the queue of that thread. -/
def Delivery (s : SigId) (em : Nat) (th : ThreadId) (args : Args) (x : Slot) (seg : List Ev) (r : Res) :
    Prop :=
  ((x.thread = none ∨ x.thread = some th) ∧ ∃ d e inner,
    seg = .call (some em) (some s) d e th x.base (x.receives args) :: inner ++
      [.ret (some em) (some s) x.base r] ∧ ∀ v ∈ inner, v.em? ≠ some em) ∨
  (∃ t, x.thread = some t ∧ t ≠ th ∧ r = .ok () ∧ seg = [.put t x.base args (some em)])

/-- The log of an emit loop that delivered `args` to the slots `xs`, in this order, each exactly
once, each ending normally. -/
def Deliveries (s : SigId) (em : Nat) (th : ThreadId) (args : Args) : List Slot → List Ev → Prop
  | [], l => l = []
  | x :: xs, l => ∃ seg rest, l = seg ++ rest ∧ Delivery s em th args x seg (.ok ()) ∧
      Deliveries s em th args xs rest

/-- The emissions of `s` that were accepted, in order. -/
def accepted (s : SigId) (l : List Ev) : List Args := l.filterMap fun e => match e with
  | .req s' a => if s' = s then some a else none
  | _ => none

/-- The log of an emit loop that delivered each of the values, in order, to all the slots `xs`. -/
def Rounds (s : SigId) (em : Nat) (th : ThreadId) (xs : List Slot) : List Args → List Ev → Prop
  | [], l => l = []
  | a :: as, l => ∃ l₁ l₂, l = l₁ ++ l₂ ∧ Deliveries s em th a xs l₁ ∧ Rounds s em th xs as l₂

/-- `Surfaces s e e'`: exception `e` raised by a callback leaves an emit loop of `s` as `e'`. -/
inductive Surfaces (s : SigId) : Exc → Exc → Prop where
  | recursion : Surfaces s .recursion .recursion
  | nested (s' : Option SigId) (cause : Exc) : Surfaces s (.emitLoop s' cause) (.emitLoop s' cause)
  | base (n : Nat) : Surfaces s (.base n) (.base n)
  | ordinary (e : Exc) : e ≠ .recursion → (∀ s' c, e ≠ .emitLoop s' c) → (∀ n, e ≠ .base n) →
      Surfaces s e (.emitLoop (some s) e)

/-- API calls that leave the connections of `s` alone: no connecting or disconnecting on `s` or on
groups, no object dies. -/
def Keeps (env : Env) (s : SigId) : Act → Prop
  | .connect s' _ _ => s' ≠ s ∧ (env.decl s').isRelay = false
  | .connectRaw s' _ _ _ => s' ≠ s ∧ (env.decl s').isRelay = false
  | .disconnect s' _ _ => s' ≠ s ∧ (env.decl s').isRelay = false
  | .discard s' _ _ => s' ≠ s ∧ (env.decl s').isRelay = false
  | .kill _ => False
  | _ => True

/-- The invocations made by emit loop `em`: which callable, with which arguments, in order. -/
def callsBy (em : Nat) (l : List Ev) : List (Base × Args) := l.filterMap fun e => match e with
  | .call (some n) _ _ _ _ b a => if n = em then some (b, a) else none
  | _ => none

/-- The entries made by emit loop `em` in the queues of other threads, in order. -/
def putsBy (em : Nat) (l : List Ev) : List (ThreadId × Base × Args) := l.filterMap fun e => match e with
  | .put t b a (some n) => if n = em then some (t, b, a) else none
  | _ => none

/-- Is this slot called directly by emissions on thread `th`? -/
def Slot.isLocal (th : ThreadId) (x : Slot) : Bool := x.thread = none ∨ x.thread = some th

/-- Does blocking/unblocking `x` concern `s`, i.e. is `s` a member of the group `x`? -/
def MemberOf (env : Env) (s x : SigId) : Prop := (env.decl x).isRelay = true ∧ s ∈ (env.decl x).children

/-- API calls other than `block`, `unblock`, `pause`, `resume` on `s` and (un)blocking groups that `s`
is a member of. -/
def Act.Calm (env : Env) (s : SigId) : Act → Prop
  | .block x _ => x ≠ s ∧ ¬ MemberOf env s x
  | .unblock x => x ≠ s ∧ ¬ MemberOf env s x
  | .pause x => x ≠ s
  | .resume x _ => x ≠ s
  | _ => True

/-- User code that changes whether `s` is blocked or paused only through the context managers
`s.blocked()` and `s.paused()`. -/
def Prog.Calm (env : Env) (s : SigId) : Prog → Prop
  | .ret => True
  | .raise _ => True
  | .user _ k => ∀ m, (k m).Calm env s
  | .api a k => a.Calm env s ∧ ∀ r, (k r).Calm env s
  | .withBlocked x _ b k => ¬ MemberOf env s x ∧ b.Calm env s ∧ ∀ r, (k r).Calm env s
  | .withPaused _ _ b k => b.Calm env s ∧ ∀ r, (k r).Calm env s

/-- All callbacks are like that. -/
def Env.Calm (env : Env) (s : SigId) : Prop := ∀ b a, (env.body b a).Calm env s

/-- The events of emissions of `s`: emissions accepted, loops started, callbacks invoked and ended. -/
def sigEvents (s : SigId) (l : List Ev) : List Ev := l.filter fun e => match e with
  | .req s' _ => s' = s
  | .fast s' _ _ => s' = s
  | .call _ src _ _ _ _ _ => src = some s
  | .ret _ src _ _ => src = some s
  | .put .. => false
  | .get .. => false

/-- API calls other than `pause` and `resume` on `s`. -/
def NoPause (s : SigId) : Act → Prop
  | .pause x => x ≠ s
  | .resume x _ => x ≠ s
  | _ => True

/-- The log of successive emissions of `s` with these values, in order, each exactly once: each accepted
and delivered to the slots `xs` by an emit loop of its own before the next one starts. -/
def Emissions (s : SigId) (th : ThreadId) (xs : List Slot) : List Args → List Ev → Prop
  | [], l => l = []
  | a :: as, l => ∃ em l₁ l₂, l = .req s a :: (l₁ ++ l₂) ∧ Deliveries s em th a xs l₁ ∧
      Emissions s th xs as l₂

/-- `s.emit(a)` for each of the values, one after the other, all returning normally. -/
def EmitAll (env : Env) (s : SigId) : List Args → World → World → Prop
  | [], w, w' => w' = w
  | a :: as, w, w' => ∃ w1, Runs env (.emit s a false) w w1 (.ok ()) ∧ EmitAll env s as w1 w'

/-- Ordinary Python callables, called with the emitted arguments as they are (not `setattr`/`setitem`
connections, not the internal relay of a group). -/
def Base.isPlain : Base → Bool
  | .func _ | .callable _ | .method .. | .builtin .. => true
  | _ => false

/-- API calls with argument checking in effect: connecting with `check_nargs` and without explicit
`max_args` a callable whose signature can be determined, emitting with checking or at least with the right
number of arguments, no reducers (which may change the number of arguments), no debug hook. -/
def Checked (env : Env) : Act → Prop
  | .connect s c o => o.checkNargs.getD (env.decl s).checkNargs = true ∧ o.maxArgs = none ∧
      ∃ sg, env.pysig c.base = some sg ∧ WFSig sg ∧ (dropBound sg c.bound.length).isSome
  | .connectRaw _ b _ _ => b.isPlain = false
  | .emit s a c => c = true ∨ a.length = (env.decl s).sig.length
  | .emitFast s a => a.length = (env.decl s).sig.length
  | .resume _ red => red = none
  | .setHook h => h = none
  | _ => True

/-- This call of an ordinary callable binds to its Python signature. -/
def Ev.Binds (env : Env) : Ev → Prop
  | .call _ _ _ _ _ b a => b.isPlain = true → ∃ sg, env.pysig b = some sg ∧ bindsPos sg a.length = true
  | _ => True

/-- The callbacks (with the emitted arguments) put on the queue of thread `t`, in order. -/
def putsTo (t : ThreadId) (l : List Ev) : List (Base × Args) := l.filterMap fun e => match e with
  | .put t' b a _ => if t' = t then some (b, a) else none
  | _ => none

/-- The callbacks taken from the queue of thread `t` by `emit_queued`, in order. -/
def getsFrom (t : ThreadId) (l : List Ev) : List (Base × Args) := l.filterMap fun e => match e with
  | .get t' b a => if t' = t then some (b, a) else none
  | _ => none

/-- The log of `emit_queued` on the queue of thread `t`, executed by thread `th`, that took these entries,
in order, and invoked each of them exactly once, each returning normally before the next one was taken. -/
def Served (t th : ThreadId) : List (Slot × Args) → List Ev → Prop
  | [], l => l = []
  | (x, a) :: xs, l => ∃ e inner rest,
      l = .get t x.base a :: .call none none 0 e th x.base (x.receives a) ::
        (inner ++ .ret none none x.base (.ok ()) :: rest) ∧
      Served t th xs rest

/-- How an exception `e` of a queued callback leaves `emit_queued`: wrapped in an `EmitLoopError` with
cause `e`, unless it is a `BaseException` that is not an `Exception`. -/
inductive SurfacesQueued : Exc → Exc → Prop where
  | base (n : Nat) : SurfacesQueued (.base n) (.base n)
  | ordinary (e : Exc) : (∀ n, e ≠ .base n) → SurfacesQueued e (.emitLoop none e)

/-- The log of a failing queued callback: invoked once, raising `e`; or, if its owner has died meanwhile,
not invoked at all. -/
def Failed (th : ThreadId) (w : World) (x : Slot) (a : Args) (e : Exc) (l : List Ev) : Prop :=
  (∃ em inner, l = .call none none 0 em th x.base (x.receives a) ::
    (inner ++ [.ret none none x.base (.error e)])) ∨
  (l = [] ∧ e = .referenceError ∧ ∃ o, x.base.owner? = some o ∧ w.dead o = true)

/-- API calls other than `emit_queued`. -/
def NoDrain : Act → Prop
  | .emitQueued _ => False
  | _ => True

/-- API calls that connect the callable `b` only with `thread=T`, and do not use it as debug hook. -/
def BoundTo (b : Base) (T : ThreadId) : Act → Prop
  | .connect _ c o => c.base = b → o.thread = some (.this T) ∨ (o.thread = some .main ∧ T = 0)
  | .connectRaw _ b' _ _ => b' ≠ b
  | .setHook h => h ≠ some b
  | _ => True

/-- … and moreover every thread only drains its own queue. -/
def BoundOwn (b : Base) (T : ThreadId) (a : Act) : Prop :=
  BoundTo b T a ∧ ∀ t, a ≠ .emitQueued (some t)

/-- Groups are well formed: the members of a group are distinct plain signals of that group alone, and
the relay of a group uses the default re-emission mode (`_group.py:71,267-277`). -/
structure Groups (env : Env) : Prop where
  mode : ∀ r, (env.decl r).isRelay = true → (env.decl r).mode = .immediate
  nodup : ∀ r, (env.decl r).children.Nodup
  plain : ∀ r c, (env.decl r).isRelay = true → c ∈ (env.decl r).children → (env.decl c).isRelay = false
  parent : ∀ r c, (env.decl c).parent = some r ↔ (env.decl r).isRelay = true ∧ c ∈ (env.decl r).children

/-- API calls that respect group `r`: its internal relay slot is not connected or disconnected by the user,
and its members are not cleared by `member.disconnect()`.  Anything else is allowed: connecting and
disconnecting listeners on the group (also `group.disconnect()`) and on its members, deaths, emissions, … -/
def Respects (env : Env) (r : SigId) : Act → Prop
  | .connect _ c _ => c.base ≠ .relay r
  | .connectRaw _ b _ _ => b ≠ .relay r
  | .disconnect s none _ => s ∉ (env.decl r).children
  | .disconnect _ (some c) _ => c.base ≠ .relay r
  | .discard _ b _ => b ≠ .relay r
  | _ => True

/-- API calls other than `block` and `unblock` on `r` (contexts count as such calls). -/
def NoBlock (r : SigId) : Act → Prop
  | .block x _ => x ≠ r
  | .unblock x => x ≠ r
  | _ => True

end Psygnal
