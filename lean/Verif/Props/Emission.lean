import Verif.LoopShape
import Verif.Examples

/-!
# Properties of single emissions: C05, C07, C08
-/
namespace Psygnal

/-! ## C05: `Signal.current_emitter()` -/

/-- **C05** (restored). Whatever procedure runs — in particular any emit, emit_fast, resume or
emit_queued call, with arbitrary callbacks, ending normally or with an exception — afterwards
`Signal.current_emitter()` is what it was before. -/
theorem C05_emitter_restored {env : Env} {t : Task} {w w' : World} {r : Res}
    (h : Runs env t w w' r) : w'.emitter = w.emitter :=
  emitter_restored h

/-- **C05** (top level). Outside all emissions it is `None`. -/
theorem C05_none_at_rest {env : Env} {Q : Act → Prop} {w : World} (h : Reachable env Q w) :
    w.emitter = none := by
  induction h with
  | init => rfl
  | step t p _ _ hr ih => exact (emitter_restored hr).trans ih

/-- **C05** (inside callbacks). At every moment of every execution: each callback invocation `call`
recorded so far that was made by an emit loop of signal `s` saw `current_emitter() = s`, unless the
loop was one of `emit_fast` (which documents that it does not set the emitter). -/
theorem C05_emitter_in_callback {env : Env} {Q : Act → Prop} {t : Task} {w : World}
    (h : Live env Q t w) {em : Nat} {s : SigId} {d : Int} {e : Option SigId} {th : ThreadId}
    {b : Base} {a : Args} (hc : .call (some em) (some s) d e th b a ∈ w.log) :
    e = some s ∨ ∃ a', .fast s a' em ∈ w.log := by
  have := (emitterPre_live h).1 _ hc
  rw [evEmitter_call] at this
  exact this em rfl s rfl

/-- **C05** (whole callback). While a callback's code runs, at each of its own steps, the current
emitter is what it was when the callback was invoked (so by `C05_emitter_in_callback` the emitting
signal), whatever nested emissions happened in between; and the API call returns just that. -/
theorem C05_emitter_constant_in_callback {env : Env} {p p' : Prog} {w w' : World}
    (h : Cont env p w p' w') : w'.emitter = w.emitter ∧
      (Act.currentEmitter.run env w').2 = .ok (.sig w.emitter) := by
  have key : w'.emitter = w.emitter := by
    induction h with
    | refl => rfl
    | step _ hr ih =>
      rename_i p1 p2 w1 w2 _
      have er := @emitter_restored env
      cases p1 <;> simp only [body] at hr
      all_goals repeat' split at hr
      all_goals simp only [Comp.Reaches] at hr
      all_goals grind [Comp.Reaches]
  exact ⟨key, by simp [Act.run, key]⟩

/-- Concrete case: callback 0 of signal 0 emits signal 1 (callback 1) and both emitters are seen. -/
example : ∃ (env : Env) (w : World), Reachable env anyAct w ∧
    w.log.filterMap (fun e => match e with
      | .call _ s _ e _ b _ => some (s, e, b) | _ => none) =
      [(some 0, some 0, .func 0), (some 1, some 1, .func 1), (some 0, some 0, .func 1)] := by
  refine ⟨Ex.env fun b _ => match b with | .func 0 => Ex.seq [Ex.emit 1 5] | _ => .ret, _,
    Ex.reach (n := 30) (l := [Ex.conn 0 (.func 0), Ex.conn 0 (.func 1), Ex.conn 1 (.func 1),
      Ex.emit 0 7]) (fun _ _ => trivial) rfl, rfl⟩

/-! ## C07: back at rest -/

/-- **C07.** After any history of top-level programs — whatever the callbacks did and however they
failed — every signal's nesting depth and re-emission queue are back to their initial values. -/
theorem C07_at_rest_partial {env : Env} {w : World} (h : Reachable env anyAct w) (s : SigId) :
    (w.sig s).depth = 0 ∧ (w.sig s).emitQueue = [] := by
  induction h with
  | init => exact ⟨rfl, rfl⟩
  | step t p _ _ hr ih =>
    refine ⟨(depth_restored hr s ?_).trans ih.1, (emitQueue_inv hr s (by simp)).2 ih.2⟩
    simp [ih.1]

/-- **C07** (latest-only bookkeeping). The remaining piece of emission state (`_max_recursion_depth`)
is also back to its initial value, provided `emit_fast` is not used on that signal. -/
theorem C07_max_depth_at_rest_partial {env : Env} {s : SigId} {w : World}
    (he : env.Only (NoFast s)) (h : Reachable env (NoFast s) w) : (w.sig s).maxDepth = 0 := by
  have key : (w.sig s).depth = 0 ∧ (w.sig s).maxDepth = 0 := by
    induction h with
    | init => exact ⟨rfl, rfl⟩
    | step t p hp _ hr ih =>
      refine ⟨(depth_restored hr s ?_).trans ih.1, (maxDepth_inv he hr hp ?_).1 ih.1 ih.2⟩ <;>
      simp [ih.1]
  exact key.2

namespace C07ex

/-- Signal 10 is latest-only; its callback `func 0` emits 2 when called with 1. -/
def env : Env := Ex.env fun b a => match b, a with
  | .func 0, [.atom 1] => Ex.seq [Ex.emit 10 2]
  | _, _ => .ret

/-- `emit_fast(1)`, then at top level `emit(3)`. -/
def acts : List Act := [Ex.conn 10 (.func 0), .emitFast 10 [.atom 1], Ex.emit 10 3]

/-- All arguments the callback was called with. -/
def seen (w : World) : List Args := w.log.filterMap fun e => match e with
  | .call _ _ _ _ _ _ a => some a | _ => none

end C07ex

/-- **C07 is violated** for latest-only signals when `emit_fast` is used: `emit_fast(1)`, whose
callback emits 2, leaves the signal in a state (at rest!) in which the next top-level `emit(3)` is
accepted but delivered to nobody. -/
theorem C07_refuted : ∃ w w', Reachable C07ex.env anyAct w ∧ Reachable C07ex.env anyAct w' ∧
    (w.sig 10).maxDepth = 2 ∧
    Runs C07ex.env (.emit 10 [.atom 3] true) w w' (.ok ()) ∧
    (w.sig 10).slots.map (·.base) = [.func 0] ∧
    C07ex.seen w' = C07ex.seen w ∧ C07ex.seen w = [[.atom 1], [.atom 2]] := by
  refine ⟨_, _, Ex.reach (n := 30) (l := C07ex.acts.take 2) (fun _ _ => trivial) rfl,
    Ex.reach (n := 30) (l := C07ex.acts) (fun _ _ => trivial) rfl, rfl, ⟨30, rfl⟩, rfl, rfl, rfl⟩

/-- Concrete case for the positive theorems: nested emission with an exception in the innermost
callback, caught by the middle one, raised again: rest state is reached with a non-trivial log. -/
example : ∃ (env : Env) (w : World), env.Only (NoFast 10) ∧ Reachable env (NoFast 10) w ∧
    w.log.length = 6 := by
  refine ⟨Ex.env fun b a => match b, a with
      | .func 0, [.atom 1] => .api (Ex.emit 10 2) fun _ => .raise (.user 1)
      | .func 0, [.atom 2] => .raise (.user 2)
      | _, _ => .ret, _, ?_,
    Ex.reach (n := 30) (l := [Ex.conn 10 (.func 0), Ex.emit 10 1]) ?_ rfl, rfl⟩
  · intro b a
    simp only [Ex.env]
    split <;> simp [Prog.Only, NoFast, Ex.emit]
  · simp [NoFast, Ex.conn, Ex.emit]

/-! ## C08: bounded nesting -/

/-- **C08** (bound). At every moment of every execution, every callback invocation made so far by an
emit loop happened at nesting depth between 1 and 300 of that signal. -/
theorem C08_depth_bounded {env : Env} {Q : Act → Prop} {t : Task} {w : World} (h : Live env Q t w)
    {em : Option Nat} {s : SigId} {d : Int} {e : Option SigId} {th : ThreadId} {b : Base} {a : Args}
    (hc : .call em (some s) d e th b a ∈ w.log) : 1 ≤ d ∧ d ≤ 300 := by
  have := (depthPre_live h).1 _ hc
  rw [evDepth_call] at this
  exact this rfl

/-- **C08** (what depth means). At every moment of every execution: the depth recorded with a callback
invocation of signal `s` is the number of invocations by emit loops of `s` that were running at that
point, including this one; so no more than 300 of them are ever nested. -/
theorem C08_depth_is_nesting {env : Env} {Q : Act → Prop} {t : Task} {w : World} (h : Live env Q t w)
    {em : Option Nat} {s : SigId} {d : Int} {e : Option SigId} {th : ThreadId} {b : Base} {a : Args}
    {pre post : List Ev} (hc : w.log = pre ++ .call em (some s) d e th b a :: post) :
    openCalls s pre + 1 = d ∧ openCalls s pre < 300 := by
  have h1 := (nestPre_live h).1 _ _ _ _ _ _ _ _ _ hc
  have h2 := C08_depth_bounded h (em := em) (s := s) (d := d) (e := e) (th := th) (b := b) (a := a)
    (by rw [hc]; simp)
  omega

/-- A callback that re-emits the same signal: two nested invocations. -/
example : ∃ (env : Env) (w : World) (pre post : List Ev), Live env anyAct (.prog .ret) w ∧
    w.log = pre ++ .call (some 1) (some 0) 2 (some 0) 0 (.func 0) [.atom 2] :: post ∧
    openCalls 0 pre = 1 := by
  refine ⟨Ex.env fun b a => match b, a with
      | .func 0, [.atom 1] => .api (Ex.emit 0 2) fun _ => .ret
      | _, _ => .ret, _, _, _,
    .top (Ex.reach (n := 30) (l := [Ex.conn 0 (.func 0), Ex.emit 0 1]) (by simp [anyAct]) rfl)
      0 .ret trivial,
    (rfl : _ = [_, _, _] ++ _ :: [_, _]), rfl⟩

/-- **C08** (termination). Let `S` be any finite set of signals, and let the callbacks be arbitrary
programs that emit only signals in `S` (with any re-emission modes, catching any errors), and do not
connect, `resume`, call `emit_queued` or install a debug hook (`Bounded S`).  If all groups that have
listeners are in `S`, then in every reachable state every such program runs to completion. -/
theorem C08_terminates {env : Env} {Q : Act → Prop} (S : List SigId) (he : env.Only (Bounded S))
    {w : World} (hw : Reachable env Q w) (hh : w.hook = none)
    (hg : ∀ s, ∀ x ∈ (w.sig s).slots, ∀ g, x.base = .relay g → g ∈ S)
    (p : Prog) (hp : p.Only (Bounded S)) (th : ThreadId) :
    ∃ w' r, Runs env (.prog p) { w with thread := th } w' r :=
  (term_all he _).1 p hp { w with thread := th } ⟨hg, hh, (depthPre_live (.top hw th .ret trivial)).2.1⟩ rfl

/-- A callback that re-emits its own queued signal twice, for ever, ignoring all errors; and a group
listener that emits the group's member again. -/
example : ∃ (env : Env) (w : World), env.Only (Bounded [20, 30, 31]) ∧ Reachable env anyAct w ∧
    w.hook = none ∧ (∀ s, ∀ x ∈ (w.sig s).slots, ∀ g, x.base = .relay g → g ∈ [20, 30, 31]) ∧
    (w.sig 20).slots.length = 1 ∧ (w.sig 31).slots.length = 1 ∧
    (Ex.seq [Ex.emit 20 0, Ex.emit 31 0]).Only (Bounded [20, 30, 31]) := by
  refine ⟨Ex.env fun b a => match b with
      | .func 0 => .api (.emit 20 a true) fun _ => .api (.emit 20 a true) fun _ => .ret
      | .func 1 => .api (Ex.emit 31 0) fun _ => .api (Ex.emit 31 1) fun _ => .ret
      | _ => .ret, _, ?_,
    Ex.reach (n := 30) (l := [Ex.conn 20 (.func 0), Ex.conn 30 (.func 1)]) (by simp [anyAct]) rfl,
    rfl, ?_, rfl, rfl, Ex.Only.seq_mem (by simp [Ex.emit, Bounded])⟩
  · intro b a
    simp only [Ex.env]
    split <;> simp [Prog.Only, Bounded, Ex.emit]
  · intro s x hx g hg
    simp [Act.run, Ex.conn, World.connect, World.appendSlot, World.connectRelay, Ex.env, Ex.decl,
      Ex.plain, checkNargs, slotSig, dropBound, buildSig, posargRange, posargLoop, World.connectRelay1,
      World.plainAppend, World.upd, World.init, SigState.init, SigState.appendSlot, relaySlot,
      Base.isDead, Base.owner?,
      slotIndex] at hx
    grind

end Psygnal
