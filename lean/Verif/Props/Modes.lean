import Verif.ModesLemmas
import Verif.Separate
import Verif.Examples

/-!
# C84: the re-emission mode matters only for signals that are emitted while they are being emitted
-/
namespace Psygnal

variable {d : Levels} {env : Env}

/-- **C84** (the modes do not matter).  Let signals and callbacks have levels such that callbacks emit and resume only signals below them
and are connected to signals that are not below them (so that no signal is emitted by the callbacks that it calls, directly or through
other signals and groups; blocking, pausing, disconnecting, raising, queueing for other threads is free).  Then programs, run in turns in
any threads from the beginning, do exactly the same in all re-emission modes: they end for the one if for the other, with the same results,
the same calls in the same order with the same arguments, and the same state of everything. -/
theorem C84_modes (hk : d.Kept env) (m : SigId → Mode) {ps : List (Bool × ThreadId × Prog)}
    (hp : ∀ x ∈ ps, ∃ n, x.2.2.Only (d.Allows n)) (rs : List (Bool × Res)) (w : World) :
    Turns env ps .init rs w ↔ Turns (env.withModes m) ps .init rs w :=
  ⟨fun h => (Modes.turns hk hp Modes.good_init h).1,
   fun h => (Modes.turns (m := fun s => (env.decl s).mode) (Modes.kept_modes hk) hp Modes.good_init h).1⟩

/-- **C84** (nothing is nested).  In such programs no emission is nested in an emission of the same signal: whenever a signal calls a
callback, it is being emitted once; and afterwards no arguments are left in its queue and its depth is zero, in every mode, also if
callbacks raised. -/
theorem C84_once (hk : d.Kept env) {ps : List (Bool × ThreadId × Prog)} (hp : ∀ x ∈ ps, ∃ n, x.2.2.Only (d.Allows n)) {rs : List (Bool × Res)}
    {w : World} (h : Turns env ps .init rs w) :
    (∀ em s k e t b a, Ev.call em (some s) k e t b a ∈ w.log → k = 1) ∧
    ∀ s, (w.sig s).emitQueue = [] ∧ (w.sig s).depth = 0 := by
  obtain ⟨_, h2⟩ := Modes.turns (m := fun s => (env.decl s).mode) hk hp Modes.good_init h
  exact ⟨h2.log, fun s => ⟨(h2.st s).1, (h2.st s).2.1⟩⟩

/-! ## A concrete case -/

/-- Signal 0 above 10 above the others above the group 30; function 0 is for signal 0 and function 1 for signal 10. -/
def Ex.levels : Levels :=
  ⟨fun s => if s = 0 then 3 else if s = 10 then 2 else if s = 30 then 0 else 1, fun b => match b with
    | .func 0 => 3
    | .func 1 => 2
    | .func _ => 0
    | .relay r => if r = 0 then 4 else if r = 10 then 3 else if r = 30 then 1 else 2
    | _ => 0⟩

/-- Function 0 emits 10 twice and the member 31 of a group, function 1 emits the queued signal 20, other functions count or raise. -/
def Ex.layers : Env := Ex.env fun b a => match b with
  | .func 0 => Ex.seq [.emit 10 a true, Ex.emit 31 7, .emit 10 a true]
  | .func 1 => .api (.emit 20 a true) fun _ => .ret
  | .func 2 => .user (fun m x => if x = 0 then m x + 1 else m x) fun k => if k 0 = 2 then .raise (.user 5) else .ret
  | _ => .ret

theorem Ex.layers_kept : Ex.levels.Kept Ex.layers := by
  refine ⟨fun b a => ?_, fun r => ?_, fun r c h => ?_⟩
  · simp only [Ex.layers, Ex.env]
    split
    · simp [Ex.seq, Prog.Only, Levels.Allows, Ex.levels, Ex.emit]
    · simp [Prog.Only, Levels.Allows, Ex.levels]
    · intro k
      dsimp only
      split <;> trivial
    · trivial
  · simp only [Ex.levels]
    repeat' split
    all_goals simp_all
  · simp only [Ex.layers, Ex.env, Ex.decl, Ex.plain] at h
    repeat' split at h
    all_goals simp_all
    rcases h with rfl | rfl <;> decide

/-- Connections through four signals and a group, then emissions in two threads, one of which a callback makes fail. -/
def Ex.layerProgs : List (Bool × ThreadId × Prog) :=
  [(true, 0, Ex.seq [Ex.conn 0 (.func 0), Ex.conn 10 (.func 1), Ex.conn 20 (.func 2), Ex.conn 30 (.func 3), .connect 20 ⟨.func 4, []⟩ { thread := some (.this 1) }]),
   (true, 0, Ex.seq [Ex.emit 0 1, .pause 20, Ex.emit 0 2, .resume 20 none]),
   (true, 1, Ex.seq [Ex.emit 10 3, .emitQueued none])]

example : Ex.levels.Kept Ex.layers ∧ (∀ x ∈ Ex.layerProgs, ∃ n, x.2.2.Only (Ex.levels.Allows n)) ∧
    ∃ rs w, Turns Ex.layers Ex.layerProgs .init rs w ∧ w.log.length = 55 ∧ w.mem 0 = 4 := by
  refine ⟨Ex.layers_kept, ?_, ?_⟩
  · intro x hx
    refine ⟨4, ?_⟩
    simp only [Ex.layerProgs, List.mem_cons, List.not_mem_nil, or_false] at hx
    rcases hx with rfl | rfl | rfl <;> refine Ex.Only.seq_mem ?_ <;> simp [Levels.Allows, Ex.levels, Ex.emit, Ex.conn]
    intro b
    repeat' split
    all_goals simp
  · exact ⟨_, _, .cons ⟨60, rfl⟩ (.cons ⟨60, rfl⟩ (.cons ⟨60, rfl⟩ .nil)), by decide +kernel, by decide +kernel⟩

/-- With a callback that emits its own signal the three modes all differ: the calls of two callbacks, the first of which emits 2 when it
gets 1. -/
theorem C84_nested_refuted : ∃ (env : Env) (p : Prog), ∃ w1 w2 w3 : World,
    Runs (env.withModes fun _ => .immediate) (.prog p) .init w1 (.ok ()) ∧
    Runs (env.withModes fun _ => .latest) (.prog p) .init w2 (.ok ()) ∧
    Runs (env.withModes fun _ => .queued) (.prog p) .init w3 (.ok ()) ∧
    [w1, w2, w3].map (fun w => w.log.filterMap fun e => match e with | .call _ _ _ _ _ b a => some (b, a) | _ => none) =
      [[(.func 0, [.atom 1]), (.func 0, [.atom 2]), (.func 1, [.atom 2]), (.func 1, [.atom 1])],
       [(.func 0, [.atom 1]), (.func 0, [.atom 2]), (.func 1, [.atom 2])],
       [(.func 0, [.atom 1]), (.func 1, [.atom 1]), (.func 0, [.atom 2]), (.func 1, [.atom 2])]] :=
  ⟨Ex.env fun b a => match b, a with | .func 0, [.atom 1] => Ex.seq [Ex.emit 0 2] | _, _ => .ret,
   Ex.seq [Ex.conn 0 (.func 0), Ex.conn 0 (.func 1), Ex.emit 0 1], _, _, _, ⟨40, rfl⟩, ⟨40, rfl⟩, ⟨40, rfl⟩, rfl⟩

end Psygnal
