import Verif.EndsLemmas
import Verif.NeverLemmas

/-!
# C83: which programs end
-/
namespace Psygnal

/-- **C83.** Let the callbacks be arbitrary programs that emit and resume only finitely many signals `S`
(in any re-emission mode, catching any errors), that may disconnect, block, drain the queue of their own
thread, …, but do not connect, pause, drain the queue of another thread or install a debug hook
(`Harmless S`), and let `S` contain all groups.  Then, in every reachable state without a debug hook, every
program of every thread runs to completion; the program itself may use the whole API, also connect and
pause and emit any signal, but not drain the queue of another thread or install a debug hook. -/
theorem C83_ends {env : Env} {Q : Act → Prop} (S : List SigId) (he : env.Only (Harmless S))
    (hg : ∀ g, (env.decl g).isRelay = true → g ∈ S) {w : World} (hw : Reachable env Q w)
    (hh : w.hook = none) (p : Prog) (hp : p.Only Simple) (th : ThreadId) :
    ∃ w' r, Runs env (.prog p) { w with thread := th } w' r :=
  Ends.end_top he hg p hp { w with thread := th }
    ⟨hh, (depthPre_live (.top hw th .ret trivial)).2.1⟩

/-- Callbacks that emit three signals in circles (one of them a member of a group), resume a signal that
is being resumed and drain the queue of the thread while it is being drained; and a program that
connects, pauses, emits, resumes and drains. -/
example : ∃ (env : Env) (w : World) (p : Prog), env.Only (Harmless [0, 20, 30, 31]) ∧
    (∀ g, (env.decl g).isRelay = true → g ∈ [0, 20, 30, 31]) ∧ Reachable env anyAct w ∧ w.hook = none ∧
    p.Only Simple ∧ (w.tq 1).length = 1 ∧ (w.sig 0).argsQueue.length = 1 ∧
    (w.sig 0).slots.length = 1 ∧ (w.sig 30).slots.length = 1 ∧
    p = .withPaused 20 none (Ex.seq [Ex.conn 20 (.func 1), Ex.emit 20 3])
      fun _ => Ex.seq [.resume 0 none, .emitQueued none, Ex.emit 31 2] := by
  refine ⟨Ex.env fun b a => match b with
      | .func 0 => .api (.emit 20 a true) fun _ => .api (.resume 0 none) fun _ => .ret
      | .func 1 => .api (.emit 20 a true) fun _ => .api (.emit 20 a true) fun _ => .ret
      | _ => .api (Ex.emit 31 0) fun _ => .api (.emitQueued none) fun _ => .ret, _, _, ?_, ?_,
    Ex.reach (n := 40) (l := [Ex.conn 0 (.func 0), Ex.conn 30 (.func 2),
      .connect 20 ⟨.func 1, []⟩ { thread := some (.this 1) }, .pause 0, Ex.emit 0 1, Ex.emit 20 5])
      (by simp [anyAct]) rfl,
    rfl, ?_, rfl, rfl, rfl, rfl, rfl⟩
  · intro b a
    simp only [Ex.env]
    split <;> simp [Prog.Only, Harmless, Ex.emit]
  · intro g h
    simp only [Ex.env, Ex.decl, Ex.plain] at h
    repeat' split at h
    all_goals simp_all
  · exact ⟨trivial, trivial, Ex.Only.seq_mem (by simp [Ex.emit, Ex.conn, Simple]),
      fun _ => Ex.Only.seq_mem (by simp [Ex.emit, Simple])⟩

/-- Without the restriction on connecting this is false: a callback that connects one more callback makes
the emission go on for ever, because the emit loop walks the live list of callbacks. -/
theorem C83_connect_refuted : ∃ (env : Env) (w : World),
    env.Only (fun a => ∃ s c o, a = .connect s c o) ∧ Reachable env anyAct w ∧ w.hook = none ∧
    ¬ ∃ w' r, Runs env (.emit 0 [.atom 1] true) w w' r := by
  refine ⟨Never.grow, _, fun b a => ⟨⟨_, _, _, rfl⟩, fun _ => trivial⟩,
    Ex.reach (n := 20) (l := [Ex.conn 0 (.func 0)]) (by simp [anyAct]) rfl, rfl,
    Never.grow_never (.emit ⟨?_, ?_, rfl⟩ rfl rfl rfl rfl rfl)⟩
  · exact Nat.zero_lt_one
  · intro x hx
    rw [List.mem_singleton.1 hx]
    exact ⟨rfl, rfl⟩

/-- Nor may callbacks pause: a callback that pauses its signal and emits makes `resume` go on for ever,
because it walks the live list of collected arguments. -/
theorem C83_pause_refuted : ∃ (env : Env) (w : World),
    env.Only (fun a => a = .pause 0 ∨ a = .emit 0 [.atom 7] true) ∧ Reachable env anyAct w ∧ w.hook = none ∧
    ¬ ∃ w' r, Runs env (.resume 0 none) w w' r := by
  refine ⟨Never.hold, _, fun b a => ⟨.inl rfl, fun _ => ⟨.inr rfl, fun _ => trivial⟩⟩,
    Ex.reach (n := 20) (l := [Ex.conn 0 (.func 0), .pause 0, Ex.emit 0 1]) (by simp [anyAct]) rfl, rfl,
    Never.hold_never (.resume ⟨?_, ⟨_, rfl⟩, rfl, rfl, rfl⟩)⟩
  exact Nat.zero_lt_one

/-- Nor may a program drain the queue of another thread: `emit_queued(t)` called by thread 0 for the queue
of thread 1 goes on for ever when the queued callback emits its signal again, because thread 0 puts the
new call into the queue that it drains. -/
theorem C83_drain_refuted : ∃ (env : Env) (w : World),
    env.Only (Harmless [0, 30]) ∧ (∀ g, (env.decl g).isRelay = true → g ∈ [0, 30]) ∧
    Reachable env anyAct w ∧ w.hook = none ∧ w.thread = 0 ∧
    ¬ ∃ w' r, Runs env (.prog (Ex.seq [.emitQueued (some 1)])) w w' r := by
  refine ⟨Never.echo, _, fun b a => ⟨by simp [Ex.emit, Harmless], fun _ => trivial⟩, ?_,
    Ex.reach (n := 20) (l := [.connect 0 ⟨.func 0, []⟩ { thread := some (.this 1) }, Ex.emit 0 1])
      (by simp [anyAct]) rfl, rfl, rfl, ?_⟩
  · intro g h
    simp only [Never.echo, Ex.env, Ex.decl, Ex.plain] at h
    repeat' split at h
    all_goals simp_all
  · rintro ⟨w', r, h⟩
    obtain ⟨w1, r1, h1, -⟩ := (runs_iff ..).1 h
    refine Never.echo_never (.drain ⟨rfl, ?_, ?_, ⟨_, rfl⟩, rfl, rfl, rfl, rfl, rfl⟩) ⟨w1, r1, h1⟩
    · exact fun e => by cases e
    · intro e he
      rw [List.mem_singleton.1 he]
      exact ⟨_, rfl⟩

end Psygnal
