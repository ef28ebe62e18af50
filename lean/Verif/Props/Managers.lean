import Verif.ManagersApart
import Verif.Examples

/-!
# C85: `blocked()` and `paused()` as objects

`sig.blocked()` and `sig.paused()` return context managers (`_signal.py:1342-1363,1431-1463,1510-1544`).  A `with` statement creates one,
enters it and leaves it; but they are objects, which can be entered later, kept open in any order (`contextlib.ExitStack`, generators), and
used in several threads.
-/
namespace Psygnal
open Mgr

variable {env : Env} {s : SigId}

/-! ## `with` statements -/

/-- **C85**: a `with sig.blocked():` of `Core` is `__init__`, `__enter__`, the body and `__exit__` of one manager in one thread, whatever
the body does and whether it raises or not. -/
theorem C85_with_blocked (i : Nat) (ex : List SigId) (b : Prog) (w w' : World) (ctx : Nat → Option Ctx) (r : Res) :
    Runs env (.prog (.withBlocked s ex b leave)) w w' r ↔
      CtxRun env [(w.thread, .blocked i s ex), (w.thread, .enter i), (w.thread, .run b), (w.thread, .exit i)] ⟨w, ctx⟩ [.ok (), .ok (), r, .ok ()]
        ⟨w', fun j => if j = i then some (.blocker s ex (w.sig s).blocked) else ctx j⟩ :=
  with_blocked i ex b w w' ctx r

/-- **C85**: the same for `with sig.paused():`; an exception of the emissions at the end comes out instead of one of the body. -/
theorem C85_with_paused (i : Nat) (red : Option Reducer) (b : Prog) (w w' : World) (ctx : Nat → Option Ctx) (r : Res) :
    Runs env (.prog (.withPaused s red b leave)) w w' r ↔ ∃ r1 r2 : Res,
      CtxRun env [(w.thread, .paused i s red), (w.thread, .enter i), (w.thread, .run b), (w.thread, .exit i)] ⟨w, ctx⟩ [.ok (), .ok (), r1, r2]
        ⟨w', fun j => if j = i then some (.pauser s red (w.sig s).paused) else ctx j⟩ ∧ r = match r2 with | .ok _ => r1 | .error e => .error e :=
  with_paused i red b w w' ctx r

/-! ## Managers that overlap -/

/-- **C85** (partial).  If each manager is entered right when it is created and left once, then in whatever order they are left, by whatever
threads, and whatever else runs, the signal is blocked, and paused, in the end exactly if it was in the beginning.
Missing, and false: managers that are entered later or more than once (below). -/
theorem C85_overlap_partial (henv : env.Calm s) {h : List (ThreadId × CtxOp)} (ho : Overlap env s [] h []) {σ σ' : CtxWorld} {rs : List Res}
    (hr : CtxRun env h σ rs σ') :
    (σ'.w.sig s).blocked = (σ.w.sig s).blocked ∧ (σ'.w.sig s).paused = (σ.w.sig s).paused := by
  have := inv_run henv h [] σ [] rs σ' (inv_start σ) ho hr
  exact ⟨by simpa using this.blk.val, by simpa using this.psd.val⟩

/-- **C85** (partial).  The manager that blocked a signal keeps it blocked until it is left itself: no other manager lifts the block.
Missing, and false: managers opened meanwhile keep it blocked until they are left too (below). -/
theorem C85_blocks_partial (henv : env.Calm s) {t t' : ThreadId} {i : Nat} {ex : List SigId} {h : List (ThreadId × CtxOp)} {o' : List Nat}
    (ho : Overlap env s [] ((t, .blocked i s ex) :: (t', .enter i) :: h) o') (hi : ∀ e ∈ h, e.2 ≠ .exit i)
    {σ σ' : CtxWorld} {rs : List Res} (hb : (σ.w.sig s).blocked = false)
    (hr : CtxRun env ((t, .blocked i s ex) :: (t', .enter i) :: h) σ rs σ') : (σ'.w.sig s).blocked = true := by
  have hinv := inv_run henv _ [] σ o' rs σ' (inv_start σ) ho hr
  obtain ⟨-, h3, h4, h5⟩ := ho
  obtain ⟨w, r, rs', -, -, h2⟩ := run_cons hr
  obtain ⟨w, r, rs', -, -, h2⟩ := run_cons h2
  obtain ⟨k1, k2⟩ := open_kept h [i] _ o' rs' σ' (List.mem_singleton_self i) hi h5 h2
  refine hinv.holdsB k1 (ex := ex) (k2.trans ?_)
  simp [CtxWorld.vars, hb]

/-- **C85** (partial).  The same for pausing. -/
theorem C85_pauses_partial (henv : env.Calm s) {t t' : ThreadId} {i : Nat} {red : Option Reducer} {h : List (ThreadId × CtxOp)} {o' : List Nat}
    (ho : Overlap env s [] ((t, .paused i s red) :: (t', .enter i) :: h) o') (hi : ∀ e ∈ h, e.2 ≠ .exit i)
    {σ σ' : CtxWorld} {rs : List Res} (hb : (σ.w.sig s).paused = false)
    (hr : CtxRun env ((t, .paused i s red) :: (t', .enter i) :: h) σ rs σ') : (σ'.w.sig s).paused = true := by
  have hinv := inv_run henv _ [] σ o' rs σ' (inv_start σ) ho hr
  obtain ⟨-, h3, h4, h5⟩ := ho
  obtain ⟨w, r, rs', -, -, h2⟩ := run_cons hr
  obtain ⟨w, r, rs', -, -, h2⟩ := run_cons h2
  obtain ⟨k1, k2⟩ := open_kept h [i] _ o' rs' σ' (List.mem_singleton_self i) hi h5 h2
  refine hinv.holdsP k1 (red := red) (k2.trans ?_)
  simp [CtxWorld.vars, hb]

/-- **C85** (partial).  No emission is lost, or made twice, or out of order, while pausers overlap: what was emitted is what the signal has
delivered and what it still holds back, and it holds back nothing once it is not paused.
Missing: reducers (they merge emissions, C21), blocked signals (they drop them, C20), and signals without connections (C21 refutes it). -/
theorem C85_delivers_partial (hs : (env.decl s).isRelay = false) (henv : env.Only (Apart env s)) {h : List (ThreadId × CtxOp)} {o' : List Nat}
    (ho : Overlap env s [] h o') (hc : ∀ e ∈ h, e.2.Counted env s) {σ σ' : CtxWorld} {rs : List Res} (hr : CtxRun env h σ rs σ')
    (hk : ∀ r ∈ rs, r = .ok ()) (h1 : (σ.w.sig s).blocked = false) (h3 : (σ.w.sig s).argsQueue = [])
    (h4 : (σ.w.sig s).slots ≠ []) :
    accepted s σ'.w.log ++ (σ'.w.sig s).argsQueue = accepted s σ.w.log ++ emitsOf s h ∧
      ((σ'.w.sig s).paused = false → (σ'.w.sig s).argsQueue = []) := by
  have := cnt_run hs henv h [] σ o' rs σ' (accepted s σ.w.log) ⟨h1, h4, fun _ => h3, by rw [h3, List.append_nil], by simp, by simp⟩ ho hc hr hk
  exact ⟨this.sum, this.quiet⟩

/-! ## Managers that are entered later, or again -/

/-- **C85**: what counts is whether the signal was blocked when the manager was *created*.  If it was not, it is not blocked after the manager
is left, whatever happened in between; if it was, leaving the manager does nothing. -/
theorem C85_left_blocked {t t' : ThreadId} {i : Nat} {ex : List SigId} {h : List (ThreadId × CtxOp)} (hi : ∀ e ∈ h, e.2.spares i)
    {σ σ' : CtxWorld} {rs : List Res} (hr : CtxRun env ((t, .blocked i s ex) :: h ++ [(t', .exit i)]) σ rs σ') :
    if (σ.w.sig s).blocked = true then ∃ σ1 rs1, CtxRun env ((t, .blocked i s ex) :: h) σ rs1 σ1 ∧ σ'.w = { σ1.w with thread := t' } ∧ rs = rs1 ++ [.ok ()]
    else (σ'.w.sig s).blocked = false := by
  obtain ⟨σ1, rs1, rs2, rfl, h1, h2⟩ := run_append hr
  have hctx : σ1.ctx i = some (.blocker s ex (σ.w.sig s).blocked) := by
    obtain ⟨w, r, rs', -, -, h3⟩ := run_cons h1
    exact (spared h _ rs' σ1 hi h3).trans (if_pos rfl)
  obtain ⟨w, r, rs', rfl, h3, h4⟩ := run_cons h2
  cases h4
  simp only [CtxWorld.comp, hctx] at h3
  obtain ⟨rfl, rfl⟩ := h3
  split
  · exact ⟨σ1, rs1, h1, rfl, rfl⟩
  · exact unblock_self ..

/-- **C85**: the same for pausing. -/
theorem C85_left_paused (henv : env.Calm s) {t t' : ThreadId} {i : Nat} {red : Option Reducer} {h : List (ThreadId × CtxOp)}
    (hi : ∀ e ∈ h, e.2.spares i) {σ σ' : CtxWorld} {rs : List Res} (hr : CtxRun env ((t, .paused i s red) :: h ++ [(t', .exit i)]) σ rs σ') :
    if (σ.w.sig s).paused = true then ∃ σ1 rs1, CtxRun env ((t, .paused i s red) :: h) σ rs1 σ1 ∧ σ'.w = { σ1.w with thread := t' } ∧ rs = rs1 ++ [.ok ()]
    else (σ'.w.sig s).paused = false := by
  obtain ⟨σ1, rs1, rs2, rfl, h1, h2⟩ := run_append hr
  have hctx : σ1.ctx i = some (.pauser s red (σ.w.sig s).paused) := by
    obtain ⟨w, r, rs', -, -, h3⟩ := run_cons h1
    exact (spared h _ rs' σ1 hi h3).trans (if_pos rfl)
  obtain ⟨w, r, rs', rfl, h3, h4⟩ := run_cons h2
  cases h4
  simp only [CtxWorld.comp, hctx] at h3
  split
  · rename_i hb
    rw [if_pos hb] at h3
    obtain ⟨rfl, rfl⟩ := h3
    exact ⟨σ1, rs1, h1, rfl, rfl⟩
  · rename_i hb
    rw [if_neg hb] at h3
    obtain ⟨w1, r1, h3, rfl, rfl⟩ := h3
    exact (calm_restores henv h3 trivial).2.2 (by simp [Task.resumes])

/-! ## Examples -/

/-- A callback that counts, in the variable of its number. -/
def Ex.tally : Env := Ex.env fun b _ => match b with
  | .func k => .user (fun m x => if x = k then m x + 1 else m x) fun _ => .ret
  | _ => .ret

theorem Ex.tally_apart (s : SigId) : Ex.tally.Only (Apart Ex.tally s) := by
  intro b a
  simp only [Ex.tally, Ex.env]
  split
  · exact fun _ => trivial
  · trivial

theorem Ex.tally_calm (s : SigId) : Ex.tally.Calm s := fun b a => only_calm _ (Ex.tally_apart s b a)

/-- `sig.emit(n)`; exceptions go on. -/
def Ex.utter (s : SigId) (n : Int) : CtxOp := .run (.api (Ex.emit s n) fun r => match r with | .ok _ => .ret | .error e => .raise e)

/-- Function 0 is connected to signal 0. -/
def Ex.listening : CtxWorld := ⟨(Ex.after Ex.tally 20 [Ex.conn 0 (.func 0)]).getD .init, fun _ => none⟩

/-- Three managers of two threads that are left in another order; the first is left before the last is opened. -/
def Ex.overlapping : List (ThreadId × CtxOp) :=
  [(0, .paused 1 0 none), (0, .enter 1), (0, Ex.utter 0 5), (1, .blocked 2 7 []), (1, .enter 2), (1, .paused 3 0 none), (1, .enter 3),
   (1, Ex.utter 0 6), (0, .exit 1), (0, Ex.utter 0 7), (0, .paused 4 0 none), (0, .enter 4), (1, .exit 3), (0, Ex.utter 0 8), (1, .exit 2), (0, .exit 4)]

example : Overlap Ex.tally 0 [] Ex.overlapping [] ∧ (∀ e ∈ Ex.overlapping, e.2.Counted Ex.tally 0) ∧
    (Ex.listening.w.sig 0).blocked = false ∧ (Ex.listening.w.sig 0).argsQueue = [] ∧ (Ex.listening.w.sig 0).slots ≠ [] ∧
    emitsOf 0 Ex.overlapping = [[.atom 5], [.atom 6], [.atom 7], [.atom 8]] ∧
    ∃ rs σ, CtxRun Ex.tally Ex.overlapping Ex.listening rs σ ∧ rs = List.replicate 16 (.ok ()) ∧ σ.w.mem 0 = 4 := by
  refine ⟨?_, ?_, rfl, rfl, by decide, rfl, ?_⟩
  · simp [Ex.overlapping, Ex.utter, Ex.emit, Overlap, Prog.Calm, Act.Calm, MemberOf, Ex.tally, Ex.env, Ex.decl, Ex.plain]
    intro r
    cases r <;> trivial
  · have hsay : ∀ n, (Ex.utter 0 n).Counted Ex.tally 0 := fun n => .inr ⟨_, _, _, rfl, fun _ => rfl, fun _ => trivial⟩
    simp only [Ex.overlapping, List.forall_mem_cons, hsay]
    simp [CtxOp.Counted]
  · exact ⟨_, _, .cons 30 rfl (.cons 30 rfl (.cons 30 rfl (.cons 30 rfl (.cons 30 rfl (.cons 30 rfl (.cons 30 rfl (.cons 30 rfl
      (.cons 30 rfl (.cons 30 rfl (.cons 30 rfl (.cons 30 rfl (.cons 30 rfl (.cons 30 rfl (.cons 30 rfl (.cons 30 rfl .nil))))))))))))))), rfl, rfl⟩

/-- In the middle, when the first manager has not been left yet, the signal is paused and holds two emissions. -/
example : ∃ rs σ, CtxRun Ex.tally (Ex.overlapping.take 8) Ex.listening rs σ ∧ (σ.w.sig 0).paused = true ∧ (σ.w.sig 0).argsQueue = [[.atom 5], [.atom 6]] ∧
    (∀ e ∈ (Ex.overlapping.take 8).drop 2, e.2 ≠ .exit 1) := by
  refine ⟨_, _, .cons 30 rfl (.cons 30 rfl (.cons 30 rfl (.cons 30 rfl (.cons 30 rfl (.cons 30 rfl (.cons 30 rfl (.cons 30 rfl .nil))))))), rfl, rfl, ?_⟩
  simp [Ex.overlapping, Ex.utter]

/-- Blockers: the first is left last. -/
def Ex.innerFirst : List (ThreadId × CtxOp) :=
  [(0, .blocked 1 0 []), (0, .enter 1), (1, .blocked 2 0 []), (1, .enter 2), (1, .exit 2), (0, Ex.utter 0 5)]

example : Overlap Ex.tally 0 [] Ex.innerFirst [1] ∧ (∀ e ∈ Ex.innerFirst.drop 2, e.2 ≠ .exit 1) ∧
    ∃ rs σ, CtxRun Ex.tally Ex.innerFirst Ex.listening rs σ ∧ (σ.w.sig 0).blocked = true ∧ σ.w.mem 0 = 0 := by
  refine ⟨?_, by simp [Ex.innerFirst, Ex.utter],
    ⟨_, _, .cons 30 rfl (.cons 30 rfl (.cons 30 rfl (.cons 30 rfl (.cons 30 rfl (.cons 30 rfl .nil))))), rfl, rfl⟩⟩
  simp [Ex.innerFirst, Ex.utter, Ex.emit, Overlap, Prog.Calm, Act.Calm, MemberOf, Ex.tally, Ex.env, Ex.decl, Ex.plain]
  intro r
  cases r <;> trivial

/-! ## What is false -/

/-- **C85 is false** for a manager that is created before `sig.block()` and entered after it: leaving it unblocks the signal, although the
signal was blocked when it was entered.  For `pause()` it is the same. -/
theorem C85_stale_refuted :
    (∃ rs σ, CtxRun Ex.tally [(0, .blocked 1 0 []), (0, .run (Ex.seq [.block 0 []])), (0, .enter 1), (0, .exit 1), (0, Ex.utter 0 5)]
      Ex.listening rs σ ∧ (σ.w.sig 0).blocked = false ∧ σ.w.mem 0 = 1) ∧
    (∃ rs σ, CtxRun Ex.tally [(0, .paused 1 0 none), (0, .run (Ex.seq [.pause 0])), (0, .enter 1), (0, .exit 1), (0, Ex.utter 0 5)]
      Ex.listening rs σ ∧ (σ.w.sig 0).paused = false ∧ σ.w.mem 0 = 1) :=
  ⟨⟨_, _, .cons 30 rfl (.cons 30 rfl (.cons 30 rfl (.cons 30 rfl (.cons 30 rfl .nil)))), rfl, rfl⟩,
   ⟨_, _, .cons 30 rfl (.cons 30 rfl (.cons 30 rfl (.cons 30 rfl (.cons 30 rfl .nil)))), rfl, rfl⟩⟩

/-- **C85 is false** for one manager entered twice (`b = sig.blocked()`, then `with b: with b: ...`): after the inner `with` statement the
signal is not blocked, and the emission in the outer one is delivered. -/
theorem C85_reentered_refuted :
    ∃ rs σ, CtxRun Ex.tally [(0, .blocked 1 0 []), (0, .enter 1), (0, .enter 1), (0, .exit 1), (0, Ex.utter 0 5), (0, .exit 1)] Ex.listening rs σ ∧
      σ.w.mem 0 = 1 :=
  ⟨_, _, .cons 30 rfl (.cons 30 rfl (.cons 30 rfl (.cons 30 rfl (.cons 30 rfl (.cons 30 rfl .nil))))), rfl⟩

/-- **C85 is false** for the managers that are opened while another is open: when the first is left, an emission in the body of the second
is delivered (two threads, each in its own `with sig.blocked():`). -/
theorem C85_second_refuted :
    ∃ rs σ, CtxRun Ex.tally [(0, .blocked 1 0 []), (0, .enter 1), (1, .blocked 2 0 []), (1, .enter 2), (0, .exit 1), (1, Ex.utter 0 5), (1, .exit 2)]
      Ex.listening rs σ ∧ σ.w.mem 0 = 1 :=
  ⟨_, _, .cons 30 rfl (.cons 30 rfl (.cons 30 rfl (.cons 30 rfl (.cons 30 rfl (.cons 30 rfl (.cons 30 rfl .nil)))))), rfl⟩

/-- **C85 is false** for two threads, each in its own `with` statement, one time each: if the first leaves its statement between `__init__`
and `__enter__` of the second, then the signal stays blocked for ever. -/
theorem C85_stuck_blocked_refuted :
    ∃ rs σ, CtxRun Ex.tally [(0, .blocked 1 0 []), (0, .enter 1), (1, .blocked 2 0 []), (0, .exit 1), (1, .enter 2), (1, .exit 2), (0, Ex.utter 0 5)]
      Ex.listening rs σ ∧ (σ.w.sig 0).blocked = true ∧ σ.w.mem 0 = 0 :=
  ⟨_, _, .cons 30 rfl (.cons 30 rfl (.cons 30 rfl (.cons 30 rfl (.cons 30 rfl (.cons 30 rfl (.cons 30 rfl .nil)))))), rfl, rfl⟩

/-- **C85 is false** in the same way for pausing: emissions wait for ever. -/
theorem C85_stuck_paused_refuted :
    ∃ rs σ, CtxRun Ex.tally [(0, .paused 1 0 none), (0, .enter 1), (1, .paused 2 0 none), (0, .exit 1), (1, .enter 2), (1, .exit 2), (0, Ex.utter 0 5)]
      Ex.listening rs σ ∧ (σ.w.sig 0).paused = true ∧ (σ.w.sig 0).argsQueue = [[.atom 5]] ∧ σ.w.mem 0 = 0 :=
  ⟨_, _, .cons 30 rfl (.cons 30 rfl (.cons 30 rfl (.cons 30 rfl (.cons 30 rfl (.cons 30 rfl (.cons 30 rfl .nil)))))), rfl, rfl, rfl⟩

end Psygnal
