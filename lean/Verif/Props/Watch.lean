import Verif.WatchSim
import Verif.Examples
import Verif.Props.Swap

/-!
# C88: a callback of lowest priority that only watches does not disturb
-/
namespace Psygnal

/-- Connecting the watcher: the state of the other run. -/
theorem Watch.start {env : Env} {s : SigId} {f : Nat} {bound : Args} {p : ConnOpts} {n : Nat} {t : ThreadId} {v : World}
    (hp : p.thread = none ∧ p.unique = .no ∧ p.checkNargs = some false) (hr : (env.decl s).isRelay = false) (h0 : p.priority < 0)
    (hg : Watch.Good env s ⟨.func f, bound, p.maxArgs, p.priority, none, n⟩ n v) (hn : n = v.nextSerial) :
    Runs env (.prog (.api (.connect s ⟨.func f, bound⟩ p) fun _ => .ret)) { v with thread := t }
      (Watch.ins s ⟨.func f, bound, p.maxArgs, p.priority, none, n⟩ n true v.log { v with thread := t }) (.ok ()) := by
  subst hn
  obtain ⟨h1, h2, h3⟩ := hp
  have hlast : ∀ y ∈ (v.sig s).slots, ¬ y.priority < p.priority := fun y hy => by have := hg.prio y hy; dsimp only at this; omega
  have hne : ¬ p.priority = 0 := by omega
  have hrun : (Act.run env { v with thread := t } (.connect s ⟨.func f, bound⟩ p)) =
      (({ v with thread := t } : World).plainAppend s ⟨.func f, bound, p.maxArgs, p.priority, none, 0⟩, .ok .unit) := by
    simp [Act.run, Base.isDead, Base.owner?, World.connect, h1, h2, h3, resolveThread, Callable.boundFor, World.appendSlot, hr]
  have hren : ∀ x : Slot, x.serial < v.nextSerial → Watch.ren v.nextSerial x = x := fun x hx => by simp [Watch.ren, hx]
  have hmap : ∀ y, (v.sig y).slots.map (Watch.ren v.nextSerial) = (v.sig y).slots := fun y =>
    (List.map_congr_left fun x hx => hren x (hg.serial y x hx)).trans (List.map_id _)
  have hq : ∀ t, (v.tq t).map (fun q => (Watch.ren v.nextSerial q.1, q.2)) = v.tq t := fun t =>
    (List.map_congr_left fun q hq => by rw [hren q.1 (hg.wait t q hq)]; rfl).trans (List.map_id _)
  have hst : ({ v with thread := t } : World).plainAppend s ⟨.func f, bound, p.maxArgs, p.priority, none, 0⟩ =
      Watch.ins s ⟨.func f, bound, p.maxArgs, p.priority, none, v.nextSerial⟩ v.nextSerial true v.log { v with thread := t } := by
    simp only [World.plainAppend, Watch.ins, World.upd, Watch.ext, hmap, hq, World.mk.injEq, and_true]
    funext y
    by_cases hy : y = s
    · subst hy
      simp only [SigState.appendSlot, if_neg hne, if_true, and_self, decide_true, Bool.or_true]
      rw [Watch.insert_last (x := ⟨.func f, bound, p.maxArgs, p.priority, none, v.nextSerial⟩) hlast]
      split
      · rfl
      · rename_i hb
        have : (v.sig y).prioInUse = true := by simpa using hb
        simp only [← this]
    · simp [hy]
  rw [runs_iff]
  simp only [body, Act.task?, hrun, hst]
  exact ⟨_, _, (runs_iff ..).2 ⟨rfl, rfl⟩, rfl, rfl⟩

theorem Watch.append {env : Env} {ps qs : List (Bool × ThreadId × Prog)} {u v w : World} {rs rs' : List (Bool × Res)} (h : Turns env ps u rs v)
    (h' : Turns env qs v rs' w) : Turns env (ps ++ qs) u (rs ++ rs') w := by
  induction h with
  | nil => exact h'
  | cons h1 _ ih => exact .cons h1 (ih h')

theorem Watch.split {env : Env} {ps qs : List (Bool × ThreadId × Prog)} {u w : World} {rs : List (Bool × Res)} (h : Turns env (ps ++ qs) u rs w) :
    ∃ v rs1 rs2, Turns env ps u rs1 v ∧ Turns env qs v rs2 w ∧ rs = rs1 ++ rs2 := by
  induction ps generalizing u rs with
  | nil => exact ⟨u, [], rs, .nil, h, rfl⟩
  | cons x ps ih =>
    cases h with
    | cons h1 h2 =>
      obtain ⟨v, rs1, rs2, h3, h4, rfl⟩ := ih h2
      exact ⟨v, _, rs2, .cons h1 h3, h4, rfl⟩

theorem Watch.rethread {env : Env} {qs : List (Bool × ThreadId × Prog)} {u w : World} {rs : List (Bool × Res)} (h : Turns env qs u rs w) (t : ThreadId) :
    ∃ t', Turns env qs { u with thread := t } rs { w with thread := t' } := by
  cases h with
  | nil => exact ⟨t, .nil⟩
  | cons h1 h2 => exact ⟨w.thread, .cons h1 h2⟩

/-- **C88** (a watcher does not disturb).  Take programs run in turns, in any threads, from the beginning, and at any point between them
connect one more function to a signal `s` that is not a group, with a negative priority lower than those of all other callbacks of `s`,
whose code does nothing but look at its arguments.  If nothing else connects, disconnects or looks for this function, asks for the number of
callbacks of `s` or pauses `s`, then the programs end as without it, with the same results and exceptions, and everything else is the same:
all calls of other callbacks (in order, with arguments, by which signal, at which depth, with which current emitter, in which thread), memory,
connections, flags, queues, objects.  (Programs and callbacks may connect and disconnect themselves and others, also all of `s`, re-emit `s` and
other signals in any mode, raise, block, pause other signals, use groups that contain `s`, queue for threads, set a debug hook, drop objects.) -/
theorem C88_unseen {env : Env} {s : SigId} {f : Nat} {bound : Args} {p : ConnOpts} (hr : (env.decl s).isRelay = false)
    (hpar : ∀ y, (env.decl y).parent ≠ some s) (hp : p.thread = none ∧ p.unique = .no ∧ p.checkNargs = some false) (h0 : p.priority < 0)
    (hcode : ∀ a, env.body (.func f) a = .ret) (hc : env.Only (Act.Ignores env s (.func f) p.priority))
    {ps qs : List (Bool × ThreadId × Prog)} (hps : ∀ x ∈ ps ++ qs, x.2.2.Only (Act.Ignores env s (.func f) p.priority))
    {rs : List (Bool × Res)} {v : World} (h : Turns env (ps ++ qs) .init rs v) (b : Bool) (t : ThreadId) :
    ∃ w, Turns env (ps ++ (b, t, .api (.connect s ⟨.func f, bound⟩ p) fun _ => .ret) :: qs) .init
        (rs.take ps.length ++ (b, .ok ()) :: rs.drop ps.length) w ∧
      v.Beside s ⟨.func f, bound, p.maxArgs, p.priority, none, 0⟩ w := by
  obtain ⟨u, rs1, rs2, h1, h2, rfl⟩ := Watch.split h
  have hlen : rs1.length = ps.length := by
    clear h hps h2
    generalize World.init = w0 at h1
    induction h1 with
    | nil => rfl
    | cons _ _ ih => simp [ih]
  have hG : ∀ n, Watch.Given env s ⟨.func f, bound, p.maxArgs, p.priority, none, n⟩ := fun n => ⟨hr, hpar, ⟨f, rfl⟩, h0, rfl, hcode⟩
  have hi : Watch.Good env s ⟨.func f, bound, p.maxArgs, p.priority, none, 0⟩ 0 .init := Watch.good_init
  obtain ⟨_, _, _, hu, _⟩ := Watch.turns (n := 0) (hG 0) hc (fun x hx => hps x (List.mem_append_left _ hx)) h1 (c := false) (l := []) hi rfl
  have hu' : Watch.Good env s ⟨.func f, bound, p.maxArgs, p.priority, none, u.nextSerial⟩ u.nextSerial u :=
    ⟨hu.hook, hu.slots, hu.prio, hu.zero, hu.quiet, hu.tq, Nat.le_refl _, hu.serial, hu.wait⟩
  have hs := Watch.start (t := t) hp hr h0 hu' rfl
  obtain ⟨c, l, h3, h4, h5⟩ := Watch.turns (n := u.nextSerial) (hG u.nextSerial) hc (fun x hx => hps x (List.mem_append_right _ hx)) h2 (c := true)
    (l := u.log) hu' rfl
  rw [List.take_left' hlen, List.drop_left' hlen]
  obtain ⟨t', h6⟩ := Watch.rethread h3 t
  refine ⟨_, Watch.append h1 (.cons hs h6), ?_⟩
  · refine ⟨h5, rfl, rfl, rfl, rfl, fun t => ?_, fun y hy => ?_, ?_, ?_⟩
    · simp only [Watch.ins, List.map_map]; rfl
    · simp only [Watch.ins, SigState.bare]
      rw [Watch.ext_bare, if_neg fun h => hy h.2]
      simp [hy]
    · simp only [Watch.ins]
      rw [Watch.ext_bare]
      cases c with
      | true => exact .inr (by simp; rfl)
      | false => exact .inl (by simp)
    · simp [Watch.ins]

/-! ## A case -/

/-- Function 0 emits the watched signal 31 (a member of group 30) again, connects function 3 to it and disconnects itself, function 1 counts
and raises the second time, function 2 emits the queued signal 20, in a pause. -/
def Ex.watchCode (b : Base) (a : Args) : Prog :=
  match b with
  | .func 0 => match a with
    | [.atom 1] => Ex.seq [Ex.emit 31 2, Ex.conn 31 (.func 3) 2, .disconnect 31 (some ⟨.func 0, []⟩) true]
    | _ => .ret
  | .func 1 => .user (fun m x => if x = 0 then m x + 1 else m x) fun k => if k 0 = 1 then .raise (.user 5) else .ret
  | .func 2 => .withPaused 20 none (Ex.seq [Ex.emit 20 3]) fun _ => .ret
  | _ => .ret

/-- Connections, also to the group and for another thread, and emissions. -/
def Ex.watchProg1 : Prog :=
  Ex.seq [Ex.conn 31 (.func 0), Ex.conn 31 (.func 1), Ex.conn 30 (.func 2), Ex.conn 20 (.func 4),
    .connect 31 ⟨.func 5, []⟩ { thread := some (.this 1), priority := -1 }]

/-- Emissions, with signal 32 blocked. -/
def Ex.watchProg2 : Prog := .withBlocked 32 [] (Ex.seq [Ex.emit 31 1, Ex.emit 32 1]) fun _ => Ex.seq [Ex.emit 31 1, Ex.emit 31 1]

theorem Ex.watch_seq {Q : Act → Prop} {l : List Act} (h : ∀ a ∈ l, Q a) : (Ex.seq l).Only Q := Ex.Only.seq_mem h

theorem Ex.watch_only : (Ex.env Ex.watchCode).Only (Act.Ignores (Ex.env Ex.watchCode) 31 (.func 7) (-5)) := by
  intro b a
  show (Ex.watchCode b a).Only _
  unfold Ex.watchCode
  split
  · split
    · refine Ex.watch_seq ?_
      simp [Act.Ignores, Ex.emit, Ex.conn]
    · trivial
  · intro m
    dsimp only
    split <;> trivial
  · refine ⟨show (20 : SigId) ≠ 31 by decide, trivial, Ex.watch_seq ?_, fun _ => trivial⟩
    simp [Act.Ignores, Ex.emit]
  · trivial

example : ((Ex.env Ex.watchCode).decl 31).isRelay = false ∧ (∀ y, ((Ex.env Ex.watchCode).decl y).parent ≠ some 31) ∧
    (∀ a, (Ex.env Ex.watchCode).body (.func 7) a = .ret) ∧ (Ex.env Ex.watchCode).Only (Act.Ignores (Ex.env Ex.watchCode) 31 (.func 7) (-5)) ∧
    (∀ x ∈ [(true, 0, Ex.watchProg1)] ++ [(true, 0, Ex.watchProg2), (true, 1, Ex.seq [.emitQueued none, Ex.emit 31 9])],
      x.2.2.Only (Act.Ignores (Ex.env Ex.watchCode) 31 (.func 7) (-5))) ∧
    ∃ rs v, Turns (Ex.env Ex.watchCode) ([(true, 0, Ex.watchProg1)] ++ [(true, 0, Ex.watchProg2), (true, 1, Ex.seq [.emitQueued none, Ex.emit 31 9])]) .init rs v ∧
      v.log.length = 71 ∧ v.mem 0 = 5 := by
  refine ⟨rfl, fun y h => ?_, fun _ => rfl, Ex.watch_only, ?_, ?_⟩
  · simp only [Ex.env, Ex.decl, Ex.plain] at h
    repeat' split at h
    all_goals simp at h
  · intro x hx
    simp only [List.cons_append, List.nil_append, List.mem_cons, List.not_mem_nil, or_false] at hx
    rcases hx with rfl | rfl | rfl
    · refine Ex.watch_seq ?_
      simp [Act.Ignores, Ex.conn]
    · refine ⟨trivial, trivial, Ex.watch_seq ?_, fun _ => Ex.watch_seq ?_⟩ <;> simp [Act.Ignores, Ex.emit]
    · refine Ex.watch_seq ?_
      simp [Act.Ignores, Ex.emit]
  · have h : ((exec (Ex.env Ex.watchCode) 80 (.prog Ex.watchProg1) { World.init with thread := 0 }).any fun x =>
        (exec (Ex.env Ex.watchCode) 80 (.prog Ex.watchProg2) { x.1 with thread := 0 }).any fun y =>
          (exec (Ex.env Ex.watchCode) 80 (.prog (Ex.seq [.emitQueued none, Ex.emit 31 9])) { y.1 with thread := 1 }).any fun z =>
            z.1.log.length == 71 && z.1.mem 0 == 5) = true := by
      decide +kernel
    obtain ⟨⟨w, r⟩, h1, h2⟩ := (Option.any_eq_true ..).mp h
    obtain ⟨⟨w', r'⟩, h3, h4⟩ := (Option.any_eq_true ..).mp h2
    obtain ⟨⟨w'', r''⟩, h5, h6⟩ := (Option.any_eq_true ..).mp h4
    simp only [Bool.and_eq_true, beq_iff_eq] at h6
    exact ⟨_, _, .cons ⟨80, h1⟩ (.cons ⟨80, h3⟩ (.cons ⟨80, h5⟩ .nil)), h6.1, h6.2⟩

/-! ## None of the conditions can be dropped -/

/-- Connecting the watcher (function 7) to a signal, with a priority. -/
def Ex.watch (s : SigId) (p : Int) : Act := .connect s ⟨.func 7, []⟩ { checkNargs := some false, priority := p }

/-- A watcher with the priority of the others: function 0 disconnects itself, and the callback after it is skipped in this emission; which
one this is depends on the watcher. -/
theorem C88_priority_refuted : ∃ (env : Env) (v w : World), (∀ a, env.body (.func 7) a = .ret) ∧
    Runs env (.prog (Ex.seq [Ex.conn 0 (.func 0), Ex.conn 0 (.func 1), Ex.emit 0 1])) .init v (.ok ()) ∧
    Runs env (.prog (Ex.seq [Ex.conn 0 (.func 0), Ex.watch 0 0, Ex.conn 0 (.func 1), Ex.emit 0 1])) .init w (.ok ()) ∧
    v.called = [(.func 0, [.atom 1])] ∧ w.called = [(.func 0, [.atom 1]), (.func 1, [.atom 1])] :=
  ⟨Ex.env fun b _ => match b with
    | .func 0 => Ex.seq [.disconnect 0 (some ⟨.func 0, []⟩) true]
    | _ => .ret, _, _, fun _ => rfl, ⟨40, rfl⟩, ⟨40, rfl⟩, rfl, rfl⟩

/-- A program that asks for the number of callbacks. -/
theorem C88_len_refuted : ∃ (env : Env) (q : Prog) (v w : World), (∀ a, env.body (.func 7) a = .ret) ∧
    Runs env (.prog (.api (Ex.conn 1 (.func 1)) fun _ => q)) .init v (.ok ()) ∧
    Runs env (.prog (.api (Ex.conn 1 (.func 1)) fun _ => .api (Ex.watch 0 (-1)) fun _ => q)) .init w (.ok ()) ∧
    v.called = [] ∧ w.called = [(.func 1, [.atom 1])] :=
  ⟨Ex.quiet, .api (.len 0) fun r => match r with
    | .ok (.nat 1) => Ex.seq [Ex.emit 1 1]
    | _ => .ret, _, _, fun _ => rfl, ⟨40, rfl⟩, ⟨40, rfl⟩, rfl, rfl⟩

/-- A signal without other callbacks that is paused: what was collected is dropped before the reducer (which raises) is called. -/
theorem C88_pause_refuted : ∃ (env : Env) (red : Reducer) (v w : World), (∀ a, env.body (.func 7) a = .ret) ∧
    Runs env (.prog (.api (.pause 0) fun _ => .api (Ex.emit 0 1) fun _ => .api (.resume 0 (some red)) fun r => match r with
      | .ok _ => .ret
      | .error e => .raise e)) .init v (.ok ()) ∧
    Runs env (.prog (.api (Ex.watch 0 (-1)) fun _ => .api (.pause 0) fun _ => .api (Ex.emit 0 1) fun _ => .api (.resume 0 (some red)) fun r => match r with
      | .ok _ => .ret
      | .error e => .raise e)) .init w (.error (.user 3)) :=
  ⟨Ex.quiet, .one fun _ => .error (.user 3), _, _, fun _ => rfl, ⟨40, rfl⟩, ⟨40, rfl⟩⟩

/-- `emit_fast` of a member of a group, called by the last callback of another member that has just disconnected itself: the group looks whether
the current emitter has callbacks, and has a watcher for one. -/
theorem C88_fast_refuted : ∃ (env : Env) (v w : World), (∀ a, env.body (.func 7) a = .ret) ∧
    Runs env (.prog (Ex.seq [Ex.conn 30 (.func 1), .disconnect 31 none true, Ex.conn 31 (.func 0), Ex.emit 31 1])) .init v (.ok ()) ∧
    Runs env (.prog (Ex.seq [Ex.conn 30 (.func 1), .disconnect 31 none true, Ex.conn 31 (.func 0), Ex.watch 31 (-1), Ex.emit 31 1])) .init w (.ok ()) ∧
    v.called = [(.func 0, [.atom 1]), (.relay 30, [.atom 2])] ∧
    w.called = [(.func 0, [.atom 1]), (.relay 30, [.atom 2]), (.func 1, [.info 31 [.atom 2]])] :=
  ⟨Ex.env fun b _ => match b with
    | .func 0 => Ex.seq [.disconnect 31 (some ⟨.func 0, []⟩) true, .emitFast 32 [.atom 2]]
    | _ => .ret, _, _, fun _ => rfl, ⟨40, rfl⟩, ⟨40, rfl⟩, rfl, rfl⟩

end Psygnal
