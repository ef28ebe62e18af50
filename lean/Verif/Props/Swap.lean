import Verif.SwapSim
import Verif.Props.Modes

/-!
# C87: `emit_fast` in the place of `emit`, anywhere in programs and callbacks
-/
namespace Psygnal

theorem World.Looks.symm {w v : World} (h : w.Looks v) : v.Looks w :=
  ⟨h.log.symm, h.mem.symm, h.tq.symm, h.dead.symm, h.hook.symm, h.emitter.symm, fun s => (h.slots s).symm, fun s => (h.blocked s).symm,
    fun s => (h.paused s).symm, fun s => (h.argsQueue s).symm, fun s => (h.emitQueue s).symm, fun s => (h.depth s).symm⟩

theorem World.Looks.trans {w v u : World} (h : w.Looks v) (k : v.Looks u) : w.Looks u :=
  ⟨h.log.trans k.log, h.mem.trans k.mem, h.tq.trans k.tq, h.dead.trans k.dead, h.hook.trans k.hook, h.emitter.trans k.emitter,
    fun s => (h.slots s).trans (k.slots s), fun s => (h.blocked s).trans (k.blocked s), fun s => (h.paused s).trans (k.paused s),
    fun s => (h.argsQueue s).trans (k.argsQueue s), fun s => (h.emitQueue s).trans (k.emitQueue s), fun s => (h.depth s).trans (k.depth s)⟩

theorem Act.Alike.symm {env env' : Env} (he : env'.decl = env.decl) {a b : Act} (h : a.Alike env b) : b.Alike env' a := by
  have hf : ∀ s, env.Free s → env'.Free s := fun s h r => by rw [he]; exact h r
  have hp : ∀ s, env.Plain s → env'.Plain s := fun s h => ⟨by rw [he]; exact h.1, hf s h.2⟩
  cases h with
  | same h =>
    refine .same ?_
    cases a with
    | emitFast s x => exact hf s h
    | _ => exact h
  | fast h1 h2 => exact .slow (hp _ h1) (by rw [he]; exact h2)
  | slow h1 h2 => exact .fast (hp _ h1) (by rw [he]; exact h2)

theorem Prog.Alike.symm {env env' : Env} (he : env'.decl = env.decl) {p q : Prog} (h : p.Alike env q) : q.Alike env' p := by
  induction h with
  | ret => exact .ret
  | raise => exact .raise
  | user _ ih => exact .user ih
  | api h _ ih => exact .api (h.symm he) ih
  | withBlocked _ _ ih1 ih2 => exact .withBlocked ih1 ih2
  | withPaused _ _ ih1 ih2 => exact .withPaused ih1 ih2

/-- The one direction. -/
theorem Swap.looks {env env' : Env} (he : env.Alike env') {ps : List (Bool × ThreadId × Prog × Prog)} (hp : ∀ x ∈ ps, x.2.2.1.Alike env x.2.2.2)
    {rs : List (Bool × Res)} {w : World} (h : Turns env (ps.map fun x => (x.1, x.2.1, x.2.2.1)) .init rs w) :
    ∃ v, Turns env' (ps.map fun x => (x.1, x.2.1, x.2.2.2)) .init rs v ∧ w.Looks v := by
  have hb : Swap.Both env (ps.map fun x => (x.1, x.2.1, x.2.2.1)) (ps.map fun x => (x.1, x.2.1, x.2.2.2)) := by
    clear h
    induction ps with
    | nil => trivial
    | cons x ps ih => exact ⟨⟨rfl, rfl, hp x (.head _)⟩, ih fun y hy => hp y (.tail _ hy)⟩
  obtain ⟨d, b, p⟩ := env'
  obtain ⟨h1, h2, h3⟩ := he
  dsimp only at h1 h2 h3
  subst h1
  subst h2
  obtain ⟨m, l, h4, h5, h6⟩ := Swap.turns h3 hb h Swap.good_init Swap.ok_init
  have hw : w.emitter = none := by
    clear h4 h5 h6 hb h3
    generalize hi : World.init = w0 at h
    generalize (ps.map fun x => (x.1, x.2.1, x.2.2.1)) = qs at h
    have h0 : w0.emitter = none := by rw [← hi]; rfl
    clear hi
    induction h with
    | nil => exact h0
    | cons h1 _ ih => exact ih ((emitter_restored h1).trans h0)
  exact ⟨_, h4, ⟨h6.log.symm, rfl, rfl, rfl, rfl, hw, fun _ => rfl, fun _ => rfl, fun _ => rfl, fun _ => rfl, fun _ => rfl, fun _ => rfl⟩⟩

/-- **C87** (`emit_fast` for `emit`).  Take programs and callbacks, and in both replace any calls of `emit` by `emit_fast` or the other way
round, for signals with immediate re-emission outside groups, with arguments that bind to the signature if `emit` checks them; nothing
asks for the current emitter, sets a debug hook or `emit_fast`s a member of a group.  Then programs, run in turns in any threads from the
beginning, do the same for everybody who looks: the one version ends if the other does, with the same results and exceptions, and the
same calls in the same order with the same arguments at the same depths in the same threads, memory, connections, flags and queues.  (Callbacks
may connect, disconnect, block, pause, raise, emit the same and other signals of any mode and groups, queue for other threads.) -/
theorem C87_same {env env' : Env} (he : env.Alike env') {ps : List (Bool × ThreadId × Prog × Prog)} (hp : ∀ x ∈ ps, x.2.2.1.Alike env x.2.2.2)
    (rs : List (Bool × Res)) (u : World) :
    (∃ w, Turns env (ps.map fun x => (x.1, x.2.1, x.2.2.1)) .init rs w ∧ w.Looks u) ↔
    (∃ v, Turns env' (ps.map fun x => (x.1, x.2.1, x.2.2.2)) .init rs v ∧ v.Looks u) := by
  constructor
  · rintro ⟨w, h1, h2⟩
    obtain ⟨v, h3, h4⟩ := Swap.looks he hp h1
    exact ⟨v, h3, h4.symm.trans h2⟩
  · rintro ⟨v, h1, h2⟩
    have he' : env'.Alike env := ⟨he.decl.symm, he.pysig.symm, fun b a => (he.code b a).symm he.decl⟩
    have hp' : ∀ x ∈ ps.map (fun x => (x.1, x.2.1, x.2.2.2, x.2.2.1)), x.2.2.1.Alike env' x.2.2.2 := by
      intro x hx
      obtain ⟨y, hy, rfl⟩ := List.mem_map.mp hx
      exact (hp y hy).symm he.decl
    obtain ⟨w, h3, h4⟩ := Swap.looks (rs := rs) (w := v) he' hp' (by rw [List.map_map]; exact h1)
    rw [List.map_map] at h3
    exact ⟨w, h3, h4.symm.trans h2⟩

theorem Swap.only {env : Env} {d : Levels} {n : Nat} {p q : Prog} (h : p.Alike env q) (hp : p.Only (d.Allows n)) : q.Only (d.Allows n) := by
  induction h with
  | ret => trivial
  | raise => trivial
  | user _ ih => exact fun m => ih m (hp m)
  | api h _ ih =>
    refine ⟨?_, fun r => ih r (hp.2 r)⟩
    cases h with
    | same => exact hp.1
    | fast => exact hp.1
    | slow => exact hp.1
  | withBlocked _ _ ih1 ih2 => exact ⟨hp.1, hp.2.1, ih1 hp.2.2.1, fun r => ih2 r (hp.2.2.2 r)⟩
  | withPaused _ _ ih1 ih2 => exact ⟨hp.1, hp.2.1, ih1 hp.2.2.1, fun r => ih2 r (hp.2.2.2 r)⟩

/-- **C87** (signals that are not re-emitted).  If signals and callbacks have levels such that no signal is emitted by callbacks that it
calls (as in C84), the same holds for signals in any re-emission mode: then `emit` and `emit_fast` can be exchanged for all signals
outside groups, and the modes with them. -/
theorem C87_levels {env env' : Env} {d : Levels} (hk : d.Kept env)
    (he : (env.withModes fun _ => .immediate).Alike (env'.withModes fun _ => .immediate)) {ps : List (Bool × ThreadId × Prog × Prog)}
    (hl : ∀ x ∈ ps, ∃ n, x.2.2.1.Only (d.Allows n)) (hp : ∀ x ∈ ps, x.2.2.1.Alike (env.withModes fun _ => .immediate) x.2.2.2)
    (rs : List (Bool × Res)) (u : World) :
    (∃ w, Turns env (ps.map fun x => (x.1, x.2.1, x.2.2.1)) .init rs w ∧ w.Looks u) ↔
    (∃ v, Turns env' (ps.map fun x => (x.1, x.2.1, x.2.2.2)) .init rs v ∧ v.Looks u) := by
  have hk' : d.Kept env' := by
    refine ⟨fun b a => Swap.only (he.code b a) (hk.code b a), hk.relay, fun r c hc => hk.kids r c ?_⟩
    have := congrArg Decl.children (congrFun he.decl r)
    exact this ▸ hc
  have h1 : ∀ x ∈ ps.map (fun x => (x.1, x.2.1, x.2.2.1)), ∃ n, x.2.2.Only (d.Allows n) := by
    intro x hx
    obtain ⟨y, hy, rfl⟩ := List.mem_map.mp hx
    exact hl y hy
  have h2 : ∀ x ∈ ps.map (fun x => (x.1, x.2.1, x.2.2.2)), ∃ n, x.2.2.Only (d.Allows n) := by
    intro x hx
    obtain ⟨y, hy, rfl⟩ := List.mem_map.mp hx
    obtain ⟨n, hn⟩ := hl y hy
    exact ⟨n, Swap.only (hp y hy) hn⟩
  have := C87_same he hp rs u
  simp only [← C84_modes hk (fun _ => .immediate) h1, ← C84_modes hk' (fun _ => .immediate) h2] at this
  exact this

/-! ## A concrete case -/

/-- `emit_fast` or `emit`. -/
def Ex.em : Bool → SigId → Int → Act
  | true, s, n => .emitFast s [.atom n]
  | false, s, n => .emit s [.atom n] true

/-- Function 0 emits its own signal 0 again, then the latest-only signal 10 and the member 31 of a group; functions 1 and 2 emit 0 or 1 in
turn from there, or raise; with `emit` or with `emit_fast` for the signals 0 and 1. -/
def Ex.swapCode (fast : Bool) (b : Base) (a : Args) : Prog :=
  match b with
  | .func 0 => match a with
    | [.atom 1] => Ex.seq [Ex.em fast 0 2, Ex.emit 10 5, Ex.emit 31 7]
    | _ => Ex.seq [Ex.em fast 1 3]
  | .func 1 => .user (fun m x => if x = 0 then m x + 1 else m x) fun m => if m 0 = 0 then Ex.seq [Ex.em fast 0 4] else .raise (.user 9)
  | .func 2 => .withPaused 1 none (Ex.seq [Ex.em fast 1 8, .disconnect 1 (some ⟨.func 3, []⟩) true]) fun _ => .ret
  | _ => .ret

/-- The signals with these callbacks. -/
def Ex.swapEnv (fast : Bool) : Env := Ex.env (Ex.swapCode fast)

/-- Connections, one for another thread, and emissions. -/
def Ex.swapProg1 (fast : Bool) : Prog :=
  Ex.seq [Ex.conn 0 (.func 0), Ex.conn 0 (.func 5), Ex.conn 10 (.func 1), Ex.conn 30 (.func 2), Ex.conn 1 (.func 3),
      .connect 1 ⟨.func 4, []⟩ { thread := some (.this 1) }, Ex.em fast 0 1, Ex.emit 31 1]

/-- In the other thread, signal 0 is blocked for a while. -/
def Ex.swapProg2 (fast : Bool) : Prog :=
  .withBlocked 0 [] (Ex.seq [Ex.em fast 0 6, .emitQueued none, Ex.emit 10 2]) fun _ => Ex.seq [Ex.em fast 0 1]

theorem Ex.free {b : Base → Args → Prog} {s : SigId} (h : s < 10) : (Ex.env b).Free s := by
  intro r hr
  simp only [Ex.env, Ex.decl, Ex.plain] at hr
  repeat' split at hr
  all_goals simp at hr
  rcases hr with rfl | rfl <;> exact absurd h (by decide)

theorem Ex.plainSig {b : Base → Args → Prog} {s : SigId} (h : s < 10) : (Ex.env b).Plain s :=
  ⟨by simp [Ex.env, Ex.decl, h, Ex.plain], Ex.free h⟩

theorem Ex.swap_act {b : Base → Args → Prog} {s : SigId} (h : s < 10) (n : Int) : (Ex.em false s n).Alike (Ex.env b) (Ex.em true s n) :=
  .fast (Ex.plainSig h) fun _ => by simp [Ex.env, Ex.decl, h, Ex.plain]; decide

theorem Ex.swap_seq {env : Env} : ∀ {l k : List Act}, l.length = k.length → (∀ x ∈ l.zip k, x.1.Alike env x.2) → (Ex.seq l).Alike env (Ex.seq k)
  | [], [], _, _ => .ret
  | a :: l, b :: k, h, h2 => .api (h2 (a, b) (by simp)) fun _ => Ex.swap_seq (by simpa using h) fun x hx => h2 x (by simp [hx])

theorem Ex.swap_code : (Ex.swapEnv false).Alike (Ex.swapEnv true) := by
  refine ⟨rfl, rfl, fun b a => ?_⟩
  have e0 := @Ex.swap_act (Ex.swapCode false) 0 (by decide)
  have e1 := @Ex.swap_act (Ex.swapCode false) 1 (by decide)
  show (Ex.swapCode false b a).Alike (Ex.swapEnv false) (Ex.swapCode true b a)
  unfold Ex.swapCode
  split
  · split
    · exact .api (e0 2) fun _ => .api (.same trivial) fun _ => .api (.same trivial) fun _ => .ret
    · exact .api (e1 3) fun _ => .ret
  · refine .user fun m => ?_
    split
    · exact .api (e0 4) fun _ => .ret
    · exact .raise
  · exact .withPaused (.api (e1 8) fun _ => .api (.same trivial) fun _ => .ret) fun _ => .ret
  · exact .ret

/-- Both versions of the programs, side by side. -/
def Ex.swapBoth : List (Bool × ThreadId × Prog × Prog) :=
  [(true, 0, Ex.swapProg1 false, Ex.swapProg1 true), (true, 1, Ex.swapProg2 false, Ex.swapProg2 true)]

example : (Ex.swapEnv false).Alike (Ex.swapEnv true) ∧ (∀ x ∈ Ex.swapBoth, x.2.2.1.Alike (Ex.swapEnv false) x.2.2.2) ∧
    ∃ rs w, Turns (Ex.swapEnv false) (Ex.swapBoth.map fun x => (x.1, x.2.1, x.2.2.1)) .init rs w ∧ w.log.length = 82 ∧ w.mem 0 = 3 := by
  have e0 := @Ex.swap_act (Ex.swapCode false) 0 (by decide)
  refine ⟨Ex.swap_code, ?_, ?_⟩
  · intro x hx
    simp only [Ex.swapBoth, List.mem_cons, List.not_mem_nil, or_false] at hx
    rcases hx with rfl | rfl
    · refine Ex.swap_seq rfl ?_
      simp only [List.zip_cons_cons, List.zip_nil_right, List.mem_cons, List.not_mem_nil, or_false, forall_eq_or_imp, forall_eq]
      exact ⟨.same (by intro r hr; cases hr), .same (by intro r hr; cases hr), .same (by intro r hr; cases hr), .same (by intro r hr; cases hr),
        .same (by intro r hr; cases hr), .same (by intro r hr; cases hr), e0 1, .same trivial⟩
    · exact .withBlocked (.api (e0 6) fun _ => .api (.same trivial) fun _ => .api (.same trivial) fun _ => .ret) fun _ => .api (e0 1) fun _ => .ret
  · have h : ((exec (Ex.swapEnv false) 80 (.prog (Ex.swapProg1 false)) { World.init with thread := 0 }).any fun x =>
        (exec (Ex.swapEnv false) 80 (.prog (Ex.swapProg2 false)) { x.1 with thread := 1 }).any fun y => y.1.log.length == 82 && y.1.mem 0 == 3) = true := by
      decide +kernel
    obtain ⟨⟨w, r⟩, h1, h2⟩ := (Option.any_eq_true ..).mp h
    obtain ⟨⟨w', r'⟩, h3, h4⟩ := (Option.any_eq_true ..).mp h2
    simp only [Bool.and_eq_true, beq_iff_eq] at h4
    exact ⟨_, _, .cons ⟨80, h1⟩ (.cons ⟨80, h3⟩ .nil), h4.1, h4.2⟩

/-- Signals of all modes in levels (`Ex.levels`): function 0 emits the latest-only signal 10 twice and a member of a group, function 1 the
queued signal 20, function 2 counts and raises. -/
def Ex.layerCode (fast : Bool) (b : Base) (_ : Args) : Prog :=
  match b with
  | .func 0 => Ex.seq [Ex.em fast 10 5, Ex.emit 31 7, Ex.em fast 10 6]
  | .func 1 => Ex.seq [Ex.em fast 20 2]
  | .func 2 => .user (fun m x => if x = 0 then m x + 1 else m x) fun k => if k 0 = 2 then .raise (.user 5) else .ret
  | _ => .ret

/-- Connections and emissions. -/
def Ex.layerProg (fast : Bool) : Prog :=
  Ex.seq [Ex.conn 0 (.func 0), Ex.conn 10 (.func 1), Ex.conn 20 (.func 2), Ex.conn 30 (.func 3), Ex.em fast 0 1, .pause 20, Ex.em fast 0 2, .resume 20 none]

theorem Ex.layer_act {b : Base → Args → Prog} {s : SigId} (h : s < 30) (n : Int) :
    (Ex.em false s n).Alike ((Ex.env b).withModes fun _ => .immediate) (Ex.em true s n) := by
  refine .fast ⟨rfl, fun r hr => ?_⟩ fun _ => ?_
  · simp only [Env.withModes, Ex.env, Ex.decl, Ex.plain] at hr
    repeat' split at hr
    all_goals simp at hr
    rcases hr with rfl | rfl <;> exact absurd h (by decide)
  · simp only [Env.withModes, Ex.env, Ex.decl, Ex.plain]
    repeat' split
    all_goals exact rfl

example : Ex.levels.Kept (Ex.env (Ex.layerCode false)) ∧
    ((Ex.env (Ex.layerCode false)).withModes fun _ => .immediate).Alike ((Ex.env (Ex.layerCode true)).withModes fun _ => .immediate) ∧
    (Ex.layerProg false).Only (Ex.levels.Allows 4) ∧
    (Ex.layerProg false).Alike ((Ex.env (Ex.layerCode false)).withModes fun _ => .immediate) (Ex.layerProg true) ∧
    ∃ w r, Runs (Ex.env (Ex.layerCode false)) (.prog (Ex.layerProg false)) .init w r ∧ w.log.length = 39 ∧ w.mem 0 = 3 := by
  have e0 := @Ex.layer_act (Ex.layerCode false) 0 (by decide)
  have e1 := @Ex.layer_act (Ex.layerCode false) 10 (by decide)
  have e2 := @Ex.layer_act (Ex.layerCode false) 20 (by decide)
  refine ⟨⟨fun b a => ?_, Ex.layers_kept.relay, Ex.layers_kept.kids⟩, ⟨rfl, rfl, fun b a => ?_⟩, ?_, ?_, ?_⟩
  · show (Ex.layerCode false b a).Only _
    unfold Ex.layerCode
    split
    · simp [Ex.seq, Prog.Only, Levels.Allows, Ex.levels, Ex.emit, Ex.em]
    · simp [Ex.seq, Prog.Only, Levels.Allows, Ex.levels, Ex.em]
    · intro k
      dsimp only
      split <;> trivial
    · trivial
  · show (Ex.layerCode false b a).Alike _ (Ex.layerCode true b a)
    unfold Ex.layerCode
    split
    · exact .api (e1 5) fun _ => .api (.same trivial) fun _ => .api (e1 6) fun _ => .ret
    · exact .api (e2 2) fun _ => .ret
    · refine .user fun m => ?_
      split
      · exact .raise
      · exact .ret
    · exact .ret
  · refine Ex.Only.seq_mem ?_
    simp [Levels.Allows, Ex.levels, Ex.em, Ex.conn]
  · refine Ex.swap_seq rfl ?_
    simp only [List.zip_cons_cons, List.zip_nil_right, List.mem_cons, List.not_mem_nil, or_false, forall_eq_or_imp, forall_eq]
    exact ⟨.same (by intro r hr; cases hr), .same (by intro r hr; cases hr), .same (by intro r hr; cases hr), .same (by intro r hr; cases hr), e0 1,
      .same trivial, e0 2, .same trivial⟩
  · have h : ((exec (Ex.env (Ex.layerCode false)) 80 (.prog (Ex.layerProg false)) .init).any fun y => y.1.log.length == 39 && y.1.mem 0 == 3) = true := by
      decide +kernel
    obtain ⟨⟨w, r⟩, h1, h4⟩ := (Option.any_eq_true ..).mp h
    simp only [Bool.and_eq_true, beq_iff_eq] at h4
    exact ⟨w, r, ⟨80, h1⟩, h4.1, h4.2⟩

/-! ## None of the conditions can be dropped -/

/-- The calls of callbacks in the log. -/
def World.called (w : World) : List (Base × Args) := w.log.filterMap fun e => match e with
  | .call _ _ _ _ _ b a => some (b, a)
  | _ => none

/-- A callback that asks for the current emitter sees the difference. -/
theorem C87_emitter_refuted : ∃ (env : Env) (l : List Act) (w v : World),
    Runs env (.prog (Ex.seq (l ++ [.emit 0 [.atom 1] true]))) .init w (.ok ()) ∧ Runs env (.prog (Ex.seq (l ++ [.emitFast 0 [.atom 1]]))) .init v (.ok ()) ∧
    env.Plain 0 ∧ w.called = [(.func 0, [.atom 1]), (.func 1, [.atom 2])] ∧ v.called = [(.func 0, [.atom 1])] :=
  ⟨Ex.env fun b _ => match b with
    | .func 0 => .api .currentEmitter fun r => match r with
      | .ok (.sig (some _)) => Ex.seq [Ex.emit 1 2]
      | _ => .ret
    | _ => .ret,
   [Ex.conn 0 (.func 0), Ex.conn 1 (.func 1)], _, _, ⟨40, rfl⟩, ⟨40, rfl⟩, Ex.plainSig (by decide), rfl, rfl⟩

/-- A signal with another re-emission mode whose callback emits it again: the latest-only signal 10 and the queued signal 20. -/
theorem C87_modes_refuted : ∃ (env : Env) (l : List Act) (w v w' v' : World),
    Runs env (.prog (Ex.seq (l ++ [.emit 10 [.atom 1] true]))) .init w (.ok ()) ∧ Runs env (.prog (Ex.seq (l ++ [.emitFast 10 [.atom 1]]))) .init v (.ok ()) ∧
    Runs env (.prog (Ex.seq (l ++ [.emit 20 [.atom 1] true]))) .init w' (.ok ()) ∧ Runs env (.prog (Ex.seq (l ++ [.emitFast 20 [.atom 1]]))) .init v' (.ok ()) ∧
    env.Free 10 ∧ env.Free 20 ∧
    w.called = [(.func 0, [.atom 1]), (.func 0, [.atom 2]), (.func 1, [.atom 2])] ∧
    v.called = [(.func 0, [.atom 1]), (.func 0, [.atom 2]), (.func 1, [.atom 2]), (.func 1, [.atom 1])] ∧
    w'.called = [(.func 2, [.atom 1]), (.func 1, [.atom 1]), (.func 2, [.atom 2]), (.func 1, [.atom 2])] ∧
    v'.called = [(.func 2, [.atom 1]), (.func 2, [.atom 2]), (.func 1, [.atom 2]), (.func 1, [.atom 1])] := by
  have hf : ∀ (b : Base → Args → Prog) (s : SigId), s < 30 → (Ex.env b).Free s := by
    intro b s h r hr
    simp only [Ex.env, Ex.decl, Ex.plain] at hr
    repeat' split at hr
    all_goals simp at hr
    rcases hr with rfl | rfl <;> exact absurd h (by decide)
  exact ⟨Ex.env fun b a => match b, a with
    | .func 0, [.atom 1] => Ex.seq [.emit 10 [.atom 2] true]
    | .func 2, [.atom 1] => Ex.seq [.emit 20 [.atom 2] true]
    | _, _ => .ret,
   [Ex.conn 10 (.func 0), Ex.conn 10 (.func 1), Ex.conn 20 (.func 2), Ex.conn 20 (.func 1)], _, _, _, _, ⟨40, rfl⟩, ⟨40, rfl⟩, ⟨40, rfl⟩, ⟨40, rfl⟩,
   hf _ _ (by decide), hf _ _ (by decide), rfl, rfl, rfl, rfl⟩

/-- A member of a group: `emit_fast` does not reach the callbacks of the group. -/
theorem C87_member_refuted : ∃ (env : Env) (l : List Act) (w v : World),
    Runs env (.prog (Ex.seq (l ++ [.emit 31 [.atom 1] true]))) .init w (.ok ()) ∧ Runs env (.prog (Ex.seq (l ++ [.emitFast 31 [.atom 1]]))) .init v (.ok ()) ∧
    (env.decl 31).mode = .immediate ∧ w.called = [(.relay 30, [.atom 1]), (.func 0, [.info 31 [.atom 1]])] ∧ v.called = [(.relay 30, [.atom 1])] :=
  ⟨Ex.quiet, [Ex.conn 30 (.func 0)], _, _, ⟨40, rfl⟩, ⟨40, rfl⟩, rfl, rfl, rfl⟩

/-- A debug hook is called by `emit` only. -/
theorem C87_hook_refuted : ∃ (env : Env) (l : List Act) (w v : World),
    Runs env (.prog (Ex.seq (l ++ [.emit 0 [.atom 1] true]))) .init w (.ok ()) ∧ Runs env (.prog (Ex.seq (l ++ [.emitFast 0 [.atom 1]]))) .init v (.ok ()) ∧
    env.Plain 0 ∧ w.called = [(.func 1, [.info 0 [.atom 1]]), (.func 0, [.atom 1])] ∧ v.called = [(.func 0, [.atom 1])] :=
  ⟨Ex.quiet, [Ex.conn 0 (.func 0), .setHook (some (.func 1))], _, _, ⟨40, rfl⟩, ⟨40, rfl⟩, Ex.plainSig (by decide), rfl, rfl⟩

/-- Arguments that do not bind: `emit(…, check_nargs=True)` raises `TypeError`, `emit_fast` calls the callbacks. -/
theorem C87_nargs_refuted : ∃ (env : Env) (l : List Act) (w v : World),
    Runs env (.prog (Ex.seq (l ++ [.emit 0 [.atom 1, .atom 2] true]))) .init w (.ok ()) ∧
    Runs env (.prog (Ex.seq (l ++ [.emitFast 0 [.atom 1, .atom 2]]))) .init v (.ok ()) ∧
    env.Plain 0 ∧ w.called = [] ∧ v.called = [(.func 0, [.atom 1])] :=
  ⟨Ex.quiet, [Ex.conn 0 (.func 0)], _, _, ⟨40, rfl⟩, ⟨40, rfl⟩, Ex.plainSig (by decide), rfl, rfl⟩

end Psygnal
