import Verif.SeparateLemmas
import Verif.Examples

/-! # C81: signals that have nothing to do with each other do not affect each other -/
namespace Psygnal

variable {d : Side} {env : Env}

/-- **C81** (what is not mentioned does not change).  Code that uses the signals, callbacks, objects and memory of one side only leaves
every signal of the other side as it was (connections, blocking, pausing, queues, depth), its objects, its memory, its callbacks that wait
in the queues of threads; it emits none of its signals and calls none of its callbacks.  Whether it returns or raises. -/
theorem C81_frame (hd : d.Separate env) {p : Prog} (hp : p.on d) {w w' : World} {r : Res}
    (hs : ∀ s, ∀ x ∈ (w.sig s).slots, d.base x.base = d.sig s) (hh : w.hook = none) (he : ∀ e, w.emitter = some e → d.sig e = true)
    (h : Runs env (.prog p) w w' r) :
    (∀ s, d.sig s = false → w'.sig s = w.sig s) ∧
    (∀ o, d.obj o = false → w'.dead o = w.dead o) ∧
    (∀ a, d.adr a = false → w'.mem a = w.mem a) ∧
    (∀ t, (w'.tq t).filter (fun q => !d.base q.1.base) = (w.tq t).filter (fun q => !d.base q.1.base)) ∧
    w'.log.filter (fun e => (d.see e).isNone) = w.log.filter (fun e => (d.see e).isNone) ∧
    (∀ s, ∀ x ∈ (w'.sig s).slots, d.base x.base = d.sig s) := by
  obtain ⟨v, _, h2⟩ := runs_rel hd hp (rel_start (agree_refl d w) rfl rfl ⟨hs, hh, he⟩ ⟨hs, hh, he⟩) h
  exact ⟨h2.frame.sig, h2.frame.dead, fun a ha => h2.frame.mem a (by simp [Side.other, ha]), h2.frame.tq, h2.frame.log, h2.fine.slots⟩

/-- **C81** (what is not mentioned does not matter).  In two states that differ on the other side only, the code has the same result,
makes the same calls with the same arguments, and its side is the same afterwards.  In particular it ends in the one if in the other. -/
theorem C81_same (hd : d.Separate env) {p : Prog} (hp : p.on d) {w v w' : World} {r : Res} (ha : d.Agree w v)
    (ht : w.thread = v.thread) (he : w.emitter = v.emitter)
    (hs : ∀ s, ∀ x ∈ (w.sig s).slots, d.base x.base = d.sig s) (hh : w.hook = none) (hi : ∀ e, w.emitter = some e → d.sig e = true)
    (hs' : ∀ s, ∀ x ∈ (v.sig s).slots, d.base x.base = d.sig s) (hh' : v.hook = none)
    (h : Runs env (.prog p) w w' r) : ∃ v', Runs env (.prog p) v v' r ∧ d.Agree w' v' := by
  obtain ⟨v', h1, h2⟩ := runs_rel hd hp (rel_start ha he ht ⟨hs, hh, hi⟩ ⟨hs', hh', fun e h => hi e (he.trans h)⟩) h
  exact ⟨v', h1, h2.agree⟩

/-- **C81** (the order does not matter).  Code of the one side and then of the other, or the other way round: the same results, and both
sides are the same in the end. -/
theorem C81_commute (hd : d.Separate env) (hd' : d.other.Separate env) {p q : Prog} (hp : p.on d) (hq : q.on d.other) {w w1 w2 : World}
    {r r' : Res} (hs : ∀ s, ∀ x ∈ (w.sig s).slots, d.base x.base = d.sig s) (hh : w.hook = none) (he : w.emitter = none)
    (h : Runs env (.prog p) w w1 r) (h' : Runs env (.prog q) w1 w2 r') :
    ∃ v1 v2, Runs env (.prog q) w v1 r' ∧ Runs env (.prog p) v1 v2 r ∧ d.Agree w2 v2 ∧ d.other.Agree w2 v2 := by
  have hf : d.Fine w := ⟨hs, hh, fun e h => by rw [he] at h; cases h⟩
  obtain ⟨_, _, h2⟩ := runs_rel hd hp (rel_start (agree_refl d w) rfl rfl hf hf) h
  have e1 := (emitter_restored h).trans he
  have f1 := h2.fine.other e1
  obtain ⟨v1, h3, h4⟩ := runs_rel hd' hq (rel_start h2.frame.agree (e1.trans he.symm) (thread_const h) f1 (hf.other he)) h'
  have e3 := (emitter_restored h3).trans he
  have f3 := h4.fine'.other e3
  have g3 := h4.frame'.agree
  rw [other_other] at f3 g3
  obtain ⟨v2, h5, h6⟩ := runs_rel hd hp (rel_start g3.symm (he.trans e3.symm) (thread_const h3).symm hf f3) h
  have g2 := h4.frame.agree
  rw [other_other] at g2
  exact ⟨v1, v2, h3, h5, g2.trans h6.agree, h4.agree.trans h6.frame'.agree.symm⟩

/-- **C81** (the other side could as well not be there).  Programs of both sides run in turns, in any threads and in any order, from the
beginning: the results of those of this side, what they called, and the state of this side are as if the programs of the other side had
never been run. -/
theorem C81_alone (hd : d.Separate env) (hd' : d.other.Separate env) {ps : List (Bool × ThreadId × Prog)} {rs : List (Bool × Res)} {w : World}
    (hp : ∀ x ∈ ps, x.2.2.on (if x.1 then d else d.other)) (h : Turns env ps .init rs w) :
    ∃ v, Turns env (ps.filter (·.1)) .init (rs.filter (·.1)) v ∧ d.Agree w v := by
  have hf : d.Fine .init := ⟨fun s x hx => (by simp [World.init, SigState.init] at hx), rfl, fun e h => (by cases h)⟩
  exact turns_purge hd hd' h hp (agree_refl d _) hf hf rfl rfl

/-! ## A concrete case -/

/-- Signals from 30 on (a group and its members), functions, objects and memory from 10 on. -/
def Ex.side : Side :=
  ⟨fun s => decide (30 ≤ s), fun b => match b with
    | .func f => decide (10 ≤ f)
    | .relay r => decide (30 ≤ r)
    | .callable o | .method o _ | .builtin o _ | .setattr o _ | .setitem o _ => decide (10 ≤ o), fun o => decide (10 ≤ o), fun a => decide (10 ≤ a)⟩

/-- Callbacks count their calls; function 1 then raises, function 11 emits 32. -/
def Ex.twoSides : Env := Ex.env fun b _ => match b with
  | .func 1 => .user (fun m a => if a = 1 then m a + 1 else m a) fun _ => .raise (.user 7)
  | .func 11 => .user (fun m a => if a = 11 then m a + 1 else m a) fun _ => Ex.seq [Ex.emit 32 5]
  | _ => .ret

theorem Ex.side_separate : Ex.side.Separate Ex.twoSides := by
  refine ⟨fun s c h => ?_, fun s r h => ?_, fun b o h => ?_, fun r => rfl, fun b a h => ?_⟩
  · simp only [Ex.twoSides, Ex.env, Ex.decl, Ex.plain] at h
    repeat' split at h
    all_goals simp_all [Ex.side]
    rcases h with rfl | rfl <;> decide
  · simp only [Ex.twoSides, Ex.env, Ex.decl, Ex.plain] at h
    repeat' split at h
    all_goals simp_all [Ex.side]
  · cases b <;> simp_all [Base.owner?, Ex.side]
  · simp only [Ex.twoSides, Ex.env]
    split
    · simp [Ex.side] at h
    · exact ⟨fun m m' hm => ⟨fun x hx => by simp only [hm x hx], rfl⟩, fun m x hx => if_neg (by rintro rfl; simp [Side.other, Ex.side] at hx),
        fun _ => ⟨by simp [Act.on, Ex.emit, Ex.side], fun _ => trivial⟩⟩
    · trivial

theorem Ex.other_separate : Ex.side.other.Separate Ex.twoSides := by
  refine ⟨fun s c h => ?_, fun s r h => ?_, fun b o h => ?_, fun r => rfl, fun b a h => ?_⟩
  · simp only [Side.other, Ex.side_separate.kids s c h]
  · simp only [Side.other, Ex.side_separate.parent s r h]
  · simp only [Side.other, Ex.side_separate.owner b o h]
  · simp only [Ex.twoSides, Ex.env]
    split
    · exact ⟨fun m m' hm => ⟨fun x hx => by simp only [hm x hx], rfl⟩, fun m x hx => if_neg (by rintro rfl; simp [Side.other, Ex.side] at hx),
        fun _ => trivial⟩
    · simp [Side.other, Ex.side] at h
    · trivial

/-- What is run: on the one side connections to the group and to a member, and an emission; on the other a callback that raises, in
another thread. -/
def Ex.turns : List (Bool × ThreadId × Prog) :=
  [(true, 0, Ex.seq [Ex.conn 30 (.func 10), Ex.conn 31 (.func 11)]), (false, 1, Ex.seq [Ex.conn 0 (.func 1)]),
   (true, 0, Ex.seq [Ex.emit 31 4]), (false, 0, .api (Ex.emit 0 3) fun r => match r with
    | .ok _ => .ret
    | .error e => .raise e), (true, 2, Ex.seq [Ex.emit 32 6])]

theorem Ex.turns_on : ∀ x ∈ Ex.turns, x.2.2.on (if x.1 then Ex.side else Ex.side.other) := by
  intro x hx
  simp only [Ex.turns, List.mem_cons, List.not_mem_nil, or_false] at hx
  rcases hx with rfl | rfl | rfl | rfl | rfl
  · exact ⟨by simp [Act.on, Ex.conn, Ex.side], fun _ => ⟨by simp [Act.on, Ex.conn, Ex.side], fun _ => trivial⟩⟩
  · exact ⟨by simp [Act.on, Ex.conn, Ex.side, Side.other], fun _ => trivial⟩
  · exact ⟨by simp [Act.on, Ex.emit, Ex.side], fun _ => trivial⟩
  · refine ⟨by simp [Act.on, Ex.emit, Ex.side, Side.other], fun r => ?_⟩
    cases r <;> trivial
  · exact ⟨by simp [Act.on, Ex.emit, Ex.side], fun _ => trivial⟩

/-- The hypotheses of `C81_alone` are met, and things happen on both sides: a function raises, functions of the group are called. -/
example : Ex.side.Separate Ex.twoSides ∧ Ex.side.other.Separate Ex.twoSides ∧ (∀ x ∈ Ex.turns, x.2.2.on (if x.1 then Ex.side else Ex.side.other)) ∧
    ∃ w rs, Turns Ex.twoSides Ex.turns .init rs w ∧ rs = [(true, .ok ()), (false, .ok ()), (true, .ok ()),
      (false, .error (.emitLoop (some 0) (.user 7))), (true, .ok ())] ∧ w.mem 1 = 1 ∧ w.mem 11 = 1 ∧
      (w.log.filterMap Ex.side.see).length = 20 ∧ w.log.length = 23 := by
  refine ⟨Ex.side_separate, Ex.other_separate, Ex.turns_on, _, _, .cons ⟨40, rfl⟩ (.cons ⟨40, rfl⟩ (.cons ⟨40, rfl⟩ (.cons ⟨40, rfl⟩ (.cons ⟨40, rfl⟩ .nil)))),
    rfl, rfl, rfl, rfl, rfl⟩

/-- The hypotheses of the other theorems are met by states in the midst of this, with something to lose on either side. -/
example : ∃ w w1 w2, (∀ s, ∀ x ∈ (w.sig s).slots, Ex.side.base x.base = Ex.side.sig s) ∧ w.hook = none ∧ w.emitter = none ∧
    (w.sig 0).slots.length = 1 ∧ (w.sig 31).slots.length = 2 ∧
    Runs Ex.twoSides (.prog (Ex.seq [Ex.emit 31 4])) w w1 (.ok ()) ∧ w1.mem 11 = 1 ∧
    Runs Ex.twoSides (.prog (Ex.seq [Ex.emit 0 3])) w1 w2 (.ok ()) ∧ w2.mem 1 = 1 := by
  have h0 : Runs Ex.twoSides (.prog (Ex.seq [Ex.conn 30 (.func 10), Ex.conn 31 (.func 11)])) .init _ (.ok ()) := ⟨40, rfl⟩
  have h1 : Runs Ex.twoSides (.prog (Ex.seq [Ex.conn 0 (.func 1)])) (Act.run Ex.twoSides (Act.run Ex.twoSides World.init (Ex.conn 30 (.func 10))).1
      (Ex.conn 31 (.func 11))).1 _ (.ok ()) := ⟨40, rfl⟩
  have f0 := (C81_frame Ex.side_separate (Ex.turns_on _ (List.mem_cons_self ..)) (fun s x hx => (by simp [World.init, SigState.init] at hx)) rfl
    (fun e h => (by cases h)) h0).2.2.2.2.2
  have f1 := (C81_frame Ex.other_separate (p := Ex.seq [Ex.conn 0 (.func 1)]) ⟨by simp [Act.on, Ex.conn, Ex.side, Side.other], fun _ => trivial⟩
    (fun s x hx => congrArg (!·) (f0 s x hx)) rfl (fun e h => (by cases h)) h1).2.2.2.2.2
  exact ⟨_, _, _, fun s x hx => Bool.not_inj (f1 s x hx), rfl, rfl, rfl, rfl, ⟨40, rfl⟩, rfl, ⟨40, rfl⟩, rfl⟩

/-! ## What the sides share -/

/-- **C81 is false for `emit_queued`**: it runs the callbacks of everybody that wait for the thread, and raises what they raise. -/
theorem C81_queue_refuted : ∃ w w1 w2, Runs Ex.twoSides (.prog (.api (.connect 0 ⟨.func 1, []⟩ { thread := some .main }) fun _ => Ex.seq [Ex.emit 0 3]))
      { World.init with thread := 1 } w (.ok ()) ∧
    Runs Ex.twoSides (.prog (.api (.emitQueued none) fun r => match r with
      | .ok _ => .ret
      | .error e => .raise e)) { w with thread := 0 } w1 (.error (.emitLoop none (.user 7))) ∧ w1.mem 1 = w.mem 1 + 1 ∧
    Runs Ex.twoSides (.prog (.api (.emitQueued none) fun r => match r with
      | .ok _ => .ret
      | .error e => .raise e)) .init w2 (.ok ()) :=
  ⟨_, _, _, ⟨40, rfl⟩, ⟨40, rfl⟩, rfl, ⟨40, rfl⟩⟩

/-- **C81 is false for the debug hook**: it is called for the emissions of everybody, and when it raises they raise. -/
theorem C81_hook_refuted : ∃ w w1 w2, Runs Ex.twoSides (.prog (Ex.seq [.setHook (some (.func 1))])) .init w (.ok ()) ∧
    Runs Ex.twoSides (.prog (.api (Ex.emit 31 4) fun r => match r with
      | .ok _ => .ret
      | .error e => .raise e)) w w1 (.error (.user 7)) ∧
    Runs Ex.twoSides (.prog (.api (Ex.emit 31 4) fun r => match r with
      | .ok _ => .ret
      | .error e => .raise e)) .init w2 (.ok ()) :=
  ⟨_, _, _, ⟨40, rfl⟩, ⟨40, rfl⟩, ⟨40, rfl⟩⟩

/-- Function 2 of the one side calls `emit_fast` of a member of the group of the other. -/
def Ex.crossing : Env := Ex.env fun b _ => match b with
  | .func 2 => Ex.seq [.emitFast 31 [.atom 4]]
  | _ => .ret

/-- **C81 is false inside emissions of the other side**: `emit_fast` does not set the current emitter, so the listeners of a group are
called with the signal of the other side that happens to be emitting, and not at all when there is none. -/
theorem C81_emitter_refuted : Ex.side.Separate Ex.crossing ∧ (Ex.seq [.emitFast 31 [.atom 4]]).on Ex.side ∧
    ∃ w w1 w2, Runs Ex.crossing (.prog (Ex.seq [Ex.conn 30 (.func 10), Ex.conn 0 (.func 2)])) .init w (.ok ()) ∧
      Runs Ex.crossing (.prog (Ex.seq [Ex.emit 0 3])) w w1 (.ok ()) ∧
      Runs Ex.crossing (.prog (Ex.seq [.emitFast 31 [.atom 4]])) w w2 (.ok ()) ∧
      w1.log.filterMap (fun e => match e with | .call _ _ _ _ _ (.func 10) a => some a | _ => none) = [[.info 0 [.atom 4]]] ∧
      w2.log.filterMap (fun e => match e with | .call _ _ _ _ _ (.func 10) a => some a | _ => none) = [] := by
  refine ⟨⟨Ex.side_separate.kids, Ex.side_separate.parent, Ex.side_separate.owner, fun _ => rfl, fun b a h => ?_⟩,
    ⟨by simp [Act.on, Ex.side], fun _ => trivial⟩, _, _, _, ⟨40, rfl⟩, ⟨40, rfl⟩, ⟨40, rfl⟩, rfl, rfl⟩
  simp only [Ex.crossing, Ex.env]
  split
  · simp [Ex.side] at h
  · trivial

end Psygnal
