import Verif.ChangeLemmas
import Verif.Examples
import Verif.Props.Reemission

/-!
# C49: callbacks that connect and disconnect during the emission
-/
namespace Psygnal

/-- **C49** (as far as true).  Any immediate-mode `emit` that returns normally, during which connections of the
signal may change, but not the part of the list that has been served: the connections served so far, and the one
being served, stay, and nothing is inserted before or among them (`Settled`).  Then the callbacks that were called
are those connected at the end, in order, each exactly once.  So every callback that stays connected is called
once; those disconnected before their turn are not called, those connected meanwhile are.  Missing: changes
of the served part, where it is false (`C49_skip_refuted`, `C49_twice_refuted`). -/
theorem C49_partial {env : Env} {Q : Act → Prop} {s : SigId} {args : Args} {chk : Bool}
    {w w' : World} (hl : Live env Q (.emit s args chk) w) (hh : w.hook = none)
    (hm : (env.decl s).mode = .immediate) (hb : (w.sig s).blocked = false) (hp : (w.sig s).paused = false)
    (hk : Settled env s w.nextEm (.emit s args chk) w)
    (h : Runs env (.emit s args chk) w w' (.ok ())) :
    ∃ l, w'.log = w.log ++ .req s args :: l ∧ Deliveries s w.nextEm w.thread args (w'.sig s).slots l := by
  obtain ⟨w1, w2, g1, g2, -, g4, g5, g6, g7, g8, g9⟩ := emit_forSlots hl hh hm hb hp h
  obtain ⟨ys, l, hlog, hle, -, -, -, hs⟩ := forSlots_changes g1 s w.nextEm args 0 rfl g6 g7
  have hys := hs (hk.mono g2) rfl
  rw [List.drop_zero, ← g9] at hys
  subst hys
  refine ⟨l, by rw [g8, hlog, g4]; simp, ?_⟩
  rcases hle with ⟨-, h⟩ | ⟨e, -, -, -, -, h, -⟩ | ⟨h, -, -⟩
  · rw [← g5]; exact h
  · cases h
  · exact h.elim

/-- **C49** (connecting only).  If connections are only added during the emission, with whatever priorities,
every callback connected at the start is called, at least once, and in order. -/
theorem C49_at_least_once {env : Env} {Q : Act → Prop} {s : SigId} {args : Args} {chk : Bool}
    {w w' : World} (hl : Live env Q (.emit s args chk) w) (hh : w.hook = none)
    (hm : (env.decl s).mode = .immediate) (hb : (w.sig s).blocked = false) (hp : (w.sig s).paused = false)
    (hk : Grows env s (.emit s args chk) w)
    (h : Runs env (.emit s args chk) w w' (.ok ())) :
    ∃ ys l, w'.log = w.log ++ .req s args :: l ∧ (w.sig s).slots.Sublist ys ∧
      Deliveries s w.nextEm w.thread args ys l := by
  obtain ⟨w1, w2, g1, g2, g3, g4, g5, g6, g7, g8, -⟩ := emit_forSlots hl hh hm hb hp h
  obtain ⟨ys, l, hlog, hle, -, hg, -, -⟩ := forSlots_changes g1 s w.nextEm args 0 rfl g6 g7
  have hys := hg (hk.mono g2) rfl
  rw [List.drop_zero, g3] at hys
  refine ⟨ys, l, by rw [g8, hlog, g4]; simp, hys, ?_⟩
  rcases hle with ⟨-, h⟩ | ⟨e, -, -, -, -, h, -⟩ | ⟨h, -, -⟩
  · rw [← g5]; exact h
  · cases h
  · exact h.elim

/-- **C49** (disconnecting only).  If connections are only removed during the emission, the callbacks called are
among those connected at the start, in order, each at most once. -/
theorem C49_at_most_once {env : Env} {Q : Act → Prop} {s : SigId} {args : Args} {chk : Bool}
    {w w' : World} (hl : Live env Q (.emit s args chk) w) (hh : w.hook = none)
    (hm : (env.decl s).mode = .immediate) (hb : (w.sig s).blocked = false) (hp : (w.sig s).paused = false)
    (hk : Shrinks env s (.emit s args chk) w)
    (h : Runs env (.emit s args chk) w w' (.ok ())) :
    ∃ ys l, w'.log = w.log ++ .req s args :: l ∧ ys.Sublist (w.sig s).slots ∧
      Deliveries s w.nextEm w.thread args ys l := by
  obtain ⟨w1, w2, g1, g2, g3, g4, g5, g6, g7, g8, -⟩ := emit_forSlots hl hh hm hb hp h
  obtain ⟨ys, l, hlog, hle, -, -, hs, -⟩ := forSlots_changes g1 s w.nextEm args 0 rfl g6 g7
  have hys := hs (hk.mono g2)
  rw [List.drop_zero, g3] at hys
  refine ⟨ys, l, by rw [g8, hlog, g4]; simp, hys, ?_⟩
  rcases hle with ⟨-, h⟩ | ⟨e, -, -, -, -, h, -⟩ | ⟨h, -, -⟩
  · rw [← g5]; exact h
  · cases h
  · exact h.elim

/-- **C49** (conditions on what callbacks do, whatever else they do).  No disconnecting, no deaths: `C49_at_least_once`
applies.  No connecting: `C49_at_most_once`.  Connecting with the default priority only, no disconnecting, and no priority
ever used on the signal: `C49_partial`. -/
theorem C49_conditions {env : Env} (s : SigId) (t : Task) (args : Args) (chk : Bool) (ht : t = .emit s args chk ∨ t = .emitFast s args)
    (w : World) :
    (env.Only Adds → Grows env s t w) ∧
    (env.Only Removes → Shrinks env s t w) ∧
    (env.Only Appends → (w.sig s).prioInUse = false → Settled env s w.nextEm t w) := by
  rcases ht with rfl | rfl
  · exact ⟨fun he => grows_of_adds s he trivial, fun he => shrinks_of_removes s he trivial,
      fun he hp => settled_of_appends s w.nextEm he trivial hp⟩
  · exact ⟨fun he => grows_of_adds s he trivial, fun he => shrinks_of_removes s he trivial,
      fun he hp => settled_of_appends s w.nextEm he trivial hp⟩

/-- **C49** (nothing else is called).  Whenever an emit loop of `s`, in any mode and whatever changes, calls a
callback, that callback is connected to `s` at this moment. -/
theorem C49_only_connected {env : Env} {t : Task} {w w1 : World} {em : Nat} {s : SigId} {x : Slot} {args : Args}
    (h : Within env t w (.cb (some em) (some s) x args) w1) (ht : t ≠ .cb (some em) (some s) x args) :
    x ∈ (w1.sig s).slots := by
  cases h with
  | refl => exact absurd rfl ht
  | step _ hr => exact reaches_cb hr

/-- **C49** (queued mode).  A queued-mode `emit` that is not nested in another emission of the signal and returns normally, during which
connections may change: there is one round for the emitted value and for each value emitted meanwhile, in order; each round serves a list
of connections in order, one complete invocation after the other.  If connections are only added, each round serves all that
were there at the start, at least once; if they are only removed, each serves some of those, each at most once; if they are only added
with the default priority, no priority ever being used on the signal, each round serves exactly those of the start and some of the new
ones, in the order of connection. -/
theorem C49_queued {env : Env} {Q : Act → Prop} {s : SigId} {args : Args} {chk : Bool}
    {w w' : World} (hl : Live env Q (.emit s args chk) w) (hh : w.hook = none)
    (hm : (env.decl s).mode = .queued) (hb : (w.sig s).blocked = false) (hp : (w.sig s).paused = false)
    (hq : (w.sig s).emitQueue = [])
    (h : Runs env (.emit s args chk) w w' (.ok ())) :
    ∃ rs l, w'.log = w.log ++ .req s args :: l ∧ rs.map (·.1) = args :: accepted s l ∧ RoundsBy s w.nextEm w.thread rs l ∧
      (Grows env s (.emit s args chk) w → ∀ r ∈ rs, (w.sig s).slots.Sublist r.2) ∧
      (Shrinks env s (.emit s args chk) w → ∀ r ∈ rs, r.2.Sublist (w.sig s).slots) ∧
      (env.Only Appends → (w.sig s).prioInUse = false → ∀ r ∈ rs, (w.sig s).slots <+: r.2 ∧ r.2 <+: (w'.sig s).slots) := by
  obtain ⟨h1, hw1⟩ := emit_loop h hh hb hp
  rcases runLoop_inner h1 hq with ⟨-, -, h⟩ | ⟨-, w1, r1, h2, rfl, hr, hw2⟩
  · simp at h
  have hr := wrapRes_ok hr
  subst hr
  have hbody : body env (.inner s w.nextEm) ((w.enqueue s args).startLoop s) =
      .call (.whileQueued s w.nextEm 0) ((w.enqueue s args).startLoop s) .done := by
    simp only [body, hm]
  rw [runs_iff, hbody] at h2
  obtain ⟨w2, r2, h3, rfl, rfl⟩ := h2
  have hw3 : Within env (.emit s args chk) w (.whileQueued s w.nextEm 0)
      ((w.enqueue s args).startLoop s) :=
    .step (hw1.trans hw2) (by rw [hbody]; exact .inl ⟨rfl, rfl⟩)
  have hd : DeadInv ((w.enqueue s args).startLoop s) :=
    ConnEq.deadInv (by simp [ConnEq]) (deadInv_live hl)
  obtain ⟨rs, l, hlog, hR, hmap, -, hg, hs, hk⟩ := whileQueued_changes h3 s w.nextEm 0 rfl (by simp) hd rfl
  have hqc := queue_collects hm h3 (by simp [hq]) (accepted s w.log) (by
    simp [accepted_append', hq])
  have he : (w1.sig s).emitQueue = args :: accepted s l := by
    have h4 := hqc.1
    rw [hlog] at h4
    simp only [accepted_append'] at h4
    have h5 : accepted s ((w.enqueue s args).startLoop s).log = accepted s w.log ++ [args] := by
      simp [accepted_append']
    rw [h5, List.append_assoc] at h4
    exact (List.append_cancel_left h4).symm
  have hslots : (((w.enqueue s args).startLoop s).sig s).slots = (w.sig s).slots := by simp
  rw [hslots] at hg hs hk
  refine ⟨rs, l, by simp [hlog], by rw [hmap, List.drop_zero, he], by simpa using hR, fun hG => hg (hG.mono hw3),
    fun hS => hs (hS.mono hw3), ?_⟩
  intro ho hpr q hq
  have := hk (fun t1 w1 t2 w2 g1 g2 => by
    have p1 := prefix_of_appends (t := .emit s args chk) s ho trivial (hw3.trans g1)
    exact ((prefix_of_appends s ho p1.1 g2).2 (p1.2 hpr).1).2) q hq
  exact ⟨this.1, by simpa using this.2⟩

/-- **C49** (latest-only mode, disconnecting only).  If connections are only removed during the emission, the callbacks called by it are
among those connected at the start, in order, each at most once. -/
theorem C49_latest_at_most_once {env : Env} {Q : Act → Prop} {s : SigId} {args : Args} {chk : Bool}
    {w w' : World} (hl : Live env Q (.emit s args chk) w) (hh : w.hook = none)
    (hm : (env.decl s).mode = .latest) (hb : (w.sig s).blocked = false) (hp : (w.sig s).paused = false)
    (hk : Shrinks env s (.emit s args chk) w)
    (h : Runs env (.emit s args chk) w w' (.ok ())) :
    ∃ ys l, w'.log = w.log ++ .req s args :: l ∧ ys.Sublist (w.sig s).slots ∧ Deliveries s w.nextEm w.thread args ys l := by
  obtain ⟨h1, hw1⟩ := emit_loop h hh hb hp
  have hq0 : (w.sig s).emitQueue = [] :=
    List.length_eq_zero_iff.1 (((queuePre_live hl) s (by simp [hm])).2 (by simp))
  rcases runLoop_inner h1 hq0 with ⟨-, -, h⟩ | ⟨-, w1, r1, h2, rfl, hr, hw2⟩
  · simp at h
  have hr := wrapRes_ok hr
  subst hr
  have hqs : (((w.enqueue s args).startLoop s).sig s).emitQueue = [args] := by
    simp [hq0]
  have hbi : body env (.inner s w.nextEm) ((w.enqueue s args).startLoop s) =
      .call (.forLatest s w.nextEm args 0) (((w.enqueue s args).startLoop s).popQueue s) .done := by
    simp only [body, hm, hqs]
  rw [runs_iff, hbi] at h2
  obtain ⟨w2, r2, h3, rfl, rfl⟩ := h2
  have hw3 : Within env (.emit s args chk) w (.forLatest s w.nextEm args 0)
      (((w.enqueue s args).startLoop s).popQueue s) :=
    .step (hw1.trans hw2) (by rw [hbi]; exact .inl ⟨rfl, rfl⟩)
  have hd : DeadInv (((w.enqueue s args).startLoop s).popQueue s) :=
    ConnEq.deadInv (by simp [ConnEq]) (deadInv_live hl)
  obtain ⟨ys, l, hlog, hle, hs⟩ := forLatest_changes h3 s w.nextEm args 0 rfl (by simp) hd
  have hys := hs (hk.mono hw3)
  refine ⟨ys, l, by simp [hlog], by simpa using hys, ?_⟩
  rcases hle with ⟨-, h⟩ | ⟨e, -, -, -, -, h, -⟩ | ⟨h, -, -⟩
  · simpa using h
  · cases h
  · exact h.elim

/-- **C49** (`emit_fast`).  The same as for `emit`, in every mode. -/
theorem C49_fast {env : Env} {Q : Act → Prop} {s : SigId} {args : Args}
    {w w' : World} (hl : Live env Q (.emitFast s args) w) (hb : (w.sig s).blocked = false) (hp : (w.sig s).paused = false)
    (h : Runs env (.emitFast s args) w w' (.ok ())) :
    ∃ ys l, w'.log = w.log ++ .fast s args w.nextEm :: l ∧ Deliveries s w.nextEm w.thread args ys l ∧
      (Settled env s w.nextEm (.emitFast s args) w → ys = (w'.sig s).slots) ∧
      (Grows env s (.emitFast s args) w → (w.sig s).slots.Sublist ys) ∧
      (Shrinks env s (.emitFast s args) w → ys.Sublist (w.sig s).slots) := by
  have hdep : ¬ (w.sig s).depth ≥ LIMIT := by
    intro hd
    rw [runs_iff] at h
    simp [body, hb, hp, hd, Comp.Via] at h
  have hbody : body env (.emitFast s args) w = .call (.forSlots s w.nextEm args 0) (w.startFast s args) fun w' r =>
      .done (w'.endFast s) (wrapRes s r) := by
    simp [body, hb, hp, hdep]
  have hw : Within env (.emitFast s args) w (.forSlots s w.nextEm args 0) (w.startFast s args) :=
    .step .refl (by rw [hbody]; exact .inl ⟨rfl, rfl⟩)
  rw [runs_iff, hbody] at h
  obtain ⟨w1, r1, h1, rfl, hr⟩ := h
  have hr := wrapRes_ok hr
  subst hr
  have hd : DeadInv (w.startFast s args) := ConnEq.deadInv (by simp [ConnEq]) (deadInv_live hl)
  obtain ⟨ys, l, hlog, hle, -, hg, hs, hk⟩ := forSlots_changes h1 s w.nextEm args 0 rfl (by simp) hd
  refine ⟨ys, l, by simp [hlog], ?_, fun hK => ?_, fun hG => ?_, fun hS => ?_⟩
  · rcases hle with ⟨-, h⟩ | ⟨e, -, -, -, -, h, -⟩ | ⟨h, -, -⟩
    · simpa using h
    · cases h
    · exact h.elim
  · simpa using hk (hK.mono hw) rfl
  · simpa using hg (hG.mono hw) rfl
  · simpa using hs (hS.mono hw)

/-- `C49_partial`: callback 0 connects callback 2 (default priority) and re-emits; all three are called once. -/
example : ∃ (env : Env) (w w' : World), Live env anyAct (.emit 0 [.atom 1] true) w ∧ w.hook = none ∧
    (env.decl 0).mode = .immediate ∧ (w.sig 0).blocked = false ∧ (w.sig 0).paused = false ∧
    env.Only Appends ∧ (w.sig 0).prioInUse = false ∧ Runs env (.emit 0 [.atom 1] true) w w' (.ok ()) ∧
    callsBy w.nextEm w'.log = [(.func 0, [.atom 1]), (.func 1, [.atom 1]), (.func 2, [.atom 1])] := by
  refine ⟨Ex.env fun b a => match b, a with
      | .func 0, [.atom 1] => Ex.seq [Ex.conn 0 (.func 2), Ex.emit 0 2]
      | _, _ => .ret, _, _,
    .sub (.top (Ex.reach (n := 30) (l := [Ex.conn 0 (.func 0), Ex.conn 0 (.func 1)])
      (by simp [anyAct]) rfl) 0 (Ex.seq [Ex.emit 0 1]) (Ex.Only.seq_mem (by simp [anyAct])))
      (.inl ⟨rfl, rfl⟩), rfl, rfl, rfl, rfl, ?_, rfl, ⟨30, rfl⟩, rfl⟩
  intro b a
  simp only [Ex.env]
  split
  · exact Ex.Only.seq_mem (by simp [Appends, Ex.emit, Ex.conn])
  · trivial

/-- `C49_at_most_once`, and a case of `Settled` with disconnection: callback 0 disconnects callback 1, which comes later and
is not called. -/
example : ∃ (env : Env) (w w' : World), Live env anyAct (.emit 0 [.atom 1] true) w ∧ w.hook = none ∧
    (env.decl 0).mode = .immediate ∧ (w.sig 0).blocked = false ∧ (w.sig 0).paused = false ∧
    env.Only Removes ∧ Runs env (.emit 0 [.atom 1] true) w w' (.ok ()) ∧
    callsBy w.nextEm w'.log = [(.func 0, [.atom 1]), (.func 2, [.atom 1])] := by
  refine ⟨Ex.env fun b a => match b, a with
      | .func 0, [.atom 1] => Ex.seq [.disconnect 0 (some ⟨.func 1, []⟩) true]
      | _, _ => .ret, _, _,
    .sub (.top (Ex.reach (n := 30) (l := [Ex.conn 0 (.func 0), Ex.conn 0 (.func 1), Ex.conn 0 (.func 2)])
      (by simp [anyAct]) rfl) 0 (Ex.seq [Ex.emit 0 1]) (Ex.Only.seq_mem (by simp [anyAct])))
      (.inl ⟨rfl, rfl⟩), rfl, rfl, rfl, rfl, ?_, ⟨30, rfl⟩, rfl⟩
  intro b a
  simp only [Ex.env]
  split
  · exact Ex.Only.seq_mem (by simp [Removes])
  · trivial

/-- `C49_queued`: the first callback of the queued signal 20 emits once more and connects callback 2, which is called in both rounds. -/
example : ∃ (env : Env) (w w' : World), Live env anyAct (.emit 20 [.atom 1] true) w ∧ w.hook = none ∧
    (env.decl 20).mode = .queued ∧ (w.sig 20).blocked = false ∧ (w.sig 20).paused = false ∧ (w.sig 20).emitQueue = [] ∧
    env.Only Appends ∧ (w.sig 20).prioInUse = false ∧ Runs env (.emit 20 [.atom 1] true) w w' (.ok ()) ∧
    callsBy w.nextEm w'.log = [(.func 0, [.atom 1]), (.func 1, [.atom 1]), (.func 2, [.atom 1]),
      (.func 0, [.atom 2]), (.func 1, [.atom 2]), (.func 2, [.atom 2])] := by
  refine ⟨Ex.env fun b a => match b, a with
      | .func 0, [.atom 1] => Ex.seq [Ex.conn 20 (.func 2), Ex.emit 20 2]
      | _, _ => .ret, _, _,
    .sub (.top (Ex.reach (n := 30) (l := [Ex.conn 20 (.func 0), Ex.conn 20 (.func 1)])
      (by simp [anyAct]) rfl) 0 (Ex.seq [Ex.emit 20 1]) (Ex.Only.seq_mem (by simp [anyAct])))
      (.inl ⟨rfl, rfl⟩), rfl, rfl, rfl, rfl, rfl, ?_, rfl, ⟨40, rfl⟩, rfl⟩
  intro b a
  simp only [Ex.env]
  split
  · exact Ex.Only.seq_mem (by simp [Appends, Ex.emit, Ex.conn])
  · trivial

/-- `C49_latest_at_most_once`: callback 0 disconnects itself, so that callback 1 is skipped. -/
example : ∃ (env : Env) (w w' : World), Live env anyAct (.emit 10 [.atom 1] true) w ∧ w.hook = none ∧
    (env.decl 10).mode = .latest ∧ (w.sig 10).blocked = false ∧ (w.sig 10).paused = false ∧
    env.Only Removes ∧ Runs env (.emit 10 [.atom 1] true) w w' (.ok ()) ∧
    callsBy w.nextEm w'.log = [(.func 0, [.atom 1]), (.func 2, [.atom 1])] := by
  refine ⟨Ex.env fun b a => match b, a with
      | .func 0, [.atom 1] => Ex.seq [.disconnect 10 (some ⟨.func 0, []⟩) true]
      | _, _ => .ret, _, _,
    .sub (.top (Ex.reach (n := 30) (l := [Ex.conn 10 (.func 0), Ex.conn 10 (.func 1), Ex.conn 10 (.func 2)])
      (by simp [anyAct]) rfl) 0 (Ex.seq [Ex.emit 10 1]) (Ex.Only.seq_mem (by simp [anyAct])))
      (.inl ⟨rfl, rfl⟩), rfl, rfl, rfl, rfl, ?_, ⟨40, rfl⟩, rfl⟩
  intro b a
  simp only [Ex.env]
  split
  · exact Ex.Only.seq_mem (by simp [Removes])
  · trivial

/-- `C49_fast`: callback 0 disconnects callback 1. -/
example : ∃ (env : Env) (w w' : World), Live env anyAct (.emitFast 0 [.atom 1]) w ∧ (w.sig 0).blocked = false ∧ (w.sig 0).paused = false ∧
    env.Only Removes ∧ Runs env (.emitFast 0 [.atom 1]) w w' (.ok ()) ∧
    callsBy w.nextEm w'.log = [(.func 0, [.atom 1]), (.func 2, [.atom 1])] := by
  refine ⟨Ex.env fun b a => match b, a with
      | .func 0, [.atom 1] => Ex.seq [.disconnect 0 (some ⟨.func 1, []⟩) true]
      | _, _ => .ret, _, _,
    .sub (.top (Ex.reach (n := 30) (l := [Ex.conn 0 (.func 0), Ex.conn 0 (.func 1), Ex.conn 0 (.func 2)])
      (by simp [anyAct]) rfl) 0 (Ex.seq [.emitFast 0 [.atom 1]]) (Ex.Only.seq_mem (by simp [anyAct])))
      (.inl ⟨rfl, rfl⟩), rfl, rfl, ?_, ⟨30, rfl⟩, rfl⟩
  intro b a
  simp only [Ex.env]
  split
  · exact Ex.Only.seq_mem (by simp [Removes])
  · trivial

/-- **C49 fails (1)**: a callback that disconnects itself makes the loop skip the next one, which is connected all
the time (`_signal.py:1307`, `:800`). -/
theorem C49_skip_refuted : ∃ (env : Env) (w w' : World), Live env anyAct (.emit 0 [.atom 1] true) w ∧ w.hook = none ∧
    (env.decl 0).mode = .immediate ∧ (w.sig 0).blocked = false ∧ (w.sig 0).paused = false ∧
    env.Only Removes ∧ Runs env (.emit 0 [.atom 1] true) w w' (.ok ()) ∧
    (w.sig 0).slots.map (·.base) = [.func 0, .func 1, .func 2] ∧
    (w'.sig 0).slots.map (·.base) = [.func 1, .func 2] ∧
    callsBy w.nextEm w'.log = [(.func 0, [.atom 1]), (.func 2, [.atom 1])] := by
  refine ⟨Ex.env fun b a => match b, a with
      | .func 0, [.atom 1] => Ex.seq [.disconnect 0 (some ⟨.func 0, []⟩) true]
      | _, _ => .ret, _, _,
    .sub (.top (Ex.reach (n := 30) (l := [Ex.conn 0 (.func 0), Ex.conn 0 (.func 1), Ex.conn 0 (.func 2)])
      (by simp [anyAct]) rfl) 0 (Ex.seq [Ex.emit 0 1]) (Ex.Only.seq_mem (by simp [anyAct])))
      (.inl ⟨rfl, rfl⟩), rfl, rfl, rfl, rfl, ?_, ⟨30, rfl⟩, rfl, rfl, rfl⟩
  intro b a
  simp only [Ex.env]
  split
  · exact Ex.Only.seq_mem (by simp [Removes])
  · trivial

/-- **C49 fails (2)**: a callback that connects another with a higher priority is called again by the same emission, and the
new one is not called (`_signal.py:1307`, `:785-788`). -/
theorem C49_twice_refuted : ∃ (env : Env) (w w' : World), Live env anyAct (.emit 0 [.atom 1] true) w ∧ w.hook = none ∧
    (env.decl 0).mode = .immediate ∧ (w.sig 0).blocked = false ∧ (w.sig 0).paused = false ∧
    env.Only Adds ∧ Runs env (.emit 0 [.atom 1] true) w w' (.ok ()) ∧
    (w.sig 0).slots.map (·.base) = [.func 0, .func 1] ∧
    (w'.sig 0).slots.map (·.base) = [.func 2, .func 0, .func 1] ∧
    callsBy w.nextEm w'.log = [(.func 0, [.atom 1]), (.func 0, [.atom 1]), (.func 1, [.atom 1])] := by
  refine ⟨Ex.env fun b a => match b, a with
      | .func 0, [.atom 1] => Ex.seq [.connect 0 ⟨.func 2, []⟩ { priority := 1, unique := .yes }]
      | _, _ => .ret, _, _,
    .sub (.top (Ex.reach (n := 30) (l := [Ex.conn 0 (.func 0), Ex.conn 0 (.func 1)])
      (by simp [anyAct]) rfl) 0 (Ex.seq [Ex.emit 0 1]) (Ex.Only.seq_mem (by simp [anyAct])))
      (.inl ⟨rfl, rfl⟩), rfl, rfl, rfl, rfl, ?_, ⟨30, rfl⟩, rfl, rfl, rfl⟩
  intro b a
  simp only [Ex.env]
  split
  · exact Ex.Only.seq_mem (by simp [Adds])
  · trivial

/-- Callback 0 connects itself to signal 0 once more. -/
def Ex.again : Env := Ex.env fun b _ => match b with
  | .func 0 => Ex.seq [Ex.conn 0 (.func 0)]
  | _ => .ret

theorem again_cb {em : Nat} {x : Slot} {args : Args} {w w' : World} {r : Res}
    (hb : x.base = .func 0) (ht : x.thread = none) (hp : (w.sig 0).prioInUse = false)
    (h : Runs Ex.again (.cb (some em) (some 0) x args) w w' r) :
    r = .ok () ∧ (w'.sig 0).prioInUse = false ∧
      ∃ m n, (w'.sig 0).slots = (w.sig 0).slots ++ [⟨.func 0, [], m, 0, none, n⟩] := by
  rw [runs_iff] at h
  simp only [body, ht] at h
  obtain ⟨w1, r1, h, rfl, rfl⟩ := h
  rw [runs_iff] at h
  simp only [body, hb, Base.isDead, Base.owner?, Bool.false_eq_true, if_false] at h
  obtain ⟨w1, r1, h, rfl, rfl⟩ := h
  simp only [Ex.again, Ex.env, Ex.seq, Ex.conn] at h
  rw [runs_iff] at h
  simp only [body, Act.task?] at h
  obtain ⟨w2, r2, h, rfl, rfl⟩ := h
  rw [runs_iff] at h
  simp only [body] at h
  obtain ⟨rfl, rfl⟩ := h
  refine ⟨rfl, ?_⟩
  generalize hw0 : w.logCall (some em) (some 0) (.func 0) (x.callArgs args) = w0
  have h0 : (w0.sig 0) = w.sig 0 := by subst hw0; rfl
  generalize he : (⟨Ex.decl, _, _⟩ : Env) = env
  have hd : env.decl 0 = Ex.plain .immediate := by subst he; rfl
  have hck : ∃ m, checkNargs env 1 ⟨.func 0, []⟩ = .ok m := by subst he; exact ⟨_, rfl⟩
  obtain ⟨m, hm⟩ := hck
  have hlen : (env.decl 0).sig.length = 1 := by rw [hd]; rfl
  have hck : (env.decl 0).checkNargs = true := by rw [hd]; rfl
  have hre : (env.decl 0).isRelay = false := by rw [hd]; rfl
  simp [Act.run, Base.isDead, Base.owner?, World.connect, hlen, hck, hm, World.appendSlot, hre,
    World.plainAppend, SigState.appendSlot, h0, hp, resolveThread, Callable.boundFor]

theorem again_loop {t w w' r} (h : Runs Ex.again t w w' r) : ∀ em args i, t = .forSlots 0 em args i →
    (w.sig 0).prioInUse = false → (∀ x ∈ (w.sig 0).slots, x.base = .func 0 ∧ x.thread = none) →
    i < (w.sig 0).slots.length → False := by
  refine Runs.induct (P := fun t w w' r => ∀ em args i, t = .forSlots 0 em args i →
    (w.sig 0).prioInUse = false → (∀ x ∈ (w.sig 0).slots, x.base = .func 0 ∧ x.thread = none) →
    i < (w.sig 0).slots.length → False) ?_ h
  clear h
  rintro t w w' r h em args i rfl hp hx hi
  simp only [body, List.getElem?_eq_getElem hi] at h
  obtain ⟨w1, r1, ⟨h1, -⟩, h2⟩ := h
  obtain ⟨hb, ht⟩ := hx _ (List.getElem_mem hi)
  obtain ⟨rfl, hp', m, n, hs⟩ := again_cb hb ht hp h1
  obtain ⟨w2, r2, ⟨-, ih⟩, -⟩ := h2
  refine ih em args (i + 1) rfl hp' ?_ (by rw [hs]; simp; omega)
  rw [hs]
  intro x hx'
  rcases List.mem_append.1 hx' with h | h
  · exact hx x h
  · simp at h; subst h; exact ⟨rfl, rfl⟩

/-- **Beyond C49**: an emission whose callback connects itself once more never ends: each connection is served, and adds
another (`_signal.py:1307`, `:779`). -/
theorem C49_endless : ∃ (env : Env) (w : World), Live env anyAct (.emit 0 [.atom 1] true) w ∧ w.hook = none ∧
    env.Only Appends ∧ (w.sig 0).slots.map (·.base) = [.func 0] ∧
    ∀ w' r, ¬ Runs env (.emit 0 [.atom 1] true) w w' r := by
  refine ⟨Ex.again, _, .sub (.top (Ex.reach (n := 30) (l := [Ex.conn 0 (.func 0)])
      (by simp [anyAct]) rfl) 0 (Ex.seq [Ex.emit 0 1]) (Ex.Only.seq_mem (by simp [anyAct])))
      (.inl ⟨rfl, rfl⟩), rfl, ?_, rfl, ?_⟩
  · intro b a
    simp only [Ex.again, Ex.env]
    split
    · exact Ex.Only.seq_mem (by simp [Appends, Ex.conn])
    · trivial
  · intro w' r h
    rcases emit_cases h rfl with ⟨h, -⟩ | ⟨-, h, -⟩ | ⟨h, -⟩ | ⟨-, -, h⟩
    · exact absurd h (by decide)
    · exact absurd h (by decide)
    · exact absurd h (by decide)
    · rw [runs_iff] at h
      obtain ⟨w1, r1, h, -⟩ := h
      rw [runs_iff] at h
      obtain ⟨w1, r1, h, -⟩ := h
      refine again_loop h _ _ _ rfl rfl ?_ (by decide)
      intro x hx
      cases hx with
      | head => exact ⟨rfl, rfl⟩
      | tail _ h => cases h

end Psygnal
