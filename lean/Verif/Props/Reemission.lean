import Verif.DeliveryLemmas
import Verif.Props.Emission
import Verif.Props.Delivery

/-!
# Re-emission modes and `emit_fast`: C10, C11, C14
-/
namespace Psygnal

/-! ## C10: queued mode -/

/-- **C10** (breadth-first, FIFO). A queued-mode `emit`, not nested in another emission of the same
signal (its queue is empty; outside all emissions that is always so, `C07_at_rest_partial`), that
returns normally and during which the connections of the signal do not change: the log shows that first
all slots are served with the emitted value, and then, for each value emitted by callbacks on the same
signal meanwhile (`accepted s l`), in the order of their emission, all slots are served with this value
— each slot exactly once per value, in order, one complete invocation after the other. -/
theorem C10_breadth_first {env : Env} {Q : Act → Prop} {s : SigId} {args : Args} {chk : Bool}
    {w w' : World} (hl : Live env Q (.emit s args chk) w) (hh : w.hook = none)
    (hm : (env.decl s).mode = .queued) (hb : (w.sig s).blocked = false) (hp : (w.sig s).paused = false)
    (hq : (w.sig s).emitQueue = [])
    (hk : ∀ t1 w1, Within env (.emit s args chk) w t1 w1 → (w1.sig s).slots = (w.sig s).slots)
    (h : Runs env (.emit s args chk) w w' (.ok ())) :
    ∃ l, w'.log = w.log ++ .req s args :: l ∧
      Rounds s w.nextEm w.thread (w.sig s).slots (args :: accepted s l) l := by
  obtain ⟨h1, hw1⟩ := emit_loop h hh hb hp
  rcases runLoop_inner h1 hq with ⟨-, -, h⟩ | ⟨-, w1, r1, h2, rfl, hr, hw2⟩
  · simp at h
  have hr := wrapRes_ok hr
  subst hr
  have hbody : body env (.inner s w.nextEm) ((w.enqueue s args).startLoop s) =
      .call (.whileQueued s w.nextEm 0) ((w.enqueue s args).startLoop s) .done := by
    simp only [body, hm]
  rw [runs_iff, hbody] at h2
  obtain ⟨w2, r2, h3, rfl, rfl⟩ := h2
  have hw3 : Within env (.emit s args chk) w (.whileQueued s w.nextEm 0)
      ((w.enqueue s args).startLoop s) :=
    .step (hw1.trans hw2) (by rw [hbody]; exact .inl ⟨rfl, rfl⟩)
  have hd : DeadInv ((w.enqueue s args).startLoop s) :=
    ConnEq.deadInv (by simp [ConnEq]) (deadInv_live hl)
  obtain ⟨l, hlog, hR⟩ := whileQueued_rounds h3 s w.nextEm 0 (w.sig s).slots rfl (by simp) hd rfl
    (fun t1 w1 h => hk t1 w1 (hw3.trans h))
  have hqc := queue_collects hm h3 (by simp [hq]) (accepted s w.log) (by
    simp [accepted_append', hq])
  refine ⟨l, by simp [hlog], ?_⟩
  have : (w1.sig s).emitQueue = args :: accepted s l := by
    have h4 := hqc.1
    rw [hlog] at h4
    simp only [accepted_append'] at h4
    have h5 : accepted s ((w.enqueue s args).startLoop s).log = accepted s w.log ++ [args] := by
      simp [accepted_append']
    rw [h5, List.append_assoc] at h4
    exact (List.append_cancel_left h4).symm
  rw [List.drop_zero, this] at hR
  simpa using hR

/-- **C10** (emissions by callbacks are queued). While an emission of a queued-mode signal is being
processed (its queue is non-empty, see `C10_queue_in_use`), `emit` on the same signal just records the
value and returns at once, without invoking any callback. -/
theorem C10_nested_enqueues {env : Env} {s : SigId} {args : Args} {chk : Bool} {w w' : World}
    (hh : w.hook = none) (hb : (w.sig s).blocked = false) (hp : (w.sig s).paused = false)
    (hq : (w.sig s).emitQueue ≠ []) (h : Runs env (.emit s args chk) w w' (.ok ())) :
    w'.log = w.log ++ [.req s args] ∧ (w'.sig s).emitQueue = (w.sig s).emitQueue ++ [args] := by
  obtain ⟨h1, -⟩ := emit_loop h hh hb hp
  have hlen : ((w.enqueue s args).sig s).emitQueue.length > 1 := by
    have := List.length_pos_iff.2 hq
    have he : ((w.enqueue s args).sig s).emitQueue = (w.sig s).emitQueue ++ [args] := by simp
    rw [he, List.length_append]
    simp only [List.length_cons, List.length_nil]
    omega
  rw [runs_iff] at h1
  simp only [body, hlen, if_true] at h1
  split at h1
  · simp [Comp.Via] at h1
  · obtain ⟨rfl, -⟩ := h1
    simp

/-- **C10** (the queue is in use during the whole emission): at every moment within a queued-mode
emission after it started, the queue starts with the value that was emitted first. -/
theorem C10_queue_in_use {env : Env} {s : SigId} {args : Args} {chk : Bool}
    {w w₁ : World} {t₁ : Task} (hh : w.hook = none)
    (hm : (env.decl s).mode = .queued) (hq : (w.sig s).emitQueue = [])
    (hin : Within env (.emit s args chk) w t₁ w₁) (hne : w₁ ≠ w) :
    ∃ q, (w₁.sig s).emitQueue = args :: q := by
  suffices ((t₁ = .emit s args chk ∨ t₁ = .runLoop s args) ∧ w₁ = w) ∨
      (w₁.sig s).emitQueue.head? = some args by
    rcases this with h | h
    · exact absurd h.2 hne
    · cases hq' : (w₁.sig s).emitQueue <;> simp_all
  clear hne
  induction hin with
  | refl => exact .inl ⟨.inl rfl, rfl⟩
  | step _ hr ih =>
    rcases ih with ⟨rfl | rfl, rfl⟩ | ih
    · simp only [body, hh] at hr
      repeat' split at hr
      all_goals simp [Comp.Reaches] at hr
      exact .inl ⟨.inr hr.1, hr.2⟩
    · simp only [body] at hr
      repeat' split at hr
      all_goals simp only [Comp.Reaches] at hr
      rcases hr with ⟨rfl, rfl⟩ | ⟨_, _, _, h⟩
      · right; simp [hq]
      · exact h.elim
    · exact .inr (queue_head_reaches hm hr ih)

/-- Signal 20 is queued; its first callback emits 2 and 3 when it gets 1, and 4 when it gets 2. -/
example : ∃ (env : Env) (w w' : World), Live env anyAct (.emit 20 [.atom 1] true) w ∧
    w.hook = none ∧ (env.decl 20).mode = .queued ∧ (w.sig 20).blocked = false ∧
    (w.sig 20).paused = false ∧ (w.sig 20).emitQueue = [] ∧ env.Only (Keeps env 20) ∧
    Runs env (.emit 20 [.atom 1] true) w w' (.ok ()) ∧
    callsBy w.nextEm w'.log = [(.func 0, [.atom 1]), (.func 1, [.atom 1]),
      (.func 0, [.atom 2]), (.func 1, [.atom 2]), (.func 0, [.atom 3]), (.func 1, [.atom 3]),
      (.func 0, [.atom 4]), (.func 1, [.atom 4])] := by
  refine ⟨Ex.env fun b a => match b, a with
      | .func 0, [.atom 1] => Ex.seq [Ex.emit 20 2, Ex.emit 20 3]
      | .func 0, [.atom 2] => Ex.seq [Ex.emit 20 4]
      | _, _ => .ret, _, _,
    .sub (.top (Ex.reach (n := 30) (l := [Ex.conn 20 (.func 0), Ex.conn 20 (.func 1)])
      (by simp [anyAct]) rfl) 0 (Ex.seq [Ex.emit 20 1]) (Ex.Only.seq_mem (by simp [anyAct])))
      (.inl ⟨rfl, rfl⟩), rfl, rfl, rfl, rfl, rfl, ?_, ⟨40, rfl⟩, rfl⟩
  intro b a
  simp only [Ex.env]
  split
  · exact Ex.Only.seq_mem (by simp [Keeps, Ex.emit])
  · exact Ex.Only.seq_mem (by simp [Keeps, Ex.emit])
  · trivial

/-! ## C11: latest-only mode -/

/-- **C11** (stale values are dropped). Any latest-only `emit` at any moment of any execution, with any
result.  Once another emission of the same signal has been accepted (`req s b` after the own
`req s args`), this emission starts no more invocations (and puts nothing on thread queues): its only
later events are ends of invocations that were already running. -/
theorem C11_no_stale_delivery {env : Env} {Q : Act → Prop} {s : SigId} {args : Args} {chk : Bool}
    {w w' : World} {r : Res} (hl : Live env Q (.emit s args chk) w) (hh : w.hook = none)
    (hm : (env.decl s).mode = .latest) (h : Runs env (.emit s args chk) w w' r)
    {l₁ l₂ : List Ev} {b : Args} (hlog : w'.log = w.log ++ .req s args :: l₁ ++ .req s b :: l₂) :
    ∀ v ∈ l₂, v.em? = some w.nextEm → ∃ b r, v = .ret (some w.nextEm) (some s) b r := by
  have contra : ∀ {w' : World}, w'.log = w.log → w'.log = w.log ++ .req s args :: l₁ ++ .req s b :: l₂ →
      False := by
    intro w' h1 h2
    have := congrArg List.length (h1.symm.trans h2)
    simp at this
  rcases emit_cases h hh with ⟨-, rfl, -⟩ | ⟨-, -, rfl, -⟩ | ⟨-, rfl, -⟩ | ⟨-, -, h⟩
  · exact (contra rfl hlog).elim
  · exact (contra rfl hlog).elim
  · exact (contra (by simp) hlog).elim
  · have hq0 : (w.sig s).emitQueue = [] :=
      List.length_eq_zero_iff.1 (((queuePre_live hl) s (by simp [hm])).2 (by simp))
    rcases runLoop_inner h hq0 with ⟨-, rfl, -⟩ | ⟨-, w1, r1, h2, rfl, hr, hw2⟩
    · exact (contra rfl hlog).elim
    have hqs : (((w.enqueue s args).startLoop s).sig s).emitQueue = [args] := by
      simp [hq0]
    have hbi : body env (.inner s w.nextEm) ((w.enqueue s args).startLoop s) =
        .call (.forLatest s w.nextEm args 0) (((w.enqueue s args).startLoop s).popQueue s) .done := by
      simp only [body, hm, hqs]
    rw [runs_iff, hbi] at h2
    obtain ⟨w2, r2, h3, rfl, rfl⟩ := h2
    have hd : DeadInv (((w.enqueue s args).startLoop s).popQueue s) :=
      ConnEq.deadInv (by simp [ConnEq]) (deadInv_live hl)
    have hdep := (depthPre_live hl).2.1 s
    obtain ⟨l, hl2, hnc, -⟩ := forLatest_stop h3 s w.nextEm args 0 (by simp [hm]) rfl (by simp) hd
      ⟨by simp; omega, by simp, by simp [hq0]⟩
    have : l = l₁ ++ .req s b :: l₂ := by
      simp [hl2] at hlog
      exact hlog
    exact hnc l₁ b l₂ this

/-- **C11** (delivery; partial). A latest-only emission that returns normally, during which the
connections do not change and no newer value is accepted, delivers its value to all slots — provided
that no emission running on the same signal had been nested deeper (`maxDepth ≤ depth + 1`; outside all
emissions: `C11_top_level`).  What is missing for the full claim is exactly this last condition; without
it the claim is false (`C11_refuted`). -/
theorem C11_latest_delivered_partial {env : Env} {Q : Act → Prop} {s : SigId} {args : Args} {chk : Bool}
    {w w' : World} (hl : Live env Q (.emit s args chk) w) (hh : w.hook = none)
    (hm : (env.decl s).mode = .latest) (hb : (w.sig s).blocked = false) (hp : (w.sig s).paused = false)
    (hmd : (w.sig s).maxDepth ≤ (w.sig s).depth + 1)
    (hk : ∀ t1 w1, Within env (.emit s args chk) w t1 w1 → (w1.sig s).slots = (w.sig s).slots)
    (h : Runs env (.emit s args chk) w w' (.ok ()))
    (hnew : accepted s w'.log = accepted s w.log ++ [args]) :
    ∃ l, w'.log = w.log ++ .req s args :: l ∧
      Deliveries s w.nextEm w.thread args (w.sig s).slots l := by
  obtain ⟨h1, hw1⟩ := emit_loop h hh hb hp
  have hq0 : (w.sig s).emitQueue = [] :=
    List.length_eq_zero_iff.1 (((queuePre_live hl) s (by simp [hm])).2 (by simp))
  rcases runLoop_inner h1 hq0 with ⟨-, -, h⟩ | ⟨-, w1, r1, h2, rfl, hr, hw2⟩
  · simp at h
  have hr := wrapRes_ok hr
  subst hr
  have hqs : (((w.enqueue s args).startLoop s).sig s).emitQueue = [args] := by
    simp [hq0]
  have hbi : body env (.inner s w.nextEm) ((w.enqueue s args).startLoop s) =
      .call (.forLatest s w.nextEm args 0) (((w.enqueue s args).startLoop s).popQueue s) .done := by
    simp only [body, hm, hqs]
  rw [runs_iff, hbi] at h2
  obtain ⟨w2, r2, h3, rfl, rfl⟩ := h2
  have hw3 : Within env (.emit s args chk) w (.forLatest s w.nextEm args 0)
      (((w.enqueue s args).startLoop s).popQueue s) :=
    .step (hw1.trans hw2) (by rw [hbi]; exact .inl ⟨rfl, rfl⟩)
  have hd : DeadInv (((w.enqueue s args).startLoop s).popQueue s) :=
    ConnEq.deadInv (by simp [ConnEq]) (deadInv_live hl)
  have hdep := (depthPre_live hl).2.1 s
  obtain ⟨l, hl2, hD⟩ := forLatest_all h3 s w.nextEm args 0 (w.sig s).slots (by simp [hm]) rfl
    (by simp) hd ⟨by simp; omega, by simp, by simp [hq0]⟩ (by simp; omega) rfl
    (by simpa [accepted_append'] using hnew) (fun t1 w1 h => hk t1 w1 (hw3.trans h))
  exact ⟨l, by simp [hl2], by simpa using hD⟩

/-- **C11**: outside all emissions the condition of `C11_latest_delivered_partial` holds (if `emit_fast`
is not used on that signal, cf. `C07_refuted`). -/
theorem C11_top_level {env : Env} {s : SigId} {w : World} (he : env.Only (NoFast s))
    (h : Reachable env (NoFast s) w) : (w.sig s).maxDepth ≤ (w.sig s).depth + 1 := by
  have h1 := (depthPre_live (.top h 0 .ret trivial)).2.1 s
  have h2 := C07_max_depth_at_rest_partial he h
  simp only at h1
  omega

namespace C11ex

/-- Signal 10 is latest-only.  `func 0` emits 2 and then 3 when it gets 1; `func 1` emits 10 when it
gets 2. -/
def env : Env := Ex.env fun b a => match b, a with
  | .func 0, [.atom 1] => Ex.seq [Ex.emit 10 2, Ex.emit 10 3]
  | .func 1, [.atom 2] => Ex.seq [Ex.emit 10 10]
  | _, _ => .ret

/-- Two callbacks, one emission. -/
def acts : List Act := [Ex.conn 10 (.func 0), Ex.conn 10 (.func 1), Ex.emit 10 1]

end C11ex

/-- **C11 is violated**: the most recently emitted value (3) is accepted but delivered to nobody,
because an earlier, more deeply nested emission (10) has finished before. -/
theorem C11_refuted : ∃ w, Reachable C11ex.env (NoFast 10) w ∧
    accepted 10 w.log = [[.atom 1], [.atom 2], [.atom 10], [.atom 3]] ∧
    (w.sig 10).slots.map (·.base) = [.func 0, .func 1] ∧
    C07ex.seen w = [[.atom 1], [.atom 2], [.atom 2], [.atom 10], [.atom 10]] := by
  refine ⟨_, Ex.reach (n := 40) (l := C11ex.acts) (by simp [C11ex.acts, NoFast, Ex.conn, Ex.emit]) rfl,
    rfl, rfl, rfl⟩

/-- Concrete case for both positive theorems: `func 0` emits 2 when it gets 1.  The outer emission
(loop 0) calls only `func 0`; the nested one (loop 1) meets the hypotheses of the partial theorem and
calls both. -/
example : ∃ (env : Env) (w w' w₁ w₁' : World), Live env anyAct (.emit 10 [.atom 1] true) w ∧
    w.hook = none ∧ (env.decl 10).mode = .latest ∧
    Runs env (.emit 10 [.atom 1] true) w w' (.ok ()) ∧
    (∃ l₁ l₂, w'.log = w.log ++ .req 10 [.atom 1] :: l₁ ++ .req 10 [.atom 2] :: l₂) ∧
    Live env anyAct (.emit 10 [.atom 2] true) w₁ ∧ w₁.hook = none ∧
    (w₁.sig 10).blocked = false ∧ (w₁.sig 10).paused = false ∧
    (w₁.sig 10).maxDepth ≤ (w₁.sig 10).depth + 1 ∧ env.Only (Keeps env 10) ∧
    Runs env (.emit 10 [.atom 2] true) w₁ w₁' (.ok ()) ∧
    accepted 10 w₁'.log = accepted 10 w₁.log ++ [[.atom 2]] ∧
    callsBy w.nextEm w'.log = [(.func 0, [.atom 1])] ∧
    callsBy w₁.nextEm w'.log = [(.func 0, [.atom 2]), (.func 1, [.atom 2])] := by
  have hlive := Live.sub (t' := .emit 10 [.atom 1] true) (.top (Ex.reach (Q := anyAct)
    (env := Ex.env fun b a => match b, a with
      | .func 0, [.atom 1] => Ex.seq [Ex.emit 10 2]
      | _, _ => .ret) (n := 30) (l := [Ex.conn 10 (.func 0), Ex.conn 10 (.func 1)])
      (by simp [anyAct]) rfl) 0 (Ex.seq [Ex.emit 10 1]) (Ex.Only.seq_mem (by simp [anyAct])))
      (.inl ⟨rfl, rfl⟩)
  refine ⟨_, _, _, _, _, hlive, rfl, rfl, ⟨30, rfl⟩, ⟨[_], _, rfl⟩,
    .sub (.sub (.sub (.sub (.sub (.sub (.sub hlive (.inl ⟨rfl, rfl⟩)) (.inl ⟨rfl, rfl⟩))
      (.inl ⟨rfl, rfl⟩)) (.inl ⟨rfl, rfl⟩)) (.inl ⟨rfl, rfl⟩)) (.inl ⟨rfl, rfl⟩)) (.inl ⟨rfl, rfl⟩),
    rfl, rfl, rfl, by decide, ?_, ⟨30, rfl⟩, rfl, rfl, rfl⟩
  intro b a
  simp only [Ex.env]
  split
  · exact Ex.Only.seq_mem (by simp [Keeps, Ex.emit])
  · trivial

/-! ## C14: `emit_fast` -/

/-- **C14** (blocked, paused, recursion limit). On a signal that is blocked or paused, or whose nesting
depth has reached the limit, `emit_fast` and an unchecked `emit` (without debug hook) do the same. -/
theorem C14_same_when_refused {env : Env} {s : SigId} {args : Args} {w w' : World} {r : Res}
    (hh : w.hook = none) (hc : (w.sig s).blocked = true ∨ (w.sig s).paused = true ∨ (w.sig s).depth ≥ 300) :
    Runs env (.emitFast s args) w w' r ↔ Runs env (.emit s args false) w w' r := by
  have loop : (w.sig s).depth ≥ 300 → (Runs env (.runLoop s args) w w' r ↔
      w' = w ∧ r = .error .recursion) := by
    intro hd
    rw [runs_iff]
    simp [body, show (w.sig s).depth ≥ LIMIT from hd, Comp.Via]
  rw [runs_iff, runs_iff]
  simp only [body, hh]
  by_cases hb : (w.sig s).blocked = true
  · simp [hb]
  · by_cases hp : (w.sig s).paused = true
    · simp [hb, hp]
    · have hd : (w.sig s).depth ≥ 300 := by simpa [hb, hp] using hc
      simp only [hb, hp, show (w.sig s).depth ≥ LIMIT from hd, Bool.false_eq_true, if_true, if_false,
        false_and, Comp.Via]
      constructor
      · rintro ⟨rfl, rfl⟩
        exact ⟨w', _, (loop hd).2 ⟨rfl, rfl⟩, rfl, rfl⟩
      · rintro ⟨w1, r1, h, rfl, rfl⟩
        exact (loop hd).1 h

/-- … and what they do is: nothing when blocked; record the arguments when paused; raise
`RecursionError` at the recursion limit. -/
theorem C14_refused {env : Env} {s : SigId} {args : Args} {w w' : World} {r : Res}
    (h : Runs env (.emitFast s args) w w' r) :
    ((w.sig s).blocked = true → w' = w ∧ r = .ok ()) ∧
    ((w.sig s).blocked = false → (w.sig s).paused = true → r = .ok () ∧ w'.log = w.log ∧
      (w'.sig s).argsQueue = (w.sig s).argsQueue ++ [args]) ∧
    ((w.sig s).blocked = false → (w.sig s).paused = false → (w.sig s).depth ≥ 300 →
      w' = w ∧ r = .error .recursion) := by
  rw [runs_iff] at h
  simp only [body] at h
  refine ⟨fun hb => ?_, fun hb hp => ?_, fun hb hp hd => ?_⟩
  · simpa [hb, Comp.Via] using h
  · simp only [hb, hp, Bool.false_eq_true, if_true, if_false, Comp.Via] at h
    obtain ⟨rfl, rfl⟩ := h
    simp
  · simpa [hb, hp, show (w.sig s).depth ≥ LIMIT from hd, Comp.Via] using h

/-- **C14** (delivery). Any `emit_fast` at any moment of any execution, of a signal (of any re-emission
mode) that is neither blocked nor paused, that returns normally and during which the connections of the
signal do not change, serves every connected slot exactly once, in order, with the emitted arguments. -/
theorem C14_fast_delivers {env : Env} {Q : Act → Prop} {s : SigId} {args : Args}
    {w w' : World} (hl : Live env Q (.emitFast s args) w)
    (hb : (w.sig s).blocked = false) (hp : (w.sig s).paused = false)
    (hk : ∀ t1 w1, Within env (.emitFast s args) w t1 w1 → (w1.sig s).slots = (w.sig s).slots)
    (h : Runs env (.emitFast s args) w w' (.ok ())) :
    ∃ l, w'.log = w.log ++ .fast s args w.nextEm :: l ∧
      Deliveries s w.nextEm w.thread args (w.sig s).slots l := by
  rcases fast_cases h with ⟨h1, -⟩ | ⟨h1, -⟩ | ⟨-, -, h1⟩ | ⟨-, -, hd, w1, r1, h1, rfl, hr⟩
  · simp [hb] at h1
  · simp [hp] at h1
  · simp at h1
  · have hr := wrapRes_ok hr
    subst hr
    have hbody : body env (.emitFast s args) w =
        .call (.forSlots s w.nextEm args 0) (w.startFast s args) fun w' r =>
          .done (w'.endFast s) (wrapRes s r) := by
      simp only [body, hb, hp, Bool.false_eq_true, if_false, ge_iff_le, Int.not_le.2 hd]
    have hdead : DeadInv (w.startFast s args) := ConnEq.deadInv (by simp [ConnEq]) (deadInv_live hl)
    obtain ⟨ys, l, hlog, hle, hys⟩ := forSlots_log h1 s w.nextEm args 0 rfl (by simp) hdead
    have hys := (hys (w.sig s).slots (fun t3 w3 h3 => hk t3 w3
      (Within.trans (.step .refl (by rw [hbody]; exact .inl ⟨rfl, rfl⟩)) h3))).2 rfl
    simp only [List.drop_zero] at hys
    subst hys
    refine ⟨l, by simp [hlog], ?_⟩
    rcases hle with ⟨-, h⟩ | ⟨e, -, -, -, -, h, -⟩ | ⟨h, -, -⟩
    · simpa using h
    · simp at h
    · exact h.elim

/-- **C14** (the same callbacks as `emit`). Started in the same state (with the same connection
stability), `emit_fast` and an immediate-mode `emit`, if both return normally, invoke the same callables
with the same arguments in the same order and make the same thread-queue entries. -/
theorem C14_same_callbacks {env : Env} {Q Q' : Act → Prop} {s : SigId} {args : Args} {chk : Bool}
    {w wf we : World} (hl : Live env Q (.emitFast s args) w) (hl' : Live env Q' (.emit s args chk) w)
    (hh : w.hook = none) (hm : (env.decl s).mode = .immediate)
    (hb : (w.sig s).blocked = false) (hp : (w.sig s).paused = false) (he : env.Only (Keeps env s))
    (hf : Runs env (.emitFast s args) w wf (.ok ())) (h : Runs env (.emit s args chk) w we (.ok ())) :
    ∃ lf le, wf.log = w.log ++ lf ∧ we.log = w.log ++ le ∧
      callsBy w.nextEm lf = callsBy w.nextEm le ∧ putsBy w.nextEm lf = putsBy w.nextEm le := by
  obtain ⟨lf, h1, d1⟩ := C14_fast_delivers hl hb hp
    (fun _ _ h => (keeps_within he (by simp [Task.Only, Keeps]) h).2) hf
  obtain ⟨le, h2, d2⟩ := C04_emit_delivers hl' hh hm hb hp
    (fun _ _ h => (keeps_within he (by simp [Task.Only, Keeps]) h).2) h
  refine ⟨_, _, h1, h2, ?_, ?_⟩
  · exact d1.calls.1.trans d2.calls.1.symm
  · exact d1.calls.2.trans d2.calls.2.symm

/-- A signal with two callbacks, the first of which re-emits. -/
example : ∃ (env : Env) (w wf we : World), Live env anyAct (.emitFast 0 [.atom 1]) w ∧
    Live env anyAct (.emit 0 [.atom 1] true) w ∧ w.hook = none ∧ (env.decl 0).mode = .immediate ∧
    (w.sig 0).blocked = false ∧ (w.sig 0).paused = false ∧ env.Only (Keeps env 0) ∧
    Runs env (.emitFast 0 [.atom 1]) w wf (.ok ()) ∧ Runs env (.emit 0 [.atom 1] true) w we (.ok ()) ∧
    callsBy w.nextEm wf.log = [(.func 0, [.atom 1]), (.func 1, [.atom 1])] ∧ wf.log.length = 10 := by
  have hr := Ex.reach (Q := anyAct)
    (env := Ex.env fun b a => match b, a with
      | .func 0, [.atom 1] => Ex.seq [Ex.emit 0 2]
      | _, _ => .ret) (n := 30) (l := [Ex.conn 0 (.func 0), Ex.conn 0 (.func 1)])
      (by simp [anyAct]) rfl
  refine ⟨_, _, _, _, .sub (.top hr 0 (Ex.seq [.emitFast 0 [.atom 1]]) (Ex.Only.seq_mem (by simp [anyAct])))
    (.inl ⟨rfl, rfl⟩), .sub (.top hr 0 (Ex.seq [Ex.emit 0 1]) (Ex.Only.seq_mem (by simp [anyAct])))
    (.inl ⟨rfl, rfl⟩), rfl, rfl, rfl, rfl, ?_, ⟨30, rfl⟩, ⟨30, rfl⟩, rfl, rfl⟩
  intro b a
  simp only [Ex.env]
  split
  · exact Ex.Only.seq_mem (by simp [Keeps, Ex.emit])
  · trivial

end Psygnal
