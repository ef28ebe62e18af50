import Verif.DeliveryLemmas
import Verif.Examples

/-!
# What one emission delivers, and how it fails: C04, C06, C09
-/
namespace Psygnal

/-! ## C06: exceptions in callbacks -/

/-- **C06.** Any `emit` at any moment of any execution.  Let `l` be the events logged during it and
`w.nextEm` the number of the emit loop it starts.
* If a callback invoked by this emission raised `e`, then that is the last event of the whole emission
  (no other callback is invoked after it), and the emission raises: `EmitLoopError` naming `s` with
  cause `e` for an ordinary `e`; `e` itself if it is a `RecursionError`, a non-`Exception`, or already
  an `EmitLoopError` of a nested emission (`Surfaces`).
* Conversely, if the emission raises, then because the argument check failed, or with `RecursionError`
  because a recursion limit was hit, or because its last callback raised. -/
theorem C06_emit_errors {env : Env} {Q : Act → Prop} {s : SigId} {args : Args} {chk : Bool}
    {w w' : World} {r : Res} (hl : Live env Q (.emit s args chk) w) (hh : w.hook = none)
    (h : Runs env (.emit s args chk) w w' r) : ∃ l, w'.log = w.log ++ l ∧
    (∀ src b e, .ret (some w.nextEm) src b (.error e) ∈ l → src = some s ∧
      (∃ l₁, l = l₁ ++ [.ret (some w.nextEm) src b (.error e)]) ∧
      ∃ e', Surfaces s e e' ∧ r = .error e') ∧
    (∀ e', r = .error e' →
      (e' = .typeError ∧ chk = true ∧ bindsPos (env.decl s).sig args.length = false ∧ l = []) ∨
      (e' = .recursion ∧ ((w.sig s).depth ≥ 300 ∨ (env.decl s).mode = .queued)) ∨
      ∃ b e l₁, l = l₁ ++ [.ret (some w.nextEm) (some s) b (.error e)] ∧ Surfaces s e e') := by
  rcases emit_cases h hh with ⟨-, rfl, rfl⟩ | ⟨hc, hb, rfl, rfl⟩ | ⟨-, rfl, rfl⟩ | ⟨-, -, h⟩
  · exact ⟨[], by simp, by simp, by simp⟩
  · exact ⟨[], by simp, by simp, fun e' he => .inl ⟨by simp_all, hc, hb, rfl⟩⟩
  · exact ⟨[], by simp, by simp, by simp⟩
  · obtain ⟨l, r0, hlog, rfl, hf⟩ := runLoop_fail h (deadInv_live hl)
    refine ⟨l, hlog, ?_⟩
    rcases hf with hf | ⟨hd, hr, rfl⟩
    · obtain ⟨h1, h2⟩ := hf.summary
      refine ⟨h1, fun e' he => ?_⟩
      rcases h2 e' he with ⟨hs, rfl⟩ | h2
      · exact .inr (.inl ⟨rfl, .inr hs⟩)
      · exact .inr (.inr h2)
    · rw [hr]
      refine ⟨by simp, fun e' he => ?_⟩
      cases he
      exact .inr (.inl ⟨rfl, .inl hd⟩)

/-- **C06** for `emit_fast`. -/
theorem C06_fast_errors {env : Env} {Q : Act → Prop} {s : SigId} {args : Args}
    {w w' : World} {r : Res} (hl : Live env Q (.emitFast s args) w)
    (h : Runs env (.emitFast s args) w w' r) : ∃ l, w'.log = w.log ++ l ∧
    (∀ src b e, .ret (some w.nextEm) src b (.error e) ∈ l → src = some s ∧
      (∃ l₁, l = l₁ ++ [.ret (some w.nextEm) src b (.error e)]) ∧
      ∃ e', Surfaces s e e' ∧ r = .error e') ∧
    (∀ e', r = .error e' →
      (e' = .recursion ∧ (w.sig s).depth ≥ 300) ∨
      ∃ b e l₁, l = l₁ ++ [.ret (some w.nextEm) (some s) b (.error e)] ∧ Surfaces s e e') := by
  rcases fast_cases h with ⟨-, rfl, rfl⟩ | ⟨-, rfl, rfl⟩ | ⟨hd, rfl, rfl⟩ | ⟨-, -, -, w1, r1, h1, rfl, rfl⟩
  · exact ⟨[], by simp, by simp, by simp⟩
  · exact ⟨[], by simp, by simp, by simp⟩
  · refine ⟨[], by simp, by simp, fun e' he => ?_⟩
    cases he
    exact .inl ⟨rfl, hd⟩
  · have hd : DeadInv (w.startFast s args) := ConnEq.deadInv (by simp [ConnEq]) (deadInv_live hl)
    obtain ⟨ys, l, hlog, hle, -⟩ := forSlots_log h1 s w.nextEm args 0 rfl (by simp) hd
    have hf : FailShape False s w.nextEm (.fast s args w.nextEm :: l) r1 :=
      FailShape.append (l := [_]) (fun _ _ _ hm => by simp at hm) hle.fail
    obtain ⟨h1, h2⟩ := hf.summary
    refine ⟨.fast s args w.nextEm :: l, by simp [hlog], h1, fun e' he => ?_⟩
    rcases h2 e' he with ⟨hs, -⟩ | h2
    · exact hs.elim
    · exact .inr h2

/-- Signal 0 → callback emits signal 1 → callback raises: the caller of `0.emit` gets one
`EmitLoopError`, naming signal 1; the second callback of signal 0 is not invoked. -/
example : ∃ (env : Env) (w w' : World), Live env anyAct (.emit 0 [.atom 7] true) w ∧ w.hook = none ∧
    Runs env (.emit 0 [.atom 7] true) w w' (.error (.emitLoop (some 1) (.user 3))) ∧
    w'.log.filterMap (fun v => match v with | .call _ s _ _ _ b _ => some (s, b) | _ => none) =
      [(some 0, .func 0), (some 1, .func 1)] := by
  refine ⟨Ex.env fun b _ => match b with
      | .func 0 => .api (Ex.emit 1 5) fun r => match r with | .ok _ => .ret | .error e => .raise e
      | .func 1 => .raise (.user 3)
      | _ => .ret, _, _,
    .sub (.top (Ex.reach (n := 30) (l := [Ex.conn 0 (.func 0), Ex.conn 0 (.func 2), Ex.conn 1 (.func 1)])
      (by simp [anyAct]) rfl) 0 (Ex.seq [Ex.emit 0 7]) (Ex.Only.seq_mem (by simp [anyAct])))
      (.inl ⟨rfl, rfl⟩), rfl, ⟨30, rfl⟩, rfl⟩

/-! ## C04: one emission, every callback once -/

/-- **C04** (the log of one emission). Any immediate-mode `emit` at any moment of any execution — top
level, nested in callbacks of the same or other signals, … — that returns normally, of a signal that
is neither blocked nor paused, and during which the connections of the signal do not change: the log
shows that every slot connected to the signal was served, in order, each exactly once, each by one
complete invocation (or one entry in its thread's queue) with the right arguments, with anything else
nested inside those invocations. -/
theorem C04_emit_delivers {env : Env} {Q : Act → Prop} {s : SigId} {args : Args} {chk : Bool}
    {w w' : World} (hl : Live env Q (.emit s args chk) w) (hh : w.hook = none)
    (hm : (env.decl s).mode = .immediate) (hb : (w.sig s).blocked = false) (hp : (w.sig s).paused = false)
    (hk : ∀ t1 w1, Within env (.emit s args chk) w t1 w1 → (w1.sig s).slots = (w.sig s).slots)
    (h : Runs env (.emit s args chk) w w' (.ok ())) :
    ∃ l, w'.log = w.log ++ .req s args :: l ∧
      Deliveries s w.nextEm w.thread args (w.sig s).slots l := by
  have hq := ((queuePre_live hl) s (by simp [hm])).2 (by simp)
  have hbody : body env (.emit s args chk) w = body env (.emit s args chk) w := rfl
  conv at hbody => rhs; simp only [body]
  simp only [hb, hp, hh, Bool.false_eq_true, if_false] at hbody
  rcases emit_cases h hh with ⟨h1, -⟩ | ⟨-, -, -, h1⟩ | ⟨h1, -⟩ | ⟨-, -, h⟩
  · simp [hb] at h1
  · simp at h1
  · simp [hp] at h1
  · have hw : Within env (.emit s args chk) w (.runLoop s args) w := by
      refine .step .refl ?_
      rw [hbody]
      split
      · rename_i hc
        have h' := h
        clear h'
        rename_i h0
        rw [runs_iff, hbody, if_pos hc] at h0
        simp [Comp.Via] at h0
      · exact .inl ⟨rfl, rfl⟩
    exact runLoop_slots hm h hw hq rfl (deadInv_live hl) hk

/-- **C04** (exactly once, in order, with the emitted arguments). In the situation of
`C04_emit_delivers`: the callables invoked by this emission, with their arguments, are exactly those of
the connected slots bound to no thread or to the emitting thread, in order; those bound to other
threads get exactly one queue entry each. -/
theorem C04_exactly_once {env : Env} {Q : Act → Prop} {s : SigId} {args : Args} {chk : Bool}
    {w w' : World} (hl : Live env Q (.emit s args chk) w) (hh : w.hook = none)
    (hm : (env.decl s).mode = .immediate) (hb : (w.sig s).blocked = false) (hp : (w.sig s).paused = false)
    (hk : ∀ t1 w1, Within env (.emit s args chk) w t1 w1 → (w1.sig s).slots = (w.sig s).slots)
    (h : Runs env (.emit s args chk) w w' (.ok ())) : ∃ l, w'.log = w.log ++ l ∧
      callsBy w.nextEm l =
        ((w.sig s).slots.filter (Slot.isLocal w.thread)).map (fun x => (x.base, x.receives args)) ∧
      putsBy w.nextEm l = (w.sig s).slots.filterMap fun x => match x.thread with
        | none => none
        | some t => if t = w.thread then none else some (t, x.base, args) := by
  obtain ⟨l, hlog, hd⟩ := C04_emit_delivers hl hh hm hb hp hk h
  exact ⟨_, hlog, hd.calls⟩

/-- **C04** (a sufficient condition on callbacks). If no callback makes API calls that touch the
connections of `s`, then its connections do not change during an emission — whatever else callbacks do
(emit other signals, re-emit `s`, block, pause, resume, connect to other signals, fail, …). -/
theorem C04_connections_kept {env : Env} {s : SigId} (he : env.Only (Keeps env s)) {args : Args}
    {chk : Bool} {w : World} :
    ∀ t1 w1, Within env (.emit s args chk) w t1 w1 → (w1.sig s).slots = (w.sig s).slots :=
  fun _ _ h => (keeps_within he (by simp [Task.Only, Keeps]) h).2

/-- Signal 0 with a re-emitting callback (which also blocks and unblocks signal 1), a callback with a
bound argument, and one bound to thread 1. -/
example : ∃ (env : Env) (w w' : World), Live env anyAct (.emit 0 [.atom 1] true) w ∧ w.hook = none ∧
    (env.decl 0).mode = .immediate ∧ (w.sig 0).blocked = false ∧ (w.sig 0).paused = false ∧
    env.Only (Keeps env 0) ∧ Runs env (.emit 0 [.atom 1] true) w w' (.ok ()) ∧
    callsBy w.nextEm w'.log = [(.func 0, [.atom 1]), (.func 1, [.atom 1])] ∧
    putsBy w.nextEm w'.log = [(1, .func 2, [.atom 1])] := by
  refine ⟨Ex.env fun b a => match b, a with
      | .func 0, [.atom 1] => Ex.seq [.block 1 [], Ex.emit 0 2, .unblock 1]
      | _, _ => .ret, _, _,
    .sub (.top (Ex.reach (n := 30) (l := [Ex.conn 0 (.func 0), Ex.conn 0 (.func 1),
        .connect 0 ⟨.func 2, []⟩ { thread := some (.this 1) }])
      (by simp [anyAct]) rfl) 0 (Ex.seq [Ex.emit 0 1]) (Ex.Only.seq_mem (by simp [anyAct])))
      (.inl ⟨rfl, rfl⟩), rfl, rfl, rfl, rfl, ?_, ⟨30, rfl⟩, rfl, rfl⟩
  intro b a
  simp only [Ex.env]
  split
  · exact Ex.Only.seq_mem (by simp [Keeps, Ex.emit])
  · trivial

/-! ## C09: immediate re-emission is depth-first -/

/-- **C09.** An immediate-mode emission of `s` with value `args` (no connection changes, normal
return), during which a callback emits `s` again with `args₂` (`t₁`: any emission within it, after it
has started; normal return).  Then the nested emission delivers `args₂` to *all* callbacks while one of
the callbacks `x` of the outer emission is running: the callbacks `ys` before `x` got `args` before the
nested emission, and the remaining ones `zs` get `args` after it. -/
theorem C09_depth_first {env : Env} {Q : Act → Prop} {s : SigId} {args args₂ : Args} {chk chk₂ : Bool}
    {w w' w₁ w₁' : World} (hl : Live env Q (.emit s args chk) w) (hh : w.hook = none)
    (hm : (env.decl s).mode = .immediate) (hb : (w.sig s).blocked = false) (hp : (w.sig s).paused = false)
    (hk : ∀ t1 w1, Within env (.emit s args chk) w t1 w1 → (w1.sig s).slots = (w.sig s).slots)
    (h : Runs env (.emit s args chk) w w' (.ok ()))
    (hin : Within env (.emit s args chk) w (.emit s args₂ chk₂) w₁) (hne : w₁ ≠ w)
    (hh₁ : w₁.hook = none) (hb₁ : (w₁.sig s).blocked = false) (hp₁ : (w₁.sig s).paused = false)
    (h₁ : Runs env (.emit s args₂ chk₂) w₁ w₁' (.ok ())) :
    ∃ ys x zs la lb i₁ i₂ l₂ d e, (w.sig s).slots = ys ++ x :: zs ∧
      w₁.log = w.log ++ .req s args :: la ++
        .call (some w.nextEm) (some s) d e w.thread x.base (x.receives args) :: i₁ ∧
      w₁'.log = w₁.log ++ .req s args₂ :: l₂ ∧
      w'.log = w₁'.log ++ i₂ ++ .ret (some w.nextEm) (some s) x.base (.ok ()) :: lb ∧
      Deliveries s w.nextEm w.thread args ys la ∧
      Deliveries s w₁.nextEm w₁.thread args₂ (w.sig s).slots l₂ ∧
      Deliveries s w.nextEm w.thread args zs lb := by
  obtain ⟨l, hlog, hd⟩ := C04_emit_delivers hl hh hm hb hp hk h
  have hl₁ := live_within hl hin
  have hk₁ : ∀ t1 w1, Within env (.emit s args₂ chk₂) w₁ t1 w1 → (w1.sig s).slots = (w₁.sig s).slots := by
    intro t1 w1 hw
    rw [hk _ _ hin]
    refine hk t1 w1 ?_
    induction hw with
    | refl => exact hin
    | step _ hr ih => exact .step ih hr
  obtain ⟨l₂, hlog₂, hd₂⟩ := C04_emit_delivers hl₁ hh₁ hm hb₁ hp₁ hk₁ h₁
  rw [hk _ _ hin] at hd₂
  obtain ⟨hem, c, hc⟩ := (within_started hh hin).resolve_left hne
  obtain ⟨lf, hlf, hfor⟩ := inner_foreign (em := w.nextEm) h₁ (by simp) hem
  have hlf' : lf = .req s args₂ :: l₂ := List.append_cancel_left (hlf.symm.trans hlog₂)
  obtain ⟨w₁'', r₁, g1, ⟨b, hb'⟩⟩ := within_log h hin
  obtain ⟨rfl, -⟩ := Runs.det h₁ g1
  have heq : l = c ++ (lf ++ b) := by
    have : (w.log ++ [.req s args]) ++ l = (w.log ++ [.req s args]) ++ (c ++ (lf ++ b)) := by
      rw [show (w.log ++ [Ev.req s args]) ++ l = w'.log by rw [hlog]; simp, ← hb', hlf, ← hc]; simp
    exact List.append_cancel_left this
  obtain ⟨ys, x, zs, la, lb, i₁, i₂, d, e, hs, g1, g2, rfl, rfl⟩ :=
    hd.inside heq (by simp [hlf']) hfor
  exact ⟨ys, x, zs, la, lb, i₁, i₂, l₂, d, e, hs, by rw [← hc]; simp, hlog₂, by rw [← hb']; simp, g1, hd₂, g2⟩

/-- The callback `func 0` of signal 0 re-emits 2 when it gets 1; `func 1` is called with 2 before it is
called with 1. -/
example : ∃ (env : Env) (w w' w₁ w₁' : World), Live env anyAct (.emit 0 [.atom 1] true) w ∧
    w.hook = none ∧ env.Only (Keeps env 0) ∧ (w.sig 0).slots.length = 2 ∧
    Runs env (.emit 0 [.atom 1] true) w w' (.ok ()) ∧
    Within env (.emit 0 [.atom 1] true) w (.emit 0 [.atom 2] true) w₁ ∧ w₁ ≠ w ∧
    Runs env (.emit 0 [.atom 2] true) w₁ w₁' (.ok ()) ∧
    w'.log.filterMap (fun v => match v with | .call _ _ _ _ _ b a => some (b, a) | _ => none) =
      [(.func 0, [.atom 1]), (.func 0, [.atom 2]), (.func 1, [.atom 2]), (.func 1, [.atom 1])] := by
  refine ⟨Ex.env fun b a => match b, a with
      | .func 0, [.atom 1] => Ex.seq [Ex.emit 0 2]
      | _, _ => .ret, _, _, _, _,
    .sub (.top (Ex.reach (n := 30) (l := [Ex.conn 0 (.func 0), Ex.conn 0 (.func 1)])
      (by simp [anyAct]) rfl) 0 (Ex.seq [Ex.emit 0 1]) (Ex.Only.seq_mem (by simp [anyAct])))
      (.inl ⟨rfl, rfl⟩), rfl, ?_, rfl, ⟨30, rfl⟩, .step (.step (.step (.step (.step (.step (.step .refl
      (.inl ⟨rfl, rfl⟩)) (.inl ⟨rfl, rfl⟩)) (.inl ⟨rfl, rfl⟩)) (.inl ⟨rfl, rfl⟩)) (.inl ⟨rfl, rfl⟩))
      (.inl ⟨rfl, rfl⟩)) (.inl ⟨rfl, rfl⟩), ?_, ⟨30, rfl⟩, rfl⟩
  · intro b a
    simp only [Ex.env]
    split
    · exact Ex.Only.seq_mem (by simp [Keeps, Ex.emit])
    · trivial
  · intro h
    have := congrArg (fun w => w.log.length) h
    simp at this

end Psygnal
