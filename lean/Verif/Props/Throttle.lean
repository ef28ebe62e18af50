import Verif.ThrottleInv
import Verif.ThrottleMicro

/-!
# C36, C37, C38: throttlers and debouncers

The theorems are about the machine in which methods and timer callbacks run as a whole; that these
are schedules of the threaded machine is `step_is_schedule`.  In the threaded machine the claims
are false, see the end of the file.
-/
namespace Psygnal.Thr

/-- Nothing was called yet: the invariants hold. -/
theorem init_ok (c : Cfg) : (Gap c St.init.view ∧ Past St.init.view) ∧ Args St.init.view ∧ Near c St.init.view ∧
    Late c St.init.view := by
  have ha : Args St.init.view := ⟨Each.nil, (by intro h; cases h), (by intro _ p t a e; cases p <;> cases e)⟩
  refine ⟨⟨⟨fun d h => rfl, Each.nil, (by intro d t a k _ hm; cases hm), (by intro t a k _ hm; cases hm)⟩,
    (by intro t a k hm; cases hm)⟩, ha, ?_, ha, Each.nil, ?_⟩
  · intro d hd _
    have : d = 0 := by cases hd; rfl
    omega
  · intro d p t a h; cases h

/-- The events without `cancel` and `flush`. -/
def NoCancelFlush (es : List Ev) : Prop := .cancel ∉ es ∧ .flush ∉ es

/-- **C36**: whatever the calls and however late the timers, two invocations of a throttled
function are at least the interval apart.  Missing from the full claim: functions that raise, that
call the throttled function, and several threads (`C36_raise_refuted`, `C36_reentrant_refuted`,
`C36_threads_refuted`). -/
theorem C36_partial {c : Cfg} (hk : c.kind = .throttler) (es : List Ev) (he : NoCancelFlush es)
    {p q r : List Obs} {t a k t' a' k' : Nat}
    (h : (run c (fun _ => false) es St.init).trace = p ++ .invoked t a k :: q ++ .invoked t' a' k' :: r) :
    t + c.interval ≤ t' := by
  have := (run_view c (fun _ => false) Ev.plain (fun v => Gap c v ∧ Past v)
    (fun v e r h he hr hd => by
      have := hr fun _ => rfl
      subst this
      exact gap_step hk h he hd) es good_init (init_ok c).1 (by
        intro e hm
        cases e with
        | cancel => exact he.1 hm
        | flush => exact he.2 hm
        | _ => trivial)).2.1.each
  exact this _ _ _ _ _ h t a k (by simp)

/-- Timer `t` should have fired by now. -/
def Timer.overdue (t : Timer) (now : Nat) : Bool :=
  match t.status with
  | .waiting d => !t.finished && decide (d ≤ now)
  | _ => false

/-- All timers that are due have fired. -/
def Settled (s : St) : Prop := ∀ t ∈ s.timers, t.overdue s.now = false

instance (s : St) : Decidable (Settled s) := by unfold Settled; infer_instance

/-- **C37**: take any history of calls, cancellations, flushes and timers, then a last call, then
time in which only timers work.  Once the interval has passed and the due timers have fired, the
last thing that happened is the invocation with the arguments of the last call, made no earlier
than the call, and nothing is pending.  The function may raise.  Missing from the full claim, for
throttlers: a last call made while the thread of the very first timer or of a cancelled timer has
not ended yet (`C37_startup_refuted`, `C37_cancel_refuted`); and threads (`C37_race_refuted`). -/
theorem C37_partial (c : Cfg) (rs : St → Bool) (es es' : List Ev) (a : Nat)
    (hz : c.kind = .throttler → ∀ t, (run c rs es St.init).timers[(run c rs es St.init).cur]? = some t →
      t.alive = true → t.cb = true ∧ t.finished = false)
    (hq : ∀ e ∈ es', e = .tick ∨ (∃ k, e = .fire k) ∨ ∃ k, e = .reap k)
    (hs : Settled (run c rs (es ++ .call a :: es') St.init))
    (ht : (run c rs es St.init).now + c.interval ≤ (run c rs (es ++ .call a :: es') St.init).now) :
    (run c rs (es ++ .call a :: es') St.init).pending = false ∧
    ∃ p t, (run c rs (es ++ .call a :: es') St.init).trace = p ++ [.invoked t a a] ∧
      (run c rs es St.init).now ≤ t := by
  have happ : ∀ (l l' : List Ev) s, run c rs (l ++ l') s = run c rs l' (run c rs l s) := by
    intro l l'
    induction l with
    | nil => exact fun _ => rfl
    | cons e l ih => exact fun s => ih _
  rw [happ] at hs ht ⊢
  obtain ⟨hg, hn⟩ := run_view c rs (fun _ => True) (Near c) (fun _ _ _ h _ _ _ => near_step h) es good_init
    (init_ok c).2.2.1 (fun _ _ => trivial)
  generalize run c rs es St.init = s at *
  simp only [run] at hs ht ⊢
  obtain ⟨hg1, r, _, hv⟩ := step_view c rs hg (.call a)
  have hv : (step c rs s (.call a)).view = s.view.step c r (.call a) := by
    rcases hv with hv | ⟨_, ⟨k, e⟩ | ⟨k, e⟩⟩
    · exact hv
    · cases e
    · cases e
  have hsv : Served c s.now a (step c rs s (.call a)).view := by
    rw [hv]
    exact served_call a hn (fun hk hal => hz hk _ (tm_get hg.cur) hal) hg.rest
  obtain ⟨hg2, hend⟩ := run_view c rs Ev.quiet (Served c s.now a) (fun v e r h he _ _ => served_step h he) es' hg1 hsv
    (by
      intro e hm
      rcases hq e hm with rfl | ⟨k, rfl⟩ | ⟨k, rfl⟩ <;> trivial)
  generalize run c rs es' (step c rs s (.call a)) = s' at *
  obtain ⟨_, ⟨_, _, _, d, h4, h5⟩ | ⟨h1, p, t', h2, h3⟩⟩ := hend
  · exfalso
    have hm := hs s'.tm (List.mem_of_getElem? (tm_get hg2.cur))
    have h4 : s'.tm = ⟨true, .waiting d, false⟩ := h4
    rw [h4] at hm
    simp only [Timer.overdue, Bool.not_false, Bool.true_and, decide_eq_false_iff_not] at hm
    omega
  · exact ⟨h1, p, t', h2, h3⟩

/-- **C37/C38** for both classes and policies, with `cancel` and `flush`, for functions that may
raise: every invocation directly follows the call whose positional and keyword arguments it gets.
In particular there is at most one per call, no later call came in between, and none is made
after a cancellation.  Missing from the full claim here and in the next three theorems: threads
(`C38_race_refuted`). -/
theorem C38_last_args_partial (c : Cfg) (rs : St → Bool) (es : List Ev) {p q : List Obs} {t a k : Nat}
    (h : (run c rs es St.init).trace = p ++ .invoked t a k :: q) :
    k = a ∧ ∃ p' t0, p = p' ++ [.called t0 a] :=
  (run_view c rs (fun _ => True) Args (fun _ _ _ h _ _ _ => args_step h) es good_init (init_ok c).2.1
    (fun _ _ => trivial)).2.each _ _ _ _ _ h

/-- **C38**: without `flush`, a trailing debouncer invokes the function only after at least the
interval has elapsed since the last call, which directly precedes it in the trace. -/
theorem C38_quiet_partial (c : Cfg) (hk : c.kind = .debouncer) (hl : c.leading = false) (rs : St → Bool) (es : List Ev)
    (hf : .flush ∉ es) {p q : List Obs} {t a k : Nat}
    (h : (run c rs es St.init).trace = p ++ .invoked t a k :: q) :
    k = a ∧ ∃ p' t0, p = p' ++ [.called t0 a] ∧ t0 + c.interval ≤ t := by
  have hx := (run_view c rs (fun e => e ≠ .flush) (Late c) (fun v e r h he _ _ => late_step hk hl h he) es good_init
    (init_ok c).2.2.2 (fun e hm e' => hf (e' ▸ hm))).2
  exact ⟨(hx.args.each _ _ _ _ _ h).1, hx.each _ _ _ _ _ h⟩

/-- **C38**: after `cancel` the function is not invoked until the wrapper is called again; only
further cancellations can be seen. -/
theorem C38_cancel_partial (c : Cfg) (rs : St → Bool) (es es' : List Ev) (he : ∀ a, .call a ∉ es') :
    ∃ q, (run c rs es' (step c rs (run c rs es St.init) .cancel)).trace =
      (run c rs es St.init).trace ++ q ∧ ∀ o ∈ q, ∃ t, o = .cancelled t := by
  obtain ⟨hg, _⟩ := run_view c rs (fun _ => True) (fun _ => True) (fun _ _ _ _ _ _ _ => trivial) es good_init trivial
    (fun _ _ => trivial)
  generalize run c rs es St.init = s at *
  obtain ⟨hg1, r, _, hv⟩ := step_view c rs hg .cancel
  have hv : (step c rs s .cancel).view = s.view.step c r .cancel := by
    rcases hv with hv | ⟨_, ⟨k, e⟩ | ⟨k, e⟩⟩
    · exact hv
    · cases e
    · cases e
  exact (run_view c rs (fun e => ∀ a, e ≠ .call a)
    (fun v => v.pending = false ∧ ∃ q, v.trace = s.trace ++ q ∧ ∀ o ∈ q, ∃ t, o = .cancelled t)
    (fun v e r h he _ _ => idle_step h he) es' hg1 (by
      rw [hv]
      exact ⟨rfl, [.cancelled s.now], rfl, by simp⟩) (fun e hm a e' => he a (e' ▸ hm))).2.2

/-- **C38**: `flush` invokes the function at once if the last thing that happened is a call, with
its arguments, and does nothing otherwise. -/
theorem C38_flush_partial (c : Cfg) (rs : St → Bool) (es : List Ev) :
    (∀ p t a, (run c rs es St.init).trace = p ++ [.called t a] →
      (run c rs (es ++ [.flush]) St.init).trace =
        p ++ [.called t a, .invoked (run c rs es St.init).now a a]) ∧
    ((∀ p t a, (run c rs es St.init).trace ≠ p ++ [.called t a]) →
      run c rs (es ++ [.flush]) St.init = run c rs es St.init) := by
  have happ : ∀ (l l' : List Ev) s, run c rs (l ++ l') s = run c rs l' (run c rs l s) := by
    intro l l'
    induction l with
    | nil => exact fun _ => rfl
    | cons e l ih => exact fun s => ih _
  obtain ⟨hg, ha⟩ := run_view c rs (fun _ => True) Args (fun _ _ _ h _ _ _ => args_step h) es good_init (init_ok c).2.1
    (fun _ _ => trivial)
  rw [happ]
  generalize run c rs es St.init = s at *
  simp only [run, step, flushProg, exec_callIfHasPending]
  constructor
  · intro p t a htr
    have hp : s.pending = true := by
      rcases hp : s.pending with _ | _
      · exact absurd htr (ha.no hp p t a)
      · rfl
    obtain ⟨h1, p', t', h2⟩ := ha.yes hp
    have h2 : s.trace = p' ++ [.called t' s.args] := h2
    have h1 : s.kwargs = s.args := h1
    rw [htr] at h2
    have h3 := List.append_inj_right' h2 rfl
    have h4 : a = s.args := by cases h3; rfl
    rw [if_pos hp]
    have : ∀ x : St, x.trace = s.trace ++ [.invoked s.now s.args s.kwargs] →
        x.trace = p ++ [.called t a, .invoked s.now a a] := by
      intro x hx
      rw [hx, htr, h1, h4]
      simp
    split
    · exact this _ rfl
    · exact this _ rfl
  · intro h
    rw [if_neg]
    intro hp
    obtain ⟨_, p, t, h2⟩ := ha.yes hp
    exact h p t _ h2

/-! ## Examples -/
namespace Ex

/-- A throttler with interval 3: calls at 0, 1 and 2; the timer is late. -/
def calls : List Ev := [.fire 0, .call 1, .tick, .call 2, .tick, .call 3, .tick, .tick, .fire 1, .tick, .call 4]

example : (run ⟨.throttler, true, 3⟩ (fun _ => false) calls St.init).trace =
    [.called 0 1, .invoked 0 1 1, .called 1 2, .called 2 3, .invoked 4 3 3, .called 5 4] := by decide

example : NoCancelFlush calls := ⟨by decide, by decide⟩

/-- `C37_partial`: the hypotheses hold for the history above, both classes and policies. -/
example : ∀ kind leading, (run ⟨kind, leading, 3⟩ (fun _ => false) (calls ++ [.tick, .tick, .tick, .fire 2, .fire 3, .fire 4, .fire 5]) St.init).pending = false ∧
    Settled (run ⟨kind, leading, 3⟩ (fun _ => false) (calls ++ [.tick, .tick, .tick, .fire 2, .fire 3, .fire 4, .fire 5]) St.init) := by
  intro kind leading
  cases kind <;> cases leading <;> decide

example : ∀ t, (run ⟨.throttler, true, 3⟩ (fun _ => false) calls.dropLast St.init).timers[(run ⟨.throttler, true, 3⟩ (fun _ => false) calls.dropLast St.init).cur]? = some t →
    t.alive = true → t.cb = true ∧ t.finished = false := by
  intro t h
  have : t = ⟨true, .waiting 7, false⟩ := by
    have h' : some (⟨true, .waiting 7, false⟩ : Timer) = some t := by rw [← h]; decide
    exact (Option.some.inj h').symm
  subst this
  decide

/-- A debouncer with interval 3: a burst of two calls, a cancelled call, a flushed call. -/
example : (run ⟨.debouncer, false, 3⟩ (fun _ => false) [.call 1, .tick, .call 2, .tick, .tick, .fire 1, .tick, .fire 2,
    .call 3, .cancel, .tick, .tick, .tick, .fire 4, .call 4, .flush] St.init).trace =
    [.called 0 1, .called 1 2, .invoked 4 2 2, .called 4 3, .cancelled 4, .called 7 4, .invoked 7 4 4] := by decide

end Ex

/-! ## Disagreements -/

/-- If the throttled function raises, no timer is started (`_throttler.py:46-48`): the next call
comes at once. -/
theorem C36_raise_refuted : ∃ (c : Cfg) (rs : St → Bool) (es : List Ev), c.kind = .throttler ∧ 0 < c.interval ∧
    NoCancelFlush es ∧
    (run c rs es St.init).trace = [.called 0 1, .invoked 0 1 1, .called 0 2, .invoked 0 2 2] :=
  ⟨⟨.throttler, true, 3⟩, fun _ => true, [.fire 0, .call 1, .call 2], rfl, by decide, ⟨by decide, by decide⟩, by decide⟩

/-- The first timer, of 0 seconds, may still be alive when the throttled function is called for the
first time (`_throttler.py:33-34,109`): the call is lost.  Nothing is going to invoke the function,
however long one waits. -/
theorem C37_startup_refuted (leading : Bool) (es : List Ev)
    (hq : ∀ e ∈ es, e = .tick ∨ (∃ k, e = .fire k) ∨ ∃ k, e = .reap k) :
    (run ⟨.throttler, leading, 3⟩ (fun _ => false) (.call 1 :: es) St.init).trace = [.called 0 1] := by
  have hg : Good (run ⟨.throttler, leading, 3⟩ (fun _ => false) [.call 1] St.init) :=
    (run_view _ _ (fun _ => True) (fun _ => True) (fun _ _ _ _ _ _ _ => trivial) [.call 1] good_init trivial
      (fun _ _ => trivial)).1
  refine (run_view ⟨.throttler, leading, 3⟩ (fun _ => false) Ev.quiet
    (fun v => v.trace = [.called 0 1] ∧ v.tm.cb = false) ?_ es hg ?_ ?_).2.1
  · intro v e r h he _ _
    rcases v with ⟨now, pend, args, kwargs, ⟨cb, st, fin⟩, tr⟩
    obtain ⟨h1, h2⟩ := h
    simp only at h1 h2
    subst h1; subst h2
    cases e with
    | tick => exact ⟨rfl, rfl⟩
    | fire k =>
      simp only [View.step]
      split
      · rename_i heq
        simp only [Timer.mk.injEq] at heq
        obtain ⟨rfl, _, _⟩ := heq
        split
        · rw [if_neg (by simp)]; exact ⟨rfl, rfl⟩
        · exact ⟨rfl, rfl⟩
      · exact ⟨rfl, rfl⟩
    | reap k =>
      simp only [View.step]
      split
      · rename_i heq
        simp only [Timer.mk.injEq] at heq
        obtain ⟨rfl, _, _⟩ := heq
        exact ⟨rfl, rfl⟩
      · exact ⟨rfl, rfl⟩
    | _ => exact he.elim
  · cases leading <;> exact ⟨rfl, rfl⟩
  · intro e hm
    rcases hq e hm with rfl | ⟨k, rfl⟩ | ⟨k, rfl⟩ <;> trivial

/-- The thread of a cancelled timer is alive until it wakes up (`_throttler.py:62,109`): a call
right after `cancel()` is lost. -/
theorem C37_cancel_refuted : ∃ (es es' : List Ev) (a : Nat),
    (∀ e ∈ es', e = .tick ∨ (∃ k, e = .fire k) ∨ ∃ k, e = .reap k) ∧
    Settled (run ⟨.throttler, true, 3⟩ (fun _ => false) (es ++ .call a :: es') St.init) ∧
    (run ⟨.throttler, true, 3⟩ (fun _ => false) es St.init).now + 3 ≤
      (run ⟨.throttler, true, 3⟩ (fun _ => false) (es ++ .call a :: es') St.init).now ∧
    (run ⟨.throttler, true, 3⟩ (fun _ => false) (es ++ .call a :: es') St.init).pending = true ∧
    (run ⟨.throttler, true, 3⟩ (fun _ => false) (es ++ .call a :: es') St.init).trace =
      [.called 0 1, .invoked 0 1 1, .cancelled 0, .called 0 2] :=
  ⟨[.fire 0, .call 1, .cancel], [.reap 1, .tick, .tick, .tick], 2, by
    intro e hm
    simp only [List.mem_cons, List.not_mem_nil, or_false] at hm
    rcases hm with rfl | rfl | rfl | rfl
    · exact .inr (.inr ⟨1, rfl⟩)
    all_goals exact .inl rfl, by decide, by decide, by decide, by decide⟩

/-- All threads have ended and all due timers have fired. -/
def Idle (w : World) : Prop := (∀ t ∈ w.threads, t.stack.length = 0 ∧ t.timer = none) ∧ Settled w.st

instance (w : World) : Decidable (Idle w) := by unfold Idle; infer_instance

/-- `n` steps of thread `i`. -/
def Ex.steps (n i : Nat) : List MEv := List.replicate n (.go i)

/-- Two threads call a throttler at the same time, both find that no timer is alive, and both
invoke the function (`_throttler.py:109-111`). -/
theorem C36_threads_refuted : ∃ ms : List MEv,
    (microRun ⟨.throttler, true, 3⟩ (fun _ => .returns) ms ⟨St.init, []⟩).st.trace =
      [.called 0 1, .called 0 2, .invoked 0 2 2, .invoked 0 2 2] :=
  ⟨[.fire 0] ++ Ex.steps 1 0 ++ [.call 1, .call 2] ++ Ex.steps 5 1 ++ Ex.steps 7 2 ++ Ex.steps 2 1, by decide⟩

/-- A function that calls its own throttled version (for example by emitting a signal) is invoked
again at once (`_throttler.py:46-48`). -/
theorem C36_reentrant_refuted : ∃ (beh : St → Beh) (ms : List MEv),
    (microRun ⟨.throttler, true, 3⟩ beh ms ⟨St.init, []⟩).st.trace =
      [.called 0 1, .invoked 0 1 1, .called 0 2, .invoked 0 2 2] :=
  ⟨fun s => if s.args = 1 then .calls 2 else .returns,
    [.fire 0] ++ Ex.steps 1 0 ++ [.call 1] ++ Ex.steps 14 1, by decide⟩

/-- A call between the timer's test of `_has_pending` and the end of its thread is lost
(`_throttler.py:51-52,104-109`): at the end all threads are done, all timers have fired, the call
is pending and was not executed. -/
theorem C37_race_refuted : ∃ ms : List MEv,
    let w := microRun ⟨.throttler, true, 3⟩ (fun _ => .returns) ms ⟨St.init, []⟩
    Idle w ∧ w.st.pending = true ∧ w.st.trace = [.called 0 1, .invoked 0 1 1, .called 3 2] ∧ w.st.now = 6 :=
  ⟨[.fire 0] ++ Ex.steps 1 0 ++ [.call 1] ++ Ex.steps 11 1 ++ [.tick, .tick, .tick, .fire 1] ++
    Ex.steps 1 2 ++ [.call 2] ++ Ex.steps 6 3 ++ Ex.steps 2 2 ++ [.tick, .tick, .tick], by decide +kernel⟩

/-- The debouncer loses a call made while its timer is about to invoke the function for an earlier
one (`_throttler.py:46-47,142-144`): the timer clears the flag that the call has set. -/
theorem C37_debouncer_race_refuted : ∃ ms : List MEv,
    let w := microRun ⟨.debouncer, false, 3⟩ (fun _ => .returns) ms ⟨St.init, []⟩
    Idle w ∧ w.st.pending = false ∧ w.st.trace = [.called 0 1, .called 3 2, .invoked 3 1 1] ∧ w.st.now = 9 :=
  ⟨[.fire 0] ++ Ex.steps 1 0 ++ [.call 1] ++ Ex.steps 9 1 ++ [.tick, .tick, .tick, .fire 1] ++
    Ex.steps 1 2 ++ [.call 2] ++ Ex.steps 2 3 ++ Ex.steps 7 2 ++ Ex.steps 8 3 ++ [.reap 2, .tick, .tick, .tick, .fire 3] ++
    Ex.steps 9 4 ++ [.tick, .tick, .tick, .fire 4] ++ Ex.steps 9 5, by decide +kernel⟩

/-- In the same schedule the function is invoked less than the interval after the last call, and with
the arguments of the call before. -/
theorem C38_race_refuted : ∃ (ms : List MEv) (p q : List Obs),
    (microRun ⟨.debouncer, false, 3⟩ (fun _ => .returns) ms ⟨St.init, []⟩).st.trace =
      p ++ .called 3 2 :: .invoked 3 1 1 :: q :=
  ⟨[.fire 0] ++ Ex.steps 1 0 ++ [.call 1] ++ Ex.steps 9 1 ++ [.tick, .tick, .tick, .fire 1] ++
    Ex.steps 1 2 ++ [.call 2] ++ Ex.steps 2 3 ++ Ex.steps 2 2, [.called 0 1], [], by decide⟩

/-- The function is invoked with the positional arguments of one call and the keywords of another
(`_throttler.py:47,143-144`). -/
theorem C37_torn_refuted : ∃ ms : List MEv,
    .invoked 3 2 1 ∈ (microRun ⟨.debouncer, false, 3⟩ (fun _ => .returns) ms ⟨St.init, []⟩).st.trace :=
  ⟨[.fire 0] ++ Ex.steps 1 0 ++ [.call 1] ++ Ex.steps 9 1 ++ [.tick, .tick, .tick, .fire 1] ++
    [.call 2] ++ Ex.steps 3 3 ++ Ex.steps 7 2, by decide⟩

end Psygnal.Thr
