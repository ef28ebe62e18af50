import Verif.ThrottleSlotLemmas
import Verif.Props.Throttle

/-! # C77: throttled and debounced functions as callbacks -/
namespace Psygnal.ThS

/-! ## The calls -/

/-- The calls in a trace. -/
def calledIn (l : List Thr.Obs) : List Nat :=
  l.filterMap fun
    | .called _ a => some a
    | _ => none

theorem calledIn_append (l l' : List Thr.Obs) : calledIn (l ++ l') = calledIn l ++ calledIn l' := List.filterMap_append ..

theorem invoke_called (s : Thr.St) : calledIn s.invoke.trace = calledIn s.trace := by
  simp [Thr.St.invoke, Thr.St.obs, calledIn]

theorem restart_called (c : Thr.Cfg) (s : Thr.St) : calledIn (s.restart c).trace = calledIn s.trace := rfl

theorem pend_called (c : Thr.Cfg) (s : Thr.St) :
    calledIn (Thr.exec c (fun _ => false) Thr.callIfHasPending s).trace = calledIn s.trace := by
  rw [Thr.exec_callIfHasPending]
  split
  · simp only [Bool.false_eq_true, if_false, restart_called, invoke_called]
  · rfl

theorem step_called (c : Thr.Cfg) (s : Thr.St) (ev : Thr.Ev) :
    calledIn (Thr.step c (fun _ => false) s ev).trace = calledIn s.trace ++ calls [ev] := by
  cases ev with
  | tick => simp [Thr.step, calls]
  | call a =>
    have h1 : ∀ s' : Thr.St, s'.trace = s.trace ++ [.called s.now a] → calledIn s'.trace = calledIn s.trace ++ calls [.call a] := by
      intro s' h
      rw [h, calledIn_append]; rfl
    simp only [Thr.step, Thr.callProg, Thr.exec]
    cases c.kind
    · simp only [Thr.exec]
      split
      · exact h1 _ rfl
      · split
        · rw [Thr.exec_actuallyCall]
          simp only [Bool.false_eq_true, if_false, Thr.exec, restart_called, invoke_called]
          exact h1 _ rfl
        · rw [Thr.exec_startTimer]
          simp only [Thr.exec, restart_called]
          exact h1 _ rfl
    · simp only [Thr.exec]
      split
      · rw [Thr.exec_startTimer]
        simp only [Thr.exec, restart_called]
        exact h1 _ rfl
      · split
        · rw [Thr.exec_actuallyCall]
          simp only [Bool.false_eq_true, if_false, Thr.exec_startTimer, Thr.exec, restart_called, invoke_called]
          exact h1 _ rfl
        · rw [Thr.exec_startTimer]
          simp only [Thr.exec, restart_called]
          exact h1 _ rfl
  | cancel =>
    simp only [Thr.step, Thr.cancelProg, Thr.exec, Thr.St.obs, calledIn_append]
    rfl
  | flush =>
    simp only [Thr.step, Thr.flushProg, pend_called]
    simp [calls]
  | fire k =>
    simp only [Thr.step]
    split
    · simp [calls]
    · split
      · show calledIn (Thr.exec c _ _ _).trace = _
        rw [pend_called]
        simp [calls, Thr.St.upd]
      · simp [calls, Thr.St.upd]
  | reap k =>
    simp only [Thr.step, Thr.reap]
    split <;> simp [calls, Thr.St.upd]

theorem thr_called (c : Thr.Cfg) : ∀ (es : List Thr.Ev) (s : Thr.St), calledIn (thr c es s).trace = calledIn s.trace ++ calls es
  | [], s => by simp [thr, Thr.run, calls]
  | ev :: es, s => by
    show calledIn (thr c es (Thr.step c _ s ev)).trace = _
    rw [thr_called c es, step_called, List.append_assoc]
    congr 1
    show calls [ev] ++ calls es = calls ([ev] ++ es)
    simp only [calls]
    rw [← List.filterMap_append]

/-- **C77**: take any history of any number of signals and throttled or debounced functions, with connections, emissions, calls, cancellations, dropped
references, garbage collections and late timers.  Every invocation of a wrapped function directly follows a call of its wrapper, the `a`-th, whose
arguments it gets. -/
theorem C77_args_partial (e : Env) (l : List Op) {w : Nat} {x : Wrap} (h : (run e l init).wraps[w]? = some x) {p q : List Thr.Obs} {t a k : Nat}
    (ht : x.st.trace = p ++ .invoked t a k :: q) :
    k = a ∧ (∃ args, x.seen[a]? = some args) ∧ ∃ p' t0, p = p' ++ [.called t0 a]
      ∧ a = p'.countP fun | .called _ _ => true | _ => false := by
  obtain ⟨es, h1, h2, _⟩ := made e l h
  rw [h1] at ht
  obtain ⟨h3, p', t0, h4⟩ := Thr.C38_last_args_partial x.cfg (fun _ => false) es ht
  have h5 := thr_called x.cfg es Thr.St.init
  rw [ht, h4, h2] at h5
  simp only [calledIn_append, Thr.St.init] at h5
  have h6 : calledIn p' ++ a :: calledIn q = List.range' 0 x.seen.length := by
    simpa [calledIn] using h5
  have h7 : (calledIn p').length = p'.countP fun | .called _ _ => true | _ => false := by
    clear h5 h6 h4
    induction p' with
    | nil => rfl
    | cons o l ih =>
      rw [List.countP_cons, ← ih]
      cases o <;> simp [calledIn]
  have h8 : (List.range' 0 x.seen.length)[(calledIn p').length]? = some a := by
    rw [← h6]; simp
  have hlt : (calledIn p').length < x.seen.length := by
    have := congrArg List.length h6
    simp at this
    omega
  rw [List.getElem?_range' hlt] at h8
  have h9 : a = (calledIn p').length := by
    simp only [Option.some.injEq] at h8
    omega
  refine ⟨h3, ⟨x.seen[a]'(by omega), List.getElem?_eq_getElem _⟩, p', t0, h4, by rw [← h7]; exact h9⟩

/-- **C77**: whatever signals it is connected to, a throttled function is not invoked twice within the interval, unless it is cancelled or flushed. -/
theorem C77_once_partial (e : Env) (l : List Op) {w : Nat} {x : Wrap} (h : (run e l init).wraps[w]? = some x) (hk : x.cfg.kind = .throttler)
    (hc : .cancel w ∉ l) (hf : .flush w ∉ l) {p q r : List Thr.Obs} {t a k t' a' k' : Nat}
    (ht : x.st.trace = p ++ .invoked t a k :: q ++ .invoked t' a' k' :: r) : t + x.cfg.interval ≤ t' := by
  obtain ⟨es, h1, _, h3⟩ := made e l h
  rw [h1] at ht
  refine Thr.C36_partial hk es ⟨fun hm => ?_, fun hm => ?_⟩ ht
  · obtain ⟨op, h4, h5⟩ := h3 _ hm
    have h5 : op = .cancel w := h5
    exact hc (h5 ▸ h4)
  · obtain ⟨op, h4, h5⟩ := h3 _ hm
    have h5 : op = .flush w := h5
    exact hf (h5 ▸ h4)

/-- **C77**: whatever signals it is connected to, a debounced function (trailing) is invoked only when the interval has passed since the last
call, unless it is flushed. -/
theorem C77_quiet_partial (e : Env) (l : List Op) {w : Nat} {x : Wrap} (h : (run e l init).wraps[w]? = some x) (hk : x.cfg.kind = .debouncer)
    (hl : x.cfg.leading = false) (hf : .flush w ∉ l) {p q : List Thr.Obs} {t a k : Nat} (ht : x.st.trace = p ++ .invoked t a k :: q) :
    ∃ p' t0, p = p' ++ [.called t0 a] ∧ t0 + x.cfg.interval ≤ t := by
  obtain ⟨es, h1, _, h3⟩ := made e l h
  rw [h1] at ht
  refine (Thr.C38_quiet_partial x.cfg hk hl (fun _ => false) es (fun hm => ?_) ht).2
  obtain ⟨op, h4, h5⟩ := h3 _ hm
  have h5 : op = .flush w := h5
  exact hf (h5 ▸ h4)

/-! ## Which calls there are -/

/-- What a function that needs `lo` arguments and accepts `hi` is called with if the throttler is connected as often as it was connected and not
disconnected: `held` says that the program has a reference, `c` how often each signal has it. -/
def expected (e : Env) (lo : Nat) (hi : Option Nat) (w : Nat) : List Op → Bool → (Nat → Nat) → List (List Nat)
  | [], _, _ => []
  | .connect s w' :: l, held, c =>
    expected e lo hi w l held fun s' => if s' = s ∧ w' = w ∧ held = true ∧ lo ≤ e.arity s then c s' + 1 else c s'
  | .disconnect s w' :: l, held, c => expected e lo hi w l held fun s' => if s' = s ∧ w' = w ∧ held = true then c s' - 1 else c s'
  | .emit s args :: l, held, c =>
    List.replicate (c s) (match hi with | none => args | some n => args.take n) ++ expected e lo hi w l held c
  | .call w' args :: l, held, c => (if w' = w ∧ held = true then [args] else []) ++ expected e lo hi w l held c
  | .drop w' :: l, held, c => expected e lo hi w l (held && decide (w' ≠ w)) c
  | _ :: l, held, c => expected e lo hi w l held c

/-- How often throttler `w` is connected to signal `s`. -/
def count (σ : St) (w s : Nat) : Nat := σ.slots.countP fun b => decide (b.sig = s ∧ b.tgt = w)

theorem remove_count (s w s' : Nat) : ∀ l : List Slot,
    (remove s w l).countP (fun b => decide (b.sig = s' ∧ b.tgt = w)) = if s' = s then l.countP (fun b => decide (b.sig = s' ∧ b.tgt = w)) - 1
      else l.countP (fun b => decide (b.sig = s' ∧ b.tgt = w))
  | [] => by simp [remove]
  | b :: l => by
    have ih := remove_count s w s' l
    rw [remove]
    by_cases hb : b.sig = s ∧ b.tgt = w
    · rw [if_pos hb, List.countP_cons]
      obtain ⟨rfl, rfl⟩ := hb
      by_cases hs : s' = b.sig
      · simp [hs]
      · simp [hs, Ne.symm hs]
    · rw [if_neg hb, List.countP_cons, List.countP_cons, ih]
      by_cases hs : s' = s
      · subst hs; simp [hb]
      · simp [hs]

theorem remove_other (s w : Nat) {v : Nat} (hv : w ≠ v) (s' : Nat) : ∀ l : List Slot,
    (remove s w l).countP (fun b => decide (b.sig = s' ∧ b.tgt = v)) = l.countP (fun b => decide (b.sig = s' ∧ b.tgt = v))
  | [] => rfl
  | b :: l => by
    rw [remove]
    split
    · rename_i hb
      rw [List.countP_cons, hb.2]; simp [hv]
    · rw [List.countP_cons, List.countP_cons, remove_other s w hv s' l]

theorem kill_count {σ : St} {v w : Nat} (hv : v ≠ w ∨ ∀ b ∈ σ.slots, b.tgt ≠ w) (s : Nat) : count (kill v σ) w s = count σ w s := by
  simp only [count, kill, List.countP_filter]
  apply List.countP_congr
  intro b hb
  rcases hv with hv | hv
  · simp only [Bool.and_eq_true, decide_eq_true_eq, and_iff_left_iff_imp, and_imp]
    intro _ h; rw [h]; exact Ne.symm hv
  · have := hv b hb
    simp [this]

theorem gc_count (e : Env) {σ : St} {w : Nat} (v : Nat) (hw : e.weak = false ∨ σ.held w = true) (s : Nat) : count (gc e v σ) w s = count σ w s := by
  unfold gc
  split
  · rename_i hf
    apply kill_count
    by_cases hv : v = w
    · right
      subst hv
      unfold free at hf
      split at hf
      · cases hf
      · rename_i x hx
        simp only [Bool.and_eq_true, Bool.not_eq_true', Bool.or_eq_true, List.any_eq_false, beq_iff_eq] at hf
        rcases hw with hw | hw
        · rcases hf.2 with h | h
          · rw [hw] at h; cases h
          · exact h
        · rw [held_get hx, hf.1.1] at hw; cases hw
    · exact .inl hv
  · rfl

theorem connect_other (e : Env) (s : Nat) {v w : Nat} (hv : v ≠ w) (σ : St) (s' : Nat) : count (connect e s v σ).2 w s' = count σ w s' := by
  unfold connect
  split
  · rfl
  · split
    · split
      · simp [count, hv]
      · rfl
    · rfl

/-- **C77**: while the program has a reference to the throttler, or if throttlers cannot be weakly referenced, emissions call the wrapper exactly as
often as it is connected, in order, with as many of the emitted arguments as the wrapped function accepts.  Missing: see
`C77_forgotten_refuted`. -/
theorem C77_calls_partial (e : Env) : ∀ (l : List Op) {σ : St}, (∃ l0, σ = run e l0 init) → ∀ {w : Nat} {x : Wrap}, σ.wraps[w]? = some x →
    e.weak = false ∨ (x.held = true ∧ .drop w ∉ l) → ∃ x', (run e l σ).wraps[w]? = some x'
      ∧ x'.seen = x.seen ++ expected e x.lo x.hi w l x.held fun s => σ.slots.countP fun b => decide (b.sig = s ∧ b.tgt = w)
  | [], σ, _, w, x, h, _ => ⟨x, h, by simp [expected]⟩
  | op :: l, σ, ⟨l0, hl0⟩, w, x, h, hw => by
    have hi : Inv σ := hl0 ▸ run_inv e l0 inv_init
    have hr : ∃ l1, (step e σ op).2 = run e l1 init := ⟨l0 ++ [op], by rw [run_append, ← hl0]; rfl⟩
    obtain ⟨y, es, h1, h2, _, h4⟩ := step_ext e hi op h
    obtain ⟨z, k1, k2⟩ := C77_calls_partial e l hr h1 (by
      rcases hw with hw | hw
      · exact .inl hw
      · rw [List.mem_cons, not_or] at hw
        exact .inr ⟨by rw [h4, hw.1]; simp [Ne.symm hw.2.1], hw.2.2⟩)
    refine ⟨z, k1, ?_⟩
    rw [k2, h2.seen, h2.lo, h2.hi, h4, List.append_assoc]
    congr 1
    show given σ w op ++ expected e x.lo x.hi w l _ (count (step e σ op).2 w) = expected e x.lo x.hi w (op :: l) x.held (count σ w)
    have hh : σ.held w = x.held := held_get h
    have hw' : e.weak = false ∨ σ.held w = true := by
      rcases hw with hw | hw
      · exact .inl hw
      · rw [hh]; exact .inr hw.1
    cases op with
    | make kind t ld lo hi' =>
      simp only [given, expected, List.nil_append, ne_eq, reduceCtorEq, not_false_eq_true, decide_true, Bool.and_true, step]
      rfl
    | connect s v =>
      simp only [given, expected, List.nil_append, ne_eq, reduceCtorEq, not_false_eq_true, decide_true, Bool.and_true]
      congr 1
      funext s'
      simp only [step]
      by_cases hv : v = w
      · subst hv
        simp only [connect, h]
        by_cases hx : x.held = true
        · by_cases ha : x.lo ≤ e.arity s
          · by_cases hs : s' = s
            · simp [hx, ha, count, hs]
            · simp [hx, ha, count, hs, Ne.symm hs]
          · simp [hx, ha]
        · simp [hx]
      · rw [connect_other e s hv]; simp [hv]
    | disconnect s v =>
      simp only [given, expected, List.nil_append, ne_eq, reduceCtorEq, not_false_eq_true, decide_true, Bool.and_true]
      congr 1
      funext s'
      simp only [step]
      by_cases hv : v = w
      · subst hv
        rw [hh]
        by_cases hx : x.held = true
        · simp only [hx, if_true, count, remove_count, and_true]
        · simp [hx]
      · split
        · simp only [count, remove_other s v hv]; simp [hv]
        · simp [hv]
    | emit s args =>
      simp only [given, expected, ne_eq, reduceCtorEq, not_false_eq_true, decide_true, Bool.and_true, step]
      congr 1
      rw [List.eq_replicate_iff]
      refine ⟨by simp [heard, count, List.countP_eq_length_filter], fun a ha => ?_⟩
      obtain ⟨b, hb, rfl⟩ := List.mem_map.mp ha
      simp only [List.mem_filter, decide_eq_true_eq] at hb
      obtain ⟨y', j1, _, j3⟩ := hi.slot b hb.1
      rw [hb.2.2, h] at j1
      cases j1
      rw [j3]
      rfl
    | call v args =>
      simp only [given, expected, ne_eq, reduceCtorEq, not_false_eq_true, decide_true, Bool.and_true, hh]
      congr 2
      simp only [step]
      split <;> rfl
    | cancel v =>
      simp only [given, expected, List.nil_append, ne_eq, reduceCtorEq, not_false_eq_true, decide_true, Bool.and_true, step]
      congr 1
      split <;> rfl
    | flush v =>
      simp only [given, expected, List.nil_append, ne_eq, reduceCtorEq, not_false_eq_true, decide_true, Bool.and_true, step]
      congr 1
      split <;> rfl
    | drop v =>
      simp only [given, expected, List.nil_append, ne_eq, Op.drop.injEq]
      congr 1
      funext s'
      simp only [step, unref]
      have : e.weak = false ∨ ({ σ with wraps := σ.wraps.modify v fun x => { x with held := false } } : St).held w = true := by
        rcases hw with hw | hw
        · exact .inl hw
        · have hv : v ≠ w := fun hv => hw.2 (by simp [hv])
          refine .inr ?_
          simp only [St.held, modify_get, if_neg hv, h]
          exact hw.1
      split
      · rfl
      · split
        · rw [gc_count e v this]; rfl
        · rfl
    | gc v =>
      simp only [given, expected, List.nil_append, ne_eq, reduceCtorEq, not_false_eq_true, decide_true, Bool.and_true, step]
      congr 1
      funext s'
      exact gc_count e v hw' s'
    | tick =>
      simp only [given, expected, List.nil_append, ne_eq, reduceCtorEq, not_false_eq_true, decide_true, Bool.and_true, step]
      rfl
    | fire v k =>
      simp only [given, expected, List.nil_append, ne_eq, reduceCtorEq, not_false_eq_true, decide_true, Bool.and_true, step]
      rfl
    | reap v k =>
      simp only [given, expected, List.nil_append, ne_eq, reduceCtorEq, not_false_eq_true, decide_true, Bool.and_true, step]
      rfl

/-- **C77**: emissions never fail because a throttler has gone. -/
theorem C77_safe (e : Env) (l : List Op) (s : Nat) (args : List Nat) : (step e (run e l init) (.emit s args)).1 = true :=
  (emitLoop_spec s args _ _ fun b hb => by
    obtain ⟨y, h1, h2, _⟩ := (run_inv e l inv_init).slot b hb
    exact ⟨y, h1, h2⟩).1

/-! ## The last emission -/

theorem callAll_append (l : List (List Nat)) (a : List Nat) (x : Wrap) : callAll (l ++ [a]) x = (callAll l x).call a := by
  simp [callAll]

/-- The timer that is alive is going to call the throttler. -/
def Ready (c : Thr.Cfg) (s : Thr.St) : Prop :=
  c.kind = .throttler → ∀ t, s.timers[s.cur]? = some t → t.alive = true → t.cb = true ∧ t.finished = false

theorem ready_call {c : Thr.Cfg} {s : Thr.St} (hg : Thr.Good s) (h : Ready c s) (a : Nat) :
    Thr.Good (Thr.step c (fun _ => false) s (.call a)) ∧ Ready c (Thr.step c (fun _ => false) s (.call a))
      ∧ (Thr.step c (fun _ => false) s (.call a)).now = s.now := by
  obtain ⟨h1, r, hr, hv⟩ := Thr.step_view c (fun _ => false) hg (.call a)
  have hr := hr fun _ => rfl
  subst hr
  have hv : (Thr.step c (fun _ => false) s (.call a)).view = s.view.step c false (.call a) := by
    rcases hv with hv | ⟨_, ⟨k, e⟩ | ⟨k, e⟩⟩
    · exact hv
    · cases e
    · cases e
  refine ⟨h1, fun hk t ht hal => ?_, ?_⟩
  · rw [Thr.tm_get h1.cur] at ht
    simp only [Option.some.injEq] at ht
    have htm : (Thr.step c (fun _ => false) s (.call a)).tm = (s.view.step c false (.call a)).tm := congrArg Thr.View.tm hv
    rw [ht] at htm
    simp only [Thr.View.step, hk] at htm
    split at htm
    · rename_i hal'
      have : t = s.tm := htm
      subst this
      exact h hk _ (Thr.tm_get hg.cur) hal
    · split at htm
      · rw [htm]; exact ⟨rfl, rfl⟩
      · rw [htm]; exact ⟨rfl, rfl⟩
  · have : (Thr.step c (fun _ => false) s (.call a)).now = (s.view.step c false (.call a)).now := congrArg Thr.View.now hv
    rw [this]
    simp only [Thr.View.step]
    cases c.kind
    · simp only
      split
      · rfl
      · split <;> rfl
    · simp only [Bool.false_eq_true, if_false]
      split <;> rfl

theorem ready_callAll : ∀ (l : List (List Nat)) {x : Wrap}, Thr.Good x.st → Ready x.cfg x.st →
    Ready x.cfg (callAll l x).st ∧ (callAll l x).st.now = x.st.now
  | [], _, _, h => ⟨h, rfl⟩
  | a :: l, x, hg, h => by
    obtain ⟨h1, h2, h3⟩ := ready_call hg h x.seen.length
    obtain ⟨k1, k2⟩ := ready_callAll l (x := x.call a) h1 h2
    exact ⟨k1, k2.trans h3⟩

/-- **C77**: the last emission is not lost: if the throttler is connected and nothing but time, dropped references and garbage collections follow,
the function is invoked, the last time with the arguments of this emission, as soon as the interval has passed and the timers that are due have
fired.  Missing, for throttlers: emissions while the thread of the very first timer or of a cancelled timer has not ended yet (see
C37). -/
theorem C77_last_partial (e : Env) (l : List Op) {w : Nat} {x : Wrap} (h : (run e l init).wraps[w]? = some x) {s : Nat}
    (hc : ∃ b ∈ (run e l init).slots, b.sig = s ∧ b.tgt = w)
    (hz : x.cfg.kind = .throttler → ∀ t, x.st.timers[x.st.cur]? = some t → t.alive = true → t.cb = true ∧ t.finished = false)
    (args : List Nat) (l' : List Op)
    (hq : ∀ op ∈ l', op = .tick ∨ (∃ v k, op = .fire v k) ∨ (∃ v k, op = .reap v k) ∨ (∃ v, op = .drop v) ∨ ∃ v, op = .gc v)
    {x' : Wrap} (h' : (run e (l ++ .emit s args :: l') init).wraps[w]? = some x') (hs : Thr.Settled x'.st)
    (ht : x.st.now + x.cfg.interval ≤ x'.st.now) :
    x'.st.pending = false ∧ ∃ p t a, x'.st.trace = p ++ [.invoked t a a] ∧ x.st.now ≤ t
      ∧ x'.seen[a]? = some (match x.hi with | none => args | some n => args.take n) := by
  have hi := run_inv e l inv_init
  obtain ⟨es0, m1, m2, _⟩ := made e l h
  rw [run_append] at h'
  generalize run e l init = σ at *
  have hg : Thr.Good x.st := by
    rw [m1]
    exact (Thr.run_view x.cfg (fun _ => false) (fun _ => True) (fun _ => True) (fun _ _ _ _ _ _ _ => trivial) es0 Thr.good_init trivial
      (fun _ _ => trivial)).1
  obtain ⟨_, h2⟩ := emitLoop_spec s args σ.slots σ.wraps fun b hb => by
    obtain ⟨y, h1, h2, _⟩ := hi.slot b hb
    exact ⟨y, h1, h2⟩
  have h3 : (step e σ (.emit s args)).2.wraps[w]? = some (callAll (heard s args w σ.slots) x) := by
    simp only [step]
    rw [h2, h]
    rfl
  have hall : ∀ a ∈ heard s args w σ.slots, a = (match x.hi with | none => args | some n => args.take n) := by
    intro a ha
    obtain ⟨b, hb, rfl⟩ := List.mem_map.mp ha
    simp only [List.mem_filter, decide_eq_true_eq] at hb
    obtain ⟨y', j1, _, j3⟩ := hi.slot b hb.1
    rw [hb.2.2, h] at j1
    cases j1
    rw [j3]
    rfl
  have hne : heard s args w σ.slots ≠ [] := by
    obtain ⟨b, hb, hb'⟩ := hc
    intro hn
    have : b ∈ σ.slots.filter fun b => decide (b.sig = s ∧ b.tgt = w) := by simp [hb, hb']
    rw [List.map_eq_nil_iff.mp hn] at this
    cases this
  obtain ⟨L, a, hL⟩ : ∃ L a, heard s args w σ.slots = L ++ [a] :=
    ⟨_, _, (List.dropLast_concat_getLast hne).symm⟩
  have ha : a = _ := hall a (by rw [hL]; simp)
  rw [hL, callAll_append] at h3
  obtain ⟨es1, e1, _⟩ := callAll_ext L x
  obtain ⟨r1, r2⟩ := ready_callAll L hg hz
  obtain ⟨z, es2, new, f1, f2, f3, _⟩ := run_ext e l' (step_inv e hi (.emit s args)) h3
  rw [show (run e l' (step e σ (.emit s args)).2).wraps[w]? = some x' from h'] at f1
  cases f1
  have hquiet : ∀ ev ∈ es2, ev = .tick ∨ (∃ k, ev = .fire k) ∨ ∃ k, ev = .reap k := by
    intro ev hm
    obtain ⟨op, ho, hf⟩ := f3 ev hm
    have hq := hq op ho
    cases ev with
    | tick => exact .inl rfl
    | fire k => exact .inr (.inl ⟨k, rfl⟩)
    | reap k => exact .inr (.inr ⟨k, rfl⟩)
    | call a =>
      exfalso
      rcases hf with ⟨s', a', rfl⟩ | ⟨a', rfl⟩ <;>
        rcases hq with h | ⟨_, _, h⟩ | ⟨_, _, h⟩ | ⟨_, h⟩ | ⟨_, h⟩ <;> cases h
    | cancel =>
      exfalso
      have hf : op = .cancel w := hf
      subst hf
      rcases hq with h | ⟨_, _, h⟩ | ⟨_, _, h⟩ | ⟨_, h⟩ | ⟨_, h⟩ <;> cases h
    | flush =>
      exfalso
      have hf : op = .flush w := hf
      subst hf
      rcases hq with h | ⟨_, _, h⟩ | ⟨_, _, h⟩ | ⟨_, h⟩ | ⟨_, h⟩ <;> cases h
  have hnew : new = [] := by
    have : calls es2 = [] := by
      refine List.filterMap_eq_nil_iff.mpr fun ev hm => ?_
      rcases hquiet ev hm with rfl | ⟨k, rfl⟩ | ⟨k, rfl⟩ <;> rfl
    rw [f2.num] at this
    simpa using this
  subst hnew
  have est : x'.st = thr x.cfg ((es0 ++ es1) ++ .call (callAll L x).seen.length :: es2) Thr.St.init := by
    rw [f2.st, thr_append, thr_append, ← m1]
    show thr ((callAll L x).cfg) es2 _ = thr x.cfg es2 (Thr.step x.cfg _ (thr x.cfg es1 x.st) _)
    rw [← e1.st, e1.cfg]
    simp only [Wrap.call, e1.cfg]
  have est1 : (callAll L x).st = thr x.cfg (es0 ++ es1) Thr.St.init := by rw [thr_append, ← m1, e1.st]
  obtain ⟨g1, p, t, g2, g3⟩ := Thr.C37_partial x.cfg (fun _ => false) (es0 ++ es1) es2 (callAll L x).seen.length
    (by
      show Ready x.cfg (thr x.cfg (es0 ++ es1) Thr.St.init)
      rw [← est1]; exact r1) hquiet (by
      show Thr.Settled (thr x.cfg _ _)
      rw [← est]; exact hs) (by
      show (thr x.cfg _ _).now + _ ≤ (thr x.cfg _ _).now
      rw [← est, ← est1, r2]; exact ht)
  refine ⟨by rw [est]; exact g1, p, t, (callAll L x).seen.length, by rw [est]; exact g2, ?_, ?_⟩
  · have : x.st.now = (thr x.cfg (es0 ++ es1) Thr.St.init).now := by rw [← est1, r2]
    rw [this]; exact g3
  · rw [f2.seen, ← ha]
    simp [Wrap.call]

/-! ## Throttlers that nothing refers to -/

/-- `signal.connect(throttled(f))`, as in the documentation (`_throttler.py:197,253`), connects nothing: whatever signals the program uses
and whatever it does next, `f` is never called. -/
theorem C77_forgotten_refuted (e : Env) (hw : e.weak = true) (l0 : List Op) (kind : Thr.Kind) (timeout : Nat) (leading : Bool) (lo : Nat)
    (hi : Option Nat) (s : Nat) (l : List Op) {w : Nat} (hn : (run e l0 init).wraps.length = w) :
    ∃ x, (run e (l0 ++ .make kind timeout leading lo hi :: .connect s w :: .drop w :: l) init).wraps[w]? = some x ∧ x.st.trace = [] := by
  have h0 := run_inv e l0 inv_init
  rw [run_append]
  generalize run e l0 init = σ at *
  subst hn
  show ∃ x, (run e l (step e (step e (step e σ (.make kind timeout leading lo hi)).2 (.connect s σ.wraps.length)).2 (.drop σ.wraps.length)).2).wraps[_]?
    = some x ∧ _
  have i1 := step_inv e h0 (.make kind timeout leading lo hi)
  have g1 : (step e σ (.make kind timeout leading lo hi)).2.wraps[σ.wraps.length]?
      = some ⟨⟨kind, leading, timeout⟩, lo, hi, Thr.St.init, [], true, true⟩ := by
    simp [step, make]
  generalize (step e σ (.make kind timeout leading lo hi)).2 = σ1 at *
  have i2 := step_inv e i1 (.connect s σ.wraps.length)
  obtain ⟨x2, es, g2, e2, f2, _⟩ := step_ext e i1 (.connect s σ.wraps.length) g1
  have hx2 : x2.st = Thr.St.init := by
    have : es = [] := by
      cases es with
      | nil => rfl
      | cons ev es =>
        have := (f2 ev (by simp)).1
        cases ev <;> simp [Fits] at this
    rw [e2.st, this]; rfl
  generalize (step e σ1 (.connect s σ.wraps.length)).2 = σ2 at *
  have i3 := step_inv e i2 (.drop σ.wraps.length)
  have g3 : ∃ x3, (step e σ2 (.drop σ.wraps.length)).2.wraps[σ.wraps.length]? = some x3 ∧ x3.live = false ∧ x3.st.trace = [] := by
    have hm : (σ2.wraps.modify σ.wraps.length fun x => { x with held := false })[σ.wraps.length]? = some { x2 with held := false } := by
      rw [modify_get, if_pos rfl, g2]; rfl
    refine ⟨{ x2 with held := false, live := false }, ?_, rfl, by simp [hx2, Thr.St.init]⟩
    simp only [step, unref, hm, hx2]
    rw [if_pos (by simp [Thr.St.init])]
    unfold gc
    rw [if_pos (by simp [free, hm, hw, Wrap.busy, hx2, Thr.St.init]), kill_get, if_pos rfl]
    show Option.map _ (σ2.wraps.modify _ _)[_]? = _
    rw [hm, ← hx2]; rfl
  generalize (step e σ2 (.drop σ.wraps.length)).2 = σ3 at *
  generalize σ.wraps.length = w at *
  obtain ⟨x3, k1, k2, k3⟩ := g3
  clear g1 g2 hx2 e2 f2 i1 i2 h0
  induction l generalizing σ3 x3 with
  | nil => exact ⟨x3, k1, k3⟩
  | cons op l ih =>
    obtain ⟨y, j1, j2, j3, j4⟩ := dead_step e i3 op k1 k2
    obtain ⟨z, m1, m2⟩ := dead_stays e i3 op k1 k2
    rw [j1] at m1
    cases m1
    exact ih _ (step_inv e i3 op) y j1 m2 (j3.trans k3)

/-! ## Examples -/

/-- Signals with two parameters. -/
def two (weak : Bool) : Env := ⟨weak, fun _ => 2⟩

/-- A throttled function of one argument connected to signals 0 and 1, and a debounced one to signal 0. -/
def exOps : List Op :=
  [.make .throttler 3 true 0 (some 1), .make .debouncer 2 false 1 none, .fire 0 0, .fire 1 0, .connect 0 0, .connect 1 0, .connect 0 1,
    .emit 0 [10, 11], .emit 1 [20, 21], .tick, .tick, .fire 1 1]

/-- `C77_once_partial`, `C77_args_partial`, `C77_quiet_partial`, `C77_calls_partial`: the calls, and the invocations so far. -/
example : ((run (two true) exOps init).wraps.map fun x => (x.st.trace, x.seen)) =
      [([.called 0 0, .invoked 0 0 0, .called 0 1], [[10], [20]]), ([.called 0 0, .invoked 2 0 0], [[10, 11]])]
    ∧ ((run (two true) exOps init).wraps.map fun x => (x.cfg.kind, x.held)) = [(.throttler, true), (.debouncer, true)]
    ∧ expected (two true) 0 (some 1) 0 (exOps.drop 1) true (fun _ => 0) = [[10], [20]]
    ∧ (run (two true) exOps init).slots = [⟨0, 0, some 1⟩, ⟨1, 0, some 1⟩, ⟨0, 1, none⟩] := by
  decide +kernel

/-- `C77_last_partial`: the program drops the throttler and the collector runs before the timer fires. -/
example : let l' : List Op := [.drop 0, .gc 0, .tick, .fire 0 1, .gc 0, .tick, .tick, .fire 0 2, .gc 0]
    let l := exOps ++ [.emit 1 [30, 31]]
    ((run (two true) exOps init).wraps[0]?).map (fun x => (x.st.timers[x.st.cur]?, x.st.now)) = some (some ⟨true, .waiting 3, false⟩, 2)
    ∧ ((run (two true) (l ++ l') init).wraps[0]?).map (fun x => (x.st.trace.drop 3, x.seen[2]?, x.st.now, x.live, decide (Thr.Settled x.st)))
      = some ([.called 2 2, .invoked 3 2 2], some [30], 5, true, true)
    ∧ ((run (two true) (l ++ l' ++ [.tick, .fire 0 2, .gc 0, .emit 1 [40, 41]]) init).wraps[0]?).map (fun x => (x.st.trace.drop 3, x.live))
      = some ([.called 2 2, .invoked 3 2 2], false) := by
  decide +kernel

/-- Also a throttler that has been called is collected when nothing refers to it and its timer has ended; later emissions are lost. -/
theorem C77_collected_refuted : ∃ l s args, let σ := run (two true) l init
    (∃ b ∈ (run (two true) (l.take 5) init).slots, b.sig = s ∧ b.tgt = 0) ∧ (∀ w, .disconnect s w ∉ l) ∧
    (σ.wraps[0]?).map (fun x => x.st.trace) = some [.called 0 0, .invoked 0 0 0] ∧
    ((step (two true) σ (.emit s args)).2.wraps[0]?).map (fun x => x.st.trace) = some [.called 0 0, .invoked 0 0 0] :=
  ⟨[.make .throttler 1 true 0 none, .fire 0 0, .connect 0 0, .emit 0 [1], .drop 0, .tick, .fire 0 1, .gc 0], 0, [2],
    ⟨⟨0, 0, none⟩, by decide +kernel, rfl, rfl⟩, by simp, by decide +kernel, by decide +kernel⟩

/-- If throttlers cannot be weakly referenced (compiled), the same works: the hypotheses of `C77_calls_partial` without a reference. -/
example : ((run (two false) [.make .throttler 1 true 0 none, .connect 0 0, .drop 0, .gc 0, .fire 0 0, .emit 0 [1, 2]] init).wraps[0]?).map
      (fun x => (x.st.trace, x.seen)) = some ([.called 0 0, .invoked 0 0 0], [[1, 2]])
    ∧ expected (two false) 0 none 0 [.connect 0 0, .drop 0, .gc 0, .fire 0 0, .emit 0 [1, 2]] true (fun _ => 0) = [[1, 2]] := by
  decide +kernel

/-- With weak references it does not (`C77_forgotten_refuted`), and a function that needs more than the signal has is refused. -/
example : ((run (two true) [.make .throttler 1 true 0 none, .connect 0 0, .drop 0, .gc 0, .fire 0 0, .emit 0 [1, 2]] init).wraps[0]?).map
      (fun x => (x.st.trace, x.seen)) = some ([], [])
    ∧ (step (two true) (run (two true) [.make .throttler 1 true 3 none] init) (.connect 0 0)).1 = false := by
  decide +kernel

end Psygnal.ThS
