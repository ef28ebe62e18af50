import Verif.GroupConcSingle

/-!
# C57: listeners of a group with several threads

Signals of a group may be emitted by several threads at once while listeners are connected to the group and disconnected
from it: a listener whose `connect` returned before an emission of a member started, and which is not disconnected before
that emission ends, is called in it with its arguments and the signal; never after `disconnect` returned; and when no such
operation is in progress the group is connected to all its members exactly if it has listeners.
-/
namespace Psygnal.GrC

/-- **C57**, connections to the members.  Any number of threads, any code of threads, callbacks and listeners, any schedule: if
every `connect` and `disconnect` of the group that was called has returned, and no listener has died, each member has the
group's relay exactly once if the group has listeners, and no signal has it if it has none. -/
theorem C57_link {e : Env} (hf : ∀ s, Slot.relay ∉ e.slots s) (prog : Nat → Code) (sched : List Nat)
    (hq : ∀ t, (run e sched (init e prog)).log.countP (isOpen t) = (run e sched (init e prog)).log.countP (isClose t))
    (hd : ∀ t f, Ev.offCall t (.dead f) ∉ (run e sched (init e prog)).log) :
    ((run e sched (init e prog)).gslots = [] → ∀ s, Slot.relay ∉ (run e sched (init e prog)).slots s) ∧
    ((run e sched (init e prog)).gslots ≠ [] → ∀ s, ((run e sched (init e prog)).slots s).count .relay =
      if s ∈ e.members then 1 else 0) := by
  have hl := (base_run hf prog sched).link hd
  have ho : Opens (run e sched (init e prog)) := run_inv (fun _ _ _ h => opens_step h) sched (opens_init e prog)
  have h0 : ∀ t, inOp ((run e sched (init e prog)).thr t).ctl = 0 := fun t => by have := ho t; have := hq t; omega
  generalize run e sched (init e prog) = σ at *
  have hmid : ∀ t, mid (σ.thr t).ctl = false := fun t => by
    have := h0 t
    generalize (σ.thr t).ctl = c at *
    cases c <;> simp [inOp, mid] at *
  have hcl : ∀ m, ¬ Cleared e σ m := by
    rintro m ⟨t, ht⟩
    have := h0 t
    generalize (σ.thr t).ctl = c at *
    cases c <;> simp [inOp, clearing] at *
  obtain ⟨h1, h2⟩ := hl.idle hmid
  refine ⟨h1, fun hg s => ?_⟩
  split
  · rename_i hs
    have := List.count_pos_iff.mpr ((h2 hg s hs).resolve_right (hcl s))
    have := hl.once s
    omega
  · rename_i hs
    exact List.count_eq_zero.mpr fun h => hs (hl.foreign s h)

/-- Numbers of emissions are not used twice. -/
theorem start_once (e : Env) (prog : Nat → Code) (sched : List Nat) (n : Nat) :
    (run e sched (init e prog)).log.countP (isStart n) ≤ 1 := by
  have := run_inv (e := e) (P := fun σ => Num σ ∧ ∀ n, σ.log.countP (isStart n) ≤ 1) (fun t σ σ' h hp => by
    refine ⟨num_step h hp.1, fun m => ?_⟩
    have h1 := hp.2 m
    cases h with
    | @wait s a st k hth hl =>
      simp only [to_log, note_log, lk_log, List.countP_append]
      by_cases hm : σ.n = m
      · have : σ.log.countP (isStart m) = 0 := by
          rw [List.countP_eq_zero]
          intro ev hev
          cases ev <;> simp [isStart]
          rintro rfl
          have := hp.1.lt _ _ _ _ hev
          omega
        simp [isStart, hm, this]
      · simp [isStart, hm, h1]
    | _ => simpa [List.countP_append, isStart] using h1) sched (σ := init e prog) ⟨num_init e prog, by simp [init]⟩
  exact this.2 n

/-- **C57**, calls.  Emission `n`, of a member, by thread `t`, from start to end.  If `connect(f)` had returned more often before
it than `f` was removed until its end, then `f` is called in it, with its argument, in thread `t` - or `_slot_relay` found no
emitter and did nothing; and it is called at most as often as it was connected.  Missing: that the latter (`drop`) does not
happen and that the `EmissionInfo` names the signal, refuted below, see `C57_single`; callbacks that connect or
disconnect (C49); `disconnect()` without argument and deaths of listeners. -/
theorem C57_partial {e : Env} (hf : ∀ s, Slot.relay ∉ e.slots s) (he : PlainEnv e) (prog : Nat → Code) (sched : List Nat)
    {l1 l2 l3 : List Ev} {n t s a f : Nat}
    (h : (run e sched (init e prog)).log = l1 ++ .start n t s a :: (l2 ++ .finish n :: l3)) (hs : s ∈ e.members)
    (hc : ∀ ev ∈ l1 ++ l2, isClear ev = false) (hr : (l1 ++ l2).countP (isRem f) < l1.countP (isRet f)) :
    (Ev.drop n ∈ l2 ∨ ∃ src, Ev.call t f src a n ∈ l2) ∧ l2.countP (isCall f n) ≤ (l1 ++ l2).countP (isAdd f) := by
  have hone := start_once e prog sched n
  rw [h] at hone
  have hno : ∀ ev ∈ l1, isStart n ev = false := by
    rw [List.countP_append, List.countP_cons_of_pos (isStart_start n t s a)] at hone
    have : l1.countP (isStart n) = 0 := by omega
    intro ev hev
    simpa using (List.countP_eq_zero.mp this) ev hev
  obtain ⟨sched', h'⟩ := run_prefix e sched (init e prog) (l := l1 ++ .start n t s a :: (l2 ++ [.finish n])) (l' := l3)
    (by rw [h]; simp [init])
  obtain ⟨sched1, hl1⟩ := run_prefix e sched (init e prog) (l := l1) (l' := .start n t s a :: (l2 ++ .finish n :: l3))
    (by rw [h]; simp [init])
  rw [show (init e prog).log = [] from rfl, List.nil_append] at h' hl1
  have hnum := num_run (e := e) prog sched'
  have hnum1 := num_run (e := e) prog sched1
  have hend := ended_run hf he prog sched' n t s a (by rw [h', ← List.cons_append, ← List.append_assoc]; exact List.getLast?_concat ..) (by rw [h']; simp) (by
    rw [h']
    intro ev hev
    simp only [List.mem_append, List.mem_cons, List.not_mem_nil, or_false] at hev
    rcases hev with hev | rfl | hev | rfl
    · exact hc ev (List.mem_append_left _ hev)
    · rfl
    · exact hc ev (List.mem_append_right _ hev)
    · rfl)
  rw [h'] at hend
  have hcall1 : ∀ u src b, Ev.call u f src b n ∉ l1 := fun u src b hm => by
    obtain ⟨s', hs'⟩ := hnum1.called _ _ _ _ _ (by rw [hl1]; exact hm)
    rw [hl1] at hs'
    have := hno _ hs'
    rw [isStart_start] at this
    cases this
  have hcount : l1.countP (isCall f n) = 0 := by
    rw [List.countP_eq_zero]
    intro ev hev hi
    cases ev <;> simp [isCall] at hi
    obtain ⟨rfl, rfl⟩ := hi
    exact hcall1 _ _ _ hev
  have hbefore : before n (l1 ++ .start n t s a :: (l2 ++ [.finish n])) = l1 := by
    unfold before
    rw [List.takeWhile_append_of_pos (by intro ev hev; simp [hno ev hev])]
    rw [List.takeWhile_cons_of_neg (by simp [isStart_start])]
    simp
  refine ⟨?_, ?_⟩
  · have h1 : Heard f n (l1 ++ .start n t s a :: (l2 ++ [.finish n])) := hend.1 hs f (by
      unfold Cond
      rw [hbefore]
      simp [List.countP_append, isRem] at hr ⊢
      exact hr)
    rcases h1 with h1 | h1
    · simp only [List.mem_append, List.mem_cons, List.not_mem_nil, or_false, reduceCtorEq, false_or] at h1
      rcases h1 with h1 | h1
      · obtain ⟨u, s', b, h2⟩ := hnum1.dropped n (by rw [hl1]; exact h1)
        rw [hl1] at h2
        have := hno _ h2
        rw [isStart_start] at this
        cases this
      · exact .inl h1
    · right
      simp only [List.countP_append, List.countP_cons, hcount] at h1
      simp [isCall] at h1
      obtain ⟨ev, hev, hi⟩ := h1
      cases ev <;> simp at hi
      rename_i u g src b m
      obtain ⟨rfl, rfl⟩ := hi
      have h3 : Ev.call u g src b m ∈ l1 ++ .start m t s a :: (l2 ++ [.finish m]) := by simp [hev]
      obtain ⟨s', h4⟩ := hnum.called _ _ _ _ _ (by rw [h']; exact h3)
      obtain ⟨rfl, rfl, rfl⟩ := hnum.uniq _ _ _ _ _ _ _ h4 (show Ev.start m t s a ∈ _ by rw [h']; simp)
      exact ⟨src, hev⟩
  · have := hend.2 f
    simp only [calls, List.countP_append, List.countP_cons, hcount] at this
    simp [isCall, isAdd] at this
    rw [List.countP_append]
    exact this

/-- **C57**, `disconnect`.  After `disconnect(f)` has returned, a listener that was connected at most once and is not connected
again is not called, in any thread, not even in an emission that started before.  Any code and callbacks. -/
theorem C57_off {e : Env} (hf : ∀ s, Slot.relay ∉ e.slots s) (prog : Nat → Code) (sched : List Nat) {l1 l2 : List Ev} {t f : Nat}
    (h : (run e sched (init e prog)).log = l1 ++ .offRet t (.one f) :: l2) (h1 : l1.countP (isAdd f) ≤ 1)
    (h2 : l2.countP (isAdd f) = 0) (u : Nat) (src : Sig) (a n : Nat) : Ev.call u f src a n ∉ l2 :=
  ((gone_run hf prog sched).past l1 l2 t f h h1 h2).2 u src a n

/-- The same after `disconnect()` without argument, however often the listener was connected before. -/
theorem C57_off_all {e : Env} (hf : ∀ s, Slot.relay ∉ e.slots s) (prog : Nat → Code) (sched : List Nat) {l1 l2 : List Ev}
    {t f : Nat} (h : (run e sched (init e prog)).log = l1 ++ .offRet t .all :: l2) (h2 : l2.countP (isAdd f) = 0)
    (u : Nat) (src : Sig) (a n : Nat) : Ev.call u f src a n ∉ l2 :=
  ((gone_run hf prog sched).pastAll l1 l2 t f h h2).2 u src a n

/-- **C57**, one emitting thread.  If only thread `T` emits - the others connect and disconnect, also at the same time, and so
may callbacks - `_slot_relay` always finds the emitter, and every `EmissionInfo` names the signal that was emitted. -/
theorem C57_single {e : Env} (hf : ∀ s, Slot.relay ∉ e.slots s) (prog : Nat → Code) (sched : List Nat) {T : Nat}
    (hT : ∀ u, u ≠ T → Silent (prog u)) :
    (∀ n, Ev.drop n ∉ (run e sched (init e prog)).log) ∧
    ∀ t f src a n, Ev.call t f src a n ∈ (run e sched (init e prog)).log →
      ∃ s, src = .sig s ∧ Ev.start n t s a ∈ (run e sched (init e prog)).log :=
  ⟨(alone_run hf hT sched).drops, (alone_run hf hT sched).srcs⟩

/-- So, with one emitting thread, a listener that is connected all the time is called exactly once in each emission of a
member, with its argument and signal. -/
theorem C57_single_called {e : Env} (hf : ∀ s, Slot.relay ∉ e.slots s) (he : PlainEnv e) (prog : Nat → Code) (sched : List Nat)
    {T : Nat} (hT : ∀ u, u ≠ T → Silent (prog u)) {l1 l2 l3 : List Ev} {n t s a f : Nat}
    (h : (run e sched (init e prog)).log = l1 ++ .start n t s a :: (l2 ++ .finish n :: l3)) (hs : s ∈ e.members)
    (hc : ∀ ev ∈ l1 ++ l2, isClear ev = false) (hr : (l1 ++ l2).countP (isRem f) < l1.countP (isRet f))
    (ha : (l1 ++ l2).countP (isAdd f) ≤ 1) : Ev.call t f (.sig s) a n ∈ l2 ∧ l2.countP (isCall f n) = 1 := by
  obtain ⟨h1, h2⟩ := C57_partial hf he prog sched h hs hc hr
  obtain ⟨h3, h4⟩ := C57_single hf prog sched hT
  rw [h] at h3 h4
  rcases h1 with h1 | ⟨src, h1⟩
  · exact absurd (by simp [h1]) (h3 n)
  · obtain ⟨s', rfl, h5⟩ := h4 t f src a n (by simp [h1])
    have := (num_run (e := e) prog sched).uniq n t s' a t s a (by rw [h]; exact h5) (by rw [h]; simp)
    rw [this.2.1] at h1
    have := List.countP_pos_iff.mpr ⟨_, h1, show isCall f n (.call t f (.sig s) a n) = true by simp [isCall]⟩
    exact ⟨h1, by omega⟩

/-! ## Examples -/

/-- A group with members 0 and 1; signal 9 is not a member; signals 0 and 9 have the callback 5. -/
def demo : Env := ⟨[0, 1], fun s => if s = 0 ∨ s = 9 then [.own 5] else [], fun _ _ _ => .ret, fun _ _ _ => .ret⟩

/-- Nobody has the relay at first and callbacks change nothing. -/
example : (∀ s, Slot.relay ∉ demo.slots s) ∧ PlainEnv demo :=
  ⟨fun s => by unfold demo; dsimp only; split <;> simp, fun _ _ _ => trivial, fun _ _ _ => trivial⟩

/-- Thread 0 connects listener 7 and emits; thread 1 connects and disconnects listener 8. -/
def demoProg : Nat → Code
  | 0 => .conn 7 (.emit 0 3 .ret)
  | 1 => .conn 8 (.off (.one 8) .ret)
  | _ => .ret

/-- Thread `t`, `n` steps. -/
def times (n t : Nat) : List Nat := List.replicate n t

/-- Thread 0 connects; then both threads by turns. -/
def demoSched : List Nat := times 9 0 ++ times 3 1 ++ (List.replicate 14 [0, 1]).flatten ++ times 12 0 ++ times 12 1

/-- What happens: both listeners are called in the emission of signal 0 with 3, which starts while thread 1 connects
listener 8 and ends while thread 1 waits to disconnect it. -/
example : (run demo demoSched (init demo demoProg)).log =
    [.connCall 0 7, .added 0 7, .connRet 0 7, .connCall 1 8, .added 1 8] ++ .start 0 0 0 3 ::
    ([.connRet 1 8, .offCall 1 (.one 8), .own 0 5 0 3 0, .call 0 7 (.sig 0) 3 0, .call 0 8 (.sig 0) 3 0] ++ .finish 0 ::
    [.removed 1 (.one 8), .offRet 1 (.one 8)]) := by decide +kernel

/-- The conditions of `C57_partial` and `C57_single_called` for listener 7 and emission 0. -/
example :
    let l1 : List Ev := [.connCall 0 7, .added 0 7, .connRet 0 7, .connCall 1 8, .added 1 8]
    let l2 : List Ev := [.connRet 1 8, .offCall 1 (.one 8), .own 0 5 0 3 0, .call 0 7 (.sig 0) 3 0, .call 0 8 (.sig 0) 3 0]
    (∀ ev ∈ l1 ++ l2, isClear ev = false) ∧ (l1 ++ l2).countP (isRem 7) < l1.countP (isRet 7) ∧
    (l1 ++ l2).countP (isAdd 7) ≤ 1 := by decide

example : ∀ u, u ≠ 0 → Silent (demoProg u) := by
  rintro (_ | _ | u) hu
  · exact absurd rfl hu
  · trivial
  · trivial

/-- `C57_link`: everything has returned and nobody has died; listener 7 is left, both members have the relay once. -/
example : (∀ t ∈ [0, 1], (run demo demoSched (init demo demoProg)).log.countP (isOpen t) =
      (run demo demoSched (init demo demoProg)).log.countP (isClose t)) ∧
    (run demo demoSched (init demo demoProg)).gslots = [7] ∧
    (run demo demoSched (init demo demoProg)).slots 0 = [.own 5, .relay] ∧
    (run demo demoSched (init demo demoProg)).slots 1 = [.relay] ∧
    (run demo demoSched (init demo demoProg)).slots 9 = [.own 5] := by decide +kernel

/-- Thread 0 connects two listeners and disconnects one; thread 1 emits member 1. -/
def offProg : Nat → Code
  | 0 => .conn 7 (.conn 8 (.off (.one 7) .ret))
  | 1 => .emit 1 4 .ret
  | _ => .ret

/-- `C57_off`: `disconnect(7)` returns while thread 1 is in an emission; only listener 8 is called in it. -/
example : (run demo (times 20 0 ++ times 2 1 ++ times 12 0 ++ times 30 1) (init demo offProg)).log =
    [.connCall 0 7, .added 0 7, .connRet 0 7, .connCall 0 8, .added 0 8, .connRet 0 8, .offCall 0 (.one 7), .start 0 1 1 4,
      .removed 0 (.one 7)] ++ .offRet 0 (.one 7) :: [.call 1 8 (.sig 1) 4 0, .finish 0] := by decide +kernel

/-- Thread 0 connects listener 7 twice, disconnects all, connects another listener and emits. -/
def offAllProg : Nat → Code
  | 0 => .conn 7 (.conn 7 (.off .all (.conn 8 (.emit 1 4 .ret))))
  | _ => .ret

/-- `C57_off_all`. -/
example : (run demo (times 80 0) (init demo offAllProg)).log =
    [.connCall 0 7, .added 0 7, .connRet 0 7, .connCall 0 7, .added 0 7, .connRet 0 7, .offCall 0 .all, .removed 0 .all] ++
    .offRet 0 .all :: [.connCall 0 8, .added 0 8, .connRet 0 8, .start 0 0 1 4, .call 0 8 (.sig 1) 4 0, .finish 0] := by
  decide +kernel

/-! ## Refutations -/

/-- Thread 0 connects listener 7 to the group and emits member 0; threads 1 and 2 emit signals that have nothing to do with
the group. -/
def raceProg : Nat → Code
  | 0 => .conn 7 (.emit 0 3 .ret)
  | 1 => .emit 8 4 .ret
  | 2 => .emit 9 4 .ret
  | _ => .ret

/-- A listener misses an emission: `_current_emitter` is an attribute of the class `Signal`, shared by all threads; thread 1,
which emits a signal without callbacks, resets it to `None` between thread 0 setting it and `_slot_relay` reading it. -/
theorem C57_lost_refuted : (run demo (times 9 0 ++ times 3 1 ++ times 5 0 ++ times 4 1 ++ times 12 0) (init demo raceProg)).log =
    [.connCall 0 7, .added 0 7, .connRet 0 7, .start 0 1 8 4, .start 1 0 0 3, .own 0 5 0 3 1, .finish 0, .drop 1, .finish 1] := by
  decide +kernel

/-- The `EmissionInfo` of an emission of member 0 names signal 9, which thread 2 is emitting and which is not in the group. -/
theorem C57_wrong_refuted : (run demo (times 9 0 ++ times 3 2 ++ times 5 0 ++ times 2 2 ++ times 12 0) (init demo raceProg)).log =
    [.connCall 0 7, .added 0 7, .connRet 0 7, .start 0 2 9 4, .start 1 0 0 3, .own 0 5 0 3 1, .own 2 5 9 4 0,
      .call 0 7 (.sig 9) 3 1] := by decide +kernel

/-- Thread 0 connects listener 7, which then dies in it; thread 1 connects listener 8 and emits member 1. -/
def deathProg : Nat → Code
  | 0 => .conn 7 (.off (.dead 7) .ret)
  | 1 => .conn 8 (.emit 1 3 .ret)
  | _ => .ret

/-- A connected listener hears nothing: dead listeners are removed without the lock; the death of the last one disconnects the
group from its members after thread 1 has connected listener 8 and found the members connected. -/
theorem C57_silent_refuted : (run demo (times 13 0 ++ times 9 1 ++ times 6 0 ++ times 12 1) (init demo deathProg)).gslots = [8] ∧
    (run demo (times 13 0 ++ times 9 1 ++ times 6 0 ++ times 12 1) (init demo deathProg)).log =
    [.connCall 0 7, .added 0 7, .connRet 0 7, .offCall 0 (.dead 7), .removed 0 (.dead 7), .connCall 1 8, .added 1 8,
      .connRet 1 8, .offRet 0 (.dead 7), .start 0 1 1 3, .finish 0] := by decide +kernel

end Psygnal.GrC
