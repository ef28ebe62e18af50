import Verif.QtTimersLemmas
/-! # C63: timers that empty the queues

For every code of callbacks (`body`), any number of threads, every schedule: code run by event loops, timers that time out, steps of
threads. -/
namespace Psygnal.Qtt

/-- **C63 (threads).**  A callback connected with `thread=t` runs in thread `t`, whoever emits and whoever has timers. -/
theorem C63_thread (body : Nat → List Act) (ms : List Sch) (p t j : Nat) (h : .ran p t j ∈ (run body ms {}).trace) : p = t :=
  run_inv (P := fun s => ∀ p t j, .ran p t j ∈ s.trace → p = t) (fun _ _ h hm => moved_thread h hm) ms
    (fun _ _ _ h => absurd h List.not_mem_nil) p t j h

/-- **C63 (order).**  What was taken from the queue of a thread and what is still there is what was put there, in that order: nothing is
lost, doubled or overtaken. -/
theorem C63_order (body : Nat → List Act) (ms : List Sch) (t : Nat) :
    puts t (run body ms {}).trace = gots t (run body ms {}).trace ++ (run body ms {}).queue t :=
  run_inv (P := fun s => ∀ t, puts t s.trace = gots t s.trace ++ s.queue t) (fun _ _ h hm => moved_order h hm) ms (fun _ => rfl) t

/-- **C63 (completeness).**  When thread `p` is idle and no exception has left a handler in it: it has emitted, directly or into a queue,
exactly what the code that it ran says, and run exactly what it took from queues or emitted to itself. -/
theorem C63_complete (body : Nat → List Act) (ms : List Sch) (p t j : Nat) (hi : (run body ms {}).stack p = [])
    (hr : .raised p ∉ (run body ms {}).trace) :
    count (.put p t j) (run body ms {}).trace + count (.ran p t j) (run body ms {}).trace =
      due body p t j (run body ms {}).trace + count (.got p t j) (run body ms {}).trace := by
  have h := run_inv (P := fun s => .raised p ∉ s.trace → ∀ t j, count (.put p t j) s.trace + count (.ran p t j) s.trace +
    pending t j (s.stack p) = due body p t j s.trace + count (.got p t j) s.trace) (fun _ _ h hm => moved_complete h hm) ms
    (s := {}) (fun _ _ _ => rfl) hr t j
  rw [hi] at h
  exact h

/-- **C63 (delivery).**  When the timer of thread `t` has timed out there, and later the thread is idle again and no exception has left a
handler in it, everything that was in the queue has been taken out and run in thread `t`, whatever other threads did meanwhile. -/
theorem C63_delivery (body : Nat → List Act) (ms evs : List Sch) (t k : Nat) (ex : List Ev)
    (htick : (run body (ms ++ [.fire t k]) {}).trace = (run body ms {}).trace ++ [.tick t])
    (hex : (run body (ms ++ .fire t k :: evs) {}).trace = (run body ms {}).trace ++ ex) (hr : .raised t ∉ ex)
    (hi : (run body (ms ++ .fire t k :: evs) {}).stack t = []) :
    ∃ more, gots t (run body (ms ++ .fire t k :: evs) {}).trace = gots t (run body ms {}).trace ++ (run body ms {}).queue t ++ more := by
  have hord := C63_order body ms
  have hord' := C63_order body (ms ++ [.fire t k])
  rw [run_append] at htick hex hi hord' ⊢
  generalize run body ms {} = s at *
  have hd : .drain ∈ (move body s (.fire t k)).stack t := by
    have ht : (move body s (.fire t k)).trace = s.trace ++ [.tick t] := htick
    simp only [move] at ht ⊢
    split at ht
    · exact absurd ht (by simp)
    · split at ht
      · rename_i h
        rw [if_pos h]
        simp [St.note, upd_same]
      · exact absurd ht (by simp)
  have hp : Promise t (gots t s.trace) (s.queue t) s.trace (move body s (.fire t k)) := by
    refine ⟨hord', ⟨[], ?_⟩, .inr (.inl hd), ⟨_, htick⟩⟩
    have ht : (move body s (.fire t k)).trace = s.trace ++ [.tick t] := htick
    rw [ht, puts_append, hord t]
    rfl
  have hfin : Promise t (gots t s.trace) (s.queue t) s.trace (run body evs (move body s (.fire t k))) :=
    run_inv (P := Promise t (gots t s.trace) (s.queue t) s.trace) (fun _ _ h hm => moved_promise h hm) evs hp
  rcases hfin.state with h | h | ⟨ex', h1, h2⟩
  · exact h
  · have hi' : (run body evs (move body s (.fire t k))).stack t = [] := hi
    rw [hi'] at h
    exact absurd h List.not_mem_nil
  · have he : s.trace ++ ex = s.trace ++ ex' := hex.symm.trans h1
    rw [List.append_cancel_left he] at hr
    exact absurd h2 hr

/-- **C63 (who delivers).**  A queue is emptied by its own thread, and only if that thread has called `start_emitting_from_queue` itself:
a call with `thread=t` from another thread does not deliver anything for `t`. -/
theorem C63_self (body : Nat → List Act) (ms : List Sch) (p t j : Nat) (h : .got p t j ∈ (run body ms {}).trace) :
    p = t ∧ ∃ u iv, .started t u iv ∈ (run body ms {}).trace := by
  have ho : Owned (run body ms {}) := run_inv (fun _ _ h hm => moved_owned h hm) ms owned_empty
  obtain ⟨h1, u, iv, h2⟩ := ho.got p t j h
  exact ⟨h1, u, iv, h1 ▸ h2⟩

/-- **C63 (timers), partial.**  If every thread has started and stopped its own timer only: a timer that was started and not stopped since
times out whenever its event loop runs, has the interval given last; and no other timer does. -/
theorem C63_timers_partial (body : Nat → List Act) (ms : List Sch) (hp : Proper (run body ms {}).trace) (t : Nat) :
    (∀ iv, wanted t (run body ms {}).trace = some iv →
      ((run body ms {}).timers t).map Timer.ms = some iv ∧
      (((run body ms {}).stack t = [] ∨ ∃ as r, (run body ms {}).stack t = .code (.spin :: as) :: r) →
        (run body (ms ++ [.fire t t]) {}).trace = (run body ms {}).trace ++ [.tick t])) ∧
    (∀ k, k ≠ t ∨ wanted t (run body ms {}).trace = none → run body (ms ++ [.fire t k]) {} = run body ms {}) := by
  have ht := run_timely body ms timely_empty hp
  simp only [run_append]
  generalize run body ms {} = s at *
  refine ⟨?_, ?_⟩
  · intro iv hw
    have h := ht t
    rw [hw] at h
    simp only at h
    refine ⟨by rw [h]; rfl, ?_⟩
    intro hl
    have hloop : looping (s.stack t) = true := by
      rcases hl with hl | ⟨as, r, hl⟩ <;> rw [hl] <;> rfl
    simp only [run, move, h, hloop, and_self, if_true]
    rfl
  · intro k hk
    simp only [run, move]
    split
    · rfl
    · rename_i tm htm
      rw [if_neg]
      rintro ⟨h1, h2, _⟩
      have hkt : k = t := (timely_owner ht htm).symm.trans h1
      subst hkt
      rcases hk with hk | hk
      · exact hk rfl
      · have h := ht k
        rw [hk] at h
        rw [(h tm htm).2] at h2
        cases h2

/-- **C63 (stopping), partial.**  If every thread has started and stopped its own timer only: after the timer of an idle thread was
stopped, or before it was started, nothing is taken from its queue until it is started. -/
theorem C63_silent_partial (body : Nat → List Act) (ms evs : List Sch) (t : Nat) (ex : List Ev)
    (hp : Proper (run body (ms ++ evs) {}).trace) (hw : wanted t (run body ms {}).trace = none) (hi : (run body ms {}).stack t = [])
    (hex : (run body (ms ++ evs) {}).trace = (run body ms {}).trace ++ ex) (hs : ∀ iv, .started t t iv ∉ ex) (p j : Nat) :
    .got p t j ∉ ex := by
  have ht : Timely (run body ms {}) := by
    refine run_timely body ms timely_empty ?_
    rw [hex] at hp
    exact hp.left
  rw [run_append] at hp hex
  generalize run body ms {} = s at *
  have hd : .drain ∉ s.stack t := by rw [hi]; exact List.not_mem_nil
  clear hi
  induction evs generalizing s ex with
  | nil =>
    have : s.trace ++ [] = s.trace ++ ex := (List.append_nil _).trans hex
    rw [← List.append_cancel_left this]
    exact List.not_mem_nil
  | cons m evs ih =>
    have hm := move_moved body s m
    obtain ⟨e1, he1⟩ := moved_trace hm
    obtain ⟨e2, he2⟩ := run_trace body evs (move body s m)
    have hrun : run body (m :: evs) s = run body evs (move body s m) := rfl
    rw [hrun] at hex hp
    have hsplit : ex = e1 ++ e2 := by
      rw [he2, he1, List.append_assoc] at hex
      exact (List.append_cancel_left hex).symm
    subst hsplit
    have hp1 : Proper (move body s m).trace := by
      rw [he2] at hp
      exact hp.left
    have hnone : wanted t (move body s m).trace = none := by
      have hno : ∀ q iv, .started q t iv ∉ e1 := by
        intro q iv hq
        have := hp1.1 q t iv (by rw [he1]; exact List.mem_append_right _ hq)
        subst this
        exact hs iv (List.mem_append_left _ hq)
      rw [he1, wanted_append, hw]
      clear he1 hs hex ih
      induction e1 with
      | nil => rfl
      | cons e e1 ih1 =>
        rw [List.foldl_cons]
        have h2 := ih1 (fun q iv hq => hno q iv (List.mem_cons_of_mem _ hq))
        cases e with
        | started q u iv =>
          have : u ≠ t := by
            intro h
            subst h
            exact hno q iv List.mem_cons_self
          simp only [if_neg this]
          exact h2
        | stopped q u =>
          simp only [ite_self]
          exact h2
        | _ => exact h2
    rw [List.mem_append]
    rintro (h1 | h2)
    · rcases moved_got hm (by rw [he1]; exact List.mem_append_right _ h1 : .got p t j ∈ (move body s m).trace) with h | ⟨h, h'⟩
      · -- a second time: the move takes at most one callback, and only with a loop on the stack
        clear h
        have : ∀ s', Moved body s s' → ∀ ex, s'.trace = s.trace ++ ex → Ev.got p t j ∈ ex → Frame.drain ∈ s.stack t := by
          intro s' hm ex hex hin
          cases hm with
          | got q r i js g1 g2 =>
            rw [← List.append_cancel_left hex] at hin
            simp only [List.mem_cons, Ev.got.injEq, reduceCtorEq, List.not_mem_nil, or_false] at hin
            rw [hin.2.1, g1]
            exact List.mem_cons_self
          | same | drained | done | spun =>
            have : ex = [] := List.append_cancel_left (hex.symm.trans (List.append_nil _).symm)
            rw [this] at hin
            exact absurd hin List.not_mem_nil
          | _ =>
            rw [← List.append_cancel_left hex] at hin
            simp at hin
        exact hd (this _ hm e1 he1 h1)
      · exact hd (h ▸ h')
    · refine ih e2 (fun iv hq => hs iv (List.mem_append_right _ hq)) (move body s m) hp hnone he2 (moved_timely ht hm hp1) ?_ h2
      intro hdr
      rcases moved_drain hm hdr with h | ⟨k, tm, g1, g2, g3⟩
      · exact hd h
      · have hkt : k = t := (timely_owner ht g1).symm.trans g2
        subst hkt
        have h := ht k
        rw [hw] at h
        rw [(h tm g1).2] at g3
        cases g3

/-- **C63 (calls), partial.**  If every thread has started and stopped its own timer only: an idle thread that calls
`start_emitting_from_queue(iv)` has the next timeout, one that calls `stop_emitting_from_queue()` has none. -/
theorem C63_calls_partial (body : Nat → List Act) (ms : List Sch) (hp : Proper (run body ms {}).trace) (t iv : Nat) (qt : Bool)
    (hi : (run body ms {}).stack t = []) :
    (run body (ms ++ [.call t [.start none iv qt], .step t, .step t, .fire t t]) {}).trace =
      (run body ms {}).trace ++ [.called t [.start none iv qt], .started t t iv, .tick t] ∧
    (run body (ms ++ [.call t [.stop none qt], .step t, .step t, .fire t t]) {}).trace =
      (run body ms {}).trace ++ [.called t [.stop none qt], .stopped t t] := by
  have ht := run_timely body ms timely_empty hp
  simp only [run_append]
  generalize run body ms {} = s at *
  refine ⟨?_, ?_⟩
  · have ho : ((s.timers t).getD ⟨t, false, 0⟩).owner = t := by
      cases hs : s.timers t with
      | none => rfl
      | some tm => exact timely_owner ht hs
    simp [run, move, hi, looping, stepThread, upd_same, startIn, St.note, start_owner, start_active, ho]
  · cases hs : s.timers t with
    | none => simp [run, move, hi, looping, stepThread, upd_same, stopIn, St.note, hs]
    | some tm =>
      have ho := timely_owner ht hs
      simp [run, move, hi, looping, stepThread, upd_same, stopIn, St.note, hs, ho]

/-! ### Examples

Callback 1 emits callback 2 for thread 1 and callback 3 for thread 0; callback 4 raises; callback 5 lets the event loop run. -/

/-- Code of the callbacks of the examples. -/
def code : Nat → List Act
  | 1 => [.emit 1 2, .emit 0 3]
  | 4 => [.raise]
  | 5 => [.spin]
  | _ => []

/-- Thread 0 starts its timer; thread 1 emits callbacks 1 and 3 for thread 0, which are queued. -/
def begin0 : List Sch := [.call 0 [.start none 10 false], .step 0, .step 0, .call 1 [.emit 0 1, .emit 0 3], .step 1, .step 1, .step 1]

/-- The timer times out and thread 0 works until it is idle. -/
def finish0 : List Sch := List.replicate 9 (.step 0)

example : (run code begin0 {}).queue 0 = [1, 3] ∧ wanted 0 (run code begin0 {}).trace = some 10 ∧ (run code begin0 {}).stack 0 = [] := by
  decide
example : Proper (run code begin0 {}).trace := by
  constructor
  · intro p t ms h
    have : (run code begin0 {}).trace = [.called 0 [.start none 10 false], .started 0 0 10, .called 1 [.emit 0 1, .emit 0 3], .put 1 0 1,
      .put 1 0 3] := by decide
    rw [this] at h
    simp at h
    omega
  · intro p t h
    have : (run code begin0 {}).trace = [.called 0 [.start none 10 false], .started 0 0 10, .called 1 [.emit 0 1, .emit 0 3], .put 1 0 1,
      .put 1 0 3] := by decide
    rw [this] at h
    simp at h
example : (run code (begin0 ++ [.fire 0 0]) {}).trace = (run code begin0 {}).trace ++ [.tick 0] := by decide
example : (run code (begin0 ++ .fire 0 0 :: finish0) {}).trace = (run code begin0 {}).trace ++
    [.tick 0, .got 0 0 1, .ran 0 0 1, .put 0 1 2, .ran 0 0 3, .got 0 0 3, .ran 0 0 3] ∧
    (run code (begin0 ++ .fire 0 0 :: finish0) {}).stack 0 = [] := by decide
example : due code 0 1 2 (run code (begin0 ++ .fire 0 0 :: finish0) {}).trace = 1 ∧
    count (.put 0 1 2) (run code (begin0 ++ .fire 0 0 :: finish0) {}).trace = 1 := by decide
-- stopped: nothing happens
example : wanted 0 (run code (begin0 ++ [.call 0 [.stop none false], .step 0, .step 0]) {}).trace = none ∧
    (run code (begin0 ++ [.call 0 [.stop none false], .step 0, .step 0]) {}).stack 0 = [] ∧
    (run code (begin0 ++ [.call 0 [.stop none false], .step 0, .step 0] ++ .fire 0 0 :: finish0) {}).queue 0 = [1, 3] := by decide
-- an exception: the rest waits for the next timeout
example : (run code ([.call 0 [.start none 0 false], .step 0, .step 0, .call 1 [.emit 0 4, .emit 0 3], .step 1, .step 1, .step 1, .fire 0 0,
      .step 0, .step 0]) {}).queue 0 = [3] ∧
    gots 0 (run code ([.call 0 [.start none 0 false], .step 0, .step 0, .call 1 [.emit 0 4, .emit 0 3], .step 1, .step 1, .step 1, .fire 0 0,
      .step 0, .step 0, .fire 0 0, .step 0]) {}).trace = [4, 3] := by decide
-- the timer times out while a callback lets the event loop run
example : (run code ([.call 0 [.start none 0 false], .step 0, .step 0, .call 1 [.emit 0 5, .emit 0 3], .step 1, .step 1, .step 1, .fire 0 0,
      .step 0, .fire 0 0, .step 0]) {}).queue 0 = [] := by decide

/-! ### What does not hold -/

/-- `start_emitting_from_queue(thread=t)` does not start a timer in thread `t`: thread 0 asks for one for thread 1, and no timeout, in either
thread, delivers what is queued for thread 1. -/
theorem C63_other_refuted :
    wanted 1 (run code [.call 0 [.start (some 1) 10 false, .emit 1 2], .step 0, .step 0, .step 0] {}).trace = some 10 ∧
    (∀ evs, (∀ u iv, .started 1 u iv ∉ (run code ([.call 0 [.start (some 1) 10 false, .emit 1 2], .step 0, .step 0, .step 0] ++ evs) {}).trace) →
      ∃ r, (run code ([.call 0 [.start (some 1) 10 false, .emit 1 2], .step 0, .step 0, .step 0] ++ evs) {}).queue 1 = 2 :: r) := by
  refine ⟨by decide, ?_⟩
  intro evs hno
  have hord := C63_order code ([.call 0 [.start (some 1) 10 false, .emit 1 2], .step 0, .step 0, .step 0] ++ evs) 1
  have hself := C63_self code ([.call 0 [.start (some 1) 10 false, .emit 1 2], .step 0, .step 0, .step 0] ++ evs)
  obtain ⟨ex, hex⟩ := run_trace code evs (run code [.call 0 [.start (some 1) 10 false, .emit 1 2], .step 0, .step 0, .step 0] {})
  rw [← run_append] at hex
  have h0 : puts 1 (run code [.call 0 [.start (some 1) 10 false, .emit 1 2], .step 0, .step 0, .step 0] {}).trace = [2] := by decide
  have h1 : puts 1 (run code ([.call 0 [.start (some 1) 10 false, .emit 1 2], .step 0, .step 0, .step 0] ++ evs) {}).trace = 2 :: puts 1 ex := by
    rw [hex, puts_append, h0]
    rfl
  generalize run code ([.call 0 [.start (some 1) 10 false, .emit 1 2], .step 0, .step 0, .step 0] ++ evs) {} = s at *
  have hg : gots 1 s.trace = [] := by
    cases hgl : gots 1 s.trace with
    | nil => rfl
    | cons j l =>
      have hj : j ∈ gots 1 s.trace := by rw [hgl]; exact List.mem_cons_self
      unfold gots at hj
      rw [List.mem_filterMap] at hj
      obtain ⟨e, he, hf⟩ := hj
      split at hf
      · rename_i p t i
        split at hf
        · rename_i h
          subst h
          obtain ⟨_, u, iv, h2⟩ := hself p _ i he
          exact absurd h2 (hno u iv)
        · cases hf
      · cases hf
  rw [hg, h1] at hord
  exact ⟨_, hord.symm⟩

/-- Nor does it work afterwards when thread 1 asks for a timer itself: it gets the one that lives in thread 0, and Qt does not start that
from thread 1. -/
theorem C63_taken_refuted :
    (run code [.call 0 [.start (some 1) 10 false, .stop (some 1) false, .emit 1 2], .step 0, .step 0, .step 0, .step 0,
      .call 1 [.start none 10 false], .step 1, .step 1, .fire 1 1, .fire 1 0, .fire 0 1, .fire 0 0, .step 0, .step 1] {}).queue 1 = [2] ∧
    (run code [.call 0 [.emit 1 2], .step 0, .step 0,
      .call 1 [.start none 10 false], .step 1, .step 1, .fire 1 1, .fire 1 0, .fire 0 1, .fire 0 0, .step 0, .step 1] {}).queue 1 = [] := by
  decide

/-- And thread 0, which has stopped its timer, still has its queue emptied, by the timer of thread 1. -/
theorem C63_stopped_refuted :
    gots 0 (run code [.call 0 [.start (some 1) 10 false, .start none 10 false, .stop none false], .step 0, .step 0, .step 0, .step 0,
      .call 1 [.emit 0 3], .step 1, .step 1, .fire 0 1, .step 0] {}).trace = [3] ∧
    wanted 0 (run code [.call 0 [.start (some 1) 10 false, .start none 10 false, .stop none false], .step 0, .step 0, .step 0, .step 0,
      .call 1 [.emit 0 3], .step 1, .step 1, .fire 0 1, .step 0] {}).trace = none := by
  decide

end Psygnal.Qtt
