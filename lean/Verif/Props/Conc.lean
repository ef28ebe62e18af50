import Verif.ConcEmitter

/-! # C45, C46, C47: emissions in several threads -/
namespace Psygnal.Conc

/-! ## C45 -/

/-- **C45**.  Any signals, callbacks, reemission modes and any number of threads running any code: in what is
observed under any schedule, between a call of a callback of `s` by one thread and a later one by another
thread, the first thread has left its outermost emission of `s`.  So calls of different emissions do not
interleave. -/
theorem C45 (e : Env) (prog : Nat → Code) (sched : List Nat) {l1 l2 l3 : List Ev} {s t t' x a x' a' : Nat}
    (h : (run e sched (init e prog)).log = l1 ++ .call t s x a :: (l2 ++ .call t' s x' a' :: l3)) (ht : t ≠ t') :
    Ev.done t s ∈ l2 := by
  have hi := run_inv (e := e) (P := Serial) serial_step sched _ (serial_init e prog)
  by_cases hd : Ev.done t s ∈ l2
  · exact hd
  · exact absurd (hi.coh.serial h hd).symm ht

/-- At no time are two threads in an emission of the same signal, nor is one in an emission while another
changes connections (anything done holding the lock). -/
theorem C45_exclusion (e : Env) (prog : Nat → Code) (sched : List Nat) {s t t' : Nat}
    (h1 : 0 < held s ((run e sched (init e prog)).thr t)) (h2 : 0 < held s ((run e sched (init e prog)).thr t')) : t = t' :=
  (run_inv (e := e) (P := Serial) serial_step sched _ (serial_init e prog)).locks.one h1 h2

/-- An emission that returns at once because something is in the queue is nested, in the same thread, in an
emission of the same signal, which will deliver it; so no emission is put into the queue of another thread. -/
theorem C45_own_queue (e : Env) (prog : Nat → Code) (sched : List Nat) {s t a : Nat}
    (hc : ((run e sched (init e prog)).thr t).ctl = .locked s a) (hq : (run e sched (init e prog)).queue s ≠ []) :
    0 < loopS s ((run e sched (init e prog)).thr t).stack := by
  have hi := run_inv (e := e) (P := fun σ => Serial σ ∧ Queues σ)
    (fun t σ σ' h hi => ⟨serial_step t σ σ' h hi.1, queues_step t σ σ' h hi.2⟩) sched _
    ⟨serial_init e prog, fun _ h => absurd rfl h⟩
  obtain ⟨t', ht'⟩ := hi.2 s hq
  have h1 : 0 < held s ((run e sched (init e prog)).thr t) := by simp [held, hc, heldC]; omega
  have h2 := loops_le_held s ((run e sched (init e prog)).thr t')
  have h3 := hi.1.locks.one h1 (show 0 < held s ((run e sched (init e prog)).thr t') by omega)
  subst h3
  simpa [loops, hc, loopC] using ht'

/-- Signal 0 with callbacks 1 and 2, signal 1 with callback 3; callback 1 emits 1. -/
def demo : Env where
  slots s := if s = 0 then [1, 2] else if s = 1 then [3] else []
  body s x a := if s = 0 ∧ x = 1 then .emit 1 (a + 10) fun _ => .ret else .see fun _ => .ret
  mode _ := .immediate
  limit := 100

/-- Two threads emit signal 0. -/
def demoProg (t : Nat) : Code := if t < 2 then .emit 0 t fun _ => .ret else .ret

/-- Thread 0 gets the lock, thread 1 tries all the time; then thread 1 emits. -/
def demoSched : List Nat := (List.replicate 80 [0, 1]).flatten

example : ((run demo demoSched (init demo demoProg)).log.filter fun ev => match ev with
      | .call .. => true | .done .. => true | _ => false)
    = [.call 0 0 1 0, .call 0 1 3 10, .done 0 1, .call 0 0 2 0, .done 0 0,
       .call 1 0 1 1, .call 1 1 3 11, .done 1 1, .call 1 0 2 1, .done 1 0] := by decide +kernel

/-- Thread 0 emits signal 0; thread 1 connects callback 7 to it, which takes the lock, and discards callback 2, whose
owner has died, which does not (`/repo/src/psygnal/_signal.py:736,804-816`). -/
def demoProg2 (t : Nat) : Code :=
  if t = 0 then .emit 0 5 fun _ => .emit 0 6 fun _ => .ret
  else if t = 1 then .slots 0 (List.filter (· ≠ 2)) (.hold 0 (.slots 0 (· ++ [7]) .ret) fun _ => .ret)
  else .ret

/-- The discarded callback is not called any more, the connected one only by the next emission. -/
example : ((run demo demoSched (init demo demoProg2)).log.filter fun ev => match ev with
      | .call .. => true | .done .. => true | _ => false)
    = [.call 0 0 1 5, .call 0 1 3 15, .done 0 1, .done 0 0,
       .call 0 0 1 6, .call 0 1 3 16, .done 0 1, .call 0 0 7 6, .done 0 0] := by decide +kernel

/-- The hypotheses of `C45_own_queue` are met: a callback emits its own, queued signal. -/
def demoQ : Env where
  slots _ := [1]
  body _ _ a := if a = 0 then .emit 0 1 fun _ => .ret else .ret
  mode _ := .queued
  limit := 100

/-- Is the thread about to append to a queue that is not empty? -/
def atQueue (σ : St) (t s : Nat) : Bool := (match (σ.thr t).ctl with | .locked s' _ => s' == s | _ => false) && !(σ.queue s).isEmpty

example : atQueue (run demoQ (List.replicate 11 0) (init demoQ demoProg)) 0 0 = true := by decide +kernel

/-! ## C46 -/

/-- **C46** (as far as true).  If under the schedule no two threads are in emissions at the same time, of
whatever signals, then every callback that asks sees the signal it was called by, and when no thread is in an
emission, `current_emitter()` is `None`.  Missing: emissions of different signals that overlap, refuted
below. -/
theorem C46_partial (e : Env) (prog : Nat → Code) (sched : List Nat)
    (hx : ∀ pre post, sched = pre ++ post → Excl (run e pre (init e prog))) :
    (∀ t s v, Ev.saw t (some s) v ∈ (run e sched (init e prog)).log → v = some s)
    ∧ ((∀ t, ¬ busy ((run e sched (init e prog)).thr t)) → (run e sched (init e prog)).cur = none) := by
  have key : ∀ (l : List Nat) (σ : St), (∀ pre post, l = pre ++ post → Excl (run e pre σ)) → Emitter σ → Emitter (run e l σ) := by
    intro l
    induction l with
    | nil => exact fun _ _ h => h
    | cons t l ih =>
      intro σ hx h
      unfold run
      apply ih
      · intro pre post heq
        exact hx (t :: pre) post (by rw [heq]; rfl)
      · have h0 := hx [] (t :: l) rfl
        have h1 := hx [t] l rfl
        simp only [run] at h0 h1
        cases hq : step e t σ with
        | none => exact h
        | some σ' => rw [hq] at h1; exact emitter_step hq h0 h1 h
  have := key sched _ hx (emitter_init e prog)
  exact ⟨this.saw, this.idle⟩

/-- **C46** (one signal).  If all threads emit the same signal (callbacks may emit others, and so on), the
lock of that signal is enough: under every schedule callbacks see their own emitter, and it is `None` at the
end. -/
theorem C46_one_signal (e : Env) (prog : Nat → Code) {r : Nat} (hr : ∀ t, Root r (prog t)) (sched : List Nat) :
    (∀ t s v, Ev.saw t (some s) v ∈ (run e sched (init e prog)).log → v = some s)
    ∧ ((∀ t, ((run e sched (init e prog)).thr t).ended) → (run e sched (init e prog)).cur = none) := by
  have hex : ∀ pre : List Nat, Excl (run e pre (init e prog)) := by
    intro pre
    have hi := run_inv (e := e) (P := fun σ => Serial σ ∧ ∀ t, Rooted r (σ.thr t))
      (fun t σ σ' h hi => ⟨serial_step t σ σ' h hi.1, rooted_step h hi.2⟩) pre (init e prog)
      ⟨serial_init e prog, fun t => .inl ⟨hr t, trivial⟩⟩
    intro t t' hb hb'
    exact hi.1.locks.one ((hi.2 t).held hb) ((hi.2 t').held hb')
  obtain ⟨h1, h2⟩ := C46_partial e prog sched fun pre _ _ => hex pre
  refine ⟨h1, fun hend => h2 fun t hb => ?_⟩
  obtain ⟨⟨ok, hok⟩, hst⟩ := hend t
  rcases hb with hb | hb
  · rw [hok] at hb; cases hb
  · rw [hst] at hb; exact hb rfl

/-- With one thread emitting, whatever the others do short of emitting, the same holds: the hypothesis of
`C46_partial` is met. -/
theorem C46_one_thread (e : Env) (code : Code) (sched : List Nat) :
    ∀ t s v, Ev.saw t (some s) v ∈ (run e sched (init e fun t => if t = 0 then code else .see fun _ => .ret)).log →
      v = some s := by
  refine (C46_partial e _ sched ?_).1
  intro pre _ _
  have hi := run_inv (e := e)
    (P := fun σ => ∀ t, t ≠ 0 → (σ.thr t).stack = [] ∧ ((σ.thr t).ctl = .run (.see fun _ => .ret) ∨ (σ.thr t).ctl = .run .ret
      ∨ ∃ ok, (σ.thr t).ctl = .fin ok))
    (by
      intro t σ σ' h hi t' ht'
      by_cases htt : t' = t
      · subst htt
        obtain ⟨h1, h2⟩ := hi t' ht'
        have h := step_rel h
        rcases hth : σ.thr t' with ⟨c, st⟩
        rw [hth] at h h1 h2
        simp only at h h1 h2
        rcases h2 with rfl | rfl | ⟨ok, rfl⟩
        · cases h; simp [h1]
        · cases h; simp [h1]
        · subst h1; cases h
      · rw [(lockStep_step h).others t' htt]; exact hi t' ht') pre
    (init e fun t => if t = 0 then code else .see fun _ => .ret)
    (by intro t ht; simp [init, ht])
  have hnb : ∀ t, t ≠ 0 → ¬ busy ((run e pre (init e fun t => if t = 0 then code else .see fun _ => .ret)).thr t) := by
    intro t ht hb
    obtain ⟨h1, h2⟩ := hi t ht
    rcases hb with hb | hb
    · rcases h2 with h2 | h2 | ⟨ok, h2⟩ <;> rw [h2] at hb <;> cases hb
    · rw [h1] at hb; exact hb rfl
  intro t t' hb hb'
  have a : t = 0 := Classical.byContradiction fun h => hnb t h hb
  have b : t' = 0 := Classical.byContradiction fun h => hnb t' h hb'
  rw [a, b]

example : ∀ t, Root 0 (demoProg t) := by
  intro t; unfold demoProg; split
  · exact ⟨rfl, fun _ => trivial⟩
  · trivial

example : ((run demo demoSched (init demo demoProg)).log.filter fun ev => match ev with | .saw .. => true | _ => false)
    = [.saw 0 (some 1) (some 1), .saw 0 (some 0) (some 0), .saw 1 (some 1) (some 1), .saw 1 (some 0) (some 0)] := by
  decide +kernel

/-- Threads 0 and 1 emit signals 0 and 1, each with a callback that asks for the emitter. -/
def two : Env where
  slots s := if s < 2 then [1] else []
  body _ _ _ := .see fun _ => .ret
  mode _ := .immediate
  limit := 100

/-- See `two`. -/
def twoProg (t : Nat) : Code := if t < 2 then .emit t 0 fun _ => .ret else .ret

/-- Have the first two threads ended? -/
def bothEnded (σ : St) : Bool := (List.range 2).all fun t => match (σ.thr t).ctl, (σ.thr t).stack with
  | .fin _, [] => true
  | _, _ => false

/-- **C46 fails (1)**: `_current_emitter` is one attribute of the class `Signal` for all threads
(`/repo/src/psygnal/_signal.py:293,412`).  Thread 0 has set it and is about to call its callback when thread 1 emits
another signal: the callback of signal 0 sees signal 1. -/
theorem C46_refuted : ∃ sched : List Nat,
    Ev.saw 0 (some 0) (some 1) ∈ (run two sched (init two twoProg)).log ∧ bothEnded (run two sched (init two twoProg)) = true :=
  ⟨List.replicate 7 0 ++ List.replicate 7 1 ++ List.replicate 20 0 ++ List.replicate 20 1, by decide +kernel, by decide +kernel⟩

/-- **C46 fails (2)**: for good.  Each thread restores what it found; if they overlap without nesting, the
emitter of the first stays set after both have ended. -/
theorem C46_leak_refuted : ∃ sched : List Nat,
    bothEnded (run two sched (init two twoProg)) = true ∧ (run two sched (init two twoProg)).cur = some 0 :=
  ⟨List.replicate 7 0 ++ List.replicate 7 1 ++ List.replicate 20 0 ++ List.replicate 20 1, by decide +kernel, by decide +kernel⟩

/-! ## C47 -/

/-- **C47**.  Signals have ranks; a callback of `s` locks (emits, connects to, disconnects from) only `s`
and signals of higher rank.  Then under no schedule is there a deadlock, with any number of threads that run any such code:
some thread can do a step unless all have ended. -/
theorem C47 (e : Env) (rank : Nat → Nat) (he : ∀ s x a, Above rank (some s) (e.body s x a))
    (prog : Nat → Code) (hp : ∀ t, Above rank none (prog t)) (n : Nat) (hn : ∀ t, n ≤ t → prog t = .ret)
    (sched : List Nat) :
    (∀ t, ((run e sched (init e prog)).thr t).ended) ∨ ∃ t, step e t (run e sched (init e prog)) ≠ none := by
  have hi := run_inv (e := e)
    (P := fun σ => Serial σ ∧ (∀ t, Ranked rank (σ.thr t)) ∧
      ∀ t, n ≤ t → (σ.thr t).stack = [] ∧ ((σ.thr t).ctl = .run .ret ∨ (σ.thr t).ctl = .fin true))
    (by
      rintro t σ σ' h ⟨h1, h2, h3⟩
      refine ⟨serial_step t σ σ' h h1, ranked_step he h h2, ?_⟩
      intro t' ht'
      by_cases htt : t' = t
      · subst htt
        obtain ⟨h4, h5⟩ := h3 t' ht'
        have h := step_rel h
        rcases hth : σ.thr t' with ⟨c, st⟩
        rw [hth] at h h4 h5
        simp only at h h4 h5
        rcases h5 with rfl | rfl
        · cases h; simp [h4]
        · subst h4; cases h
      · rw [(lockStep_step h).others t' htt]; exact h3 t' ht')
    sched (init e prog)
    ⟨serial_init e prog, fun t => ⟨hp t, trivial⟩, fun t ht => ⟨rfl, .inl (by simp [init, hn t ht])⟩⟩
  generalize run e sched (init e prog) = σ at hi
  obtain ⟨hs, hr, hfin⟩ := hi
  by_cases hdead : ∃ t, step e t σ ≠ none
  · exact .inr hdead
  · left
    have hdead : ∀ t, step e t σ = none := fun t => Classical.byContradiction fun h => hdead ⟨t, h⟩
    intro t0
    refine Classical.byContradiction fun hne => ?_
    -- from a waiting thread to one that waits for a higher lock
    have climb : ∀ t s, waitsFor (σ.thr t).ctl = some s → (∃ o k, σ.locks s = some (o, k) ∧ o ≠ t) →
        ∃ t' s', waitsFor (σ.thr t').ctl = some s' ∧ (∃ o k, σ.locks s' = some (o, k) ∧ o ≠ t') ∧ rank s < rank s' := by
      rintro t s _ ⟨o, k, hl, hot⟩
      have hh := hs.locks s
      rw [hl] at hh
      have hheld : 0 < held s (σ.thr o) := by have := hh.1; have := hh.2.1; omega
      rcases stuck (hdead o) with ⟨⟨ok, h1⟩, h2⟩ | ⟨s', o', k', h1, h2, h3⟩
      · simp [held, h1, h2, heldC, loopC] at hheld
      · refine ⟨o, s', h1, ⟨o', k', h2, h3⟩, ?_⟩
        have hc : heldC s (σ.thr o).ctl = 0 := by
          cases hc : (σ.thr o).ctl <;> rw [hc] at h1 <;> first | rfl | cases h1
        have hst : 0 < heldS s (σ.thr o).stack := by simp only [held] at hheld; omega
        obtain ⟨top, h4, h5⟩ := rank_top (hr o).2 hst
        have hall : Allowed rank (topHeld (σ.thr o).stack) s' := by
          have := (hr o).1
          cases hc : (σ.thr o).ctl <;> rw [hc] at h1 this <;> cases h1
          · exact this
          · exact this.1
        have hne' : top ≠ s' := by
          rintro rfl
          -- the thread would hold the lock it waits for
          have hself : 0 < heldS top (σ.thr o).stack := by
            have : ∀ st : List Frame, topHeld st = some top → 0 < heldS top st := by
              intro st
              induction st with
              | nil => intro h; cases h
              | cons f st ih =>
                cases f with
                | cont k => intro h; have := ih h; simp; omega
                | loop s p l => intro h; cases h; simp [heldF, loopF]; omega
                | hold s => intro h; cases h; simp [heldF]; omega
            exact this _ h4
          have hh' := hs.locks top
          rw [h2] at hh'
          have := hh'.2.2 o (Ne.symm h3)
          simp only [held] at this; omega
        have := (hall top h4).resolve_left hne'
        rcases h5 with rfl | h5 <;> omega
    -- so there are waiting threads for arbitrarily high locks
    have high : ∀ m, ∃ t s, waitsFor (σ.thr t).ctl = some s ∧ (∃ o k, σ.locks s = some (o, k) ∧ o ≠ t) ∧ m ≤ rank s := by
      intro m
      induction m with
      | zero =>
        rcases stuck (hdead t0) with h | ⟨s, o, k, h1, h2, h3⟩
        · exact absurd h hne
        · exact ⟨t0, s, h1, ⟨o, k, h2, h3⟩, Nat.zero_le _⟩
      | succ m ih =>
        obtain ⟨t, s, h1, h2, h3⟩ := ih
        obtain ⟨t', s', h4, h5, h6⟩ := climb t s h1 h2
        exact ⟨t', s', h4, h5, by omega⟩
    -- but only `n` threads can wait
    have bound : ∀ N, ∃ M, ∀ t s, t < N → waitsFor (σ.thr t).ctl = some s → rank s < M := by
      intro N
      induction N with
      | zero => exact ⟨0, fun _ _ h => absurd h (Nat.not_lt_zero _)⟩
      | succ N ih =>
        obtain ⟨M, hM⟩ := ih
        cases hw : waitsFor (σ.thr N).ctl with
        | none =>
          refine ⟨M, fun t s ht h => ?_⟩
          rcases Nat.lt_succ_iff_lt_or_eq.mp ht with h1 | rfl
          · exact hM t s h1 h
          · rw [hw] at h; cases h
        | some s0 =>
          refine ⟨max M (rank s0 + 1), fun t s ht h => ?_⟩
          rcases Nat.lt_succ_iff_lt_or_eq.mp ht with h1 | rfl
          · have := hM t s h1 h; omega
          · rw [hw] at h; cases h; omega
    obtain ⟨M, hM⟩ := bound n
    obtain ⟨t, s, h1, _, h3⟩ := high M
    by_cases htn : t < n
    · have := hM t s htn h1; omega
    · rcases (hfin t (by omega)).2 with h | h <;> rw [h] at h1 <;> cases h1

/-- The hypotheses are met by `demo`, where callback 1 of signal 0 emits signal 1. -/
example : ∀ s x a, Above id (some s) (demo.body s x a) := by
  intro s x a
  simp only [demo]
  split
  · rename_i h
    obtain ⟨rfl, rfl⟩ := h
    refine ⟨?_, fun _ => trivial⟩
    intro h hh; cases hh; right; exact Nat.zero_lt_one
  · intro _; trivial

example : ∀ t, Above id none (demoProg t) := by
  intro t; unfold demoProg; split
  · exact ⟨(fun _ h => by cases h), fun _ => trivial⟩
  · trivial

/-- Threads from `n` on do nothing, so a deadlock of the first `n` is one of all. -/
theorem deadlock_of {e : Env} {prog : Nat → Code} {sched : List Nat} {n : Nat} (hn : ∀ t, n ≤ t → prog t = .ret)
    (h1 : (List.range n).all (fun t => (step e t (run e sched (init e prog))).isNone) = true)
    (h2 : (List.range n).any (fun t => match ((run e sched (init e prog)).thr t).ctl with | .fin _ => false | _ => true) = true) :
    ∃ sched : List Nat, ∃ t, t < n ∧ (∀ t, t < n → step e t (run e sched (init e prog)) = none)
      ∧ ¬ ((run e sched (init e prog)).thr t).ended ∧ ∀ t, n ≤ t → prog t = .ret := by
  obtain ⟨t, ht, h3⟩ := List.any_eq_true.mp h2
  refine ⟨sched, t, List.mem_range.mp ht, fun t ht => ?_, ?_, hn⟩
  · have := List.all_eq_true.mp h1 t (List.mem_range.mpr ht)
    simpa using this
  · rintro ⟨⟨ok, h⟩, _⟩
    rw [h] at h3; cases h3

/-- Callbacks of signals 0 and 1 emit each other's signal. -/
def cyclic : Env where
  slots s := if s < 2 then [1] else []
  body s _ a := if a = 0 then .emit (1 - s) 1 fun _ => .ret else .ret
  mode _ := .immediate
  limit := 100

/-- **C47** (the order is needed).  Two signals whose callbacks emit each other, two threads that start at
either: a schedule after which both wait for ever. -/
theorem C47_cyclic : ∃ sched : List Nat, ∃ t, t < 2 ∧ (∀ t, t < 2 → step cyclic t (run cyclic sched (init cyclic twoProg)) = none)
    ∧ ¬ ((run cyclic sched (init cyclic twoProg)).thr t).ended ∧ ∀ t, 2 ≤ t → twoProg t = .ret :=
  deadlock_of (sched := List.replicate 7 0 ++ List.replicate 30 1 ++ List.replicate 30 0)
    (by intro t ht; unfold twoProg; rw [if_neg (by omega)]) (by decide +kernel) (by decide +kernel)

/-- A group: member 0, relay 1; the only slot of the member is the relay, which emits the relay's signal
(`/repo/src/psygnal/_group.py:97-100`). -/
def group : Env where
  slots s := if s < 2 then [1] else []
  body s _ a := if s = 0 then .emit 1 a fun _ => .ret else .ret
  mode _ := .immediate
  limit := 100

/-- Thread 0 emits the member.  Thread 1 disconnects the last callback of the group: `SignalRelay.disconnect`
disconnects from the members, then `SignalInstance.disconnect` takes the lock of the relay and `_remove_slot`,
finding no slots left, disconnects the relay from the members, each under the member's lock
(`/repo/src/psygnal/_group.py:88-95,204-206`, `/repo/src/psygnal/_signal.py:1122-1130`). -/
def groupProg (t : Nat) : Code :=
  if t = 0 then .emit 0 0 fun _ => .ret
  else if t = 1 then .hold 0 .ret fun _ => .hold 1 (.hold 0 .ret fun _ => .ret) fun _ => .ret
  else .ret

/-- **Beyond C47**: callbacks emit in order (the member's emits the relay, the relay's nothing), and still
there is a deadlock, between an emission of a member, which takes the lock of the member and then that of the relay, and
disconnecting the last callback of the group, which takes them the other way. -/
theorem C47_group_disconnect : (∀ s x a, Above id (some s) (group.body s x a)) ∧
    ∃ sched : List Nat, ∃ t, t < 2 ∧ (∀ t, t < 2 → step group t (run group sched (init group groupProg)) = none)
    ∧ ¬ ((run group sched (init group groupProg)).thr t).ended ∧ ∀ t, 2 ≤ t → groupProg t = .ret := by
  refine ⟨?_, deadlock_of (sched := List.replicate 9 1 ++ List.replicate 30 0 ++ List.replicate 30 1)
    (by intro t ht; unfold groupProg; rw [if_neg (by omega), if_neg (by omega)]) (by decide +kernel) (by decide +kernel)⟩
  intro s x a
  simp only [group]
  split
  · rename_i h; subst h
    refine ⟨?_, fun _ => trivial⟩
    intro h hh; cases hh; right; exact Nat.zero_lt_one
  · trivial

end Psygnal.Conc
