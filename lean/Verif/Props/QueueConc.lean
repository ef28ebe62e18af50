import Verif.QueueConcLemmas

/-!
# C51: queued callbacks with several threads

Callbacks bound to a thread, emitted from any number of threads at the same time, are each invoked exactly once, on their
thread, in the order in which they were queued, by the `emit_queued()` of that thread, which never waits.
-/
namespace Psygnal.QC

/-- **C51**, first part.  Any threads, callbacks and code, any schedule, as long as no two threads create the queue of
thread `T` at the same time: what was taken out for `T` is a first part of what was put in, in the same order, each once;
and when an `emit_queued` finds the queue empty, that is everything.  Missing: the first use of a queue by two threads
at once, refuted below. -/
theorem C51_partial (e : Env) (ready : Nat → Bool) (prog : Nat → Code) (sched : List Nat) (T : Nat)
    (hx : ∀ pre post, sched = pre ++ post → Single T (run e pre (init ready prog))) :
    gets T (run e sched (init ready prog)).log <+: puts T (run e sched (init ready prog)).log ∧
    ∀ t v st, (run e sched (init ready prog)).thr t = ⟨.poll T v, st⟩ → (run e sched (init ready prog)).q T v = [] →
      gets T (run e sched (init ready prog)).log = puts T (run e sched (init ready prog)).log := by
  have hi := (fifo_run sched _ hx (fifo_init ready prog T) (by simp [Emptied, init])).1
  refine ⟨⟨_, hi.eq.symm⟩, fun t v st hth hq => ?_⟩
  have hv := hi.one t v (.inl (by rw [hth]; exact ⟨rfl, rfl⟩))
  rw [hi.eq]
  simp [content, hv, hq]

/-- When an `emit_queued` returns without an exception, it has just found the queue empty, and then everything queued for that
thread so far had been taken out; so all that was queued before it was called has been. -/
theorem C51_drained (e : Env) (ready : Nat → Bool) (prog : Nat → Code) (sched : List Nat) (T : Nat)
    (hx : ∀ pre post, sched = pre ++ post → Single T (run e pre (init ready prog))) {l1 l2 : List Ev} {t : Nat}
    (h : (run e sched (init ready prog)).log = l1 ++ .back t T true :: l2) :
    (∃ m1 m2, l1 = m1 ++ .empty t T :: m2 ∧ (∀ ev ∈ m2, ev.thread ≠ t) ∧ gets T m1 = puts T m1) ∧
    ∀ a b, l1 = a ++ .start t T :: b → puts T a <+: gets T l1 := by
  have hd := run_inv (e := e) (P := Drains) (fun t σ σ' h => drains_step h) sched _ (drains_init ready prog)
  have he := (fifo_run sched _ hx (fifo_init ready prog T) (by simp [Emptied, init])).2
  obtain ⟨m1, m2, rfl, h2⟩ := hd.log _ _ _ _ h
  have h3 : gets T m1 = puts T m1 := he m1 (m2 ++ .back t T true :: l2) t (by rw [h]; simp)
  refine ⟨⟨m1, m2, rfl, h2, h3⟩, fun a b hab => ?_⟩
  rcases split_append hab with ⟨m, h4, _⟩ | ⟨m, h4, h5⟩
  · rw [gets_append, h3, h4, puts_append, List.append_assoc]
    exact ⟨_, rfl⟩
  · cases m with
    | nil => simp at h5
    | cons y m =>
      simp only [List.cons_append, List.cons.injEq] at h5
      exact absurd rfl (h2 (.start t T) (by rw [h5.2]; simp))

/-- If the queue of `T` exists already (something was queued for `T`, or `T` has called `emit_queued`), the condition
holds, whatever the schedule. -/
theorem C51_ready (e : Env) (ready : Nat → Bool) (prog : Nat → Code) (sched : List Nat) (T : Nat)
    (hr : ready T = true) : Single T (run e sched (init ready prog)) := by
  have hi := run_inv (e := e) (P := fun σ => σ.tab T ≠ none ∧ ∀ t, ¬ creating T (σ.thr t)) (fun t σ σ' h hi => by
    obtain ⟨h1, h2⟩ := hi
    have h2t := h2 t
    have mk : ∀ {th : Thread} {thr' : Nat → Thread}, thr' = set σ.thr t th → ¬ creating T th →
        ∀ t', ¬ creating T (thr' t') := by
      intro th thr' h k t'
      subst h
      by_cases et : t' = t
      · subst et; simpa [set] using k
      · simpa [set, et] using h2 t'
    cases h with
    | miss h hv =>
      refine ⟨h1, mk rfl ?_⟩
      rintro rfl; exact h1 hv
    | make h =>
      refine ⟨h1, mk rfl ?_⟩
      rintro rfl; exact h2t (by rw [h]; rfl)
    | store h =>
      refine ⟨?_, mk rfl (by simp [creating])⟩
      simp only [set]; split
      · simp
      · exact h1
    | _ => exact ⟨h1, mk rfl (by simp [creating])⟩) sched (init ready prog) ⟨by simp [init, hr], by simp [init, creating]⟩
  exact fun t _ h => absurd h (hi.2 t)

/-- No entry is counted twice: all that was ever put has different numbers. -/
theorem C51_distinct (e : Env) (ready : Nat → Bool) (prog : Nat → Code) (sched : List Nat) (T : Nat) :
    ((puts T (run e sched (init ready prog)).log).map (·.1)).Pairwise (· < ·) := by
  have hi := run_inv (e := e) (P := fun σ => ((puts T σ.log).map (·.1)).Pairwise (· < ·) ∧
      ∀ n ∈ puts T σ.log, n.1 < σ.next) (fun t σ σ' h hi => by
    cases h with
    | put h =>
      rename_i T' v x a st
      obtain ⟨h1, h2⟩ := hi
      simp only [puts_append]
      by_cases hT : T' = T
      · subst hT
        have e1 : puts T' [Ev.put t T' (σ.next, x, a)] = [(σ.next, x, a)] := by simp [puts]
        rw [e1]
        refine ⟨?_, fun n hn => ?_⟩
        · rw [List.map_append, List.pairwise_append]
          refine ⟨h1, by simp, fun m hm k hk => ?_⟩
          obtain ⟨n, hn, rfl⟩ := List.mem_map.1 hm
          simp at hk; subst hk
          exact h2 n hn
        · rcases List.mem_append.1 hn with hn | hn
          · exact Nat.lt_succ_of_lt (h2 n hn)
          · simp at hn; subst hn; exact Nat.lt_succ_self _
      · have e1 : puts T [Ev.put t T' (σ.next, x, a)] = [] := by simp [puts, hT]
        rw [e1, List.append_nil]
        exact ⟨h1, fun n hn => Nat.lt_succ_of_lt (h2 n hn)⟩
    | direct h _ => simpa [puts] using hi
    | drain h => simpa [puts] using hi
    | empty h _ => simpa [puts] using hi
    | done h => simpa [puts] using hi
    | get h _ => simpa [puts] using hi
    | _ => exact hi) sched (init ready prog) ⟨by simp [init, puts], by simp [init, puts]⟩
  exact hi.1

/-- What is taken out of a queue is invoked at once, by the thread that took it, with the argument it was queued with. -/
theorem C51_invoked (e : Env) (ready : Nat → Bool) (prog : Nat → Code) (sched : List Nat) {l1 l2 : List Ev}
    {t T n x a : Nat} (h : (run e sched (init ready prog)).log = l1 ++ Ev.get t T (n, x, a) :: l2) :
    ∃ l3, l2 = Ev.call t x a :: l3 := by
  have hi := run_inv (e := e) (P := fun σ => ∀ l1 l2 t T n x a, σ.log = l1 ++ Ev.get t T (n, x, a) :: l2 →
      ∃ l3, l2 = Ev.call t x a :: l3) (fun t σ σ' h hi => by
    have one : ∀ (ev : Ev), (∀ t T n, ev ≠ .get t T n) → ∀ l1 l2 t T n x a,
        σ.log ++ [ev] = l1 ++ Ev.get t T (n, x, a) :: l2 → ∃ l3, l2 = Ev.call t x a :: l3 := by
      intro ev hev l1 l2 t T n x a heq
      rcases List.append_eq_append_iff.1 heq with ⟨m, h1, h2⟩ | ⟨m, h1, h2⟩
      · cases m with
        | nil => simp at h2; exact absurd h2.1 (hev _ _ _)
        | cons y m => simp at h2
      · cases m with
        | nil => simp at h2; exact absurd h2.1.symm (hev _ _ _)
        | cons y m =>
          simp only [List.cons_append, List.cons.injEq] at h2
          obtain ⟨rfl, rfl⟩ := h2
          obtain ⟨l3, rfl⟩ := hi _ _ _ _ _ _ _ h1
          exact ⟨_, rfl⟩
    cases h with
    | put h => exact one _ (by simp)
    | direct h _ => exact one _ (by simp)
    | drain h => exact one _ (by simp)
    | empty h _ => exact one _ (by simp)
    | done h => exact one _ (by simp)
    | get h _ =>
      rename_i T' v n' x' a' l st hq
      intro l1 l2 t1 T n x a heq
      simp only at heq
      rcases List.append_eq_append_iff.1 heq with ⟨m, h1, h2⟩ | ⟨m, h1, h2⟩
      · cases m with
        | nil => simp at h2; obtain ⟨⟨rfl, rfl, rfl, rfl, rfl⟩, rfl⟩ := h2; exact ⟨[], rfl⟩
        | cons y m =>
          cases m with
          | nil => simp at h2
          | cons z m => simp at h2
      · cases m with
        | nil => simp at h2; obtain ⟨⟨rfl, rfl, rfl, rfl, rfl⟩, rfl⟩ := h2; exact ⟨[], rfl⟩
        | cons y m =>
          simp only [List.cons_append, List.cons.injEq] at h2
          obtain ⟨rfl, rfl⟩ := h2
          obtain ⟨l3, rfl⟩ := hi _ _ _ _ _ _ _ h1
          exact ⟨_, rfl⟩
    | _ => exact hi) sched (init ready prog) (by simp [init])
  exact hi _ _ _ _ _ _ _ h

/-- **C51**, second part.  If `emit_queued` is only called for the own thread, then under every schedule each callback is
invoked on the thread it is bound to, and no thread ever waits in `queue.get()`. -/
theorem C51_home (e : Env) (ready : Nat → Bool) (prog : Nat → Code) (sched : List Nat)
    (he : ∀ x a t, Own t (e.body x a)) (hp : ∀ t, Own t (prog t)) :
    (∀ t x a, Ev.call t x a ∈ (run e sched (init ready prog)).log → t = e.home x) ∧
    ∀ t T v st, (run e sched (init ready prog)).thr t = ⟨.take T v, st⟩ → (run e sched (init ready prog)).q T v ≠ [] := by
  have hi := run_inv (e := e) (P := Home e) (fun t σ σ' h => home_step he h) sched _ (home_init ready hp)
  refine ⟨fun t x a h => (hi.log t x a h).symm, fun t T v st h => ?_⟩
  have := hi.put t
  rw [h] at this
  exact this

/-! ## Examples -/

/-- Callbacks 1 and 2 belong to thread 0, callback 2 has callback 1 invoked. -/
def demo : Env where
  home _ := 0
  body x a := if x = 2 then .send 1 (a + 10) fun _ => .ret else .ret

/-- Thread 0 empties its queue twice, threads 1 and 2 emit. -/
def demoProg (t : Nat) : Code :=
  if t = 0 then .drain none fun _ => .drain none fun _ => .ret
  else if t < 3 then .send 1 t fun _ => .send 2 t fun _ => .ret
  else .ret

/-- All take turns. -/
def demoSched : List Nat := (List.replicate 30 [1, 2, 0]).flatten

example : (run demo demoSched (init (fun _ => true) demoProg)).log =
    [.start 0 0, .put 1 0 (0, 1, 1), .put 2 0 (1, 1, 2), .get 0 0 (0, 1, 1), .call 0 1 1, .put 1 0 (2, 2, 1), .put 2 0 (3, 2, 2),
     .get 0 0 (1, 1, 2), .call 0 1 2, .get 0 0 (2, 2, 1), .call 0 2 1, .call 0 1 11, .get 0 0 (3, 2, 2), .call 0 2 2,
     .call 0 1 12, .empty 0 0, .back 0 0 true, .start 0 0] := by decide +kernel

/-- The conditions of `C51_home` hold of it. -/
example : (∀ x a t, Own t (demo.body x a)) ∧ ∀ t, Own t (demoProg t) := by
  refine ⟨fun x a t => ?_, fun t => ?_⟩
  · simp only [demo]; split
    · exact fun _ => trivial
    · trivial
  · simp only [demoProg]; split
    · exact ⟨rfl, fun _ => ⟨rfl, fun _ => trivial⟩⟩
    · split
      · exact fun _ _ => trivial
      · trivial

/-! ## Where the unrestricted claim fails -/

/-- Two threads queue a callback for thread 0 for the first time: both make a queue, the second replaces the first in the
table, and what was put in the first is lost.  All have ended, `emit_queued` was called after both emissions, and one
callback was not invoked. -/
theorem C51_first_use_refuted :
    ∃ prog sched, (run demo sched (init (fun _ => false) prog)).log =
        [.put 1 0 (0, 1, 1), .put 2 0 (1, 1, 2), .start 0 0, .get 0 0 (1, 1, 2), .call 0 1 2, .empty 0 0, .back 0 0 true] ∧
      (∀ t < 3, (step demo t (run demo sched (init (fun _ => false) prog))).isNone = true) ∧
      (run demo sched (init (fun _ => false) prog)).tab 0 = some 1 ∧
      (run demo sched (init (fun _ => false) prog)).q 0 0 = [(0, 1, 1)] :=
  ⟨fun t => if t = 0 then .drain none fun _ => .ret else if t < 3 then .send 1 t fun _ => .ret else .ret,
    [1, 2, 1, 2, 1, 2, 1, 1, 2, 2] ++ List.replicate 12 1 ++ List.replicate 12 2 ++ List.replicate 20 0,
    by decide +kernel, by decide +kernel, by decide +kernel, by decide +kernel⟩

/-- `emit_queued(thread=T)` called in another thread runs the callbacks of `T` there. -/
theorem C51_elsewhere_refuted :
    ∃ prog sched, (run demo sched (init (fun _ => true) prog)).log =
        [.put 1 0 (0, 1, 7), .start 1 0, .get 1 0 (0, 1, 7), .call 1 1 7, .empty 1 0, .back 1 0 true] ∧ demo.home 1 = 0 :=
  ⟨fun t => if t = 1 then .send 1 7 fun _ => .drain (some 0) fun _ => .ret else .ret, List.replicate 20 1,
    by decide +kernel, rfl⟩

/-- Two threads empty the same queue: both see one entry, one takes it, the other waits for good. -/
theorem C51_wait_refuted :
    ∃ prog sched, (run demo sched (init (fun _ => true) prog)).thr 2 = ⟨.take 0 0, [.drain 0 fun _ => .ret]⟩ ∧
      step demo 2 (run demo sched (init (fun _ => true) prog)) = none ∧
      (run demo sched (init (fun _ => true) prog)).log =
        [.put 1 0 (0, 1, 7), .start 1 0, .start 2 0, .get 1 0 (0, 1, 7), .call 1 1 7, .empty 1 0, .back 1 0 true] :=
  ⟨fun t => if t = 1 then .send 1 7 fun _ => .drain (some 0) fun _ => .ret
      else if t = 2 then .drain (some 0) fun _ => .ret else .ret,
    List.replicate 8 1 ++ List.replicate 4 2 ++ List.replicate 12 1 ++ List.replicate 9 2, rfl, rfl, by decide +kernel⟩

end Psygnal.QC
