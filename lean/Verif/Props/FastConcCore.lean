import Verif.FastConcCoreLemmas
import Verif.FastConcLocks

/-! # C53: a thread that runs alone, and the locks -/
namespace Psygnal.FC

/-- C53, the locks, under every schedule and with any mixture of `emit_fast` and `emit`: when every thread that has run has ended, no lock is
held, so every signal can be emitted by everybody. -/
theorem C53_locks (e : Env) (prog : Nat → Code) (sched : List Nat)
    (hf : ∀ t ∈ sched, ∃ ok, ((run e sched (init prog)).thr t).ctl = .fin ok ∧ ((run e sched (init prog)).thr t).stack = []) (s : Nat) :
    (run e sched (init prog)).locks s = none := by
  have hl := (locks_run e prog sched).2 s
  cases h : (run e sched (init prog)).locks s with
  | none => rfl
  | some q =>
    obtain ⟨o, c⟩ := q
    rw [h] at hl
    obtain ⟨h1, h2, _⟩ := hl
    by_cases ho : o ∈ sched
    · obtain ⟨ok, h3, h4⟩ := hf o ho
      simp only [held, h3, h4, heldC, heldS] at h2
      omega
    · dsimp only at h2
      rw [run_others e _ ho] at h2
      simp only [held, init, heldC, heldS] at h2
      omega

/-- C53, for a thread that runs alone.  Whenever the model without threads says that `c` ends, with some result and with some calls of
callbacks, the thread that runs `c` does so too: it ends (and stays there however long one waits), ends normally in just these cases, has
called the same callbacks with the same arguments in the same order, has left the same counters, and has given back every lock. -/
theorem C53_alone (e : Env) (he : e.limit = 300) (prog : Nat → Code) (t : Nat)
    {w : World} {r : Res} (h : Runs e.core (.prog (trans (prog t))) e.world w r) :
    ∃ n, ∀ m, n ≤ m →
      (((run e (List.replicate m t) (init prog)).thr t).ctl = .fin (match r with | .ok _ => true | .error _ => false) ∧
       ((run e (List.replicate m t) (init prog)).thr t).stack = [] ∧
       ((run e (List.replicate m t) (init prog)).thr t).log.filterMap fastCall = w.log.filterMap coreCall ∧
       (∀ s, (w.sig s).depth = (run e (List.replicate m t) (init prog)).depth s) ∧
       (∀ s, (w.sig s).maxDepth = (run e (List.replicate m t) (init prog)).maxd s) ∧
       ∀ s, (run e (List.replicate m t) (init prog)).locks s = none) := by
  obtain ⟨f, hf⟩ := h
  obtain ⟨σ, ⟨n, hn⟩, hr, hc, hst⟩ := (sim e t he f).prog (prog t) e.world w r (init prog) [] hf (rel_init e prog t) rfl rfl
  refine ⟨n, fun m hm => ?_⟩
  have hstay : ∀ k, run e (List.replicate k t) σ = σ := by
    intro k
    induction k with
    | zero => rfl
    | succ k ih =>
      have : FC.step e t σ = none := by simp only [FC.step, hc, hst]
      simp only [List.replicate_succ, run, this, Option.getD_none, ih]
  have hrun : run e (List.replicate m t) (init prog) = σ := by
    obtain ⟨k, rfl⟩ := Nat.exists_eq_add_of_le hm
    rw [← List.replicate_append_replicate, run_then, hn, hstay]
  have hl := (locks_run e prog (List.replicate m t)).2
  rw [hrun] at hl ⊢
  refine ⟨by rw [hc]; cases r <;> rfl, hst, hr.log.symm, hr.depth, hr.maxd, fun s => ?_⟩
  rcases hr.locks s with h | ⟨k, h⟩
  · exact h
  · have h1 := hl s
    rw [h] at h1
    have h2 := h1.2.1
    simp only [held, hc, hst, heldC, heldS] at h2
    omega

/-- Signals 0 (latest only) and 1, each with callbacks 1 and 2.  Callback 1 emits the same signal again while the argument is small: signal 0
with `emit`, signal 1 with `emit_fast`; callback 2 of signal 1 emits signal 0 if the argument is 2, and raises if it is 9. -/
def bothKinds : Env where
  slots _ := [1, 2]
  body s x a :=
    if x = 1 then (if a < 2 then .emit (s == 1) s (a + 1) fun _ => .ret else .ret)
    else if s = 1 then (if a = 2 then .emit false 0 1 fun _ => .ret else if a = 9 then .raise else .ret)
    else .ret
  latest s := s = 0
  limit := 300

/-- Emits signal 0 with `emit` and with `emit_fast`, then signal 1 with `emit_fast`, and once more with an exception that it catches. -/
def bothProg (_ : Nat) : Code :=
  .emit false 0 0 fun _ => .emit true 0 1 fun _ => .emit true 1 0 fun _ => .emit true 1 9 fun ok => if ok then .raise else .ret

/-- The sequential model says that this ends normally, with these calls: `emit` cuts the outer latest-only emission short and `emit_fast` does
not, but leaves the maximum as it is, so the emission of signal 0 from callback 2 of signal 1 calls nobody (both models agree on this). -/
example : (exec bothKinds.core 60 (.prog (trans (bothProg 0))) bothKinds.world).map
    (fun q => ((q.1.log.filterMap coreCall).map fun c => (c.1, c.2.1, match c.2.2 with | .atom a => a | _ => -1), okOf q.2))
      = some ([(0, 1, 0), (0, 1, 1), (0, 1, 2), (0, 2, 2),
          (0, 1, 1), (0, 1, 2), (0, 2, 2), (0, 2, 1),
          (1, 1, 0), (1, 1, 1), (1, 1, 2), (1, 2, 2), (1, 2, 1), (1, 2, 0),
          (1, 1, 9), (1, 2, 9)], true) := by decide +kernel

/-- For `C53_locks`: two threads that do this, interleaved; thread 1 waits for the lock while thread 0 emits, and both end.  (The emission of
signal 0 that calls nobody in one thread does call its callbacks in the other.) -/
example :
    let first := [0, 0, 0, 1, 1, 0, 1, 0, 1, 0]
    let half := run bothKinds first (init bothProg)
    let σ := run bothKinds (first ++ (List.replicate 250 [0, 1]).flatten) (init bothProg)
    half.locks 0 = some (0, 1) ∧ (FC.step bothKinds 1 half).isNone ∧
    (∀ t ∈ [0, 1], (match (σ.thr t).ctl with | .fin _ => true | _ => false) = true ∧ (σ.thr t).stack.isEmpty) ∧
    (σ.thr 0).log.length = 24 ∧ (σ.thr 1).log.length = 28 := by
  decide +kernel

end Psygnal.FC
