import Verif.ConcCoreLemmas
import Verif.ConcLemmas

/-! # C45: a thread that runs alone -/
namespace Psygnal.Conc

/-- C45, for a thread that runs alone.  Whenever the model without threads says that `c` ends, with some result and with some calls of
callbacks, the thread that runs `c` does so too: it ends (and stays there however long one waits), ends normally in just these cases, has
called the same callbacks with the same arguments in the same order, has left the same emissions in the queues and the same current
emitter, and has given back every lock. -/
theorem C45_alone (e : Env) (he : e.limit = 300) (hb : ∀ s x a, Plain (e.body s x a)) (prog : Nat → Code) (t : Nat) (hc : Plain (prog t))
    {w : World} {r : Res} (h : Runs e.core (.prog (trans (prog t))) e.world w r) :
    ∃ n, ∀ m, n ≤ m →
      ((run e (List.replicate m t) (init e prog)).thr t = ⟨.fin (match r with | .ok _ => true | .error _ => false), []⟩ ∧
       (run e (List.replicate m t) (init e prog)).log.filterMap concCall = w.log.filterMap coreCall ∧
       (run e (List.replicate m t) (init e prog)).cur = w.emitter ∧
       (∀ s, (w.sig s).emitQueue = ((run e (List.replicate m t) (init e prog)).queue s).map fun a => [.atom a]) ∧
       (∀ s, (w.sig s).depth = (run e (List.replicate m t) (init e prog)).depth s) ∧
       ∀ s, (run e (List.replicate m t) (init e prog)).locks s = none) := by
  obtain ⟨f, hf⟩ := h
  obtain ⟨σ, ⟨n, hn⟩, hr, ht⟩ := (sim e t he hb f).prog (prog t) e.world w r (init e prog) [] hc hf (rel_init e prog t) rfl
  refine ⟨n, fun m hm => ?_⟩
  have hstay : ∀ k, run e (List.replicate k t) σ = σ := by
    intro k
    induction k with
    | zero => rfl
    | succ k ih =>
      have : Conc.step e t σ = none := by simp only [Conc.step, ht]
      simp only [List.replicate_succ, run, this, Option.getD_none, ih]
  have hrun : run e (List.replicate m t) (init e prog) = σ := by
    obtain ⟨k, rfl⟩ := Nat.exists_eq_add_of_le hm
    rw [← List.replicate_append_replicate, run_then, hn, hstay]
  have hl := run_inv (e := e) (P := Locks) (fun _ _ _ h hi => locks_step h hi) (List.replicate m t) _ (locks_init e prog)
  rw [hrun] at hl ⊢
  refine ⟨by rw [ht]; cases r <;> rfl, hr.log.symm, hr.emitter.symm, hr.queue, hr.depth, fun s => ?_⟩
  rcases hr.locks s with h | ⟨k, h⟩
  · exact h
  · have h1 := hl s
    rw [h] at h1
    have h2 := h1.1
    rw [ht] at h2
    simp [held, heldC, loopC] at h2

/-- Signals 0 (queued), 1 (latest), 2 (immediate), each with callbacks 1 and 2.  Callback 1 of signal 0 emits 0 again with small arguments,
that of signal 1 emits 1 again, and that of 2 emits 0 and raises if the argument is 9. -/
def threeModes : Env where
  slots _ := [1, 2]
  body s x a :=
    if x = 1 then
      if s = 0 then (if a < 2 then .emit 0 (a + 1) fun _ => .ret else .ret)
      else if s = 1 then (if a < 2 then .emit 1 (a + 1) fun _ => .ret else .ret)
      else .emit 0 1 fun _ => if a = 9 then .raise else .ret
    else .see fun _ => .ret
  mode s := if s = 0 then .queued else if s = 1 then .latest else .immediate
  limit := 300

/-- Emits 0, then 1, then 2 with an exception that it catches; then looks at the current emitter. -/
def threeProg (_ : Nat) : Code :=
  .emit 0 0 fun _ => .emit 1 0 fun _ => .emit 2 9 fun ok => if ok then .raise else .emit 2 5 fun _ => .see fun
    | none => .ret
    | some _ => .raise

/-- The hypotheses of `C45_alone` hold for it, the sequential model says that it ends normally, and these are the calls: queued emissions
come one after the other, nested `latest` ones cut the outer ones short, and the exception keeps callback 2 of signal 2 from being called. -/
example : (∀ s x a, Plain (threeModes.body s x a)) ∧ Plain (threeProg 0) ∧
    (exec threeModes.core 60 (.prog (trans (threeProg 0))) threeModes.world).map (fun q => ((q.1.log.filterMap coreCall).map fun c => (c.1, c.2.1, match c.2.2 with | .atom a => a | _ => -1), okOf q.2))
      = some ([(0, 1, 0), (0, 2, 0), (0, 1, 1), (0, 2, 1), (0, 1, 2), (0, 2, 2),
          (1, 1, 0), (1, 1, 1), (1, 1, 2), (1, 2, 2),
          (2, 1, 9), (0, 1, 1), (0, 2, 1), (0, 1, 2), (0, 2, 2),
          (2, 1, 5), (0, 1, 1), (0, 2, 1), (0, 1, 2), (0, 2, 2), (2, 2, 5)], true) := by
  refine ⟨fun s x a => ?_, ?_, by decide +kernel⟩
  · simp only [threeModes]
    repeat' split
    all_goals simp [Plain]
  · simp only [threeProg, Plain]
    intro _ _ b
    cases b
    · intro _ v
      cases v <;> trivial
    · trivial

end Psygnal.Conc
