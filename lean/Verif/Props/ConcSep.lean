import Verif.ConcSepLemmas
import Verif.Props.ConcCore

/-! # C82: threads that use different signals do not disturb each other -/
namespace Psygnal.Conc

/-- **C82**.  The threads in `T` use the signals in `S` and the others use the others, and likewise their callbacks.  Then, under every
schedule, for the threads in `T` everything is as if the others did not run at all: they have made the same observations (calls with their
arguments, ends of emissions) in the same order, their signals have the same connections, queues, depths and owners of locks, the same
threads have ended, with the same results, and the same ones can go on. -/
theorem C82 {e : Env} {prog : Nat → Code} {T S : Nat → Bool} (h : Apart e prog T S) (sched : List Nat) :
    (run e sched (init e prog)).log.filter (fun v => T v.thread) = (run e (sched.filter T) (init e prog)).log ∧
    (∀ s, S s = true → (run e sched (init e prog)).slots s = (run e (sched.filter T) (init e prog)).slots s ∧
      (run e sched (init e prog)).queue s = (run e (sched.filter T) (init e prog)).queue s ∧
      (run e sched (init e prog)).depth s = (run e (sched.filter T) (init e prog)).depth s ∧
      (run e sched (init e prog)).locks s = (run e (sched.filter T) (init e prog)).locks s) ∧
    ∀ t, T t = true →
      (∀ ok, (run e sched (init e prog)).thr t = ⟨.fin ok, []⟩ ↔ (run e (sched.filter T) (init e prog)).thr t = ⟨.fin ok, []⟩) ∧
      (step e t (run e sched (init e prog)) = none ↔ step e t (run e (sched.filter T) (init e prog)) = none) := by
  have h0 : Sided T S (init e prog) := fun t => ⟨h.code t, fun f hf => (by cases hf)⟩
  have h0' : Sided (fun t => !T t) (fun s => !S s) (init e prog) := by
    intro t
    have : (fun s => (!S s) == !T t) = fun s => S s == T t := by
      funext s; cases S s <;> cases T t <;> rfl
    refine ⟨?_, fun f hf => (by cases hf)⟩
    rw [this]; exact h.code t
  have hb' : ∀ s x a, (e.body s x a).on (fun s' => (!S s') == !S s) := by
    intro s x a
    have : (fun s' => (!S s') == !S s) = fun s' => S s' == S s := by
      funext s'; cases S s <;> cases S s' <;> rfl
    rw [this]; exact h.body s x a
  obtain ⟨h1, h2⟩ := run_alike h.body sched h0 (alike_refl _)
  have h3 := (run_alike hb' (sched.filter T) h0' (alike_refl _)).1.log
  have h4 : (sched.filter T).filter (fun t => !T t) = [] := by simp
  rw [h4] at h3
  refine ⟨?_, fun s hs => ⟨h1.slots s hs, h1.queue s hs, h1.depth s hs, h1.locks s hs⟩, fun t ht => ⟨fun ok => ?_, ?_⟩⟩
  · rw [h1.log]
    refine List.filter_eq_self.mpr fun v hv => ?_
    cases hT : T v.thread with
    | true => rfl
    | false =>
      have : v ∈ (run e (sched.filter T) (init e prog)).log.filter (fun v => !T v.thread) := List.mem_filter.mpr ⟨hv, by simp [hT]⟩
      rw [h3] at this
      exact absurd this (by simp [run, init])
  · have hc := h1.ctl t ht
    have hs := h1.stack t ht
    constructor
    · intro hx
      rw [hx] at hc hs
      generalize (run e (sched.filter T) (init e prog)).thr t = th at hc hs
      obtain ⟨c, st⟩ := th
      cases hc; cases hs; rfl
    · intro hx
      rw [hx] at hc hs
      generalize (run e sched (init e prog)).thr t = th at hc hs
      obtain ⟨c, st⟩ := th
      cases hc; cases hs; rfl
  · have hi := in_step (e := e) h2 ht h1
    cases hs : step e t (run e sched (init e prog)) with
    | none =>
      cases hs' : step e t (run e (sched.filter T) (init e prog)) with
      | none => simp
      | some _ => rw [hs, hs'] at hi; exact absurd hi id
    | some _ =>
      cases hs' : step e t (run e (sched.filter T) (init e prog)) with
      | none => rw [hs, hs'] at hi; exact absurd hi id
      | some _ => simp

/-- **C82**, for one thread with signals of its own, together with C45: if the model without threads says that its code ends, with some
result and some calls of callbacks, then it does so among any other threads, under every schedule that lets it do enough steps. -/
theorem C82_sequential {e : Env} {prog : Nat → Code} {t : Nat} {S : Nat → Bool} (h : Apart e prog (fun t' => t' == t) S) (he : e.limit = 300)
    (hb : ∀ s x a, Plain (e.body s x a)) (hc : Plain (prog t)) {w : World} {r : Res} (hr : Runs e.core (.prog (trans (prog t))) e.world w r) :
    ∃ n, ∀ sched : List Nat, n ≤ sched.count t →
      (run e sched (init e prog)).thr t = ⟨.fin (match r with | .ok _ => true | .error _ => false), []⟩ ∧
      ((run e sched (init e prog)).log.filter (fun v => v.thread == t)).filterMap concCall = w.log.filterMap coreCall ∧
      ∀ s, S s = true → (run e sched (init e prog)).locks s = none ∧
        (w.sig s).emitQueue = ((run e sched (init e prog)).queue s).map (fun a => [.atom a]) ∧
        (w.sig s).depth = (run e sched (init e prog)).depth s := by
  obtain ⟨n, hn⟩ := C45_alone e he hb prog t hc hr
  refine ⟨n, fun sched hm => ?_⟩
  obtain ⟨h1, h2, h3⟩ := C82 h sched
  have hf : sched.filter (fun t' => t' == t) = List.replicate (sched.count t) t := List.filter_beq ..
  rw [hf] at h1 h2 h3
  obtain ⟨g1, g2, g3, g4, g5, g6⟩ := hn _ hm
  refine ⟨((h3 t (by simp)).1 _).mpr g1, by rw [h1, g2], fun s hs => ?_⟩
  obtain ⟨_, k1, k2, k3⟩ := h2 s hs
  exact ⟨by rw [k3, g6], by rw [k1]; exact g4 s, by rw [k2]; exact g5 s⟩

/-- Signals 0 (queued), 1 (latest), 2 (immediate) with callbacks 1 and 2, for thread 0, and signals 3 and 4 for thread 1.  Callback 1 of
signal 0 and of signal 1 emits it again with small arguments, that of 2 emits 0 and raises if the argument is 9; that of 3 emits 4. -/
def fiveSigs : Env where
  slots _ := [1, 2]
  body s x a :=
    if x = 1 then
      if s = 0 then (if a < 2 then .emit 0 (a + 1) fun _ => .ret else .ret)
      else if s = 1 then (if a < 2 then .emit 1 (a + 1) fun _ => .ret else .ret)
      else if s = 2 then .emit 0 1 fun _ => if a = 9 then .raise else .ret
      else if s = 3 then .emit 4 a fun _ => .ret
      else .ret
    else .ret
  mode s := if s = 0 then .queued else if s = 1 then .latest else .immediate
  limit := 300

/-- Thread 0 emits 0, 1 and 2 (once with an exception), the others emit 3 and connect to 4. -/
def fiveProg (t : Nat) : Code :=
  if t = 0 then .emit 0 0 fun _ => .emit 1 0 fun _ => .emit 2 9 fun ok => if ok then .raise else .ret
  else .emit 3 7 fun _ => .hold 4 (.slots 4 (· ++ [2]) .ret) fun _ => .emit 4 8 fun _ => .raise

theorem five_apart : Apart fiveSigs fiveProg (fun t => t == 0) (fun s => decide (s < 3)) := by
  constructor
  · intro t
    by_cases h : t = 0
    · subst h
      simp only [fiveProg, if_true]
      refine ⟨by decide, fun _ => ⟨by decide, fun _ => ⟨by decide, fun b => ?_⟩⟩⟩
      cases b <;> trivial
    · have ht : (t == 0) = false := by simp [h]
      simp only [fiveProg, if_neg h, ht]
      exact ⟨by decide, fun _ => ⟨by decide, ⟨by decide, trivial⟩, fun _ => ⟨by decide, fun _ => trivial⟩⟩⟩
  · intro s x a
    simp only [fiveSigs]
    split
    · split
      · rename_i hs; subst hs
        split
        · exact ⟨by simp, fun _ => trivial⟩
        · trivial
      · split
        · rename_i hs; subst hs
          split
          · exact ⟨by simp, fun _ => trivial⟩
          · trivial
        · split
          · rename_i hs; subst hs
            refine ⟨by simp, fun _ => ?_⟩
            split <;> trivial
          · split
            · rename_i hs; subst hs
              exact ⟨by simp, fun _ => trivial⟩
            · trivial
    · trivial

/-- The hypotheses of `C82` and `C82_sequential` hold for them; the threads take turns, both make calls, and thread 1 raises. -/
example : Apart fiveSigs fiveProg (fun t => t == 0) (fun s => decide (s < 3)) ∧ fiveSigs.limit = 300 ∧ (∀ s x a, Plain (fiveSigs.body s x a)) ∧
    Plain (fiveProg 0) ∧ (∃ w r, Runs fiveSigs.core (.prog (trans (fiveProg 0))) fiveSigs.world w r) ∧
    (((run fiveSigs ((List.range 400).map (· % 2)) (init fiveSigs fiveProg)).log.filterMap fun v => match v with
      | .call t s x a => some (t, s, x, a)
      | _ => none) = [(0, 0, 1, 0), (1, 3, 1, 7), (1, 4, 1, 7), (0, 0, 2, 0), (1, 4, 2, 7), (0, 0, 1, 1), (1, 3, 2, 7), (0, 0, 2, 1), (0, 0, 1, 2),
        (0, 0, 2, 2), (1, 4, 1, 8), (0, 1, 1, 0), (1, 4, 2, 8), (1, 4, 2, 8), (0, 1, 1, 1), (0, 1, 1, 2), (0, 1, 2, 2), (0, 2, 1, 9), (0, 0, 1, 1),
        (0, 0, 2, 1), (0, 0, 1, 2), (0, 0, 2, 2)]) := by
  refine ⟨five_apart, rfl, fun s x a => ?_, ?_, ⟨_, _, 60, rfl⟩, by decide +kernel⟩
  · simp only [fiveSigs]
    repeat' split
    all_goals simp [Plain]
    all_goals (try split) <;> simp [Plain]
  · simp only [fiveProg, if_true, Plain]
    intro _ _ b
    cases b <;> trivial

/-- Thread `t` emits signal `t`, whose callback raises if the current emitter is another signal. -/
def looks : Env where
  slots s := if s < 2 then [1] else []
  body s _ _ := .see fun v => if v = some s then .ret else .raise
  mode _ := .immediate
  limit := 100

/-- See `looks`. -/
def looksProg (t : Nat) : Code := if t < 2 then .emit t 0 fun ok => if ok then .ret else .raise else .ret

/-- **C82 is false for code that asks for the current emitter**: the emission of thread 0 fails because of thread 1, which only emits a
signal of its own; alone it would not. -/
theorem C82_emitter_refuted : ∃ sched : List Nat,
    (match ((run looks sched (init looks looksProg)).thr 0).ctl with | .fin ok => some ok | _ => none) = some false ∧
    (match ((run looks (sched.filter (· == 0)) (init looks looksProg)).thr 0).ctl with | .fin ok => some ok | _ => none) = some true :=
  ⟨List.replicate 7 0 ++ List.replicate 7 1 ++ List.replicate 20 0 ++ List.replicate 20 1, by decide +kernel, by decide +kernel⟩

end Psygnal.Conc
