import Verif.ConcDepth
import Verif.Props.Conc

/-!
# C52: the recursion limit and the state at rest, with several threads

A `RecursionError` means that the emitting thread itself is nested too deep in emissions of the signal; when no thread is
in an emission of a signal any more, the signal is as before the first one.
-/
namespace Psygnal.Conc

/-- The counter of a signal is the number of emissions of it that some thread is in, and no other thread is in any. -/
theorem C52_depth (e : Env) (prog : Nat → Code) (sched : List Nat) (s : Nat) :
    ∃ t, (run e sched (init e prog)).depth s = loops s ((run e sched (init e prog)).thr t) ∧
      ∀ t', t' ≠ t → loops s ((run e sched (init e prog)).thr t') = 0 :=
  (depth_run e prog sched).2.1.eq s

/-- **C52** (as far as true).  Under every schedule, an emission that raises at the recursion limit does so because some
thread is in as many emissions of that signal; it is the emitting thread itself if that one holds the lock of the signal,
in particular if it is in an emission of it.  Missing: that it is always the emitting thread itself, refuted below. -/
theorem C52_partial (e : Env) (prog : Nat → Code) (sched : List Nat) {t s a : Nat} {σ' : St}
    (hc : ((run e sched (init e prog)).thr t).ctl = .check s a)
    (h : step e t (run e sched (init e prog)) = some σ') (hf : (σ'.thr t).ctl = .fin false) :
    (∃ t', e.limit ≤ loops s ((run e sched (init e prog)).thr t')) ∧
    (0 < e.limit → 0 < held s ((run e sched (init e prog)).thr t) →
      e.limit ≤ loops s ((run e sched (init e prog)).thr t)) := by
  obtain ⟨h1, h2, _⟩ := depth_run e prog sched
  have hl : e.limit ≤ (run e sched (init e prog)).depth s := by
    revert hc h
    generalize run e sched (init e prog) = σ
    intro hc h
    rcases hth : σ.thr t with ⟨c, st⟩
    rw [hth] at hc
    simp only at hc
    subst hc
    simp only [step, hth] at h
    split at h
    · assumption
    · cases h; simp at hf
  obtain ⟨t', h3, h4⟩ := h2.eq s
  refine ⟨⟨t', by omega⟩, fun h0 hh => ?_⟩
  have hh' := loops_le_held s ((run e sched (init e prog)).thr t')
  have := h1.locks.one hh (show 0 < held s ((run e sched (init e prog)).thr t') by omega)
  subst this
  omega

/-- So if no thread ever is in `limit` emissions of a signal at a time, no emission fails at the limit. -/
theorem C52_below (e : Env) (prog : Nat → Code) (sched : List Nat) {t s a : Nat}
    (hn : ∀ t', loops s ((run e sched (init e prog)).thr t') < e.limit)
    (hc : ((run e sched (init e prog)).thr t).ctl = .check s a) :
    ∃ σ', step e t (run e sched (init e prog)) = some σ' ∧ (σ'.thr t).ctl = .wait s a := by
  obtain ⟨t', h3, _⟩ := C52_depth e prog sched s
  have hlt : ¬ e.limit ≤ (run e sched (init e prog)).depth s := by have := hn t'; omega
  generalize run e sched (init e prog) = σ at hc hlt
  rcases hth : σ.thr t with ⟨c, st⟩
  rw [hth] at hc
  simp only at hc
  subst hc
  simp only [step, hth, if_neg hlt]
  exact ⟨_, rfl, by simp⟩

/-- The limit holds under every schedule: no thread is ever in more than `limit` emissions of a signal, although the check
is before the lock is acquired. -/
theorem C52_bound (e : Env) (prog : Nat → Code) (sched : List Nat) (s t : Nat) :
    loops s ((run e sched (init e prog)).thr t) ≤ e.limit :=
  (bound_run e prog sched s t).1

/-- At rest: when no thread is in an emission of `s`, its counters are 0 and its queue is empty, whatever was raised. -/
theorem C52_rest (e : Env) (prog : Nat → Code) (sched : List Nat) {s : Nat}
    (hn : ∀ t, loops s ((run e sched (init e prog)).thr t) = 0) :
    (run e sched (init e prog)).depth s = 0 ∧ (run e sched (init e prog)).maxd s = 0 ∧
      (run e sched (init e prog)).queue s = [] := by
  obtain ⟨_, h2, h3⟩ := depth_run e prog sched
  obtain ⟨t, h4, _⟩ := h2.eq s
  have h5 : (run e sched (init e prog)).depth s = 0 := by rw [h4, hn t]
  refine ⟨h5, h2.rest s h5, ?_⟩
  refine Classical.byContradiction fun h => ?_
  obtain ⟨t', ht'⟩ := h3 s h
  have := hn t'
  omega

/-- Signal 0 has a callback that emits it again, until the argument is 0 (`/repo/src/psygnal/_signal.py:1264-1304`; the limit is
`RECURSION_LIMIT` of `:191`, 300). -/
def nested (limit : Nat) : Env where
  slots s := if s = 0 then [1] else []
  body _ _ a := match a with
    | 0 => .ret
    | a + 1 => .emit 0 a fun _ => .ret
  mode _ := .immediate
  limit := limit

/-- Thread 0 emits so that `limit` emissions are nested, which is allowed; thread 1 emits once
(`/repo/src/psygnal/_signal.py:1265`). -/
def nestedProg (limit t : Nat) : Code :=
  if t = 0 then .emit 0 (limit - 1) fun _ => .ret else if t = 1 then .emit 0 0 fun _ => .ret else .ret

/-- Thread 0 is about to emit with argument `a`, and is in `d` emissions (`/repo/src/psygnal/_signal.py:1264`). -/
structure Nesting (σ : St) (a d : Nat) (t1 : Thread) : Prop where
  thr : ∃ k st, σ.thr 0 = ⟨.run (.emit 0 a k), st⟩ ∧ loopS 0 st = d
  lock : σ.locks 0 = none ∨ ∃ n, σ.locks 0 = some (0, n)
  queue : σ.queue 0 = []
  depth : σ.depth 0 = d
  slots : σ.slots 0 = [1]
  one : σ.thr 1 = t1

theorem nest (limit : Nat) {σ : St} {a d : Nat} {t1 : Thread} (h : Nesting σ a d t1) (hd : d < limit) :
    ∃ σ', run (nested limit) (List.replicate 8 0) σ = σ' ∧ σ'.depth 0 = d + 1 ∧ σ'.thr 1 = t1 ∧
      loops 0 (σ'.thr 0) = d + 1 ∧ (∀ a', a = a' + 1 → Nesting σ' a' (d + 1) t1) := by
  obtain ⟨⟨k, st, h1, h1'⟩, h2, h3, h4, h5, h6⟩ := h
  have hd' : ¬ limit ≤ d := by omega
  have ha : ∃ n, acquire 0 (σ.locks 0) = some (0, n) := by
    rcases h2 with h2 | ⟨n, h2⟩
    · exact ⟨1, by rw [h2]; rfl⟩
    · exact ⟨n + 1, by rw [h2]; rfl⟩
  obtain ⟨n, ha⟩ := ha
  refine ⟨_, rfl, ?_⟩
  have hsum : (List.map (loopF 0) st).sum = d := h1'
  simp [List.replicate, run, step, h1, h3, h4, h5, hd', ha, nested, set, h6, loops, loopC, loopS, loopF, hsum]
  refine ⟨by omega, ?_⟩
  intro a' ha'
  subst ha'
  exact ⟨⟨_, _, rfl, by simp [loopS, loopF, hsum]; omega⟩, .inr ⟨n, by simp [set]⟩, by simp [set], by simp [set],
    by simp [h5], by simp [set, h6]⟩

theorem run_append (e : Env) : ∀ (s1 s2 : List Nat) (σ : St), run e (s1 ++ s2) σ = run e s2 (run e s1 σ)
  | [], _, _ => rfl
  | t :: s1, s2, σ => run_append e s1 s2 ((step e t σ).getD σ)

theorem nest_all (limit : Nat) : ∀ (a d : Nat) (σ : St) (t1 : Thread), Nesting σ a d t1 → d + a < limit →
    ∃ sched, (run (nested limit) sched σ).depth 0 = d + a + 1 ∧ (run (nested limit) sched σ).thr 1 = t1 ∧
      loops 0 ((run (nested limit) sched σ).thr 0) = d + a + 1
  | 0, d, σ, t1, h, hd => by
    obtain ⟨σ', h0, h1, h2, h3, _⟩ := nest limit h hd
    exact ⟨List.replicate 8 0, by rw [h0]; exact h1, by rw [h0]; exact h2, by rw [h0]; exact h3⟩
  | a + 1, d, σ, t1, h, hd => by
    obtain ⟨σ', h0, _, _, _, h4⟩ := nest limit h (by omega)
    obtain ⟨sched, h5, h6, h7⟩ := nest_all limit a (d + 1) σ' t1 (h4 a rfl) (by omega)
    refine ⟨List.replicate 8 0 ++ sched, ?_⟩
    rw [run_append, h0, h5, h6, h7]
    exact ⟨by omega, rfl, by omega⟩

/-- Instance of the hypotheses of `C52_partial` that is also the refutation of the whole property, for every limit (that of
the code is 300): the `RecursionError` of thread 1, which is in no emission of the signal and does not hold its lock.  The
check of the limit is before the lock is acquired, and the counter belongs to the signal, not to the thread. -/
theorem C52_elsewhere_refuted (limit : Nat) (h0 : 0 < limit) : ∃ sched σ',
    ((run (nested limit) sched (init (nested limit) (nestedProg limit))).thr 1).ctl = .check 0 0 ∧
    held 0 ((run (nested limit) sched (init (nested limit) (nestedProg limit))).thr 1) = 0 ∧
    loops 0 ((run (nested limit) sched (init (nested limit) (nestedProg limit))).thr 1) = 0 ∧
    loops 0 ((run (nested limit) sched (init (nested limit) (nestedProg limit))).thr 0) = limit ∧
    step (nested limit) 1 (run (nested limit) sched (init (nested limit) (nestedProg limit))) = some σ' ∧
    (σ'.thr 1).ctl = .fin false := by
  have hn : Nesting (run (nested limit) [1] (init (nested limit) (nestedProg limit))) (limit - 1) 0
      ⟨.check 0 0, [.cont fun _ => .ret]⟩ :=
    ⟨⟨fun _ => .ret, [], rfl, rfl⟩, .inl rfl, rfl, rfl, rfl, rfl⟩
  obtain ⟨sched, h1, h2, h3⟩ := nest_all limit _ _ _ _ hn (by omega)
  refine ⟨[1] ++ sched, ?_⟩
  rw [run_append]
  revert h1 h2 h3
  generalize run (nested limit) sched _ = σ
  intro h1 h2 h3
  have hl : limit ≤ σ.depth 0 := by omega
  refine ⟨{ σ with thr := set σ.thr 1 ⟨.fin false, [.cont fun _ => .ret]⟩ }, ?_⟩
  rw [h2, h3]
  exact ⟨rfl, rfl, rfl, by omega, by simp [step, h2, nested, hl], by simp [set]⟩

/-- Instance of `C52_rest` and `C52_below`: limit 2, thread 0 nests two emissions and a third one raises, all of them are
left by the exception, thread 1 emits again after that (`/repo/src/psygnal/_signal.py:1265`, `:1296-1304`). -/
def restEnv : Env := { nested 2 with body := fun _ _ a => match a with
  | 0 => .ret
  | a + 1 => .emit 0 a fun ok => if ok then .ret else .raise }

/-- The code of the threads (`/repo/src/psygnal/_signal.py:1264`). -/
def restProg (t : Nat) : Code := if t = 0 then .emit 0 2 fun _ => .ret else if t = 1 then .emit 0 0 fun _ => .ret else .ret

example : (run restEnv (List.replicate 18 0) (init restEnv restProg)).depth 0 = 2 ∧
    loops 0 ((run restEnv (List.replicate 18 0) (init restEnv restProg)).thr 0) = 2 ∧
    (run restEnv (List.replicate 40 0) (init restEnv restProg)).depth 0 = 0 ∧
    loops 0 ((run restEnv (List.replicate 40 0) (init restEnv restProg)).thr 0) = 0 ∧
    (run restEnv (List.replicate 40 0 ++ List.replicate 40 1) (init restEnv restProg)).log =
      [.call 0 0 1 2, .call 0 0 1 1, .done 0 0, .call 1 0 1 0, .done 1 0] := by
  decide +kernel

end Psygnal.Conc
