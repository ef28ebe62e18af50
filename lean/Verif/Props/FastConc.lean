import Verif.FastConcCalls
import Verif.FastConcDepth
import Verif.FastConcSlow

/-!
# C53: `emit_fast` from several threads

Every emission with `emit_fast` that returns has called every connected callback once, in order, with its own arguments, and
leaves the signal as it was, also when several threads emit at the same time.
-/
namespace Psygnal.FC

/-- **C53**, the calls, under every schedule: an emission by `emit_fast` that returned (or by `emit`, if not latest-only) has
called each connected callback once, in order, with its argument. -/
theorem C53_calls (e : Env) (prog : Nat → Code) (sched : List Nat) {t : Nat} {m : Em}
    (hd : Ev.done m true ∈ ((run e sched (init prog)).thr t).log) (hf : m.fast = true ∨ e.latest m.s = false) :
    calls m.i ((run e sched (init prog)).thr t).log = (e.slots m.s).map (Ev.call m) :=
  ((tinv_run e prog sched t).done m true hd).1.2 rfl hf

/-- Also one that raised, or was cut short, has called the callbacks in order, each at most once, with its argument. -/
theorem C53_prefix (e : Env) (prog : Nat → Code) (sched : List Nat) {t : Nat} {m : Em} {ok : Bool}
    (hd : Ev.done m ok ∈ ((run e sched (init prog)).thr t).log) :
    calls m.i ((run e sched (init prog)).thr t).log <+: (e.slots m.s).map (Ev.call m) := by
  obtain ⟨⟨j, h⟩, _⟩ := ((tinv_run e prog sched t).done m ok hd).1
  have h : calls m.i _ = _ := h
  rw [h]
  exact (List.take_prefix j _).map _

/-- **C53**, the state (as far as true): if emissions of a signal in different threads never overlap, then its counter is
the number of emissions of it that are going on, and 0 when there are none.  Missing: that it is 0 at the end also if they
overlap, refuted below. -/
theorem C53_partial (e : Env) (prog : Nat → Code) (s : Nat) (sched : List Nat)
    (ha : ∀ p, p <+: sched → Apart s (run e p (init prog))) :
    (∀ t, 0 < touch s ((run e sched (init prog)).thr t) →
      (run e sched (init prog)).depth s = live s ((run e sched (init prog)).thr t)) ∧
    ((∀ t, touch s ((run e sched (init prog)).thr t) = 0) → (run e sched (init prog)).depth s = 0) :=
  have h := dinv_run e prog s sched _ ha (dinv_init prog s)
  ⟨fun t ht => (h.busy t ht).1, h.rest⟩

/-- **C53**, a signal that is only emitted with `emit` (others may be emitted with `emit_fast`): under every schedule, at most one thread
is in emissions of it, the counter is the number of these emissions, and 0 when there are none; a thread that is about to emit it does
not wait unless another thread emits it, however often it emits it already. -/
theorem C53_locked (e : Env) (prog : Nat → Code) (s : Nat) (hb : ∀ s' x a, Slow s (e.body s' x a)) (hp : ∀ t, Slow s (prog t))
    (sched : List Nat) :
    (∀ t t', 0 < touch s ((run e sched (init prog)).thr t) → 0 < touch s ((run e sched (init prog)).thr t') → t = t') ∧
    (∀ t, 0 < touch s ((run e sched (init prog)).thr t) →
      (run e sched (init prog)).depth s = live s ((run e sched (init prog)).thr t)) ∧
    ((∀ t, touch s ((run e sched (init prog)).thr t) = 0) → (run e sched (init prog)).depth s = 0) ∧
    ∀ t a, ((run e sched (init prog)).thr t).ctl = .wait s a →
      (∀ t', t' ≠ t → touch s ((run e sched (init prog)).thr t') = 0) → (step e t (run e sched (init prog))).isSome = true := by
  have h := C53_partial e prog s sched (fun p _ => (linv_run hb hp p).apart)
  have hl := linv_run (e := e) hb hp sched
  refine ⟨hl.apart, h.1, h.2, fun t a hc ho => ?_⟩
  unfold step
  simp only [hc]
  cases hk : (run e sched (init prog)).locks s with
  | none => simp [acquire]
  | some x =>
    obtain ⟨o, n⟩ := x
    obtain ⟨g1, g2, -⟩ := hl.held o n hk
    have : o = t := by
      by_cases h' : o = t
      · exact h'
      · have := ho o h'; omega
    simp [acquire, this]

/-- Once the counter is at the limit while no emission is going on, no callback of the signal is ever called again. -/
theorem C53_stuck (e : Env) (s : Nat) (σ : St) (hd : e.limit ≤ σ.depth s) (hi : ∀ t, touch s (σ.thr t) = 0)
    (hw : ∀ t a, (σ.thr t).ctl ≠ .wait s a) (sched : List Nat) (t : Nat) {m : Em} {x : Nat} (hm : m.s = s)
    (hc : Ev.call m x ∈ ((run e sched σ).thr t).log) : Ev.call m x ∈ (σ.thr t).log := by
  have h := run_inv (e := e) (P := Stuck e s fun t => (σ.thr t).log.filter (isCall s))
    (fun _ _ _ h => stuck_step (step_rel h)) sched σ ⟨hd, hi, hw, fun _ => rfl⟩
  have h1 := h.log t
  have h2 : Ev.call m x ∈ ((run e sched σ).thr t).log.filter (isCall s) :=
    List.mem_filter.mpr ⟨hc, by simpa [isCall] using hm⟩
  rw [h1] at h2
  exact (List.mem_filter.mp h2).1

/-! ## Overlapping emissions -/

/-- Signal 0 with one callback, which does nothing (`/repo/src/psygnal/_signal.py:1240`). -/
def one (limit : Nat) : Env where
  slots _ := [1]
  body _ _ _ := .ret
  latest _ := false
  limit := limit

/-- Emit `n` times, one after the other (`/repo/src/psygnal/_signal.py:1203`). -/
def rep : Nat → Code
  | 0 => .ret
  | n + 1 => .emit true 0 0 fun _ => rep n

/-- Threads 0 and 1 emit `limit` times, the others run `other` (`/repo/src/psygnal/_signal.py:1203`). -/
def repProg (limit : Nat) (other : Nat → Code) (t : Nat) : Code := if t < 2 then rep limit else other t

/-- Threads 0 and 1 emit once, so that both read the counter before they store it less one
(`/repo/src/psygnal/_signal.py:1256`). -/
def round : List Nat := [0, 0, 1, 1] ++ [0, 0, 1, 1] ++ [0, 0, 0, 0, 0, 0] ++ [1, 1, 1, 1, 1, 1] ++ [0, 1, 0, 1]

/-- Threads 0 and 1 are about to emit `n` times, the counter is `d`. -/
structure Rep (σ : St) (n : Nat) (d : Int) (other : Nat → Code) : Prop where
  zero : ∃ n0 l0, σ.thr 0 = ⟨.run (rep n), [], n0, l0⟩
  one : ∃ n1 l1, σ.thr 1 = ⟨.run (rep n), [], n1, l1⟩
  depth : σ.depth 0 = d
  rest : ∀ t, 2 ≤ t → σ.thr t = ⟨.run (other t), [], 0, []⟩

theorem rep_round (limit : Nat) {σ : St} {n : Nat} {d : Int} {other : Nat → Code} (h : Rep σ (n + 1) d other)
    (hd : d < limit) (h0 : 0 ≤ d) : Rep (run (one limit) round σ) n (d + 1) other := by
  obtain ⟨⟨n0, l0, h1⟩, ⟨n1, l1, h2⟩, h3, h4⟩ := h
  have hd' : ¬ (limit : Int) ≤ d := by omega
  have hp : 0 < d + 1 + 1 := by omega
  have e1 : d + 1 + 1 - 1 = d + 1 := by omega
  refine ⟨?_, ?_, ?_, fun t ht => ?_⟩
  · simp [round, run, step, h1, h2, h3, rep, one, set, hd', hp, e1]
  · simp [round, run, step, h1, h2, h3, rep, one, set, hd', hp, e1]
  · simp [round, run, step, h1, h2, h3, rep, one, set, hd', hp, e1]
  · rw [run_others _ _ ?_]
    · exact h4 t ht
    · simp only [round, List.cons_append, List.nil_append, List.mem_cons, List.not_mem_nil, or_false]
      omega

theorem rep_rounds (limit : Nat) (other : Nat → Code) : ∀ (n d : Nat) (σ : St), Rep σ n d other → d + n ≤ limit →
    ∃ sched, Rep (run (one limit) sched σ) 0 (d + n : Nat) other
  | 0, d, σ, h, _ => ⟨[], h⟩
  | n + 1, d, σ, h, hd => by
    have h1 := rep_round limit h (by omega) (by omega)
    obtain ⟨sched, h2⟩ := rep_rounds limit other n (d + 1) _ (by simpa using h1) (by omega)
    refine ⟨round ++ sched, ?_⟩
    rw [run_append]
    have : d + (n + 1) = d + 1 + n := by omega
    rw [this]
    exact h2

/-- Refutation of the rest of C53, for every limit (that of the code is 300): two threads emit `limit` times with
`emit_fast`, one callback that does nothing; under some schedule, all these emissions return, and afterwards, whatever the
other threads do, no callback of the signal is ever called again: each emission raises `RecursionError`.  Each time the two
threads read the counter before either stores it less one. -/
theorem C53_leak_refuted (limit : Nat) (other : Nat → Code) : ∃ sched,
    (∀ t, t < 2 → ((run (one limit) sched (init (repProg limit other))).thr t).stack = [] ∧
      ((run (one limit) sched (init (repProg limit other))).thr t).ctl = .fin true) ∧
    ∀ sched' t, 2 ≤ t → ∀ m x,
      Ev.call m x ∈ ((run (one limit) (sched ++ sched') (init (repProg limit other))).thr t).log → m.s ≠ 0 := by
  have h0 : Rep (init (repProg limit other)) limit (0 : Nat) other :=
    ⟨⟨0, [], rfl⟩, ⟨0, [], rfl⟩, rfl, fun t ht => by simp [init, repProg]; omega⟩
  obtain ⟨sched, h⟩ := rep_rounds limit other limit 0 _ h0 (by omega)
  refine ⟨sched ++ [0, 1], ?_⟩
  obtain ⟨⟨n0, l0, h1⟩, ⟨n1, l1, h2⟩, h3, h4⟩ := h
  have hfin : ∃ σ, run (one limit) (sched ++ [0, 1]) (init (repProg limit other)) = σ ∧
      σ.thr 0 = ⟨.fin true, [], n0, l0⟩ ∧ σ.thr 1 = ⟨.fin true, [], n1, l1⟩ ∧ σ.depth 0 = limit ∧
      ∀ t, 2 ≤ t → σ.thr t = ⟨.run (other t), [], 0, []⟩ := by
    refine ⟨_, rfl, ?_⟩
    rw [run_append]
    refine ⟨?_, ?_, ?_, fun t ht => ?_⟩
    · simp [run, step, h1, h2, rep, set]
    · simp [run, step, h1, h2, rep, set]
    · simp [run, step, h1, h2, h3, rep, set]
    · rw [run_others _ _ (by simp; omega)]
      exact h4 t ht
  obtain ⟨σ, hr, f0, f1, fd, fo⟩ := hfin
  have hthr : ∀ t, touch 0 (σ.thr t) = 0 ∧ ∀ a, (σ.thr t).ctl ≠ .wait 0 a := by
    intro t
    by_cases ht : 2 ≤ t
    · rw [fo t ht]; exact ⟨rfl, fun a h => by cases h⟩
    · have : t = 0 ∨ t = 1 := by omega
      rcases this with rfl | rfl
      · rw [f0]; exact ⟨rfl, fun a h => by cases h⟩
      · rw [f1]; exact ⟨rfl, fun a h => by cases h⟩
  constructor
  · intro t ht
    rw [hr]
    have : t = 0 ∨ t = 1 := by omega
    rcases this with rfl | rfl
    · rw [f0]; exact ⟨rfl, rfl⟩
    · rw [f1]; exact ⟨rfl, rfl⟩
  · intro sched' t ht m x hc hm
    rw [run_append, hr] at hc
    have := C53_stuck (one limit) 0 σ (by rw [fd]; exact Int.le_refl _) (fun t => (hthr t).1) (fun t => (hthr t).2) sched' t
      hm hc
    rw [fo t ht] at this
    cases this

/-- The counter can also become negative: both threads read 0 before either stores 1, both see 1 at the test, one of the two
decrements comes after the other. -/
theorem C53_negative_refuted : ∃ sched,
    (∀ t, t < 2 → ((run (one 300) sched (init (repProg 1 fun _ => .ret))).thr t).log =
      [.call ⟨0, true, 0, 0⟩ 1, .done ⟨0, true, 0, 0⟩ true]) ∧
    (run (one 300) sched (init (repProg 1 fun _ => .ret))).depth 0 = -1 :=
  ⟨[0, 0, 0, 1, 1, 1, 0, 1] ++ [0, 0, 0, 0, 0] ++ [1, 1, 1, 1, 1] ++ [0, 0, 1, 1], by
    refine ⟨fun t ht => ?_, by decide⟩
    have : t = 0 ∨ t = 1 := by omega
    rcases this with rfl | rfl <;> decide⟩

/-- A latest-only signal with two callbacks; thread 0 emits with `emit`, thread 1 with `emit_fast`
(`/repo/src/psygnal/_signal.py:1310-1318`). -/
def mixed : Env where
  slots _ := [1, 2]
  body _ _ _ := .ret
  latest _ := true
  limit := 300

/-- The code of the threads of `mixed` (`/repo/src/psygnal/_signal.py:1203`, `:1264`). -/
def mixedProg (t : Nat) : Code := if t = 0 then .emit false 0 7 fun _ => .ret else if t = 1 then .emit true 0 8 fun _ => .ret else .ret

/-- `emit_fast` in one thread disturbs `emit` in another, which has the lock: with latest-only reemission, the emission of
thread 0 returns without having called any callback although nothing was emitted anew. -/
theorem C53_latest_refuted : ∃ sched,
    ((run mixed sched (init mixedProg)).thr 0).log = [.done ⟨0, false, 0, 7⟩ true] ∧
    ((run mixed sched (init mixedProg)).thr 1).log =
      [.call ⟨0, true, 0, 8⟩ 1, .call ⟨0, true, 0, 8⟩ 2, .done ⟨0, true, 0, 8⟩ true] :=
  ⟨List.replicate 4 1 ++ List.replicate 6 0 ++ List.replicate 20 1 ++ List.replicate 20 0, by decide +kernel⟩

/-! ## Instances of the hypotheses -/

/-- Signal 0 has the callbacks 1, which emits signal 0 again with one less, and 2 (`/repo/src/psygnal/_signal.py:1240`). -/
def again : Env where
  slots _ := [1, 2]
  body _ x a := if x = 1 ∧ 0 < a then .emit true 0 (a - 1) fun ok => if ok then .ret else .raise else .ret
  latest _ := false
  limit := 300

/-- Two threads emit with `emit_fast`, at once (`/repo/src/psygnal/_signal.py:1203`). -/
def againProg (t : Nat) : Code := if t < 2 then .emit true 0 t fun _ => .ret else .ret

/-- For `C53_calls`: overlapping emissions, one of them nested. -/
example : ((run again ((List.replicate 60 [0, 1]).flatten) (init againProg)).thr 1).log =
    [.call ⟨0, true, 0, 1⟩ 1, .call ⟨1, true, 0, 0⟩ 1, .call ⟨1, true, 0, 0⟩ 2, .done ⟨1, true, 0, 0⟩ true,
      .call ⟨0, true, 0, 1⟩ 2, .done ⟨0, true, 0, 1⟩ true] ∧
    ((run again ((List.replicate 60 [0, 1]).flatten) (init againProg)).thr 0).log =
    [.call ⟨0, true, 0, 0⟩ 1, .call ⟨0, true, 0, 0⟩ 2, .done ⟨0, true, 0, 0⟩ true] := by
  decide +kernel

/-- For `C53_prefix`: at limit 1 the nested emission is refused, and the outer one ends after the first callback. -/
example : ((run { again with limit := 1 } (List.replicate 60 1) (init againProg)).thr 1).log =
    [.call ⟨0, true, 0, 1⟩ 1, .refused true 0 0, .done ⟨0, true, 0, 1⟩ false] := by
  decide +kernel

/-- For `C53_partial`: thread 0 and then thread 1, of which the second nests an emission; threads above 1 do nothing. -/
example : (∀ p, p <+: List.replicate 40 0 ++ List.replicate 60 1 → Apart 0 (run again p (init againProg))) ∧
    (run again (List.replicate 40 0 ++ List.replicate 10 1) (init againProg)).depth 0 = 2 ∧
    live 0 ((run again (List.replicate 40 0 ++ List.replicate 10 1) (init againProg)).thr 1) = 2 ∧
    (run again (List.replicate 40 0 ++ List.replicate 60 1) (init againProg)).depth 0 = 0 := by
  refine ⟨fun p hp t t' ht ht' => ?_, by decide +kernel⟩
  have hout : ∀ u, 2 ≤ u → touch 0 ((run again p (init againProg)).thr u) = 0 := fun u hu => by
    rw [run_others _ _ (fun hm => ?_)]
    · simp [init, againProg, touch, touchC, loopS]
    · have := hp.subset hm
      simp at this
      omega
  have hlt : ∀ u, 0 < touch 0 ((run again p (init againProg)).thr u) → u < 2 := fun u h => by
    by_cases hu : 2 ≤ u
    · rw [hout u hu] at h; omega
    · omega
  have h1 := hlt t ht
  have h2 := hlt t' ht'
  have hone : touch 0 ((run again p (init againProg)).thr 0) = 0 ∨ touch 0 ((run again p (init againProg)).thr 1) = 0 := by
    have hall : ∀ k, k ≤ 100 →
        touch 0 ((run again ((List.replicate 40 0 ++ List.replicate 60 1).take k) (init againProg)).thr 0) = 0 ∨
        touch 0 ((run again ((List.replicate 40 0 ++ List.replicate 60 1).take k) (init againProg)).thr 1) = 0 := by
      decide +kernel
    have := hall p.length (by have := hp.length_le; simp at this; omega)
    rwa [← List.prefix_iff_eq_take.mp hp] at this
  have : t = 0 ∨ t = 1 := by omega
  have : t' = 0 ∨ t' = 1 := by omega
  rcases hone with h | h
  all_goals
    rcases ‹t = 0 ∨ t = 1› with rfl | rfl <;> rcases ‹t' = 0 ∨ t' = 1› with rfl | rfl <;> omega

/-- Signal 0 is emitted with `emit`, its callback 1 emits it again with one less, and signal 1 with `emit_fast`
(`/repo/src/psygnal/_signal.py:1240`, `:1264`). -/
def slow : Env where
  slots _ := [1, 2]
  body s x a := if s = 0 ∧ x = 1 ∧ 0 < a then .emit false 0 (a - 1) fun ok => .emit true 1 0 fun _ => if ok then .ret else .raise else .ret
  latest _ := false
  limit := 300

/-- Two threads emit signal 0 (`/repo/src/psygnal/_signal.py:1264`). -/
def slowProg (t : Nat) : Code := if t < 2 then .emit false 0 2 fun _ => .ret else .ret

/-- For `C53_locked`: thread 0 is in three nested emissions of signal 0 while thread 1 waits; later, thread 1 can go on. -/
example : (∀ s' x a, Slow 0 (slow.body s' x a)) ∧ (∀ t, Slow 0 (slowProg t)) ∧
    touch 0 ((run slow (List.replicate 23 0 ++ [1, 1]) (init slowProg)).thr 0) = 3 ∧
    (run slow (List.replicate 23 0 ++ [1, 1]) (init slowProg)).depth 0 = 3 ∧
    (step slow 1 (run slow (List.replicate 23 0 ++ [1, 1]) (init slowProg))).isSome = false ∧
    (run slow (List.replicate 23 0 ++ [1, 1] ++ List.replicate 100 0) (init slowProg)).depth 0 = 0 ∧
    (step slow 1 (run slow (List.replicate 23 0 ++ [1, 1] ++ List.replicate 100 0) (init slowProg))).isSome = true := by
  refine ⟨fun s' x a => ?_, fun t => ?_, by decide +kernel, by decide +kernel, by decide +kernel, by decide +kernel, by decide +kernel⟩
  · simp only [slow]
    split
    · refine ⟨fun _ => rfl, fun b => ⟨fun h => (by cases h), fun _ => ?_⟩⟩
      cases b <;> trivial
    · trivial
  · simp only [slowProg]
    split
    · exact ⟨fun _ => rfl, fun _ => trivial⟩
    · trivial

end Psygnal.FC
