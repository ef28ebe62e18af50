import Verif.ResumeSingle
import Verif.ResumeExact
import Verif.ResumeUnpaused

/-! # C48: emitting while another thread resumes -/
namespace Psygnal.Res

/-- **C48** (as far as true), for one value.  Any number of threads, any code in threads and callbacks, overlapping and nested
resumes, with and without reducers, exceptions, any schedule: if no emission of `v` is appended when a resume in
progress is past the end of the queue, every emission of `v` has been handed over (or given up because nobody was
connected) or is still recorded.  Missing: appending after the iteration and before `clear()`, refuted below. -/
theorem C48_partial (e : Env) (prog : Nat → Code) (v : Nat) (sched : List Nat)
    (hx : ∀ pre t post, sched = pre ++ t :: post → Appends (run e pre (init prog)) t v → ¬ Exposed (run e pre (init prog))) :
    emitted v (run e sched (init prog)).log
      ≤ settled v (run e sched (init prog)).log + (run e sched (init prog)).queue.count v := by
  have key : ∀ (l : List Nat) (σ : St), (∀ pre t post, l = pre ++ t :: post → Appends (run e pre σ) t v → ¬ Exposed (run e pre σ)) →
      Kept v σ → Kept v (run e l σ) := by
    intro l
    induction l with
    | nil => exact fun _ _ h => h
    | cons t l ih =>
      intro σ hx h
      unfold run
      apply ih
      · intro pre t' post heq
        exact hx (t :: pre) t' post (by rw [heq]; rfl)
      · have h0 := hx [] t l rfl
        cases hq : step e t σ with
        | none => exact h
        | some σ' => exact kept_step hq h0 h
  exact (key sched _ hx (kept_init v prog)).now

/-- If also at most one resume is in progress at any time, no callback raises in one and reducers return, then what
is not recorded is handed over exactly once, at all times when no resume is in progress. -/
theorem C48_exact (e : Env) (he : ∀ acc, e.reduces acc = true) (prog : Nat → Code) (v : Nat) (sched : List Nat)
    (hc : ∀ pre post, sched = pre ++ post → Calm (run e pre (init prog)))
    (hx : ∀ pre t post, sched = pre ++ t :: post → Appends (run e pre (init prog)) t v → ¬ Exposed (run e pre (init prog)))
    (hi : ∀ t, ((run e sched (init prog)).thr t).pos = []) :
    emitted v (run e sched (init prog)).log
      = settled v (run e sched (init prog)).log + (run e sched (init prog)).queue.count v := by
  have key : ∀ (l : List Nat) (σ : St), (∀ pre post, l = pre ++ post → Calm (run e pre σ)) →
      (∀ pre t post, l = pre ++ t :: post → Appends (run e pre σ) t v → ¬ Exposed (run e pre σ)) →
      Exact v σ → Exact v (run e l σ) := by
    intro l
    induction l with
    | nil => exact fun _ _ _ h => h
    | cons t l ih =>
      intro σ hc hx h
      unfold run
      apply ih
      · intro pre post heq
        exact hc (t :: pre) post (by rw [heq]; rfl)
      · intro pre t' post heq
        exact hx (t :: pre) t' post (by rw [heq]; rfl)
      · have h0 := hx [] t l rfl
        have c0 := hc [] (t :: l) rfl
        have c1 := hc [t] l rfl
        simp only [run] at c0 c1
        cases hq : step e t σ with
        | none => exact h
        | some σ' => rw [hq] at c1; exact exact_step he hq c0 c1 h0 h
  exact (key sched _ hc hx (exact_init v prog)).idle hi

/-- **C48** (one thread).  If callbacks do not pause the signal, nothing is ever lost, whatever the thread and the callbacks
do otherwise: emissions and resumes in callbacks, reducers, exceptions. -/
theorem C48_single (e : Env) (he : ∀ l vs, NoPause (e.body l vs)) (code : Code) (v : Nat) (sched : List Nat) :
    emitted v (run e sched (init fun t => if t = 0 then code else .ret)).log
      ≤ settled v (run e sched (init fun t => if t = 0 then code else .ret)).log
        + (run e sched (init fun t => if t = 0 then code else .ret)).queue.count v := by
  refine C48_partial e _ v sched fun pre t post _ ha => ?_
  have key : ∀ (l : List Nat) (σ : St), Single σ → Single (run e l σ) := by
    intro l
    induction l with
    | nil => exact fun _ h => h
    | cons t l ih =>
      intro σ h
      unfold run
      apply ih
      cases hq : step e t σ with
      | none => exact h
      | some σ' => exact single_step he hq h
  have h0 : Single (init fun t => if t = 0 then code else .ret) := by
    refine ⟨⟨trivial, (fun h => absurd rfl h), (fun h => by simp [init, inResume] at h)⟩, fun t ht => ?_⟩
    simp [init, ht]
  exact (key pre _ h0).safe ha

/-- **C48** (nobody pauses).  When no thread and no callback pauses the signal, every emission that is not blocked is handed over at once, alone, and nothing is
ever recorded, for any number of threads and any schedule, also with resumes. -/
theorem C48_unpaused (e : Env) (he : ∀ l vs, NoPause (e.body l vs)) (prog : Nat → Code) (hp : ∀ t, NoPause (prog t)) (sched : List Nat) :
    (run e sched (init prog)).queue = [] ∧
    ∃ vs : List Nat, (run e sched (init prog)).log = vs.flatMap fun v => [Ev.emitted v, Ev.handed [v]] := by
  have h := free_run he sched (init prog) ⟨rfl, rfl, fun t => ⟨hp t, trivial⟩, [], rfl⟩
  exact ⟨h.queue, h.log⟩

/-- Two threads emit, one of them also resumes; the callbacks emit again. -/
example : let e : Env := ⟨fun _ vs => if vs = [1] then .emit 3 fun _ => .ret else .ret, fun _ => true⟩
    let prog : Nat → Code := fun t => if t = 0 then .emit 1 fun _ => .resume false fun _ => .ret else if t = 1 then .emit 2 fun _ => .ret else .ret
    (∀ l vs, NoPause (e.body l vs)) ∧ (∀ t, NoPause (prog t)) ∧
    (run e [0, 1, 0, 1, 0, 1, 0, 1, 0, 1, 0, 0, 0, 0, 0] (init prog)).log
      = [.emitted 1, .handed [1], .emitted 2, .handed [2], .emitted 3, .handed [3]] := by
  refine ⟨fun l vs => ?_, fun t => ?_, by decide +kernel⟩
  · simp only; split
    · exact fun _ => trivial
    · trivial
  · simp only; split
    · exact fun _ _ => trivial
    · split
      · exact fun _ => trivial
      · trivial

/-! ## The hypotheses are met -/

/-- Is a resume of the first `n` threads past the end? -/
def exposedB (n : Nat) (σ : St) : Bool := (List.range n).any fun t => (σ.thr t).pos.any fun p => match p with
  | .iter _ i => σ.queue.length < i
  | .clear => true

/-- A check for the hypothesis of `C48_partial`, for any value. -/
def safeB (e : Env) (n : Nat) : List Nat → St → Bool
  | [], _ => true
  | t :: l, σ => (!(match (σ.thr t).ctl with | .append _ => true | _ => false) || !exposedB n σ)
      && safeB e n l ((step e t σ).getD σ)

/-- Threads from `n` on have nothing to do. -/
def Rest (n : Nat) (σ : St) : Prop := ∀ t, n ≤ t → (σ.thr t).stack = [] ∧ ((σ.thr t).ctl = .run .ret ∨ (σ.thr t).ctl = .fin true)

theorem at_thr {σ σ' : St} {e : Env} {t : Nat} (h : step e t σ = some σ') (t' : Nat) (ht : t' ≠ t) : σ'.thr t' = σ.thr t' := by
  simp only [step] at h
  repeat' (split at h)
  all_goals first
    | (cases h; simp [St.at, ht])
    | cases h

theorem rest_step {σ σ' : St} {e : Env} {t n : Nat} (h : step e t σ = some σ') (hr : Rest n σ) : Rest n σ' := by
  intro t' ht'
  by_cases htt : t' = t
  · subst htt
    obtain ⟨h1, h2⟩ := hr t' ht'
    simp only [step, h1] at h
    rcases h2 with h2 | h2 <;> rw [h2] at h <;> simp only at h <;> cases h
    simp [St.at]
  · rw [at_thr h t' htt]; exact hr t' ht'

theorem exposedB_spec {n : Nat} {σ : St} (hr : Rest n σ) (h : exposedB n σ = false) : ¬ Exposed σ := by
  rintro ⟨t, p, hp, hpast⟩
  by_cases ht : t < n
  · have : exposedB n σ = true := by
      refine List.any_eq_true.mpr ⟨t, List.mem_range.mpr ht, List.any_eq_true.mpr ⟨p, hp, ?_⟩⟩
      cases p with
      | clear => rfl
      | iter acc i => exact decide_eq_true hpast
    rw [h] at this; cases this
  · obtain ⟨h1, h2⟩ := hr t (by omega)
    rcases h2 with h2 | h2 <;> simp [Thread.pos, h1, h2, Ctl.pos] at hp

theorem safeB_spec {e : Env} {n v : Nat} : ∀ (l : List Nat) (σ : St), Rest n σ → safeB e n l σ = true →
    ∀ pre t post, l = pre ++ t :: post → Appends (run e pre σ) t v → ¬ Exposed (run e pre σ) := by
  intro l
  induction l with
  | nil => intro σ _ _ pre t post h; simp at h
  | cons t0 l ih =>
    intro σ hr hs pre t post h ha
    simp only [safeB, Bool.and_eq_true] at hs
    cases pre with
    | nil =>
      simp only [List.nil_append, List.cons.injEq] at h
      obtain ⟨rfl, rfl⟩ := h
      unfold Appends run at ha
      refine exposedB_spec (n := n) (σ := σ) hr ?_
      have := hs.1
      rw [ha] at this
      simpa using this
    | cons t1 pre =>
      simp only [List.cons_append, List.cons.injEq] at h
      obtain ⟨rfl, rfl⟩ := h
      refine ih _ ?_ hs.2 pre t post rfl ha
      cases hq : step e t0 σ with
      | none => exact hr
      | some σ' => exact rest_step hq hr

/-- A check for `Calm`, for the first `n` threads. -/
def calmB (n : Nat) (σ : St) : Bool :=
  ((List.range n).all fun t => (σ.thr t).pos.length ≤ 1
    && (match (σ.thr t).ctl with | .fin false => (σ.thr t).pos.isEmpty | _ => true)
    && ((List.range n).all fun t' => t == t' || (σ.thr t).pos.isEmpty || (σ.thr t').pos.isEmpty))

theorem rest_pos {n t : Nat} {σ : St} (hr : Rest n σ) (ht : n ≤ t) : (σ.thr t).pos = [] := by
  obtain ⟨h1, h2⟩ := hr t ht
  rcases h2 with h2 | h2 <;> simp [Thread.pos, h1, h2, Ctl.pos]

theorem calmB_spec {n : Nat} {σ : St} (hr : Rest n σ) (h : calmB n σ = true) : Calm σ := by
  have h : ∀ t, t < n → _ := fun t ht => List.all_eq_true.mp h t (List.mem_range.mpr ht)
  simp only [Bool.and_eq_true] at h
  refine ⟨fun t t' h1 h2 => ?_, fun t => ?_, fun t hf => ?_⟩
  · have ht : t < n := Nat.lt_of_not_le fun hle => h1 (rest_pos hr hle)
    have ht' : t' < n := Nat.lt_of_not_le fun hle => h2 (rest_pos hr hle)
    have := List.all_eq_true.mp (h t ht).2 t' (List.mem_range.mpr ht')
    simp only [Bool.or_eq_true, List.isEmpty_iff, beq_iff_eq] at this
    rcases this with (h3 | h3) | h3
    · exact h3
    · exact absurd h3 h1
    · exact absurd h3 h2
  · by_cases ht : t < n
    · simpa using (h t ht).1.1
    · rw [rest_pos hr (by omega)]; exact Nat.zero_le _
  · by_cases ht : t < n
    · have := (h t ht).1.2
      rw [hf] at this
      simpa using this
    · exact rest_pos hr (by omega)

/-- A check for the second hypothesis of `C48_exact`. -/
def calmsB (e : Env) (n : Nat) : List Nat → St → Bool
  | [], σ => calmB n σ
  | t :: l, σ => calmB n σ && calmsB e n l ((step e t σ).getD σ)

theorem calmsB_spec {e : Env} {n : Nat} : ∀ (l : List Nat) (σ : St), Rest n σ → calmsB e n l σ = true →
    ∀ pre post, l = pre ++ post → Calm (run e pre σ) := by
  intro l
  induction l with
  | nil =>
    intro σ hr hs pre post h
    simp at h
    rw [h.1]
    exact calmB_spec (σ := σ) hr hs
  | cons t0 l ih =>
    intro σ hr hs pre post h
    simp only [calmsB, Bool.and_eq_true] at hs
    cases pre with
    | nil => exact calmB_spec (σ := σ) hr hs.1
    | cons t1 pre =>
      simp only [List.cons_append, List.cons.injEq] at h
      obtain ⟨rfl, rfl⟩ := h
      refine ih _ ?_ hs.2 pre post rfl
      cases hq : step e t0 σ with
      | none => exact hr
      | some σ' => exact rest_step hq hr

/-- Callbacks that do nothing; all reducers return. -/
def plain : Env := ⟨fun _ _ => .ret, fun _ => true⟩

/-- Thread 0 pauses, emits 1 and resumes; thread 1 emits 2. -/
def prog2 (t : Nat) : Code :=
  if t = 0 then .pause (.emit 1 fun _ => .resume false fun _ => .ret)
  else if t = 1 then .emit 2 fun _ => .ret
  else .ret

theorem rest_prog2 : Rest 2 (init prog2) := by
  intro t ht
  simp [init, prog2, show t ≠ 0 by omega, show t ≠ 1 by omega]

/-- Thread 1 finds the signal paused, thread 0 resumes and hands over 1, thread 1 appends 2: it is handed over by
the iteration that is going on. -/
def schedGood : List Nat := [0] ++ [1, 1, 1] ++ List.replicate 11 0 ++ [1] ++ List.replicate 20 0

/-- Thread 1 appends when the iteration is over. -/
def schedBad : List Nat := [0] ++ [1, 1, 1] ++ List.replicate 13 0 ++ [1] ++ List.replicate 20 0

example : ∀ pre t post, schedGood = pre ++ t :: post → Appends (run plain pre (init prog2)) t 2 → ¬ Exposed (run plain pre (init prog2)) :=
  safeB_spec _ _ rest_prog2 (by decide +kernel)

example : ∀ pre post, schedGood = pre ++ post → Calm (run plain pre (init prog2)) :=
  calmsB_spec _ _ rest_prog2 (by decide +kernel)

example : (run plain schedGood (init prog2)).log = [.emitted 1, .handed [1], .emitted 2, .handed [2]] := by decide +kernel

/-- A callback as allowed in `C48_single`: called with 1 for the first time it emits 2, resumes and raises. -/
def allowed : Env :=
  ⟨fun log vs => if vs = [1] ∧ settled 1 log = 0 then .emit 2 fun _ => .resume false fun _ => .raise else .ret, fun _ => true⟩

example : ∀ l vs, NoPause (allowed.body l vs) := by
  intro l vs; unfold allowed; simp only; split <;> simp [NoPause]

example : (run allowed (List.replicate 60 0)
      (init fun t => if t = 0 then .pause (.emit 1 fun _ => .emit 3 fun _ => .resume false fun _ => .ret) else .ret)).log
    = [.emitted 1, .emitted 3, .handed [1], .emitted 2, .handed [2], .handed [1], .handed [3]] := by decide +kernel

/-- **C48 fails (1)**: an emission that found the signal paused and appends after the last iteration of `resume` and
before its `clear()` is neither delivered nor recorded. -/
theorem C48_refuted : ∃ sched : List Nat, (run plain sched (init prog2)).log = [.emitted 1, .handed [1], .emitted 2]
    ∧ (run plain sched (init prog2)).queue = [] :=
  ⟨schedBad, by decide +kernel, by decide +kernel⟩

/-- A callback that pauses and emits 2 when it is called with 1. -/
def pauser : Env := ⟨fun _ vs => if vs = [1] then .pause (.emit 2 fun _ => .ret) else .ret, fun _ => true⟩

/-- **C48 fails (2)**: with a reducer the window is as long as the callbacks take, and one thread is enough: what a callback
records while the signal is paused again is cleared. -/
theorem C48_reducer_refuted : ∃ sched : List Nat,
    (run pauser sched (init fun t => if t = 0 then .pause (.emit 1 fun _ => .resume true fun _ => .ret) else .ret)).log
      = [.emitted 1, .handed [1], .emitted 2]
    ∧ (run pauser sched (init fun t => if t = 0 then .pause (.emit 1 fun _ => .resume true fun _ => .ret) else .ret)).queue = [] :=
  ⟨List.replicate 40 0, by decide +kernel, by decide +kernel⟩

/-- Without the reducer the same emission is delivered. -/
example : (run pauser (List.replicate 40 0)
      (init fun t => if t = 0 then .pause (.emit 1 fun _ => .resume false fun _ => .ret) else .ret)).log
    = [.emitted 1, .handed [1], .emitted 2, .handed [2]] := by decide +kernel

/-- A callback that, called with 1 for the first time, resumes, pauses and emits 2. -/
def nester : Env :=
  ⟨fun log vs => if vs = [1] ∧ settled 1 log = 0 then .resume false fun _ => .pause (.emit 2 fun _ => .ret) else .ret, fun _ => true⟩

/-- **C48 fails (3)**: a callback that resumes clears the record under the loop that called it, whose index is then past the
end; what is recorded afterwards is not reached by that loop, and cleared by it. -/
theorem C48_nested_refuted : ∃ sched : List Nat,
    (run nester sched (init fun t => if t = 0 then .pause (.emit 1 fun _ => .resume false fun _ => .ret) else .ret)).log
      = [.emitted 1, .handed [1], .handed [1], .emitted 2]
    ∧ (run nester sched (init fun t => if t = 0 then .pause (.emit 1 fun _ => .resume false fun _ => .ret) else .ret)).queue = [] :=
  ⟨List.replicate 60 0, by decide +kernel, by decide +kernel⟩

end Psygnal.Res
