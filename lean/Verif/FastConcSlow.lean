import Verif.FastConcDepth

/-! # A signal that is not emitted with `emit_fast`: the lock -/
namespace Psygnal.FC

/-- The code does not emit `s` with `emit_fast` (`/repo/src/psygnal/_signal.py:1203`). -/
def Slow (s : Nat) : Code → Prop
  | .ret => True
  | .raise => True
  | .emit f s' _ k => (s' = s → f = false) ∧ ∀ b, Slow s (k b)

/-- The same for the control of a thread. -/
def SlowC (s : Nat) : Ctl → Prop
  | .run c => Slow s c
  | .check f s' _ => s' = s → f = false
  | .load m | .store m _ | .maxd m | .next m _ => m.s = s → m.fast = false
  | .test m _ => m.s ≠ s
  | .dload m _ | .dstore m _ _ | .reset m _ | .zero m _ | .release m _ => m.s = s → m.fast = false
  | .wait _ _ | .fin _ => True

/-- The same for what a thread returns to. -/
def SlowF (s : Nat) : Frame → Prop
  | .cont k => ∀ b, Slow s (k b)
  | .loop m _ => m.s = s → m.fast = false

/-- The same for a thread. -/
def SlowT (s : Nat) (th : Thread) : Prop := SlowC s th.ctl ∧ ∀ f ∈ th.stack, SlowF s f

/-- The lock is held by the thread that emits, as often as it emits. -/
structure LInv (s : Nat) (σ : St) : Prop where
  slow : ∀ t, SlowT s (σ.thr t)
  free : σ.locks s = none → ∀ t, touch s (σ.thr t) = 0
  held : ∀ o n, σ.locks s = some (o, n) → 0 < n ∧ touch s (σ.thr o) = n ∧ ∀ t, t ≠ o → touch s (σ.thr t) = 0

theorem slow_step {e : Env} {t s : Nat} {σ σ' : St} {th : Thread} (hb : ∀ s' x a, Slow s (e.body s' x a))
    (h : Step e t σ th σ') (hs : SlowT s th) : SlowT s (σ'.thr t) := by
  obtain ⟨h1, h2⟩ := hs
  cases h <;> simp only [SlowT, set_same, SlowC, SlowF, List.mem_cons, forall_eq_or_imp, Slow] at h1 h2 ⊢ <;> grind

/-- What a step does to the lock and to the number of emissions. -/
theorem lock_step {e : Env} {t s : Nat} {σ σ' : St} {th : Thread} (h : Step e t σ th σ') (hs : SlowT s th) :
    (σ'.locks s = σ.locks s ∧ touch s (σ'.thr t) = touch s th) ∨
    (acquire t (σ.locks s) = σ'.locks s ∧ σ'.locks s ≠ none ∧ touch s (σ'.thr t) = touch s th + 1) ∨
    (σ'.locks s = unlock (σ.locks s) ∧ touch s th = touch s (σ'.thr t) + 1) := by
  obtain ⟨h1, h2⟩ := hs
  cases h <;> simp only [touch, touchC, loopS, set_same, SlowC, SlowF, List.mem_cons, forall_eq_or_imp, set_apply] at h1 h2 ⊢ <;>
    grind

theorem linv_step {e : Env} {t s : Nat} {σ σ' : St} (hb : ∀ s' x a, Slow s (e.body s' x a)) (h : Step e t σ (σ.thr t) σ')
    (hi : LInv s σ) : LInv s σ' := by
  have hslow : ∀ u, SlowT s (σ'.thr u) := by
    intro u
    by_cases hu : u = t
    · subst hu; exact slow_step hb h (hi.slow u)
    · rw [h.others hu]; exact hi.slow u
  have hoth : ∀ u, u ≠ t → touch s (σ'.thr u) = touch s (σ.thr u) := fun u hu => by rw [h.others hu]
  have hfree := hi.free
  have hheld := hi.held
  rcases lock_step h (hi.slow t) with ⟨h1, h2⟩ | ⟨h1, h2, h3⟩ | ⟨h1, h2⟩
  · have hall : ∀ u, touch s (σ'.thr u) = touch s (σ.thr u) := by
      intro u
      by_cases hu : u = t
      · subst hu; exact h2
      · exact hoth u hu
    refine ⟨hslow, fun hn u => ?_, fun o n ho => ?_⟩
    · rw [hall]; exact hfree (by rw [← h1]; exact hn) u
    · obtain ⟨g1, g2, g3⟩ := hheld o n (by rw [← h1]; exact ho)
      exact ⟨g1, by rw [hall]; exact g2, fun u hu => by rw [hall]; exact g3 u hu⟩
  · refine ⟨hslow, fun hn => absurd hn h2, fun o n ho => ?_⟩
    cases hl : σ.locks s with
    | none =>
      rw [hl, ho] at h1
      simp only [acquire, Option.some.injEq, Prod.mk.injEq] at h1
      obtain ⟨rfl, rfl⟩ := h1
      refine ⟨by omega, by rw [h3, hfree hl], fun u hu => ?_⟩
      rw [hoth u hu]
      exact hfree hl u
    | some x =>
      obtain ⟨o', n'⟩ := x
      obtain ⟨g1, g2, g3⟩ := hheld o' n' hl
      rw [hl, ho] at h1
      simp only [acquire] at h1
      split at h1
      · rename_i hot
        subst hot
        simp only [Option.some.injEq, Prod.mk.injEq] at h1
        obtain ⟨rfl, rfl⟩ := h1
        exact ⟨by omega, by rw [h3, g2], fun u hu => by rw [hoth u hu]; exact g3 u hu⟩
      · cases h1
  · cases hl : σ.locks s with
    | none =>
      have := hfree hl t
      omega
    | some x =>
      obtain ⟨o, n⟩ := x
      obtain ⟨g1, g2, g3⟩ := hheld o n hl
      have hot : o = t := by
        by_cases hot : t = o
        · exact hot.symm
        · have := g3 t hot
          omega
      subst hot
      rw [hl] at h1
      match n, g1, g2 with
      | 1, _, g2 =>
        refine ⟨hslow, fun _ u => ?_, fun o n ho => ?_⟩
        · by_cases hu : u = o
          · subst hu; omega
          · rw [hoth u hu]; exact g3 u hu
        · rw [h1] at ho
          cases ho
      | n + 2, _, g2 =>
        refine ⟨hslow, fun hn => ?_, fun o' n' ho => ?_⟩
        · rw [h1] at hn
          cases hn
        · rw [h1] at ho
          simp only [unlock, Option.some.injEq, Prod.mk.injEq] at ho
          obtain ⟨rfl, rfl⟩ := ho
          exact ⟨by omega, by omega, fun u hu => by rw [hoth u hu]; exact g3 u hu⟩

theorem linv_init {prog : Nat → Code} {s : Nat} (hp : ∀ t, Slow s (prog t)) : LInv s (init prog) :=
  ⟨fun t => ⟨hp t, fun f hf => by simp [init] at hf⟩, fun _ t => rfl, fun o n h => by simp [init] at h⟩

theorem linv_run {e : Env} {prog : Nat → Code} {s : Nat} (hb : ∀ s' x a, Slow s (e.body s' x a)) (hp : ∀ t, Slow s (prog t))
    (sched : List Nat) : LInv s (run e sched (init prog)) :=
  run_inv (fun _ _ _ h hi => linv_step hb (step_rel h) hi) sched _ (linv_init hp)

theorem LInv.apart {s : Nat} {σ : St} (h : LInv s σ) : Apart s σ := by
  intro t t' ht ht'
  cases hl : σ.locks s with
  | none =>
    have := h.free hl t
    omega
  | some x =>
    obtain ⟨g1, g2, g3⟩ := h.held x.1 x.2 hl
    have : t = x.1 := by
      by_cases h' : t = x.1
      · exact h'
      · have := g3 t h'; omega
    have : t' = x.1 := by
      by_cases h' : t' = x.1
      · exact h'
      · have := g3 t' h'; omega
    omega

end Psygnal.FC
