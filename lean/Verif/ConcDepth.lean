import Verif.ConcLemmas

/-! # The recursion depth with several threads -/
namespace Psygnal.Conc

/-- The effect of a step of thread `t` on the depth of `s` and on the emissions of `s` the thread is in. -/
theorem depth_cases {e : Env} {t : Nat} {σ σ' : St} (h : step e t σ = some σ') (s : Nat) :
    (σ'.depth s = σ.depth s ∧ loops s (σ'.thr t) = loops s (σ.thr t) ∧ σ'.maxd s = σ.maxd s)
    ∨ (σ'.depth s = σ.depth s + 1 ∧ loops s (σ'.thr t) = loops s (σ.thr t) + 1 ∧ 0 < held s (σ.thr t)
      ∧ σ'.maxd s = max (σ.maxd s) (σ'.depth s))
    ∨ (σ'.depth s = σ.depth s - 1 ∧ loops s (σ.thr t) = loops s (σ'.thr t) + 1
      ∧ σ'.maxd s = if σ'.depth s = 0 then 0 else σ.maxd s) := by
  have h := step_rel h
  rcases hth : σ.thr t with ⟨c, st⟩
  rw [hth] at h
  simp only at h
  cases h <;> simp only [loops, loopC, loopF, held, heldC, set_same, set_apply, loopS_cons] <;> grind

/-- The depth of a signal is the number of emissions of it that the only thread in any is in; the maximal depth is at
least that, and reset at the end. -/
structure Depth (σ : St) : Prop where
  eq : ∀ s, ∃ t, σ.depth s = loops s (σ.thr t) ∧ ∀ t', t' ≠ t → loops s (σ.thr t') = 0
  maxd : ∀ s, σ.depth s ≤ σ.maxd s
  rest : ∀ s, σ.depth s = 0 → σ.maxd s = 0

theorem depth_step {e : Env} {t : Nat} {σ σ' : St} (h : step e t σ = some σ') (hl : Locks σ) (hi : Depth σ) :
    Depth σ' := by
  have ho := (lockStep_step h).others
  have hc := depth_cases h
  refine ⟨fun s => ?_, fun s => ?_, fun s => ?_⟩
  · obtain ⟨t0, h1, h2⟩ := hi.eq s
    have hmine : 0 < loops s (σ.thr t) ∨ 0 < held s (σ.thr t) →
        σ.depth s = loops s (σ.thr t) ∧ ∀ t', t' ≠ t → loops s (σ.thr t') = 0 := by
      intro hp
      have hp' : 0 < held s (σ.thr t) := by
        rcases hp with hp | hp
        · have := loops_le_held s (σ.thr t); omega
        · exact hp
      have hz : ∀ t', t' ≠ t → loops s (σ.thr t') = 0 := by
        intro t' ht'
        have h3 := loops_le_held s (σ.thr t')
        by_cases h4 : 0 < held s (σ.thr t')
        · exact absurd (hl.one h4 hp') ht'
        · omega
      refine ⟨?_, hz⟩
      by_cases ht : t0 = t
      · subst ht; exact h1
      · rw [h1, hz t0 ht, h2 t (Ne.symm ht)]
    rcases hc s with ⟨k1, k2, _⟩ | ⟨k1, k2, k3, _⟩ | ⟨k1, k2, _⟩
    · refine ⟨t0, ?_, fun t' ht' => ?_⟩
      · by_cases ht : t0 = t
        · subst ht; rw [k1, k2, h1]
        · rw [k1, ho t0 ht, h1]
      · by_cases ht : t' = t
        · subst ht; rw [k2]; exact h2 _ ht'
        · rw [ho t' ht]; exact h2 _ ht'
    · obtain ⟨m1, m2⟩ := hmine (.inr k3)
      exact ⟨t, by omega, fun t' ht' => by rw [ho t' ht']; exact m2 t' ht'⟩
    · obtain ⟨m1, m2⟩ := hmine (.inl (by omega))
      exact ⟨t, by omega, fun t' ht' => by rw [ho t' ht']; exact m2 t' ht'⟩
  · have := hi.maxd s
    rcases hc s with ⟨k1, _, k3⟩ | ⟨k1, _, _, k3⟩ | ⟨k1, _, k3⟩
    · omega
    · omega
    · rw [k3]; split <;> omega
  · have := hi.rest s
    rcases hc s with ⟨k1, _, k3⟩ | ⟨k1, _, _, k3⟩ | ⟨k1, _, k3⟩
    · rw [k1, k3]; exact this
    · omega
    · intro h0; rw [k3, if_pos h0]

theorem depth_init (e : Env) (prog : Nat → Code) : Depth (init e prog) :=
  ⟨fun _ => ⟨0, rfl, fun _ _ => rfl⟩, fun _ => Nat.le_refl _, fun _ _ => rfl⟩

theorem depth_run (e : Env) (prog : Nat → Code) (sched : List Nat) :
    Serial (run e sched (init e prog)) ∧ Depth (run e sched (init e prog)) ∧ Queues (run e sched (init e prog)) :=
  run_inv (e := e) (P := fun σ => Serial σ ∧ Depth σ ∧ Queues σ)
    (fun t σ σ' h hi => ⟨serial_step t σ σ' h hi.1, depth_step h hi.1.locks hi.2.1, queues_step t σ σ' h hi.2.2⟩) sched _
    ⟨serial_init e prog, depth_init e prog, fun _ h => absurd rfl h⟩

/-- The thread is past the check of an emission of `s` and about to enter it. -/
def entering (s : Nat) : Ctl → Prop
  | .wait s' _ | .locked s' _ => s' = s
  | _ => False

/-- No thread is in more than `limit` emissions of a signal, and one that enters another one is in fewer. -/
def Bound (e : Env) (σ : St) : Prop :=
  ∀ s t, loops s (σ.thr t) ≤ e.limit ∧ (entering s (σ.thr t).ctl → loops s (σ.thr t) < e.limit)

theorem loops_le_depth {σ : St} (h : Depth σ) (s t : Nat) : loops s (σ.thr t) ≤ σ.depth s := by
  obtain ⟨t0, h1, h2⟩ := h.eq s
  by_cases ht : t = t0
  · subst ht; omega
  · have := h2 t ht; omega

theorem bound_step {e : Env} {t : Nat} {σ σ' : St} (h : step e t σ = some σ') (hd : Depth σ) (hb : Bound e σ) :
    Bound e σ' := by
  intro s u
  by_cases hu : u = t
  · subst hu
    have hle := loops_le_depth hd s u
    have hb := hb s u
    have h := step_rel h
    rcases hth : σ.thr u with ⟨c, st⟩
    rw [hth] at h hle hb
    simp only at h
    cases h <;> simp only [loops, loopC, loopF, set_same, loopS_cons, entering] at hle hb ⊢ <;> grind
  · rw [(step_rel h).others hu]; exact hb s u

theorem bound_run (e : Env) (prog : Nat → Code) (sched : List Nat) : Bound e (run e sched (init e prog)) :=
  (run_inv (e := e) (P := fun σ => Serial σ ∧ Depth σ ∧ Bound e σ)
    (fun t σ σ' h hi => ⟨serial_step t σ σ' h hi.1, depth_step h hi.1.locks hi.2.1, bound_step h hi.2.1 hi.2.2⟩) sched _
    ⟨serial_init e prog, depth_init e prog, fun _ _ => ⟨Nat.zero_le _, fun h => h.elim⟩⟩).2.2

end Psygnal.Conc
