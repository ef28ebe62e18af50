import Verif.ResumeSingle

/-! # A signal that nobody pauses: lemmas -/
namespace Psygnal.Res

/-- No code on the stack pauses, and there is no resume that found something. -/
def FreeS : List Frame → Prop
  | [] => True
  | .cont k :: st => (∀ b, NoPause (k b)) ∧ FreeS st
  | _ :: _ => False

/-- Nothing is recorded, no resume has found something. -/
def FreeC : Ctl → Prop
  | .run c => NoPause c
  | .fin _ | .emit0 _ | .emit1 _ | .deliver _ | .resume0 _ | .resume1 _ => True
  | _ => False

structure Free (σ : St) : Prop where
  paused : σ.paused = false
  queue : σ.queue = []
  thr : ∀ t, FreeC (σ.thr t).ctl ∧ FreeS (σ.thr t).stack
  log : ∃ vs : List Nat, σ.log = vs.flatMap fun v => [Ev.emitted v, Ev.handed [v]]

theorem Free.go {σ : St} (h : Free σ) {t : Nat} {c : Ctl} {st : List Frame} (hc : FreeC c) (hs : FreeS st) : Free (σ.at t c st) := by
  refine ⟨h.paused, h.queue, fun t' => ?_, h.log⟩
  by_cases ht : t' = t
  · simp only [St.at, if_pos ht]; exact ⟨hc, hs⟩
  · simp only [St.at, if_neg ht]; exact h.thr t'

theorem free_step {e : Env} (he : ∀ l vs, NoPause (e.body l vs)) {t : Nat} {σ σ' : St} (h : step e t σ = some σ') (hf : Free σ) : Free σ' := by
  obtain ⟨hc, hs⟩ := hf.thr t
  simp only [step] at h
  cases hk : (σ.thr t).ctl with
  | run c =>
    rw [hk] at h hc
    cases c with
    | ret => cases h; exact hf.go trivial hs
    | raise => cases h; exact hf.go trivial hs
    | emit v k => cases h; exact hf.go trivial ⟨hc, hs⟩
    | pause k => cases hc
    | resume r k => cases h; exact hf.go trivial ⟨hc, hs⟩
    | block b k => cases h; exact Free.go (σ := { σ with blocked := b }) ⟨hf.paused, hf.queue, hf.thr, hf.log⟩ hc hs
    | slots b k => cases h; exact Free.go (σ := { σ with slots := b }) ⟨hf.paused, hf.queue, hf.thr, hf.log⟩ hc hs
  | fin ok =>
    rw [hk] at h
    simp only at h
    cases hst : (σ.thr t).stack with
    | nil => rw [hst] at h; cases h
    | cons fr st =>
      rw [hst] at h hs
      cases fr with
      | cont k => cases h; exact hf.go (hs.1 ok) hs.2
      | iter i => cases hs
      | clear => cases hs
  | emit0 v =>
    rw [hk] at h
    simp only at h
    split at h
    · cases h; exact hf.go trivial hs
    · cases h; exact hf.go trivial hs
  | emit1 v =>
    rw [hk] at h
    simp only [hf.paused] at h
    cases h; exact hf.go trivial hs
  | append v => rw [hk] at hc; cases hc
  | deliver v =>
    rw [hk] at h
    cases h
    obtain ⟨vs, hv⟩ := hf.log
    refine Free.go (σ := { σ with log := σ.log ++ [Ev.emitted v, Ev.handed [v]] }) ⟨hf.paused, hf.queue, hf.thr, vs ++ [v], ?_⟩ (he _ _) hs
    simp [hv]
  | resume0 r =>
    rw [hk] at h
    cases h
    exact Free.go (σ := { σ with paused := false }) ⟨rfl, hf.queue, hf.thr, hf.log⟩ trivial hs
  | resume1 r =>
    rw [hk] at h
    simp only [hf.queue] at h
    cases h; exact hf.go trivial hs
  | resume2 r => rw [hk] at hc; cases hc
  | iter i => rw [hk] at hc; cases hc
  | reduce acc i => rw [hk] at hc; cases hc
  | clear => rw [hk] at hc; cases hc

theorem free_run {e : Env} (he : ∀ l vs, NoPause (e.body l vs)) : ∀ (l : List Nat) (σ : St), Free σ → Free (run e l σ) := by
  intro l
  induction l with
  | nil => exact fun _ h => h
  | cons t l ih =>
    intro σ h
    unfold run
    apply ih
    cases hq : step e t σ with
    | none => exact h
    | some σ' => exact free_step he hq h

end Psygnal.Res
