import Verif.FastConcLemmas

/-! # The locks, when signals are emitted with `emit_fast` and with `emit` -/
namespace Psygnal.FC

/-- An emission of `s` by `emit` (`/repo/src/psygnal/_signal.py:1264`). -/
def slowOf (s : Nat) (m : Em) : Nat := if m.s = s ∧ m.fast = false then 1 else 0

/-- The control is inside an emission of `s` by `emit` that holds the lock (`/repo/src/psygnal/_signal.py:1268`). -/
def heldC (s : Nat) : Ctl → Nat
  | .load m | .store m _ | .maxd m | .next m _ | .test m _ | .dload m _ | .dstore m _ _ | .reset m _ | .zero m _ | .release m _ => slowOf s m
  | _ => 0

/-- How often what a thread returns to holds the lock of `s` (`/repo/src/psygnal/_signal.py:1268`). -/
def heldS (s : Nat) : List Frame → Nat
  | [] => 0
  | .cont _ :: st => heldS s st
  | .loop m _ :: st => slowOf s m + heldS s st

/-- How often a thread holds the lock of `s` (`/repo/src/psygnal/_signal.py:1268`). -/
def held (s : Nat) (th : Thread) : Nat := heldC s th.ctl + heldS s th.stack

/-- The last steps of the two kinds of emission are kept apart (`/repo/src/psygnal/_signal.py:1255-1256`, `:1298-1303`). -/
def Kind : Ctl → Prop
  | .test m _ => m.fast = true
  | .reset m _ | .zero m _ | .release m _ => m.fast = false
  | _ => True

/-- A lock is held by its owner, so many times as its count says (`/repo/src/psygnal/_signal.py:554`). -/
def LockOk (l : Option (Nat × Nat)) (h : Nat → Nat) : Prop :=
  match l with
  | none => ∀ t, h t = 0
  | some (o, c) => 0 < c ∧ h o = c ∧ ∀ t, t ≠ o → h t = 0

theorem LockOk.acquire {l : Option (Nat × Nat)} {h h' : Nat → Nat} {t : Nat} {k : Nat × Nat} (hl : LockOk l h)
    (ha : acquire t l = some k) (h1 : h' t = h t + 1) (h2 : ∀ u, u ≠ t → h' u = h u) : LockOk (some k) h' := by
  cases l with
  | none =>
    cases ha
    refine ⟨by decide, ?_, fun u hu => ?_⟩
    · rw [h1, hl t]
    · rw [h2 u hu, hl u]
  | some q =>
    obtain ⟨o, c⟩ := q
    simp only [FC.acquire] at ha
    split at ha
    · rename_i ho
      subst ho
      cases ha
      obtain ⟨_, k2, k3⟩ := hl
      exact ⟨by omega, by omega, fun u hu => by rw [h2 u hu, k3 u hu]⟩
    · cases ha

theorem LockOk.unlock {l : Option (Nat × Nat)} {h h' : Nat → Nat} {t : Nat} (hl : LockOk l h)
    (h1 : h t = h' t + 1) (h2 : ∀ u, u ≠ t → h' u = h u) : LockOk (unlock l) h' := by
  cases l with
  | none => have := hl t; omega
  | some q =>
    obtain ⟨o, c⟩ := q
    obtain ⟨k1, k2, k3⟩ := hl
    have ho : o = t := Classical.byContradiction fun hne => by have := k3 t (Ne.symm hne); omega
    subst ho
    match c with
    | 0 => omega
    | 1 =>
      intro u
      by_cases hu : u = o
      · subst hu; omega
      · rw [h2 u hu, k3 u hu]
    | c + 2 => exact ⟨by omega, by omega, fun u hu => by rw [h2 u hu, k3 u hu]⟩

theorem LockOk.same {l : Option (Nat × Nat)} {h h' : Nat → Nat} (hl : LockOk l h) (h1 : ∀ u, h' u = h u) : LockOk l h' := by
  have : h' = h := funext h1
  rw [this]; exact hl

/-- Every lock is held by its owner (`/repo/src/psygnal/_signal.py:1268`). -/
def Locks (σ : St) : Prop := (∀ t, Kind (σ.thr t).ctl) ∧ ∀ s, LockOk (σ.locks s) (fun u => held s (σ.thr u))

theorem kind_step {e : Env} {t : Nat} {σ σ' : St} {th : Thread} (h : Step e t σ th σ') (hk : Kind th.ctl) : Kind (σ'.thr t).ctl := by
  cases h <;> simp_all [Kind]

theorem held_step {e : Env} {t s : Nat} {σ σ' : St} {th : Thread} (h : Step e t σ th σ') (hk : Kind th.ctl) :
    (σ'.locks s = σ.locks s ∧ held s (σ'.thr t) = held s th) ∨
    (∃ k, acquire t (σ.locks s) = some k ∧ σ'.locks s = some k ∧ held s (σ'.thr t) = held s th + 1) ∨
    (σ'.locks s = unlock (σ.locks s) ∧ held s th = held s (σ'.thr t) + 1) := by
  cases h <;> simp only [held, heldC, heldS, slowOf, set_same, Kind, set_apply] at hk ⊢ <;> grind

theorem locks_step {e : Env} {t : Nat} {σ σ' : St} (h : step e t σ = some σ') (hi : Locks σ) : Locks σ' := by
  have hs := step_rel h
  refine ⟨fun u => ?_, fun s => ?_⟩
  · by_cases hu : u = t
    · subst hu; exact kind_step hs (hi.1 u)
    · rw [hs.others hu]; exact hi.1 u
  · have ho : ∀ u, u ≠ t → held s (σ'.thr u) = held s (σ.thr u) := fun u hu => by rw [hs.others hu]
    rcases held_step (s := s) hs (hi.1 t) with ⟨h1, h2⟩ | ⟨k, h1, h2, h3⟩ | ⟨h1, h2⟩
    · rw [h1]
      refine (hi.2 s).same fun u => ?_
      by_cases hu : u = t
      · subst hu; exact h2
      · exact ho u hu
    · rw [h2]; exact (hi.2 s).acquire h1 h3 ho
    · rw [h1]; exact (hi.2 s).unlock h2 ho

theorem locks_run (e : Env) (prog : Nat → Code) (sched : List Nat) : Locks (run e sched (init prog)) :=
  run_inv (P := Locks) (fun _ _ _ h hi => locks_step h hi) sched _ ⟨fun _ => trivial, fun _ _ => rfl⟩

end Psygnal.FC
