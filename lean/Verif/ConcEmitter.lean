import Verif.ConcLemmas

/-! # `_current_emitter` and lock order, for `Verif/Conc.lean` -/
namespace Psygnal.Conc

/-! ## The current emitter while one thread emits at a time -/

/-- Between reading and restoring `_current_emitter`, not counting enclosing emissions. -/
def Ctl.sets : Ctl → Bool
  | .readPrev _ => true
  | .writeCur .. => true
  | .start .. => true
  | .next .. => true
  | .restore .. => true
  | _ => false

/-- The thread is in an emission that has set, or is about to set, `_current_emitter`. -/
def busy (th : Thread) : Prop := th.ctl.sets = true ∨ innermost th.stack ≠ none

/-- What `_current_emitter` should be for the thread. -/
def want (th : Thread) : Option Nat :=
  match th.ctl with
  | .start s _ => some s
  | .next s _ _ => some s
  | .restore s _ _ => some s
  | _ => innermost th.stack

/-- Loops remember the emitter of the enclosing loop. -/
def Chain : List Frame → Prop
  | [] => True
  | .loop _ p _ :: st => p = innermost st ∧ Chain st
  | _ :: st => Chain st

/-- So do emissions that are not in a callback now. -/
def ChainCtl (st : List Frame) : Ctl → Prop
  | .writeCur _ p => p = innermost st
  | .start _ p => p = innermost st
  | .next _ p _ => p = innermost st
  | .restore _ p _ => p = innermost st
  | _ => True

/-- At most one thread is in an emission. -/
def Excl (σ : St) : Prop := ∀ t t', busy (σ.thr t) → busy (σ.thr t') → t = t'

/-- The invariant behind C46. -/
structure Emitter (σ : St) : Prop where
  chain : ∀ t, Chain (σ.thr t).stack ∧ ChainCtl (σ.thr t).stack (σ.thr t).ctl
  cur : ∀ t, busy (σ.thr t) → σ.cur = want (σ.thr t)
  idle : (∀ t, ¬ busy (σ.thr t)) → σ.cur = none
  saw : ∀ t s v, Ev.saw t (some s) v ∈ σ.log → v = some s

theorem emitter_init (e : Env) (prog : Nat → Code) : Emitter (init e prog) where
  chain _ := ⟨trivial, trivial⟩
  cur _ _ := rfl
  idle _ := rfl
  saw _ _ _ h := by cases h

/-- A step of `t`: how its part of the invariant changes. -/
theorem emitter_thread {e : Env} {t : Nat} {σ σ' : St} (h : step e t σ = some σ')
    (hc : Chain (σ.thr t).stack ∧ ChainCtl (σ.thr t).stack (σ.thr t).ctl)
    (hw : busy (σ.thr t) → σ.cur = want (σ.thr t)) :
    (Chain (σ'.thr t).stack ∧ ChainCtl (σ'.thr t).stack (σ'.thr t).ctl)
    ∧ (busy (σ.thr t) → busy (σ'.thr t) → σ'.cur = want (σ'.thr t))
    ∧ (busy (σ.thr t) → ¬ busy (σ'.thr t) → σ'.cur = none)
    ∧ (¬ busy (σ.thr t) → σ'.cur = σ.cur ∧ (busy (σ'.thr t) → want (σ'.thr t) = none))
    ∧ (∀ s v, Ev.saw t (some s) v ∈ σ'.log → Ev.saw t (some s) v ∈ σ.log ∨ (v = σ.cur ∧ busy (σ.thr t) ∧ want (σ.thr t) = some s))
    ∧ (∀ t' s v, t' ≠ t → Ev.saw t' (some s) v ∈ σ'.log → Ev.saw t' (some s) v ∈ σ.log) := by
  have h := step_rel h
  rcases hth : σ.thr t with ⟨c, st⟩
  rw [hth] at h hc hw
  simp only at h hc hw
  cases h <;>
    simp only [busy, want, Chain, ChainCtl, Ctl.sets, innermost, set_same, List.mem_append, List.mem_singleton] at hc hw ⊢ <;>
    grind

theorem emitter_step {e : Env} {t : Nat} {σ σ' : St} (h : step e t σ = some σ') (hx : Excl σ) (hx' : Excl σ')
    (hi : Emitter σ) : Emitter σ' := by
  obtain ⟨h1, h2, h3, h4, h5, h6⟩ := emitter_thread h (hi.chain t) (hi.cur t)
  have ho : ∀ t', t' ≠ t → σ'.thr t' = σ.thr t' := (lockStep_step h).others
  refine ⟨?_, ?_, ?_, ?_⟩
  · intro t'
    by_cases ht : t' = t
    · subst ht; exact h1
    · rw [ho t' ht]; exact hi.chain t'
  · intro t' hb
    by_cases ht : t' = t
    · subst ht
      by_cases hb0 : busy (σ.thr t')
      · exact h2 hb0 hb
      · obtain ⟨h41, h42⟩ := h4 hb0
        rw [h42 hb, h41]
        apply hi.idle
        intro u hu
        by_cases hut : u = t'
        · subst hut; exact hb0 hu
        · exact hut (hx' u t' (by rw [ho u hut]; exact hu) hb)
    · rw [ho t' ht] at hb ⊢
      have hb0 : ¬ busy (σ.thr t) := fun hb0 => ht (hx t' t hb hb0)
      rw [(h4 hb0).1]; exact hi.cur t' hb
  · intro hb
    by_cases hb0 : busy (σ.thr t)
    · exact h3 hb0 (hb t)
    · rw [(h4 hb0).1]
      apply hi.idle
      intro u hu
      by_cases hut : u = t
      · subst hut; exact hb0 hu
      · exact hb u (by rw [ho u hut]; exact hu)
  · intro t' s v hm
    by_cases ht : t' = t
    · subst ht
      rcases h5 s v hm with h | ⟨h, hb, hw⟩
      · exact hi.saw t' s v h
      · rw [h, hi.cur t' hb, hw]
    · exact hi.saw t' s v (h6 t' s v ht hm)

/-! ## Threads that only emit one signal themselves -/

/-- The code emits no signal but `r` itself (its callbacks may). -/
def Root (r : Nat) : Code → Prop
  | .ret => True
  | .raise => True
  | .see k => ∀ v, Root r (k v)
  | .emit s _ k => s = r ∧ ∀ b, Root r (k b)
  | .slots _ _ k => Root r k
  | .hold .. => False

/-- The frames of the thread's own code. -/
def Base (r : Nat) : List Frame → Prop
  | [] => True
  | .cont k :: st => (∀ b, Root r (k b)) ∧ Base r st
  | _ => False

/-- A loop of `r` above the thread's own code. -/
def Sup (r : Nat) : List Frame → Prop
  | [] => False
  | .loop s _ _ :: st => (s = r ∧ Base r st) ∨ Sup r st
  | _ :: st => Sup r st

/-- What the thread's own code may do. -/
def RootCtl (r : Nat) : Ctl → Prop
  | .run c => Root r c
  | .fin _ => True
  | .waitHold .. => False
  | .unhold .. => False
  | .check s _ => s = r
  | .wait s _ => s = r
  | .locked s _ => s = r
  | .readPrev s => s = r
  | .writeCur s _ => s = r
  | .start s _ => s = r
  | .next s _ _ => s = r
  | .restore s _ _ => s = r
  | .cleanup s _ => s = r
  | .release s _ => s = r

/-- The thread emits nothing but `r` outside callbacks. -/
def Rooted (r : Nat) (th : Thread) : Prop := (RootCtl r th.ctl ∧ Base r th.stack) ∨ Sup r th.stack

theorem rooted_step {e : Env} {t r : Nat} {σ σ' : St} (h : step e t σ = some σ') (hr : ∀ t, Rooted r (σ.thr t)) :
    ∀ t, Rooted r (σ'.thr t) := by
  have ho := (lockStep_step h).others
  intro t'
  by_cases ht : t' = t
  · subst ht
    have h := step_rel h
    have hr := hr t'
    rcases hth : σ.thr t' with ⟨c, st⟩
    rw [hth] at h hr
    simp only at h hr
    cases h <;> simp only [Rooted, RootCtl, Root, Base, Sup, set_same] at hr ⊢ <;> grind
  · rw [ho t' ht]; exact hr t'

theorem innermost_base {r : Nat} : {st : List Frame} → Base r st → innermost st = none
  | [], _ => rfl
  | .cont _ :: st, h => innermost_base (st := st) h.2
  | .loop .. :: _, h => h.elim
  | .hold _ :: _, h => h.elim

theorem held_sup {r : Nat} : {st : List Frame} → Sup r st → 0 < heldS r st
  | .cont _ :: st, h => by have := held_sup (st := st) h; simp; omega
  | .hold _ :: st, h => by have := held_sup (st := st) h; simp; omega
  | .loop s _ _ :: st, h => by
    rcases h with ⟨rfl, _⟩ | h
    · simp [heldF, loopF]; omega
    · have := held_sup (st := st) h; simp; omega

theorem Rooted.held {r : Nat} {th : Thread} (h : Rooted r th) (hb : busy th) : 0 < held r th := by
  rcases th with ⟨c, st⟩
  rcases h with ⟨h1, h2⟩ | h
  · rcases hb with hb | hb
    · cases c <;> simp only [RootCtl] at h1 <;> first | cases hb | skip
      all_goals subst h1; simp [Conc.held, heldC, loopC]; omega
    · exact absurd (innermost_base h2) hb
  · have := held_sup h; simp only [Conc.held] at *; omega

/-! ## Lock order -/

/-- `s` may be locked inside `o`. -/
def Allowed (rank : Nat → Nat) (o : Option Nat) (s : Nat) : Prop := ∀ h, o = some h → h = s ∨ rank h < rank s

/-- Everything the code locks may be locked inside `o`. -/
def Above (rank : Nat → Nat) : Option Nat → Code → Prop
  | _, .ret => True
  | _, .raise => True
  | o, .see k => ∀ v, Above rank o (k v)
  | o, .emit s _ k => Allowed rank o s ∧ ∀ b, Above rank o (k b)
  | o, .slots _ _ k => Above rank o k
  | o, .hold s c k => Allowed rank o s ∧ Above rank (some s) c ∧ ∀ b, Above rank o (k b)

/-- The innermost lock of a stack. -/
def topHeld : List Frame → Option Nat
  | [] => none
  | .cont _ :: st => topHeld st
  | .loop s _ _ :: _ => some s
  | .hold s :: _ => some s

/-- Locks on the stack are in order, and so will be those of the code waiting. -/
def RankStack (rank : Nat → Nat) : List Frame → Prop
  | [] => True
  | .cont k :: st => (∀ b, Above rank (topHeld st) (k b)) ∧ RankStack rank st
  | .loop s _ _ :: st => Allowed rank (topHeld st) s ∧ RankStack rank st
  | .hold s :: st => Allowed rank (topHeld st) s ∧ RankStack rank st

/-- The same for what is done next. -/
def RankCtl (rank : Nat → Nat) (o : Option Nat) : Ctl → Prop
  | .run c => Above rank o c
  | .fin _ => True
  | .waitHold s c => Allowed rank o s ∧ Above rank (some s) c
  | .unhold s _ => Allowed rank o s
  | .check s _ => Allowed rank o s
  | .wait s _ => Allowed rank o s
  | .locked s _ => Allowed rank o s
  | .readPrev s => Allowed rank o s
  | .writeCur s _ => Allowed rank o s
  | .start s _ => Allowed rank o s
  | .next s _ _ => Allowed rank o s
  | .restore s _ _ => Allowed rank o s
  | .cleanup s _ => Allowed rank o s
  | .release s _ => Allowed rank o s

/-- The thread locks in order. -/
def Ranked (rank : Nat → Nat) (th : Thread) : Prop :=
  RankCtl rank (topHeld th.stack) th.ctl ∧ RankStack rank th.stack

theorem ranked_step {e : Env} {rank : Nat → Nat} (he : ∀ s x a, Above rank (some s) (e.body s x a)) {t : Nat} {σ σ' : St}
    (h : step e t σ = some σ') (hr : ∀ t, Ranked rank (σ.thr t)) : ∀ t, Ranked rank (σ'.thr t) := by
  have ho := (lockStep_step h).others
  intro t'
  by_cases ht : t' = t
  · subst ht
    have h := step_rel h
    have hr := hr t'
    rcases hth : σ.thr t' with ⟨c, st⟩
    rw [hth] at h hr
    simp only at h hr
    cases h <;> simp only [Ranked, RankCtl, RankStack, Above, topHeld, set_same] at hr ⊢ <;> grind
  · rw [ho t' ht]; exact hr t'

/-- The innermost lock is the highest. -/
theorem rank_top {rank : Nat → Nat} {h : Nat} : {st : List Frame} → RankStack rank st → 0 < heldS h st →
    ∃ o, topHeld st = some o ∧ (h = o ∨ rank h < rank o)
  | .cont _ :: st, hr, hh => rank_top (st := st) hr.2 (by simpa [heldF, loopF] using hh)
  | .loop s _ _ :: st, hr, hh => by
    refine ⟨s, rfl, ?_⟩
    by_cases hs : h = s
    · exact .inl hs
    · have hh' : 0 < heldS h st := by simpa [heldF, loopF, Ne.symm hs] using hh
      obtain ⟨o, h1, h2⟩ := rank_top (st := st) hr.2 hh'
      have h3 := hr.1 o h1
      right; rcases h2 with rfl | h2 <;> rcases h3 with rfl | h3 <;> first | omega | exact absurd rfl hs
  | .hold s :: st, hr, hh => by
    refine ⟨s, rfl, ?_⟩
    by_cases hs : h = s
    · exact .inl hs
    · have hh' : 0 < heldS h st := by simpa [heldF, Ne.symm hs] using hh
      obtain ⟨o, h1, h2⟩ := rank_top (st := st) hr.2 hh'
      have h3 := hr.1 o h1
      right; rcases h2 with rfl | h2 <;> rcases h3 with rfl | h3 <;> first | omega | exact absurd rfl hs

/-- The signal whose lock the thread waits for. -/
def waitsFor : Ctl → Option Nat
  | .wait s _ => some s
  | .waitHold s _ => some s
  | _ => none

/-- The thread has ended. -/
def Thread.ended (th : Thread) : Prop := (∃ ok, th.ctl = .fin ok) ∧ th.stack = []

/-- A thread that cannot do a step has ended or waits for a lock that another has. -/
theorem stuck {e : Env} {t : Nat} {σ : St} (h : step e t σ = none) :
    (σ.thr t).ended ∨ ∃ s o n, waitsFor (σ.thr t).ctl = some s ∧ σ.locks s = some (o, n) ∧ o ≠ t := by
  unfold step at h
  rcases hth : σ.thr t with ⟨c, st⟩
  simp only [hth] at h ⊢
  have hacq : ∀ s, acquire t (σ.locks s) = none → ∃ o n, σ.locks s = some (o, n) ∧ o ≠ t := by
    intro s hs
    cases hq : σ.locks s with
    | none => rw [hq] at hs; cases hs
    | some on =>
      obtain ⟨o, n⟩ := on
      rw [hq] at hs
      simp only [acquire] at hs
      split at hs
      · cases hs
      · rename_i hne; exact ⟨o, n, rfl, hne⟩
  cases c <;> try simp only at h
  case fin ok =>
    cases st with
    | nil => exact .inl ⟨⟨ok, rfl⟩, rfl⟩
    | cons f st => cases f <;> simp only at h <;> (first | cases h | split at h <;> cases h)
  case wait s a =>
    split at h
    · rename_i hs
      obtain ⟨o, n, h1, h2⟩ := hacq s hs
      exact .inr ⟨s, o, n, rfl, h1, h2⟩
    · cases h
  case waitHold s c =>
    split at h
    · rename_i hs
      obtain ⟨o, n, h1, h2⟩ := hacq s hs
      exact .inr ⟨s, o, n, rfl, h1, h2⟩
    · cases h
  case run c => cases c <;> simp only at h <;> cases h
  case next s p l =>
    rcases l with ⟨a, j, i⟩
    simp only at h
    repeat' split at h
    all_goals cases h
  all_goals repeat' split at h
  all_goals cases h

end Psygnal.Conc
