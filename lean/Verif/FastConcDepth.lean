import Verif.FastConcLemmas

/-! # The counter, when emissions of a signal in different threads do not overlap -/
namespace Psygnal.FC

/-- How many emissions of `s` the control is in (0 or 1), from the increment of the counter
(`/repo/src/psygnal/_signal.py:1238`, `:1274`) to the end (`:1256`, `:1303`). -/
def touchC (s : Nat) : Ctl → Nat
  | .load m | .store m _ | .maxd m | .next m _ => if m.s = s then 1 else 0
  | .test m _ | .dload m _ | .dstore m _ _ | .reset m _ | .zero m _ | .release m _ => if m.s = s then 1 else 0
  | _ => 0

/-- Those of them that are counted: the counter was incremented and not yet decremented (`/repo/src/psygnal/_signal.py:1238`,
`:1256`). -/
def liveC (s : Nat) : Ctl → Nat
  | .maxd m | .next m _ | .test m _ | .dload m _ | .dstore m _ _ => if m.s = s then 1 else 0
  | _ => 0

/-- The emissions of `s` whose callbacks the thread is in (`/repo/src/psygnal/_signal.py:1240`, `:1307`). -/
def loopS (s : Nat) : List Frame → Nat
  | [] => 0
  | .cont _ :: st => loopS s st
  | .loop m _ :: st => (if m.s = s then 1 else 0) + loopS s st

/-- How many emissions of `s` a thread is in (`/repo/src/psygnal/_signal.py:1203`, `:1264`). -/
def touch (s : Nat) (th : Thread) : Nat := touchC s th.ctl + loopS s th.stack

/-- How many of them are counted (`/repo/src/psygnal/_signal.py:556`). -/
def live (s : Nat) (th : Thread) : Nat := liveC s th.ctl + loopS s th.stack

/-- What the thread has read is what is there. -/
def Pend (s : Nat) (d : Int) : Ctl → Prop
  | .store m v => m.s = s → v = d
  | .dstore m _ v => m.s = s → v = d
  | .zero m _ => m.s = s → d ≤ 0
  | _ => True

theorem live_le_touch (s : Nat) (th : Thread) : live s th ≤ touch s th := by
  unfold live touch
  cases th.ctl <;> simp only [liveC, touchC] <;> grind

theorem depth_untouched {e : Env} {t : Nat} {σ σ' : St} {th : Thread} (h : Step e t σ th σ') (s : Nat)
    (ht : touch s th = 0) : σ'.depth s = σ.depth s ∧ live s (σ'.thr t) = 0 ∧ Pend s (σ'.depth s) (σ'.thr t).ctl := by
  cases h <;> simp only [touch, live, touchC, liveC, loopS, Pend, set_same, set_apply] at ht ⊢ <;> grind

theorem depth_touched {e : Env} {t : Nat} {σ σ' : St} {th : Thread} (h : Step e t σ th σ') (s : Nat)
    (hd : σ.depth s = live s th) (hp : Pend s (σ.depth s) th.ctl) :
    σ'.depth s = live s (σ'.thr t) ∧ Pend s (σ'.depth s) (σ'.thr t).ctl := by
  cases h <;> simp only [live, liveC, loopS, Pend, set_same, set_apply] at hd hp ⊢ <;> grind

/-- No two threads are in emissions of `s` (`/repo/src/psygnal/_signal.py:1203`, `:1264`). -/
def Apart (s : Nat) (σ : St) : Prop := ∀ t t', 0 < touch s (σ.thr t) → 0 < touch s (σ.thr t') → t = t'

structure DInv (s : Nat) (σ : St) : Prop where
  busy : ∀ t, 0 < touch s (σ.thr t) → σ.depth s = live s (σ.thr t) ∧ Pend s (σ.depth s) (σ.thr t).ctl
  rest : (∀ t, touch s (σ.thr t) = 0) → σ.depth s = 0

theorem dinv_step {e : Env} {t : Nat} {σ σ' : St} {s : Nat} (h : Step e t σ (σ.thr t) σ') (ha : Apart s σ) (ha' : Apart s σ')
    (hi : DInv s σ) : DInv s σ' := by
  by_cases ht : touch s (σ.thr t) = 0
  · obtain ⟨h1, h2, h3⟩ := depth_untouched h s ht
    constructor
    · intro t' ht'
      by_cases htt : t' = t
      · subst htt
        refine ⟨?_, h3⟩
        rw [h1, h2]
        refine hi.rest fun u => ?_
        by_cases hu : u = t'
        · rw [hu]; exact ht
        · by_cases h0 : touch s (σ.thr u) = 0
          · exact h0
          · rw [← h.others hu] at h0
            exact absurd (ha' u t' (by omega) ht') hu
      · rw [h.others htt] at ht' ⊢
        rw [h1]
        exact hi.busy t' ht'
    · intro h0
      rw [h1]
      refine hi.rest fun u => ?_
      by_cases hu : u = t
      · rw [hu]; exact ht
      · rw [← h.others hu]; exact h0 u
  · obtain ⟨h1, h2⟩ := hi.busy t (by omega)
    obtain ⟨h3, h4⟩ := depth_touched h s h1 h2
    constructor
    · intro t' ht'
      by_cases htt : t' = t
      · subst htt; exact ⟨h3, h4⟩
      · rw [h.others htt] at ht'
        exact absurd (ha t' t ht' (by omega)) htt
    · intro h0
      have := h0 t
      have := live_le_touch s (σ'.thr t)
      rw [h3]; omega

theorem dinv_run (e : Env) (prog : Nat → Code) (s : Nat) : ∀ (sched : List Nat) (σ : St),
    (∀ p, p <+: sched → Apart s (run e p σ)) → DInv s σ → DInv s (run e sched σ)
  | [], _, _, hi => hi
  | t :: ts, σ, ha, hi => by
    have ha0 : Apart s σ := ha [] (List.nil_prefix)
    have ha1 : Apart s ((step e t σ).getD σ) := ha [t] (by simp)
    refine dinv_run e prog s ts _ (fun p hp => ?_) ?_
    · exact ha (t :: p) (List.cons_prefix_cons.mpr ⟨rfl, hp⟩)
    · cases hst : step e t σ with
      | none => exact hi
      | some σ' =>
        rw [hst] at ha1
        exact dinv_step (step_rel hst) ha0 ha1 hi

theorem dinv_init (prog : Nat → Code) (s : Nat) : DInv s (init prog) :=
  ⟨fun _ h => absurd h (Nat.lt_irrefl 0), fun _ => rfl⟩

/-! ## A signal whose counter is stuck -/

/-- A call of a callback of `s`. -/
def isCall (s : Nat) : Ev → Bool
  | .call m _ => m.s = s
  | _ => false

/-- The counter of `s` is at the limit and no emission of `s` is going on. -/
structure Stuck (e : Env) (s : Nat) (log : Nat → List Ev) (σ : St) : Prop where
  depth : e.limit ≤ σ.depth s
  idle : ∀ t, touch s (σ.thr t) = 0
  nowait : ∀ t a, (σ.thr t).ctl ≠ .wait s a
  log : ∀ t, (σ.thr t).log.filter (isCall s) = log t

theorem stuck_step {e : Env} {t : Nat} {σ σ' : St} {s : Nat} {log : Nat → List Ev} (h : Step e t σ (σ.thr t) σ')
    (hi : Stuck e s log σ) : Stuck e s log σ' := by
  have hidle := hi.idle t
  have hw := hi.nowait t
  have hd := hi.depth
  have hl := hi.log t
  generalize hth : σ.thr t = th at h hidle hw hl
  have key : σ'.depth s = σ.depth s ∧ touch s (σ'.thr t) = 0 ∧ (∀ a, (σ'.thr t).ctl ≠ .wait s a) ∧
      (σ'.thr t).log.filter (isCall s) = log t := by
    cases h <;> simp only [touch, touchC, loopS, set_same, set_apply] at hidle ⊢ <;> grind [isCall]
  refine ⟨by rw [key.1]; exact hd, fun u => ?_, fun u => ?_, fun u => ?_⟩
  all_goals
    by_cases hu : u = t
    · subst hu; first | exact key.2.1 | exact key.2.2.1 | exact key.2.2.2
    · rw [h.others hu]; first | exact hi.idle u | exact hi.nowait u | exact hi.log u

end Psygnal.FC
