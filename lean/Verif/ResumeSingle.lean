import Verif.ResumeLemmas

/-! # `resume` in one thread -/
namespace Psygnal.Res

/-- The code does not call `pause` (user code, as in `/repo/src/psygnal/_signal.py:1365`). -/
def NoPause : Code → Prop
  | .ret | .raise => True
  | .emit _ k => ∀ b, NoPause (k b)
  | .pause _ => False
  | .resume _ k => ∀ b, NoPause (k b)
  | .block _ k => NoPause k
  | .slots _ k => NoPause k

/-- There is a resume on the stack (`/repo/src/psygnal/_signal.py:1425,1428`). -/
def resumes (st : List Frame) : Prop := st.flatMap Frame.pos ≠ []

/-- Code above a resume does not pause. -/
def QuietS : List Frame → Prop
  | [] => True
  | .cont k :: st => (resumes st → ∀ b, NoPause (k b)) ∧ QuietS st
  | _ :: st => QuietS st

/-- Nothing is about to be appended and no code about to be run pauses. -/
def QuietC : Ctl → Prop
  | .run c => NoPause c
  | .append _ => False
  | _ => True

/-- In `resume`, after `_is_paused = False` (`/repo/src/psygnal/_signal.py:1407`). -/
def inResume : Ctl → Prop
  | .resume1 _ | .resume2 _ | .iter _ | .reduce .. | .clear => True
  | _ => False

/-- While there is a resume, the signal is not paused and nothing is appended. -/
structure Quiet (th : Thread) (paused : Bool) : Prop where
  stack : QuietS th.stack
  on : resumes th.stack → paused = false ∧ QuietC th.ctl
  own : inResume th.ctl → paused = false

theorem resumes_cont {k : Bool → Code} {st : List Frame} : resumes (.cont k :: st) ↔ resumes st := by simp [resumes, Frame.pos]

theorem resumes_iter {i : Nat} {st : List Frame} : resumes (.iter i :: st) := by simp [resumes, Frame.pos]

theorem resumes_clear {st : List Frame} : resumes (.clear :: st) := by simp [resumes, Frame.pos]

/-- All threads but the first have nothing to do, and the first is quiet. -/
def Single (σ : St) : Prop :=
  Quiet (σ.thr 0) σ.paused ∧ ∀ t, t ≠ 0 → (σ.thr t).stack = [] ∧ ((σ.thr t).ctl = .run .ret ∨ (σ.thr t).ctl = .fin true)

theorem single_step {e : Env} (he : ∀ l vs, NoPause (e.body l vs)) {t : Nat} {σ σ' : St} (h : step e t σ = some σ')
    (hs : Single σ) : Single σ' := by
  obtain ⟨hq, ho⟩ := hs
  by_cases ht : t = 0
  · subst ht
    have key : ∀ (c : Ctl) (st : List Frame) (σ0 : St), σ0.thr = σ.thr → Quiet ⟨c, st⟩ σ0.paused → Single (σ0.at 0 c st) := by
      intro c st σ0 ha hb
      refine ⟨by simpa [St.at] using hb, fun t ht => ?_⟩
      simp only [St.at, if_neg ht, ha]
      exact ho t ht
    rcases hth : σ.thr 0 with ⟨c, st⟩
    rw [hth] at hq
    obtain ⟨q1, q2, q3⟩ := hq
    simp only [step, hth] at h q1 q2 q3
    split at h
    · cases h; exact key _ _ _ rfl ⟨q1, (fun h => ⟨(q2 h).1, trivial⟩), (fun h => by cases h)⟩
    · cases h; exact key _ _ _ rfl ⟨q1, (fun h => ⟨(q2 h).1, trivial⟩), (fun h => by cases h)⟩
    · cases h
      refine key _ _ _ rfl ⟨⟨(fun h => (q2 h).2), q1⟩, (fun h => ⟨(q2 (resumes_cont.mp h)).1, trivial⟩), (fun h => by cases h)⟩
    · cases h
      exact key _ _ _ rfl ⟨q1, (fun h => absurd (q2 h).2 (fun hh => by cases hh)), (fun h => by cases h)⟩
    · cases h
      refine key _ _ _ rfl ⟨⟨(fun h => (q2 h).2), q1⟩, (fun h => ⟨(q2 (resumes_cont.mp h)).1, trivial⟩), (fun h => by cases h)⟩
    · cases h; exact key _ _ _ rfl ⟨q1, (fun h => ⟨(q2 h).1, (q2 h).2⟩), (fun h => by cases h)⟩
    · cases h; exact key _ _ _ rfl ⟨q1, (fun h => ⟨(q2 h).1, (q2 h).2⟩), (fun h => by cases h)⟩
    · split at h
      · cases h
      · cases h
        exact key _ _ _ rfl ⟨q1.2, (fun h => ⟨(q2 (resumes_cont.mpr h)).1, q1.1 h _⟩), (fun h => by cases h)⟩
      · have q0 := (q2 resumes_iter).1
        split at h <;> cases h
        · exact key _ _ _ rfl ⟨q1, (fun _ => ⟨q0, trivial⟩), (fun _ => q0)⟩
        · exact key _ _ _ rfl ⟨q1, (fun _ => ⟨q0, trivial⟩), (fun h => by cases h)⟩
      · have q0 := (q2 resumes_clear).1
        split at h <;> cases h
        · exact key _ _ _ rfl ⟨q1, (fun _ => ⟨q0, trivial⟩), (fun _ => q0)⟩
        · exact key _ _ _ rfl ⟨q1, (fun _ => ⟨q0, trivial⟩), (fun h => by cases h)⟩
    · split at h <;> cases h <;> exact key _ _ _ rfl ⟨q1, (fun h => ⟨(q2 h).1, trivial⟩), (fun h => by cases h)⟩
    · split at h <;> cases h
      · rename_i hp
        exact key _ _ _ rfl ⟨q1, (fun h => by rw [(q2 h).1] at hp; cases hp), (fun h => by cases h)⟩
      · exact key _ _ _ rfl ⟨q1, (fun h => ⟨(q2 h).1, trivial⟩), (fun h => by cases h)⟩
    · cases h; exact key _ _ _ rfl ⟨q1, (fun h => ⟨(q2 h).1, trivial⟩), (fun h => by cases h)⟩
    · cases h; exact key _ _ _ rfl ⟨q1, (fun h => ⟨(q2 h).1, he _ _⟩), (fun h => by cases h)⟩
    · cases h; exact key _ _ _ rfl ⟨q1, (fun _ => ⟨rfl, trivial⟩), (fun _ => rfl)⟩
    · have q0 := q3 trivial
      split at h <;> cases h
      · exact key _ _ _ rfl ⟨q1, (fun _ => ⟨q0, trivial⟩), (fun h => by cases h)⟩
      · exact key _ _ _ rfl ⟨q1, (fun _ => ⟨q0, trivial⟩), (fun _ => q0)⟩
    · have q0 := q3 trivial
      rename_i r
      split at h <;> cases h
      · exact key _ _ _ rfl ⟨q1, (fun _ => ⟨q0, by cases r <;> trivial⟩), (fun _ => q0)⟩
      · exact key _ _ _ rfl ⟨q1, (fun _ => ⟨q0, trivial⟩), (fun _ => q0)⟩
    · have q0 := q3 trivial
      split at h <;> cases h
      · exact key _ _ _ rfl ⟨q1, (fun _ => ⟨q0, he _ _⟩), (fun h => by cases h)⟩
      · exact key _ _ _ rfl ⟨q1, (fun _ => ⟨q0, trivial⟩), (fun _ => q0)⟩
    · have q0 := q3 trivial
      split at h
      · cases h; exact key _ _ _ rfl ⟨q1, (fun _ => ⟨q0, trivial⟩), (fun _ => q0)⟩
      · split at h <;> cases h
        · exact key _ _ _ rfl ⟨q1, (fun _ => ⟨q0, he _ _⟩), (fun h => by cases h)⟩
        · exact key _ _ _ rfl ⟨q1, (fun _ => ⟨q0, trivial⟩), (fun h => by cases h)⟩
    · have q0 := q3 trivial
      cases h; exact key _ _ _ rfl ⟨q1, (fun _ => ⟨q0, trivial⟩), (fun h => by cases h)⟩
  · obtain ⟨h1, h2⟩ := ho t ht
    simp only [step, h1] at h
    rcases h2 with h2 | h2 <;> rw [h2] at h <;> simp only at h <;> cases h
    refine ⟨by simpa [St.at, Ne.symm ht] using hq, fun t' ht' => ?_⟩
    simp only [St.at]
    split
    · exact ⟨rfl, .inr rfl⟩
    · exact ho t' ht'

/-- In a quiet single thread no append is exposed. -/
theorem Single.safe {σ : St} (h : Single σ) {t v : Nat} (ha : Appends σ t v) : ¬ Exposed σ := by
  obtain ⟨hq, ho⟩ := h
  have ht : t = 0 := by
    refine Classical.byContradiction fun ht => ?_
    obtain ⟨_, h2⟩ := ho t ht
    unfold Appends at ha
    rcases h2 with h2 | h2 <;> rw [h2] at ha <;> cases ha
  subst ht
  rintro ⟨t', p, hp, _⟩
  unfold Appends at ha
  by_cases ht' : t' = 0
  · subst ht'
    simp only [Thread.pos, ha, Ctl.pos, List.nil_append] at hp
    have := (hq.on (List.ne_nil_of_mem hp)).2
    rw [ha] at this
    exact this
  · obtain ⟨h1, h2⟩ := ho t' ht'
    rcases h2 with h2 | h2 <;> simp [Thread.pos, h1, h2, Ctl.pos] at hp

end Psygnal.Res
