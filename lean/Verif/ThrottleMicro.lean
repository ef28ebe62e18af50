import Verif.Throttle

/-! # Methods that run as a whole are schedules of the threaded machine -/
namespace Psygnal.Thr

theorem microRun_append (c : Cfg) (beh : St → Beh) (l l' : List MEv) (w : World) :
    microRun c beh (l ++ l') w = microRun c beh l' (microRun c beh l w) := by
  induction l generalizing w with
  | nil => rfl
  | cons e l ih => exact ih _

/-- The function raises. -/
def Beh.raising (beh : St → Beh) (s : St) : Bool := beh s = .raises

/-- A thread that is not interrupted. -/
theorem alone (c : Cfg) (beh : St → Beh) (hb : ∀ s a, beh s ≠ .calls a) (p : Prog) :
    ∀ (w : World) (i : Nat) (tm : Option Nat), w.threads[i]? = some ⟨[p], tm⟩ →
      ∃ n, microRun c beh (List.replicate n (.go i)) w =
        ⟨exec c (Beh.raising beh) p w.st, w.threads.set i ⟨[], tm⟩⟩ := by
  -- one step, then the rest
  have one : ∀ (w : World) (i : Nat) (tm : Option Nat) (p k : Prog) (s : St), w.threads[i]? = some ⟨[p], tm⟩ →
      instr c beh w.st p = (s, some [k]) →
      (∀ w : World, w.threads[i]? = some ⟨[k], tm⟩ → ∃ n, microRun c beh (List.replicate n (.go i)) w =
        ⟨exec c (Beh.raising beh) k w.st, w.threads.set i ⟨[], tm⟩⟩) →
      ∃ n, microRun c beh (List.replicate n (.go i)) w =
        ⟨exec c (Beh.raising beh) k s, w.threads.set i ⟨[], tm⟩⟩ := by
    intro w i tm p k s hi he ih
    have hg : go c beh w i = ⟨s, w.threads.set i ⟨[k], tm⟩⟩ := by
      unfold go
      rw [hi]
      simp only [he, List.append_nil]
    have hlt : i < w.threads.length := (List.getElem?_eq_some_iff.mp hi).1
    obtain ⟨n, hn⟩ := ih ⟨s, w.threads.set i ⟨[k], tm⟩⟩ (List.getElem?_set_self hlt)
    refine ⟨n + 1, ?_⟩
    rw [List.replicate_succ]
    simp only [microRun, micro, hg]
    rw [hn]
    simp
  -- the thread ends
  have stop : ∀ (w : World) (i : Nat) (tm : Option Nat) (p : Prog) (s : St), w.threads[i]? = some ⟨[p], tm⟩ →
      (instr c beh w.st p = (s, none) ∨ instr c beh w.st p = (s, some [])) →
      ∃ n, microRun c beh (List.replicate n (.go i)) w = ⟨s, w.threads.set i ⟨[], tm⟩⟩ := by
    intro w i tm p s hi he
    refine ⟨1, ?_⟩
    simp only [List.replicate, microRun, micro, go, hi]
    rcases he with he | he <;> simp [he]
  induction p with
  | done => exact fun w i tm hi => stop w i tm _ _ hi (.inr rfl)
  | note o k ih => exact fun w i tm hi => one w i tm _ k _ hi rfl fun w h => ih w i tm h
  | pend b k ih => exact fun w i tm hi => one w i tm _ k _ hi rfl fun w h => ih w i tm h
  | args a k ih => exact fun w i tm hi => one w i tm _ k _ hi rfl fun w h => ih w i tm h
  | kwargs a k ih => exact fun w i tm hi => one w i tm _ k _ hi rfl fun w h => ih w i tm h
  | ifAlive y n ih1 ih2 =>
    intro w i tm hi
    simp only [exec]
    rcases ha : w.st.alive with _ | _
    · exact one w i tm _ n _ hi (by simp [instr, ha]) fun w h => ih2 w i tm h
    · exact one w i tm _ y _ hi (by simp [instr, ha]) fun w h => ih1 w i tm h
  | ifPending y n ih1 ih2 =>
    intro w i tm hi
    simp only [exec]
    rcases ha : w.st.pending with _ | _
    · exact one w i tm _ n _ hi (by simp [instr, ha]) fun w h => ih2 w i tm h
    · exact one w i tm _ y _ hi (by simp [instr, ha]) fun w h => ih1 w i tm h
  | invoke k ih =>
    intro w i tm hi
    simp only [exec]
    by_cases hbe : beh w.st = .raises
    · rw [if_pos (by simp [Beh.raising, hbe])]
      exact stop w i tm _ _ hi (.inl (by simp [instr, hbe]))
    · rw [if_neg (by simp [Beh.raising, hbe])]
      refine one w i tm _ k _ hi ?_ fun w h => ih w i tm h
      have hret : ∀ b : Beh, b ≠ .raises → (∀ a, b ≠ .calls a) → b = .returns := by
        intro b h1 h2
        cases b with
        | returns => rfl
        | raises => exact absurd rfl h1
        | calls a => exact absurd rfl (h2 a)
      simp [instr, hret _ hbe (hb _)]
  | cancel k ih => exact fun w i tm hi => one w i tm _ k _ hi rfl fun w h => ih w i tm h
  | newTimer k ih => exact fun w i tm hi => one w i tm _ k _ hi rfl fun w h => ih w i tm h
  | start k ih =>
    intro w i tm hi
    simp only [exec]
    rcases hs : w.st.startCur c with _ | s
    · exact stop w i tm _ _ hi (.inl (by simp [instr, hs]))
    · exact one w i tm _ k _ hi (by simp [instr, hs]) fun w h => ih w i tm h

/-- Starting a thread and letting it run to its end. -/
theorem spawn (c : Cfg) (beh : St → Beh) (hb : ∀ s a, beh s ≠ .calls a) (p : Prog) (s : St) (ts : List Thread)
    (tm : Option Nat) :
    ∃ n, microRun c beh (List.replicate n (.go ts.length)) ⟨s, ts ++ [⟨[p], tm⟩]⟩ =
      ⟨exec c (Beh.raising beh) p s, ts ++ [⟨[], tm⟩]⟩ := by
  obtain ⟨n, hn⟩ := alone c beh hb p ⟨s, ts ++ [⟨[p], tm⟩]⟩ ts.length tm (by simp)
  refine ⟨n, hn.trans ?_⟩
  simp

/-- Every event of the machine with whole methods is a schedule of the threaded machine. -/
theorem step_is_schedule (c : Cfg) (beh : St → Beh) (hb : ∀ s a, beh s ≠ .calls a) (w : World) (e : Ev) :
    ∃ ms, (microRun c beh ms w).st = step c (Beh.raising beh) w.st e := by
  cases e with
  | tick => exact ⟨[.tick], rfl⟩
  | call a =>
    obtain ⟨n, hn⟩ := spawn c beh hb (callProg c a) w.st w.threads none
    exact ⟨.call a :: List.replicate n (.go w.threads.length), by simp only [microRun, micro]; rw [hn]; rfl⟩
  | cancel =>
    obtain ⟨n, hn⟩ := spawn c beh hb cancelProg w.st w.threads none
    exact ⟨.cancel :: List.replicate n (.go w.threads.length), by simp only [microRun, micro]; rw [hn]; rfl⟩
  | flush =>
    obtain ⟨n, hn⟩ := spawn c beh hb flushProg w.st w.threads none
    exact ⟨.flush :: List.replicate n (.go w.threads.length), by simp only [microRun, micro]; rw [hn]; rfl⟩
  | reap k => exact ⟨[.reap k], rfl⟩
  | fire k =>
    rcases hd : due w.st k with _ | t
    · exact ⟨[], by simp only [step, hd]; rfl⟩
    · rcases hcb : t.cb with _ | _
      · refine ⟨[.fire k, .go w.threads.length], ?_⟩
        simp [microRun, micro, hd, step, hcb, go]
      · obtain ⟨n, hn⟩ := spawn c beh hb callIfHasPending (w.st.upd k fun t => { t with status := .running }) w.threads (some k)
        refine ⟨.fire k :: (List.replicate n (.go w.threads.length) ++ [.go w.threads.length]), ?_⟩
        simp only [microRun, micro, hd, hcb, if_true]
        rw [microRun_append, hn]
        simp [microRun, micro, step, hd, hcb, go]

/-- Histories are schedules. -/
theorem run_is_schedule (c : Cfg) (beh : St → Beh) (hb : ∀ s a, beh s ≠ .calls a) (es : List Ev) (w : World) :
    ∃ ms, (microRun c beh ms w).st = run c (Beh.raising beh) es w.st := by
  induction es generalizing w with
  | nil => exact ⟨[], rfl⟩
  | cons e es ih =>
    obtain ⟨ms, h⟩ := step_is_schedule c beh hb w e
    obtain ⟨ms', h'⟩ := ih (microRun c beh ms w)
    refine ⟨ms ++ ms', ?_⟩
    rw [microRun_append, h', h]
    rfl

end Psygnal.Thr
