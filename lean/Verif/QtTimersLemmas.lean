import Verif.QtTimers
/-! # Lemmas about `QtTimers` -/
namespace Psygnal.Qtt

theorem upd_same {α : Type} (f : Nat → α) (k : Nat) (v : α) : upd f k v k = v := if_pos rfl
theorem upd_ne {α : Type} (f : Nat → α) {k i : Nat} (v : α) (h : i ≠ k) : upd f k v i = f i := if_neg h

theorem run_append (body : Nat → List Act) (a b : List Sch) (s : St) : run body (a ++ b) s = run body b (run body a s) := by
  induction a generalizing s with
  | nil => rfl
  | cons m a ih => exact ih (move body s m)

/-- What was put into the queue of `t`. -/
def puts (t : Nat) (tr : List Ev) : List Nat := tr.filterMap (fun e => match e with | .put _ t' j => if t' = t then some j else none | _ => none)
/-- What was taken from the queue of `t`. -/
def gots (t : Nat) (tr : List Ev) : List Nat := tr.filterMap (fun e => match e with | .got _ t' j => if t' = t then some j else none | _ => none)

theorem puts_append (t : Nat) (a b : List Ev) : puts t (a ++ b) = puts t a ++ puts t b := List.filterMap_append
theorem gots_append (t : Nat) (a b : List Ev) : gots t (a ++ b) = gots t a ++ gots t b := List.filterMap_append

/-- What one move can do, seen from outside. -/
inductive Moved (body : Nat → List Act) (s : St) : St → Prop
  | same : Moved body s s
  | call (p acts) : Moved body s { s with stack := upd s.stack p (.code acts :: s.stack p), trace := s.trace ++ [.called p acts] }
  | tick (p k tm) : s.timers k = some tm → tm.owner = p → tm.active = true → looping (s.stack p) = true →
      Moved body s { s with stack := upd s.stack p (.drain :: s.stack p), trace := s.trace ++ [.tick p] }
  | drained (p r) : s.stack p = .drain :: r → s.queue p = [] → Moved body s { s with stack := upd s.stack p r }
  | got (p r j js) : s.stack p = .drain :: r → s.queue p = j :: js →
      Moved body s { s with queue := upd s.queue p js, stack := upd s.stack p (.code (body j) :: .drain :: r),
                            trace := s.trace ++ [.got p p j, .ran p p j] }
  | done (p r) : s.stack p = .code [] :: r → Moved body s { s with stack := upd s.stack p r }
  | direct (p j as r) : s.stack p = .code (.emit p j :: as) :: r →
      Moved body s { s with stack := upd s.stack p (.code (body j) :: .code as :: r), trace := s.trace ++ [.ran p p j] }
  | put (p t j as r) : s.stack p = .code (.emit t j :: as) :: r → t ≠ p →
      Moved body s { s with queue := upd s.queue t (s.queue t ++ [j]), stack := upd s.stack p (.code as :: r),
                            trace := s.trace ++ [.put p t j] }
  | raised (p as r) : s.stack p = .code (.raise :: as) :: r → Moved body s { s with stack := upd s.stack p [], trace := s.trace ++ [.raised p] }
  | spun (p as r) : s.stack p = .code (.spin :: as) :: r → Moved body s { s with stack := upd s.stack p (.code as :: r) }
  | started (p t ms qt as r) : s.stack p = .code (.start t ms qt :: as) :: r →
      Moved body s { s with stack := upd s.stack p (.code as :: r), trace := s.trace ++ [.started p (t.getD p) ms],
                            timers := upd s.timers (t.getD p) (some (((s.timers (t.getD p)).getD ⟨p, false, 0⟩).start p ms qt)) }
  | stopped (p t qt as r tm) : s.stack p = .code (.stop t qt :: as) :: r → s.timers (t.getD p) = some tm →
      Moved body s { s with stack := upd s.stack p (.code as :: r), trace := s.trace ++ [.stopped p (t.getD p)],
                            timers := upd s.timers (t.getD p) (some { tm with active := if tm.owner = p then false else qt }) }
  | stopnone (p t qt as r) : s.stack p = .code (.stop t qt :: as) :: r → s.timers (t.getD p) = none →
      Moved body s { s with stack := upd s.stack p (.code as :: r), trace := s.trace ++ [.stopped p (t.getD p)] }

theorem move_moved (body : Nat → List Act) (s : St) (m : Sch) : Moved body s (move body s m) := by
  cases m with
  | call p acts =>
    simp only [move]
    split
    · exact .call p acts
    · exact .same
  | fire p k =>
    simp only [move]
    split
    · exact .same
    · rename_i tm htm
      split
      · rename_i h
        exact .tick p k tm htm h.1 h.2.1 h.2.2
      · exact .same
  | step p =>
    simp only [move, stepThread]
    split
    · exact .same
    · rename_i r hr
      split
      · rename_i hq; exact .drained p r hr hq
      · rename_i j js hq; exact .got p r j js hr hq
    · rename_i r hr; exact .done p r hr
    · rename_i t j as r hr
      split
      · rename_i h; cases h; exact .direct _ j as r hr
      · rename_i h; exact .put p t j as r hr h
    · rename_i as r hr; exact .raised p as r hr
    · rename_i as r hr; exact .spun p as r hr
    · rename_i t ms qt as r hr; exact .started p t ms qt as r hr
    · rename_i t qt as r hr
      simp only [stopIn]
      split
      · rename_i h; exact .stopnone p t qt as r hr h
      · rename_i tm h; exact .stopped p t qt as r tm hr h

/-- An invariant of single moves holds after every schedule. -/
theorem run_inv {body : Nat → List Act} {P : St → Prop} (h : ∀ s s', P s → Moved body s s' → P s') (ms : List Sch) {s : St} (h0 : P s) :
    P (run body ms s) := by
  induction ms generalizing s with
  | nil => exact h0
  | cons m ms ih => exact ih (h s _ h0 (move_moved body s m))

/-- Callbacks run in the thread they are for. -/
theorem moved_thread {body : Nat → List Act} {s s' : St} (h : ∀ p t j, .ran p t j ∈ s.trace → p = t) (hm : Moved body s s') :
    ∀ p t j, .ran p t j ∈ s'.trace → p = t := by
  intro p t j hj
  cases hm <;> (try simp only [List.mem_append, List.mem_cons, List.not_mem_nil, or_false, reduceCtorEq, Ev.ran.injEq, false_or] at hj) <;>
    first
    | exact h p t j hj
    | (rcases hj with hj | hj
       · exact h p t j hj
       · exact hj.1.trans hj.2.1.symm)

/-- Queues are first in, first out. -/
theorem moved_order {body : Nat → List Act} {s s' : St} (h : ∀ t, puts t s.trace = gots t s.trace ++ s.queue t) (hm : Moved body s s') :
    ∀ t, puts t s'.trace = gots t s'.trace ++ s'.queue t := by
  intro t
  have ht := h t
  cases hm with
  | same | drained | done | spun => exact ht
  | call | tick | direct | raised | started | stopped | stopnone =>
    simp only [puts_append, gots_append]
    simpa [puts, gots] using ht
  | got p r j js h1 h2 =>
    simp only [puts_append, gots_append]
    by_cases hp : t = p
    · subst hp
      rw [upd_same, ht, h2]
      simp [puts, gots]
    · rw [upd_ne _ _ hp, ht]
      simp [puts, gots, Ne.symm hp]
  | put p u j as r h1 h2 =>
    simp only [puts_append, gots_append]
    by_cases hp : t = u
    · subst hp
      rw [upd_same, ht]
      simp [puts, gots]
    · rw [upd_ne _ _ hp, ht]
      simp [puts, gots, Ne.symm hp]

/-- Timers live in threads that asked for one, and so does everything they do. -/
structure Owned (s : St) : Prop where
  timer : ∀ k tm, s.timers k = some tm → ∃ t ms, Ev.started tm.owner t ms ∈ s.trace
  drain : ∀ p, .drain ∈ s.stack p → ∃ t ms, Ev.started p t ms ∈ s.trace
  got : ∀ p t j, .got p t j ∈ s.trace → p = t ∧ ∃ u ms, Ev.started p u ms ∈ s.trace

theorem start_owner (tm : Timer) (p ms : Nat) (qt : Bool) : (tm.start p ms qt).owner = tm.owner := by
  unfold Timer.start; split <;> rfl

theorem start_ms (tm : Timer) (p ms : Nat) (qt : Bool) : (tm.start p ms qt).ms = ms := by
  unfold Timer.start; split <;> rfl

theorem start_active (tm : Timer) (p ms : Nat) (qt : Bool) : (tm.start p ms qt).active = if tm.owner = p then true else qt := by
  unfold Timer.start; split <;> rfl

/-- The trace only grows. -/
theorem moved_trace {body : Nat → List Act} {s s' : St} (hm : Moved body s s') : ∃ ex, s'.trace = s.trace ++ ex := by
  cases hm <;> first | exact ⟨_, rfl⟩ | exact ⟨[], (List.append_nil _).symm⟩

theorem run_trace (body : Nat → List Act) (ms : List Sch) (s : St) : ∃ ex, (run body ms s).trace = s.trace ++ ex := by
  refine run_inv (P := fun s' => ∃ ex, s'.trace = s.trace ++ ex) ?_ ms ⟨[], (List.append_nil _).symm⟩
  rintro s1 s2 ⟨ex, h⟩ hm
  obtain ⟨ex', h'⟩ := moved_trace hm
  exact ⟨ex ++ ex', by rw [h', h, List.append_assoc]⟩

theorem moved_mem {body : Nat → List Act} {s s' : St} (hm : Moved body s s') {e : Ev} (h : e ∈ s.trace) : e ∈ s'.trace := by
  obtain ⟨ex, hx⟩ := moved_trace hm
  rw [hx]
  exact List.mem_append_left _ h

/-- How the stack of a thread can change, as far as loops of `emit_queued` are concerned. -/
theorem moved_drain {body : Nat → List Act} {s s' : St} (hm : Moved body s s') {q : Nat} (h : .drain ∈ s'.stack q) :
    .drain ∈ s.stack q ∨ ∃ k tm, s.timers k = some tm ∧ tm.owner = q ∧ tm.active = true := by
  have key : ∀ (p : Nat) (l : List Frame), .drain ∈ upd s.stack p l q → (.drain ∈ l → .drain ∈ s.stack p) → .drain ∈ s.stack q := by
    intro p l h1 h2
    by_cases hq : q = p
    · subst hq; rw [upd_same] at h1; exact h2 h1
    · rw [upd_ne _ _ hq] at h1; exact h1
  cases hm with
  | same => exact .inl h
  | tick p k tm h1 h2 h3 h4 =>
    by_cases hq : q = p
    · exact .inr ⟨k, tm, h1, h2.trans hq.symm, h3⟩
    · simp only [upd_ne _ _ hq] at h; exact .inl h
  | call p acts => exact .inl (key _ _ h (by simp))
  | drained p r h1 h2 => exact .inl (key _ _ h (by rw [h1]; simp))
  | got p r j js h1 h2 => exact .inl (key _ _ h (by rw [h1]; simp))
  | done p r h1 => exact .inl (key _ _ h (by rw [h1]; simp))
  | direct p j as r h1 => exact .inl (key _ _ h (by rw [h1]; simp))
  | put p t j as r h1 h2 => exact .inl (key _ _ h (by rw [h1]; simp))
  | raised p as r h1 => exact .inl (key _ _ h (by simp))
  | spun p as r h1 => exact .inl (key _ _ h (by rw [h1]; simp))
  | started p t ms qt as r h1 => exact .inl (key _ _ h (by rw [h1]; simp))
  | stopped p t qt as r tm h1 h2 => exact .inl (key _ _ h (by rw [h1]; simp))
  | stopnone p t qt as r h1 h2 => exact .inl (key _ _ h (by rw [h1]; simp))

/-- Who takes something from a queue. -/
theorem moved_got {body : Nat → List Act} {s s' : St} (hm : Moved body s s') {p t j : Nat} (h : .got p t j ∈ s'.trace) :
    .got p t j ∈ s.trace ∨ (p = t ∧ .drain ∈ s.stack p) := by
  cases hm <;> (try simp only [List.mem_append, List.mem_cons, List.not_mem_nil, or_false, reduceCtorEq, Ev.got.injEq] at h) <;>
    first
    | exact .inl h
    | (rename_i h1 h2
       rcases h with h | ⟨e1, e2, _⟩
       · exact .inl h
       · subst e1; subst e2; exact .inr ⟨rfl, by rw [h1]; simp⟩)

theorem moved_owned {body : Nat → List Act} {s s' : St} (h : Owned s) (hm : Moved body s s') : Owned s' := by
  have mem : ∀ {p : Nat}, (∃ t ms, Ev.started p t ms ∈ s.trace) → ∃ t ms, Ev.started p t ms ∈ s'.trace :=
    fun ⟨t, ms, h⟩ => ⟨t, ms, moved_mem hm h⟩
  refine ⟨?_, ?_, ?_⟩
  · intro k tm hk
    cases hm with
    | started p t ms qt as r h1 =>
      by_cases hkt : k = t.getD p
      · subst hkt
        simp only [upd_same, Option.some.injEq] at hk
        rw [← hk, start_owner]
        cases hs : s.timers (t.getD p) with
        | none => exact ⟨t.getD p, ms, by simp⟩
        | some tm' => exact mem (h.timer _ _ hs)
      · simp only [upd_ne _ _ hkt] at hk
        exact mem (h.timer _ _ hk)
    | stopped p t qt as r tm' h1 h2 =>
      by_cases hkt : k = t.getD p
      · subst hkt
        simp only [upd_same, Option.some.injEq] at hk
        rw [← hk]
        exact mem (h.timer _ tm' h2)
      · simp only [upd_ne _ _ hkt] at hk
        exact mem (h.timer _ _ hk)
    | _ => exact mem (h.timer k tm hk)
  · intro p hp
    rcases moved_drain hm hp with h1 | ⟨k, tm, h1, h2, _⟩
    · exact mem (h.drain p h1)
    · exact mem (h2 ▸ h.timer k tm h1)
  · intro p t j hj
    rcases moved_got hm hj with h1 | ⟨h1, h2⟩
    · exact ⟨(h.got p t j h1).1, mem (h.got p t j h1).2⟩
    · exact ⟨h1, mem (h.drain p h2)⟩

theorem owned_empty : Owned {} :=
  ⟨fun _ _ h => (by cases h), fun _ h => absurd h List.not_mem_nil, fun _ _ _ h => absurd h List.not_mem_nil⟩

/-- Every thread asked for its own timer only. -/
def Proper (tr : List Ev) : Prop := (∀ p t ms, .started p t ms ∈ tr → p = t) ∧ ∀ p t, .stopped p t ∈ tr → p = t

/-- Whether the timer of thread `t` was last started, with which interval, or stopped. -/
def wanted (t : Nat) (tr : List Ev) : Option Nat :=
  tr.foldl (fun a e => match e with
    | .started _ t' ms => if t' = t then some ms else a
    | .stopped _ t' => if t' = t then none else a
    | _ => a) none

theorem Proper.left {a b : List Ev} (h : Proper (a ++ b)) : Proper a :=
  ⟨fun p t ms hm => h.1 p t ms (List.mem_append_left _ hm), fun p t hm => h.2 p t (List.mem_append_left _ hm)⟩

/-- The timers of proper programs. -/
def Timely (s : St) : Prop :=
  ∀ t, match wanted t s.trace with
    | some ms => s.timers t = some ⟨t, true, ms⟩
    | none => ∀ tm, s.timers t = some tm → tm.owner = t ∧ tm.active = false

theorem wanted_append (t : Nat) (a b : List Ev) : wanted t (a ++ b) = b.foldl (fun a e => match e with
    | .started _ t' ms => if t' = t then some ms else a
    | .stopped _ t' => if t' = t then none else a
    | _ => a) (wanted t a) := List.foldl_append

theorem timely_owner {s : St} (h : Timely s) {k : Nat} {tm : Timer} (hk : s.timers k = some tm) : tm.owner = k := by
  have := h k
  split at this
  · rw [this] at hk; cases hk; rfl
  · exact (this tm hk).1

theorem moved_timely {body : Nat → List Act} {s s' : St} (h : Timely s) (hm : Moved body s s') (hp : Proper s'.trace) : Timely s' := by
  intro u
  have hu := h u
  cases hm with
  | same | drained | done | spun => exact hu
  | call | tick | got | direct | put | raised =>
    simp only [wanted_append, List.foldl_cons, List.foldl_nil]
    exact hu
  | started p t ms qt as r h1 =>
    have hpt : p = t.getD p := hp.1 p (t.getD p) ms (by simp)
    simp only [wanted_append, List.foldl_cons, List.foldl_nil]
    by_cases hut : t.getD p = u
    · simp only [hut, if_true]
      rw [upd_same]
      congr 1
      have ho : ((s.timers u).getD ⟨p, false, 0⟩).owner = u := by
        cases hs : s.timers u with
        | none => exact hpt.trans hut
        | some tm => exact timely_owner h hs
      have e1 := start_owner ((s.timers u).getD ⟨p, false, 0⟩) p ms qt
      have e2 := start_ms ((s.timers u).getD ⟨p, false, 0⟩) p ms qt
      have e3 := start_active ((s.timers u).getD ⟨p, false, 0⟩) p ms qt
      rw [ho, if_pos (hut.symm.trans hpt.symm)] at e3
      rw [ho] at e1
      generalize Timer.start _ p ms qt = tm at e1 e2 e3 ⊢
      obtain ⟨a, b, c⟩ := tm
      simp only at e1 e2 e3
      rw [e1, e2, e3]
    · simp only [if_neg hut]
      rw [upd_ne _ _ (Ne.symm hut)]
      exact hu
  | stopped p t qt as r tm h1 h2 =>
    have hpt : p = t.getD p := hp.2 p (t.getD p) (by simp)
    simp only [wanted_append, List.foldl_cons, List.foldl_nil]
    by_cases hut : t.getD p = u
    · simp only [hut, if_true]
      intro tm' htm
      rw [upd_same] at htm
      cases htm
      rw [hut] at h2
      have ho := timely_owner h h2
      refine ⟨ho, ?_⟩
      rw [if_pos (ho.trans (hut.symm.trans hpt.symm))]
    · simp only [if_neg hut]
      rw [upd_ne _ _ (Ne.symm hut)]
      exact hu
  | stopnone p t qt as r h1 h2 =>
    simp only [wanted_append, List.foldl_cons, List.foldl_nil]
    by_cases hut : t.getD p = u
    · simp only [hut, if_true]
      intro tm' htm
      rw [hut] at h2
      rw [h2] at htm
      cases htm
    · simp only [if_neg hut]
      exact hu

theorem run_timely (body : Nat → List Act) (ms : List Sch) {s : St} (h : Timely s) (hp : Proper (run body ms s).trace) :
    Timely (run body ms s) := by
  induction ms generalizing s with
  | nil => exact h
  | cons m ms ih =>
    refine ih (moved_timely h (move_moved body s m) ?_) hp
    obtain ⟨ex, hx⟩ := run_trace body ms (move body s m)
    have hp' : Proper (run body ms (move body s m)).trace := hp
    rw [hx] at hp'
    exact hp'.left

theorem timely_empty : Timely {} := fun _ => (by intro tm h; cases h)

/-- What a loop of `emit_queued` promises: it goes on until everything that was there has been taken, or an exception ends it. -/
structure Promise (t : Nat) (before js : List Nat) (tr0 : List Ev) (s : St) : Prop where
  order : ∀ t, puts t s.trace = gots t s.trace ++ s.queue t
  there : ∃ more, puts t s.trace = before ++ js ++ more
  state : (∃ more, gots t s.trace = before ++ js ++ more) ∨ .drain ∈ s.stack t ∨ ∃ ex, s.trace = tr0 ++ ex ∧ .raised t ∈ ex
  grown : ∃ ex, s.trace = tr0 ++ ex

theorem moved_promise {body : Nat → List Act} {t : Nat} {before js : List Nat} {tr0 : List Ev} {s s' : St}
    (h : Promise t before js tr0 s) (hm : Moved body s s') : Promise t before js tr0 s' := by
  obtain ⟨ex, hex⟩ := moved_trace hm
  obtain ⟨more, hmore⟩ := h.there
  have hord := moved_order h.order hm
  obtain ⟨g, hg⟩ := h.grown
  refine ⟨hord, ⟨more ++ puts t ex, by rw [hex, puts_append, hmore, List.append_assoc]⟩, ?_, ⟨g ++ ex, by rw [hex, hg, List.append_assoc]⟩⟩
  rcases h.state with ⟨more', h'⟩ | hd | ⟨ex', h1, h2⟩
  · exact .inl ⟨more' ++ gots t ex, by rw [hex, gots_append, h', List.append_assoc]⟩
  · have key : ∀ (p : Nat) (l : List Frame), (t = p → .drain ∈ s.stack p → .drain ∈ l) → .drain ∈ upd s.stack p l t := by
      intro p l hl
      by_cases hq : t = p
      · subst hq; rw [upd_same]; exact hl rfl hd
      · rw [upd_ne _ _ hq]; exact hd
    cases hm with
    | same => exact .inr (.inl hd)
    | call p acts => exact .inr (.inl (key _ _ (by simp)))
    | tick p k tm => exact .inr (.inl (key _ _ (by simp)))
    | drained p r h1 h2 =>
      by_cases hq : t = p
      · subst hq
        left
        refine ⟨more, ?_⟩
        have := hord t
        rw [h2, List.append_nil] at this
        exact this.symm.trans hmore
      · exact .inr (.inl (key _ _ (fun h => absurd h hq)))
    | got p r j js' h1 h2 => exact .inr (.inl (key _ _ (by simp)))
    | done p r h1 => exact .inr (.inl (key _ _ (by rw [h1]; simp)))
    | direct p j as r h1 => exact .inr (.inl (key _ _ (by rw [h1]; simp)))
    | put p u j as r h1 h2 => exact .inr (.inl (key _ _ (by rw [h1]; simp)))
    | raised p as r h1 =>
      by_cases hq : t = p
      · subst hq
        exact .inr (.inr ⟨g ++ [.raised t], by simp only [hg, List.append_assoc], by simp⟩)
      · exact .inr (.inl (key _ _ (fun h => absurd h hq)))
    | spun p as r h1 => exact .inr (.inl (key _ _ (by rw [h1]; simp)))
    | started p u ms qt as r h1 => exact .inr (.inl (key _ _ (by rw [h1]; simp)))
    | stopped p u qt as r tm h1 h2 => exact .inr (.inl (key _ _ (by rw [h1]; simp)))
    | stopnone p u qt as r h1 h2 => exact .inr (.inl (key _ _ (by rw [h1]; simp)))
  · exact .inr (.inr ⟨ex' ++ ex, by rw [hex, h1, List.append_assoc], List.mem_append_left _ h2⟩)

/-- How often `e` happened. -/
def count (e : Ev) (tr : List Ev) : Nat := (tr.filter (fun e' => decide (e' = e))).length

/-- How often the code that thread `p` ran emits the signal of callback `j` of thread `t`. -/
def due (body : Nat → List Act) (p t j : Nat) : List Ev → Nat
  | [] => 0
  | .ran p' _ i :: tr => (if p' = p then ((body i).filter (fun a => decide (a = .emit t j))).length else 0) + due body p t j tr
  | .called p' acts :: tr => (if p' = p then (acts.filter (fun a => decide (a = .emit t j))).length else 0) + due body p t j tr
  | _ :: tr => due body p t j tr

theorem count_append (e : Ev) (a b : List Ev) : count e (a ++ b) = count e a + count e b := by
  simp [count, List.filter_append]

theorem due_append (body : Nat → List Act) (p t j : Nat) (a b : List Ev) : due body p t j (a ++ b) = due body p t j a + due body p t j b := by
  induction a with
  | nil => exact (Nat.zero_add _).symm
  | cons e a ih =>
    cases e <;> simp only [List.cons_append, due, ih] <;> omega

/-- The emissions that are still to come in the code of a stack. -/
def pending (t j : Nat) : List Frame → Nat
  | [] => 0
  | .drain :: r => pending t j r
  | .code acts :: r => (acts.filter (fun a => decide (a = .emit t j))).length + pending t j r

/-- Nothing is forgotten. -/
theorem moved_complete {body : Nat → List Act} {p : Nat} {s s' : St}
    (h : .raised p ∉ s.trace → ∀ t j, count (.put p t j) s.trace + count (.ran p t j) s.trace + pending t j (s.stack p) =
      due body p t j s.trace + count (.got p t j) s.trace) (hm : Moved body s s') :
    .raised p ∉ s'.trace → ∀ t j, count (.put p t j) s'.trace + count (.ran p t j) s'.trace + pending t j (s'.stack p) =
      due body p t j s'.trace + count (.got p t j) s'.trace := by
  intro hr t j
  have hh := h (fun hx => hr (moved_mem hm hx)) t j
  cases hm with
  | same => exact hh
  | call q acts =>
    simp only [count_append, due_append]
    by_cases hq : p = q
    · subst hq
      simp [upd_same, pending, count, due] at hh ⊢
      omega
    · simp [upd_ne _ _ hq, count, due, Ne.symm hq] at hh ⊢
      omega
  | tick q k tm =>
    simp only [count_append, due_append]
    by_cases hq : p = q
    · subst hq
      simpa [upd_same, pending, count, due] using hh
    · simpa [upd_ne _ _ hq, count, due] using hh
  | drained q r h1 h2 =>
    by_cases hq : p = q
    · subst hq
      rw [h1] at hh
      simpa [upd_same, pending] using hh
    · simpa [upd_ne _ _ hq] using hh
  | got q r i js h1 h2 =>
    simp only [count_append, due_append]
    by_cases hq : p = q
    · subst hq
      rw [h1] at hh
      simp [upd_same, pending, count, due] at hh ⊢
      by_cases hc : p = t ∧ i = j
      · simp [hc] at hh ⊢
        omega
      · simp [hc] at hh ⊢
        omega
    · simp [upd_ne _ _ hq, count, due, Ne.symm hq] at hh ⊢
      omega
  | done q r h1 =>
    by_cases hq : p = q
    · subst hq
      rw [h1] at hh
      simpa [upd_same, pending] using hh
    · simpa [upd_ne _ _ hq] using hh
  | direct q i as r h1 =>
    simp only [count_append, due_append]
    by_cases hq : p = q
    · subst hq
      rw [h1] at hh
      simp only [upd_same, pending, List.filter_cons] at hh ⊢
      by_cases hc : p = t ∧ i = j
      · simp [count, due, hc] at hh ⊢
        omega
      · simp [count, due, hc] at hh ⊢
        omega
    · simp [upd_ne _ _ hq, count, due, Ne.symm hq] at hh ⊢
      omega
  | put q u i as r h1 h2 =>
    simp only [count_append, due_append]
    by_cases hq : p = q
    · subst hq
      rw [h1] at hh
      simp only [upd_same, pending, List.filter_cons] at hh ⊢
      by_cases hc : u = t ∧ i = j
      · simp [count, due, hc] at hh ⊢
        omega
      · simp [count, due, hc] at hh ⊢
        omega
    · simp [upd_ne _ _ hq, count, due, Ne.symm hq] at hh ⊢
      omega
  | raised q as r h1 =>
    simp only [count_append, due_append]
    by_cases hq : p = q
    · subst hq
      exact absurd (List.mem_append_right _ List.mem_cons_self) hr
    · simp [upd_ne _ _ hq, count, due] at hh ⊢
      omega
  | spun q as r h1 =>
    by_cases hq : p = q
    · subst hq
      rw [h1] at hh
      simpa [upd_same, pending] using hh
    · simpa [upd_ne _ _ hq] using hh
  | started q u ms qt as r h1 =>
    simp only [count_append, due_append]
    by_cases hq : p = q
    · subst hq
      rw [h1] at hh
      simpa [upd_same, pending, count, due] using hh
    · simpa [upd_ne _ _ hq, count, due] using hh
  | stopped q u qt as r tm h1 h2 =>
    simp only [count_append, due_append]
    by_cases hq : p = q
    · subst hq
      rw [h1] at hh
      simpa [upd_same, pending, count, due] using hh
    · simpa [upd_ne _ _ hq, count, due] using hh
  | stopnone q u qt as r h1 h2 =>
    simp only [count_append, due_append]
    by_cases hq : p = q
    · subst hq
      rw [h1] at hh
      simpa [upd_same, pending, count, due] using hh
    · simpa [upd_ne _ _ hq, count, due] using hh

end Psygnal.Qtt
