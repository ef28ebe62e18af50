import Verif.WatchLemmas

/-! # The simulation for C88 -/
namespace Psygnal
namespace Watch

/-- Callbacks of members of groups are called with the member as current emitter. -/
def On (env : Env) (y : SigId) (v : World) : Prop := env.Free y ∨ v.emitter = some y

/-- The watched signal has no more emissions waiting than allowed. -/
def Small (s y : SigId) (v : World) : Prop := y = s → ((v.sig y).emitQueue.length : Int) ≤ LIMIT

/-- If the current emitter is the watched signal, it has callbacks. -/
def Emits (s : SigId) (v : World) : Prop := v.emitter = some s → (v.sig s).slots ≠ []

/-- The procedure goes on in the same way with the watcher. -/
def Go (env : Env) (s : SigId) (o : Slot) (n : Nat) (pre : Prop) (t : Task) (v v' : World) (r : Res) : Prop :=
  ∀ c l, pre → Good env s o n v → LogOk o l v →
    ∃ c' l', Runs env t (ins s o n c l v) (ins s o n c' l' v') r ∧ Good env s o n v' ∧ LogOk o l' v'

/-- What is shown of each procedure. -/
def Sim (env : Env) (s : SigId) (o : Slot) (n : Nat) (t : Task) (v v' : World) (r : Res) : Prop :=
  match t with
  | .prog p => Go env s o n (p.Only (Act.Ignores env s o.base o.priority)) (.prog p) v v' r
  | .emitFast y a => Go env s o n (env.Free y) (.emitFast y a) v v' r
  | .inner y em => Go env s o n (On env y v ∧ Small s y v) (.inner y em) v v' r
  | .forSlots y em a i => Go env s o n (On env y v) (.forSlots y em a i) v v' r
  | .forLatest y em a i => Go env s o n (On env y v) (.forLatest y em a i) v v' r
  | .forQueued y em a i => Go env s o n (On env y v ∧ Small s y v) (.forQueued y em a i) v v' r ∧ (r = .ok () → Small s y v → Small s y v')
  | .whileQueued y em i => Go env s o n (On env y v ∧ Small s y v) (.whileQueued y em i) v v' r
  | .cb em src x a => Go env s o n (x.serial < v.nextSerial ∧ ∀ z, x.base = .relay z → Emits s v ∧ x.thread = none) (.cb em src (ren n x) a) v v' r
  | .direct em src x a => Go env s o n (∀ z, x.base = .relay z → Emits s v) (.direct em src x a) v v' r
  | .slotRelay y a => Go env s o n (Emits s v) (.slotRelay y a) v v' r
  | t => Go env s o n True t v v' r

section
variable {env : Env} {s : SigId} {o : Slot} {n : Nat}

/-- The nested calls of a procedure are simulated. -/
abbrev Sub (env : Env) (s : SigId) (o : Slot) (n : Nat) : Task → World → World → Res → Prop :=
  fun t v v' r => Runs env t v v' r ∧ Sim env s o n t v v' r

theorem go_of {c : Bool} {l : List Ev} {t : Task} {v v' : World} {r : Res}
    (h : ∃ c' l', (body env t (ins s o n c l v)).Via (Runs env) (ins s o n c' l' v') r ∧ Good env s o n v' ∧ LogOk o l' v') :
    ∃ c' l', Runs env t (ins s o n c l v) (ins s o n c' l' v') r ∧ Good env s o n v' ∧ LogOk o l' v' := by
  obtain ⟨c', l', h1, h2⟩ := h
  exact ⟨c', l', (runs_iff ..).2 h1, h2⟩

theorem run_log {env : Env} {a : Act} {v : World} : (a.run env v).1.log = v.log :=
  by simp

theorem sim_prog (hG : Given env s o) {p : Prog} {v v' : World} {r : Res} (h : (body env (.prog p) v).Via (Sub env s o n) v' r) :
    Sim env s o n (.prog p) v v' r := by
  intro c l hp hg hl
  refine go_of ?_
  cases p with
  | ret => obtain ⟨rfl, rfl⟩ := h; exact ⟨c, l, ⟨rfl, rfl⟩, hg, hl⟩
  | raise => obtain ⟨rfl, rfl⟩ := h; exact ⟨c, l, ⟨rfl, rfl⟩, hg, hl⟩
  | user f k =>
    obtain ⟨w1, r1, ⟨_, h1⟩, rfl, rfl⟩ := h
    obtain ⟨c', l', h2, h3, h4⟩ := h1 c l (hp v.mem) ⟨hg.hook, hg.slots, hg.prio, hg.zero, hg.quiet, hg.tq, hg.num, hg.serial, hg.wait⟩ hl
    exact ⟨c', l', ⟨_, _, h2, rfl, rfl⟩, h3, h4⟩
  | api a k =>
    simp only [body] at h ⊢
    have ht : a.task? (ins s o n c l v) = a.task? v := by
      cases a with
      | emitQueued t => cases t <;> rfl
      | _ => rfl
    rw [ht]
    cases hta : a.task? v with
    | some t =>
      rw [hta] at h
      obtain ⟨w1, r1, ⟨_, h1⟩, w2, r2, ⟨_, h2⟩, rfl, rfl⟩ := h
      have h3 : Go env s o n True t v w1 r1 := by
        cases a with
        | emitQueued x => cases x <;> cases hta <;> exact h1
        | emit => cases hta; exact h1
        | emitFast => cases hta; exact fun c l _ => h1 c l hp.1
        | resume => cases hta; exact h1
        | _ => cases hta
      obtain ⟨c1, l1, h4, h5, h6⟩ := h3 c l trivial hg hl
      obtain ⟨c2, l2, h7, h8, h9⟩ := h2 c1 l1 (hp.2 _) h5 h6
      exact ⟨c2, l2, ⟨_, _, h4, _, _, h7, rfl, rfl⟩, h8, h9⟩
    | none =>
      rw [hta] at h
      obtain ⟨w1, r1, ⟨_, h1⟩, rfl, rfl⟩ := h
      obtain ⟨h2, h3⟩ := both_run hG hg hp.1 hta
      obtain ⟨c1, h4⟩ := h3 c l
      obtain ⟨c2, l2, h7, h8, h9⟩ := h1 c1 l (hp.2 _) h2 (by simp only [LogOk, run_log]; exact hl)
      refine ⟨c2, l2, ?_, h8, h9⟩
      dsimp only at h4 ⊢
      rw [h4]
      exact ⟨_, _, h7, rfl, rfl⟩
  | withBlocked y ex b k =>
    obtain ⟨w1, r1, ⟨_, h1⟩, w2, r2, ⟨_, h2⟩, rfl, rfl⟩ := h
    have e1 := ins_block (c := c) (l := l) hg (y := y) (ex := ex)
    obtain ⟨c1, l1, h3, h4, h5⟩ := h1 c l hp.2.2.1 e1.2 (by
      have := run_log (env := env) (a := .block y ex) (v := v)
      simp only [LogOk]; rw [show (v.block env y ex).log = v.log from this]; exact hl)
    have e2 := ins_unblock (c := c1) (l := l1) h4 (y := y)
    simp only [body, e1.1]
    by_cases hbl : (v.sig y).blocked = true
    · simp only [if_pos hbl] at h2
      obtain ⟨c2, l2, h7, h8, h9⟩ := h2 c1 l1 (hp.2.2.2 _) h4 h5
      refine ⟨c2, l2, ⟨_, _, h3, _, _, ?_, rfl, rfl⟩, h8, h9⟩
      rw [if_pos (show ((ins s o n c l v).sig y).blocked = true from hbl)]
      exact h7
    · simp only [if_neg hbl] at h2
      obtain ⟨c2, l2, h7, h8, h9⟩ := h2 c1 l1 (hp.2.2.2 _) e2.2 (by
        have := run_log (env := env) (a := .unblock y) (v := w1)
        simp only [LogOk]; rw [show (w1.unblock env y).log = w1.log from this]; exact h5)
      refine ⟨c2, l2, ⟨_, _, h3, _, _, ?_, rfl, rfl⟩, h8, h9⟩
      rw [if_neg (show ¬ ((ins s o n c l v).sig y).blocked = true from hbl), e2.1]
      exact h7
  | withPaused y red b k =>
    obtain ⟨w1, r1, ⟨_, h1⟩, h⟩ := h
    have hpa := both_run hG hg (a := .pause y) hp.1 rfl
    have e1 : (ins s o n c l v).pause y = ins s o n c l (v.pause y) :=
      ins_upd (g := fun st => { st with paused := true }) (fun _ _ _ => rfl) (fun _ => rfl) fun _ => rfl
    obtain ⟨c1, l1, h3, h4, h5⟩ := h1 c l hp.2.2.1 hpa.1 hl
    simp only [body, e1]
    by_cases hpd : (v.sig y).paused = true
    · simp only [if_pos hpd] at h
      obtain ⟨w2, r2, ⟨_, h2⟩, rfl, rfl⟩ := h
      obtain ⟨c2, l2, h7, h8, h9⟩ := h2 c1 l1 (hp.2.2.2 _) h4 h5
      refine ⟨c2, l2, ⟨_, _, h3, ?_⟩, h8, h9⟩
      simp only [if_pos (show ((ins s o n c l v).sig y).paused = true from hpd)]
      exact ⟨_, _, h7, rfl, rfl⟩
    · simp only [if_neg hpd] at h
      obtain ⟨w2, r2, ⟨_, h2⟩, w3, r3, ⟨_, h6⟩, rfl, rfl⟩ := h
      obtain ⟨c2, l2, h7, h8, h9⟩ := h2 c1 l1 trivial h4 h5
      obtain ⟨c3, l3, h10, h11, h12⟩ := h6 c2 l2 (hp.2.2.2 _) h8 h9
      refine ⟨c3, l3, ⟨_, _, h3, ?_⟩, h11, h12⟩
      simp only [if_neg (show ¬ ((ins s o n c l v).sig y).paused = true from hpd)]
      exact ⟨_, _, h7, _, _, h10, rfl, rfl⟩

theorem ins_collect {c : Bool} {l : List Ev} {v : World} {y : SigId} {a : Args} :
    (ins s o n c l v).collect y a = ins s o n c l (v.collect y a) :=
  ins_upd (g := fun st => { st with argsQueue := st.argsQueue ++ [a] }) (fun _ _ _ => rfl) (fun _ => rfl) fun _ => rfl

theorem good_collect {v : World} {y : SigId} {a : Args} (hg : Good env s o n v) (h : (v.sig y).paused = true) : Good env s o n (v.collect y a) :=
  hg.upd (g := fun st => { st with argsQueue := st.argsQueue ++ [a] }) (fun _ => rfl) (fun _ => rfl) fun _ hq => by
    rw [h] at hq; cases hq.1

theorem sim_emit {y : SigId} {a : Args} {k : Bool} {v v' : World} {r : Res} (h : (body env (.emit y a k) v).Via (Sub env s o n) v' r) :
    Sim env s o n (.emit y a k) v v' r := by
  intro c l _ hg hl
  refine go_of ?_
  simp only [body] at h ⊢
  rw [ins_collect]
  by_cases h1 : (v.sig y).blocked = true
  · rw [if_pos h1] at h
    obtain ⟨rfl, rfl⟩ := h
    rw [if_pos (show ((ins s o n c l v').sig y).blocked = true from h1)]
    exact ⟨c, l, ⟨rfl, rfl⟩, hg, hl⟩
  rw [if_neg h1] at h
  rw [if_neg (show ¬ ((ins s o n c l v).sig y).blocked = true from h1)]
  by_cases h2 : k = true ∧ bindsPos (env.decl y).sig a.length = false
  · rw [if_pos h2] at h
    obtain ⟨rfl, rfl⟩ := h
    rw [if_pos h2]
    exact ⟨c, l, ⟨rfl, rfl⟩, hg, hl⟩
  rw [if_neg h2] at h
  rw [if_neg h2]
  by_cases h3 : (v.sig y).paused = true
  · rw [if_pos h3] at h
    obtain ⟨rfl, rfl⟩ := h
    rw [if_pos (show ((ins s o n c l v).sig y).paused = true from h3)]
    exact ⟨c, l, ⟨rfl, rfl⟩, good_collect hg h3, hl⟩
  rw [if_neg h3] at h
  rw [if_neg (show ¬ ((ins s o n c l v).sig y).paused = true from h3), show (ins s o n c l v).hook = v.hook from rfl]
  cases hh : v.hook with
  | none =>
    rw [hh] at h
    obtain ⟨w1, r1, ⟨_, h4⟩, rfl, rfl⟩ := h
    obtain ⟨c1, l1, h5, h6, h7⟩ := h4 c l trivial hg hl
    exact ⟨c1, l1, ⟨_, _, h5, rfl, rfl⟩, h6, h7⟩
  | some b =>
    rw [hh] at h
    obtain ⟨w1, r1, ⟨_, h4⟩, h⟩ := h
    obtain ⟨c1, l1, h5, h6, h7⟩ := h4 c l (fun z hz => absurd hz (hg.hook b hh z)) hg hl
    cases r1 with
    | error e => obtain ⟨rfl, rfl⟩ := h; exact ⟨c1, l1, ⟨_, _, h5, rfl, rfl⟩, h6, h7⟩
    | ok u =>
      obtain ⟨w2, r2, ⟨_, h8⟩, rfl, rfl⟩ := h
      obtain ⟨c2, l2, h9, h10, h11⟩ := h8 c1 l1 trivial h6 h7
      exact ⟨c2, l2, ⟨_, _, h5, _, _, h9, rfl, rfl⟩, h10, h11⟩

theorem sim_emitFast {y : SigId} {a : Args} {v v' : World} {r : Res} (h : (body env (.emitFast y a) v).Via (Sub env s o n) v' r) :
    Sim env s o n (.emitFast y a) v v' r := by
  intro c l hf hg hl
  refine go_of ?_
  simp only [body] at h ⊢
  rw [ins_collect]
  by_cases h1 : (v.sig y).blocked = true
  · rw [if_pos h1] at h
    obtain ⟨rfl, rfl⟩ := h
    rw [if_pos (show ((ins s o n c l v').sig y).blocked = true from h1)]
    exact ⟨c, l, ⟨rfl, rfl⟩, hg, hl⟩
  rw [if_neg h1] at h
  rw [if_neg (show ¬ ((ins s o n c l v).sig y).blocked = true from h1)]
  by_cases h3 : (v.sig y).paused = true
  · rw [if_pos h3] at h
    obtain ⟨rfl, rfl⟩ := h
    rw [if_pos (show ((ins s o n c l v).sig y).paused = true from h3)]
    exact ⟨c, l, ⟨rfl, rfl⟩, good_collect hg h3, hl⟩
  rw [if_neg h3] at h
  rw [if_neg (show ¬ ((ins s o n c l v).sig y).paused = true from h3)]
  by_cases h4 : (v.sig y).depth ≥ LIMIT
  · rw [if_pos h4] at h
    obtain ⟨rfl, rfl⟩ := h
    rw [if_pos (show ((ins s o n c l v').sig y).depth ≥ LIMIT from h4)]
    exact ⟨c, l, ⟨rfl, rfl⟩, hg, hl⟩
  rw [if_neg h4] at h
  rw [if_neg (show ¬ ((ins s o n c l v).sig y).depth ≥ LIMIT from h4)]
  obtain ⟨w1, r1, ⟨_, h5⟩, rfl, rfl⟩ := h
  have hs := ins_flag (c := c) (l := l) hg (y := y) (g := fun st => { st with depth := st.depth + 1 }) (fun _ _ _ => rfl) (fun _ => rfl) (fun _ => rfl)
    fun _ => ⟨rfl, rfl⟩
  have e1 : (ins s o n c l v).startFast y a = ins s o n c (l ++ [.fast y a v.nextEm]) (v.startFast y a) := by
    simp only [World.startFast, hs.1]; rfl
  have hg1 : Good env s o n (v.startFast y a) := by
    have := hs.2
    exact ⟨this.hook, this.slots, this.prio, this.zero, this.quiet, this.tq, this.num, this.serial, this.wait⟩
  obtain ⟨c1, l1, h6, h7, h8⟩ := h5 c (l ++ [.fast y a v.nextEm]) (.inl hf) hg1 (hl.ev (.fast y a v.nextEm))
  have he := ins_flag (c := c1) (l := l1) h7 (y := y) (g := fun st => if st.depth > 0 then { st with depth := st.depth - 1 } else st)
    (fun st k b => by dsimp only; split <;> rfl) (fun st => by split <;> rfl) (fun st => by split <;> rfl)
    fun st => by split <;> exact ⟨rfl, rfl⟩
  rw [e1]
  exact ⟨c1, l1, ⟨_, _, h6, he.1.symm, rfl⟩, he.2, h8⟩

theorem sim_runLoop {y : SigId} {a : Args} {v v' : World} {r : Res} (h : (body env (.runLoop y a) v).Via (Sub env s o n) v' r) :
    Sim env s o n (.runLoop y a) v v' r := by
  intro c l _ hg hl
  refine go_of ?_
  simp only [body] at h ⊢
  by_cases h4 : (v.sig y).depth ≥ LIMIT
  · rw [if_pos h4] at h
    obtain ⟨rfl, rfl⟩ := h
    rw [if_pos (show ((ins s o n c l v').sig y).depth ≥ LIMIT from h4)]
    exact ⟨c, l, ⟨rfl, rfl⟩, hg, hl⟩
  rw [if_neg h4] at h
  rw [if_neg (show ¬ ((ins s o n c l v).sig y).depth ≥ LIMIT from h4)]
  have hq := ins_flag (c := c) (l := l) hg (y := y) (g := fun st => { st with emitQueue := st.emitQueue ++ [a] }) (fun _ _ _ => rfl) (fun _ => rfl)
    (fun _ => rfl) fun _ => ⟨rfl, rfl⟩
  have e1 : (ins s o n c l v).enqueue y a = ins s o n c (l ++ [.req y a]) (v.enqueue y a) := by
    simp only [World.enqueue, hq.1]; rfl
  have hg1 : Good env s o n (v.enqueue y a) := hq.2.ev _
  have hl1 : LogOk o (l ++ [.req y a]) (v.enqueue y a) := hl.ev (.req y a)
  rw [e1]
  by_cases h5 : ((v.enqueue y a).sig y).emitQueue.length > 1
  · rw [if_pos h5] at h
    obtain ⟨rfl, rfl⟩ := h
    rw [if_pos (show ((ins s o n c _ (v.enqueue y a)).sig y).emitQueue.length > 1 from h5)]
    exact ⟨c, _, ⟨rfl, rfl⟩, hg1, hl1⟩
  rw [if_neg h5] at h
  rw [if_neg (show ¬ ((ins s o n c _ (v.enqueue y a)).sig y).emitQueue.length > 1 from h5)]
  obtain ⟨w1, r1, ⟨_, h6⟩, rfl, rfl⟩ := h
  have hs := ins_flag (c := c) (l := l ++ [.req y a]) hg1 (y := y) (g := SigState.enter) (fun _ _ _ => rfl) (fun _ => rfl) (fun _ => rfl)
    fun _ => ⟨rfl, rfl⟩
  have e2 : (ins s o n c (l ++ [.req y a]) (v.enqueue y a)).startLoop y = ins s o n c (l ++ [.req y a]) ((v.enqueue y a).startLoop y) := by
    simp only [World.startLoop, hs.1]; rfl
  have hg2 : Good env s o n ((v.enqueue y a).startLoop y) := by
    have := hs.2
    exact ⟨this.hook, this.slots, this.prio, this.zero, this.quiet, this.tq, this.num, this.serial, this.wait⟩
  have hsm : Small s y ((v.enqueue y a).startLoop y) := fun _ => by
    have : (((v.enqueue y a).startLoop y).sig y).emitQueue = ((v.enqueue y a).sig y).emitQueue := by
      simp [World.startLoop, World.upd, SigState.enter]
    rw [this]
    simp only [LIMIT]
    omega
  obtain ⟨c1, l1, h7, h8, h9⟩ := h6 c _ ⟨.inr rfl, hsm⟩ hg2 hl1
  rw [e2]
  have hg3 : Good env s o n { w1 with emitter := v.emitter } :=
    ⟨h8.hook, h8.slots, h8.prio, h8.zero, h8.quiet, h8.tq, h8.num, h8.serial, h8.wait⟩
  have he := ins_flag (c := c1) (l := l1) hg3 (y := y) (g := SigState.leave)
    (fun st k b => by simp only [SigState.leave]; split <;> rfl) (fun st => by simp only [SigState.leave]; split <;> rfl)
    (fun st => by simp only [SigState.leave]; split <;> rfl) fun st => by simp only [SigState.leave]; split <;> exact ⟨rfl, rfl⟩
  exact ⟨c1, l1, ⟨_, _, h7, he.1.symm, rfl⟩, he.2, h9⟩

theorem sim_inner {y : SigId} {em : Nat} {v v' : World} {r : Res} (h : (body env (.inner y em) v).Via (Sub env s o n) v' r) :
    Sim env s o n (.inner y em) v v' r := by
  intro c l hp hg hl
  refine go_of ?_
  simp only [body] at h ⊢
  have hq := ins_flag (c := c) (l := l) hg (y := y) (g := fun st => { st with emitQueue := st.emitQueue.tail }) (fun _ _ _ => rfl) (fun _ => rfl)
    (fun _ => rfl) fun _ => ⟨rfl, rfl⟩
  have e1 : (ins s o n c l v).popQueue y = ins s o n c l (v.popQueue y) := hq.1
  rw [e1, show ((ins s o n c l v).sig y).emitQueue = (v.sig y).emitQueue from rfl]
  cases hm : (env.decl y).mode with
  | immediate =>
    cases hqq : (v.sig y).emitQueue with
    | nil => rw [hm, hqq] at h; obtain ⟨rfl, rfl⟩ := h; exact ⟨c, l, ⟨rfl, rfl⟩, hg, hl⟩
    | cons a q =>
      rw [hm, hqq] at h
      obtain ⟨w1, r1, ⟨_, h1⟩, rfl, rfl⟩ := h
      obtain ⟨c1, l1, h2, h3, h4⟩ := h1 c l hp.1 hq.2 hl
      exact ⟨c1, l1, ⟨_, _, h2, rfl, rfl⟩, h3, h4⟩
  | latest =>
    cases hqq : (v.sig y).emitQueue with
    | nil => rw [hm, hqq] at h; obtain ⟨rfl, rfl⟩ := h; exact ⟨c, l, ⟨rfl, rfl⟩, hg, hl⟩
    | cons a q =>
      rw [hm, hqq] at h
      obtain ⟨w1, r1, ⟨_, h1⟩, rfl, rfl⟩ := h
      obtain ⟨c1, l1, h2, h3, h4⟩ := h1 c l hp.1 hq.2 hl
      exact ⟨c1, l1, ⟨_, _, h2, rfl, rfl⟩, h3, h4⟩
  | queued =>
    rw [hm] at h
    obtain ⟨w1, r1, ⟨_, h1⟩, rfl, rfl⟩ := h
    obtain ⟨c1, l1, h2, h3, h4⟩ := h1 c l hp hg hl
    exact ⟨c1, l1, ⟨_, _, h2, rfl, rfl⟩, h3, h4⟩

/-- The callback at this place may be called. -/
theorem slot_pre {y : SigId} {v : World} (hg : Good env s o n v) (hp : On env y v) {i : Nat} {x : Slot} (hx : (v.sig y).slots[i]? = some x) :
    x.serial < v.nextSerial ∧ ∀ z, x.base = .relay z → Emits s v ∧ x.thread = none := by
  have hm := List.mem_of_getElem? hx
  refine ⟨hg.serial y x hm, fun z hz => ⟨fun he h0 => ?_, (hg.slots y x hm z hz).2⟩⟩
  have hy : v.emitter = some y := hp.resolve_left (hg.slots y x hm z hz).1
  rw [hy] at he
  cases he
  rw [h0] at hm
  cases hm

theorem on_next {y : SigId} {v v1 : World} {t : Task} {r : Res} (hp : On env y v) (h : Runs env t v v1 r) : On env y v1 :=
  hp.imp_right fun he => (emitter_restored h).trans he

theorem sim_forSlots (hG : Given env s o) {y : SigId} {em : Nat} {a : Args} {i : Nat} {v v' : World} {r : Res}
    (h : (body env (.forSlots y em a i) v).Via (Sub env s o n) v' r) : Sim env s o n (.forSlots y em a i) v v' r := by
  intro c l hp hg hl
  refine go_of ?_
  simp only [body] at h ⊢
  cases hx : (v.sig y).slots[i]? with
  | none =>
    rw [hx] at h
    obtain ⟨rfl, rfl⟩ := h
    rcases at_end (s := s) (o := o) (n := n) (c := c) (l := l) hx with h1 | ⟨h1, _, h2⟩
    · rw [h1]; exact ⟨c, l, ⟨rfl, rfl⟩, hg, hl⟩
    · rw [h1]
      obtain ⟨l1, h3, h4⟩ := watcher (n := n) (c := c) hG hl (some em) (some y) a
      refine ⟨c, l1, ⟨_, _, h3, _, _, ?_, rfl, rfl⟩, hg, h4⟩
      rw [runs_iff]
      simp only [body]
      rw [show ((ins s o n c l1 v').sig y).slots[i + 1]? = none from h2]
      exact ⟨rfl, rfl⟩
  | some x =>
    rw [hx] at h
    rw [show ((ins s o n c l v).sig y).slots[i]? = some (ren n x) from ext_get hx]
    obtain ⟨w1, r1, ⟨h0, h1⟩, h⟩ := h
    obtain ⟨c1, l1, h2, h3, h4⟩ := h1 c l (slot_pre hg hp hx) hg hl
    cases r1 with
    | error x => obtain ⟨rfl, rfl⟩ := h; exact ⟨c1, l1, ⟨_, _, h2, rfl, rfl⟩, h3, h4⟩
    | ok u =>
      obtain ⟨w2, r2, ⟨_, h5⟩, rfl, rfl⟩ := h
      obtain ⟨c2, l2, h6, h7, h8⟩ := h5 c1 l1 (on_next hp h0) h3 h4
      exact ⟨c2, l2, ⟨_, _, h2, _, _, h6, rfl, rfl⟩, h7, h8⟩

theorem sim_forLatest (hG : Given env s o) {y : SigId} {em : Nat} {a : Args} {i : Nat} {v v' : World} {r : Res}
    (h : (body env (.forLatest y em a i) v).Via (Sub env s o n) v' r) : Sim env s o n (.forLatest y em a i) v v' r := by
  intro c l hp hg hl
  refine go_of ?_
  simp only [body] at h ⊢
  rw [show ((ins s o n c l v).sig y).depth = (v.sig y).depth from rfl, show ((ins s o n c l v).sig y).maxDepth = (v.sig y).maxDepth from rfl]
  cases hx : (v.sig y).slots[i]? with
  | none =>
    rw [hx] at h
    obtain ⟨rfl, rfl⟩ := h
    rcases at_end (s := s) (o := o) (n := n) (c := c) (l := l) hx with h1 | ⟨h1, _, h2⟩
    · rw [h1]; exact ⟨c, l, ⟨rfl, rfl⟩, hg, hl⟩
    · rw [h1]
      dsimp only
      by_cases hlt : (v'.sig y).depth < (v'.sig y).maxDepth
      · rw [if_pos hlt]; exact ⟨c, l, ⟨rfl, rfl⟩, hg, hl⟩
      rw [if_neg hlt]
      obtain ⟨l1, h3, h4⟩ := watcher (n := n) (c := c) hG hl (some em) (some y) a
      refine ⟨c, l1, ⟨_, _, h3, _, _, ?_, rfl, rfl⟩, hg, h4⟩
      rw [runs_iff]
      simp only [body]
      rw [show ((ins s o n c l1 v').sig y).slots[i + 1]? = none from h2]
      exact ⟨rfl, rfl⟩
  | some x =>
    rw [hx] at h
    rw [show ((ins s o n c l v).sig y).slots[i]? = some (ren n x) from ext_get hx]
    dsimp only at h ⊢
    by_cases hlt : (v.sig y).depth < (v.sig y).maxDepth
    · rw [if_pos hlt] at h ⊢
      obtain ⟨rfl, rfl⟩ := h
      exact ⟨c, l, ⟨rfl, rfl⟩, hg, hl⟩
    rw [if_neg hlt] at h ⊢
    obtain ⟨w1, r1, ⟨h0, h1⟩, h⟩ := h
    obtain ⟨c1, l1, h2, h3, h4⟩ := h1 c l (slot_pre hg hp hx) hg hl
    cases r1 with
    | error x => obtain ⟨rfl, rfl⟩ := h; exact ⟨c1, l1, ⟨_, _, h2, rfl, rfl⟩, h3, h4⟩
    | ok u =>
      obtain ⟨w2, r2, ⟨_, h5⟩, rfl, rfl⟩ := h
      obtain ⟨c2, l2, h6, h7, h8⟩ := h5 c1 l1 (on_next hp h0) h3 h4
      exact ⟨c2, l2, ⟨_, _, h2, _, _, h6, rfl, rfl⟩, h7, h8⟩

theorem sim_forQueued (hG : Given env s o) {y : SigId} {em : Nat} {a : Args} {i : Nat} {v v' : World} {r : Res}
    (h : (body env (.forQueued y em a i) v).Via (Sub env s o n) v' r) : Sim env s o n (.forQueued y em a i) v v' r := by
  simp only [body] at h
  cases hx : (v.sig y).slots[i]? with
  | none =>
    rw [hx] at h
    obtain ⟨rfl, rfl⟩ := h
    refine ⟨fun c l hp hg hl => ?_, fun _ => id⟩
    refine go_of ?_
    simp only [body]
    rcases at_end (s := s) (o := o) (n := n) (c := c) (l := l) hx with h1 | ⟨h1, hy, h2⟩
    · rw [h1]; exact ⟨c, l, ⟨rfl, rfl⟩, hg, hl⟩
    · rw [h1]
      obtain ⟨l1, h3, h4⟩ := watcher (n := n) (c := c) hG hl (some em) (some y) a
      refine ⟨c, l1, ⟨_, _, h3, ?_⟩, hg, h4⟩
      have hlt : ¬ ((((ins s o n c l1 v').sig y).emitQueue.length : Int) > LIMIT) := Int.not_lt.mpr (hp.2 hy)
      dsimp only
      rw [if_neg hlt]
      refine ⟨_, _, ?_, rfl, rfl⟩
      rw [runs_iff]
      simp only [body]
      rw [show ((ins s o n c l1 v').sig y).slots[i + 1]? = none from h2]
      exact ⟨rfl, rfl⟩
  | some x =>
    rw [hx] at h
    obtain ⟨w1, r1, ⟨h0, h1⟩, h⟩ := h
    have hw : ∀ c l, ((ins s o n c l v).sig y).slots[i]? = some (ren n x) := fun c l => ext_get hx
    cases r1 with
    | error e =>
      obtain ⟨rfl, rfl⟩ := h
      refine ⟨fun c l hp hg hl => ?_, nofun⟩
      obtain ⟨c1, l1, h2, h3, h4⟩ := h1 c l (slot_pre hg hp.1 hx) hg hl
      refine go_of ?_
      simp only [body]
      rw [hw]
      exact ⟨c1, l1, ⟨_, _, h2, rfl, rfl⟩, h3, h4⟩
    | ok u =>
      dsimp only at h
      by_cases hlt : ((w1.sig y).emitQueue.length : Int) > LIMIT
      · rw [if_pos hlt] at h
        obtain ⟨rfl, rfl⟩ := h
        refine ⟨fun c l hp hg hl => ?_, nofun⟩
        obtain ⟨c1, l1, h2, h3, h4⟩ := h1 c l (slot_pre hg hp.1 hx) hg hl
        refine go_of ?_
        simp only [body]
        rw [hw]
        refine ⟨c1, l1, ⟨_, _, h2, ?_⟩, h3, h4⟩
        dsimp only
        rw [if_pos (show (((ins s o n c1 l1 v').sig y).emitQueue.length : Int) > LIMIT from hlt)]
        exact ⟨rfl, rfl⟩
      · rw [if_neg hlt] at h
        obtain ⟨w2, r2, ⟨_, h5⟩, rfl, rfl⟩ := h
        have hsm : Small s y w1 := fun _ => Int.not_lt.mp hlt
        refine ⟨fun c l hp hg hl => ?_, fun hr _ => h5.2 hr hsm⟩
        obtain ⟨c1, l1, h2, h3, h4⟩ := h1 c l (slot_pre hg hp.1 hx) hg hl
        obtain ⟨c2, l2, h6, h7, h8⟩ := h5.1 c1 l1 ⟨on_next hp.1 h0, hsm⟩ h3 h4
        refine go_of ?_
        simp only [body]
        rw [hw]
        refine ⟨c2, l2, ⟨_, _, h2, ?_⟩, h7, h8⟩
        dsimp only
        rw [if_neg (show ¬ (((ins s o n c1 l1 w1).sig y).emitQueue.length : Int) > LIMIT from hlt)]
        exact ⟨_, _, h6, rfl, rfl⟩

theorem sim_whileQueued {y : SigId} {em : Nat} {i : Nat} {v v' : World} {r : Res}
    (h : (body env (.whileQueued y em i) v).Via (Sub env s o n) v' r) : Sim env s o n (.whileQueued y em i) v v' r := by
  intro c l hp hg hl
  refine go_of ?_
  simp only [body] at h ⊢
  rw [show ((ins s o n c l v).sig y).emitQueue = (v.sig y).emitQueue from rfl]
  cases hx : (v.sig y).emitQueue[i]? with
  | none => rw [hx] at h; obtain ⟨rfl, rfl⟩ := h; exact ⟨c, l, ⟨rfl, rfl⟩, hg, hl⟩
  | some x =>
    rw [hx] at h
    obtain ⟨w1, r1, ⟨h0, h1⟩, h⟩ := h
    obtain ⟨c1, l1, h2, h3, h4⟩ := h1.1 c l hp hg hl
    cases r1 with
    | error x => obtain ⟨rfl, rfl⟩ := h; exact ⟨c1, l1, ⟨_, _, h2, rfl, rfl⟩, h3, h4⟩
    | ok u =>
      obtain ⟨w2, r2, ⟨_, h5⟩, rfl, rfl⟩ := h
      obtain ⟨c2, l2, h6, h7, h8⟩ := h5 c1 l1 ⟨on_next hp.1 h0, h1.2 rfl hp.2⟩ h3 h4
      exact ⟨c2, l2, ⟨_, _, h2, _, _, h6, rfl, rfl⟩, h7, h8⟩

theorem direct_ren {em : Option Nat} {src : Option SigId} {x : Slot} {a : Args} {w w' : World} {r : Res} (h : Runs env (.direct em src x a) w w' r) :
    Runs env (.direct em src (ren n x) a) w w' r := by
  rw [runs_iff] at h ⊢
  exact h

theorem sim_cb {em : Option Nat} {src : Option SigId} {x : Slot} {a : Args} {v v' : World} {r : Res}
    (h : (body env (.cb em src x a) v).Via (Sub env s o n) v' r) : Sim env s o n (.cb em src x a) v v' r := by
  intro c l hp hg hl
  refine go_of ?_
  simp only [body] at h ⊢
  have hd : ∀ {w1 : World} {r1 : Res}, Sim env s o n (.direct em src x a) v w1 r1 → v' = w1 → r = r1 →
      ∃ c' l', (Comp.call (.direct em src (ren n x) a) (ins s o n c l v) .done).Via (Runs env) (ins s o n c' l' v') r ∧ Good env s o n v' ∧ LogOk o l' v' := by
    rintro w1 r1 h1 rfl rfl
    obtain ⟨c1, l1, h2, h3, h4⟩ := h1 c l (fun z hz => (hp.2 z hz).1) hg hl
    exact ⟨c1, l1, ⟨_, _, direct_ren h2, rfl, rfl⟩, h3, h4⟩
  rw [show (ren n x).thread = x.thread from rfl]
  cases hth : x.thread with
  | none =>
    rw [hth] at h
    obtain ⟨w1, r1, ⟨_, h1⟩, rfl, rfl⟩ := h
    exact hd h1 rfl rfl
  | some t =>
    rw [hth] at h
    dsimp only at h ⊢
    by_cases ht : v.thread = t
    · rw [if_pos ht] at h
      rw [if_pos (show (ins s o n c l v).thread = t from ht)]
      obtain ⟨w1, r1, ⟨_, h1⟩, rfl, rfl⟩ := h
      exact hd h1 rfl rfl
    · rw [if_neg ht] at h
      rw [if_neg (show ¬ (ins s o n c l v).thread = t from ht)]
      obtain ⟨rfl, rfl⟩ := h
      have hm : ∀ t', ∀ q ∈ (v.putQueue t x a em).tq t', q ∈ v.tq t' ∨ q = (x, a) := by
        intro t' q hq
        simp only [World.putQueue] at hq
        split at hq
        · rename_i h; subst h
          rcases List.mem_append.mp hq with hq | hq
          · exact .inl hq
          · exact .inr (List.mem_singleton.mp hq)
        · exact .inl hq
      refine ⟨c, l ++ [.put t x.base a em], ⟨?_, rfl⟩, ⟨hg.hook, hg.slots, hg.prio, hg.zero, hg.quiet, fun t' q hq z hz => ?_, hg.num, hg.serial,
        fun t' q hq => ?_⟩, hl.ev (.put t x.base a em)⟩
      · simp only [World.putQueue, ins, World.ev, World.mk.injEq, true_and, and_true, ren_base]
        funext t'
        by_cases h' : t' = t
        · subst h'; simp
        · simp [h']
      · rcases hm t' q hq with h | rfl
        · exact hg.tq t' q h z hz
        · have := (hp.2 z hz).2
          rw [hth] at this
          cases this
      · rcases hm t' q hq with h | rfl
        · exact hg.wait t' q h
        · exact hp.1

theorem sim_direct (hc : env.Only (Act.Ignores env s o.base o.priority)) {em : Option Nat} {src : Option SigId} {x : Slot} {a : Args} {v v' : World} {r : Res}
    (h : (body env (.direct em src x a) v).Via (Sub env s o n) v' r) : Sim env s o n (.direct em src x a) v v' r := by
  intro c l hp hg hl
  refine go_of ?_
  simp only [body] at h ⊢
  by_cases hd : x.base.isDead v = true
  · rw [if_pos hd] at h
    obtain ⟨rfl, rfl⟩ := h
    rw [if_pos (show x.base.isDead (ins s o n c l _) = true from hd)]
    exact ⟨c, l, ⟨rfl, rfl⟩, hg, hl⟩
  rw [if_neg hd] at h
  rw [if_neg (show ¬ x.base.isDead (ins s o n c l v) = true from hd)]
  have hol : ∃ l', (ins s o n c l v).logCall em src x.base (x.callArgs a) = ins s o n c l' (v.logCall em src x.base (x.callArgs a)) ∧
      LogOk o l' (v.logCall em src x.base (x.callArgs a)) := by
    cases src with
    | none => exact ⟨_, rfl, hl.ev _⟩
    | some y => exact ⟨l ++ [.call em (some y) (v.sig y).depth v.emitter v.thread x.base (x.callArgs a)], rfl, hl.ev _⟩
  obtain ⟨l', e1, hl'⟩ := hol
  rw [e1]
  have hgl : Good env s o n (v.logCall em src x.base (x.callArgs a)) := hg.ev _
  cases hb : x.base with
  | relay z =>
    have hs := hp z hb
    rw [hb] at h hgl hl'
    obtain ⟨w1, r1, ⟨_, h1⟩, rfl, rfl⟩ := h
    obtain ⟨c1, l1, h2, h3, h4⟩ := h1 c l' hs hgl hl'
    exact ⟨c1, _, ⟨_, _, h2, rfl, rfl⟩, h3.ev _, h4.ev _⟩
  | _ =>
    have hcc := hc x.base (x.callArgs a)
    rw [hb] at h hgl hl' hcc
    obtain ⟨w1, r1, ⟨_, h1⟩, rfl, rfl⟩ := h
    obtain ⟨c1, l1, h2, h3, h4⟩ := h1 c l' hcc hgl hl'
    exact ⟨c1, _, ⟨_, _, h2, rfl, rfl⟩, h3.ev _, h4.ev _⟩

theorem sim_slotRelay {y : SigId} {a : Args} {v v' : World} {r : Res} (h : (body env (.slotRelay y a) v).Via (Sub env s o n) v' r) :
    Sim env s o n (.slotRelay y a) v v' r := by
  intro c l hp hg hl
  refine go_of ?_
  simp only [body] at h ⊢
  split at h
  · rename_i hh; rw [if_pos hh]; obtain ⟨rfl, rfl⟩ := h; exact ⟨c, l, ⟨rfl, rfl⟩, hg, hl⟩
  · rename_i hh; rw [if_neg hh, show (ins s o n c l v).emitter = v.emitter from rfl]
    cases he : v.emitter with
    | none => rw [he] at h; obtain ⟨rfl, rfl⟩ := h; exact ⟨c, l, ⟨rfl, rfl⟩, hg, hl⟩
    | some e =>
      rw [he] at h
      dsimp only at h ⊢
      have e1 : ((ins s o n c l v).sig e).slots.isEmpty = (v.sig e).slots.isEmpty := by
        by_cases hes : e = s
        · subst hes
          have := hp he
          simp only [ins, ext]
          cases hA : (v.sig e).slots with
          | nil => exact absurd hA this
          | cons => rfl
        · rw [ins_len hes]; cases (v.sig e).slots <;> rfl
      rw [e1]
      split at h
      · rename_i hh; rw [if_pos hh]; obtain ⟨rfl, rfl⟩ := h; exact ⟨c, l, ⟨rfl, rfl⟩, hg, hl⟩
      · rename_i hh; rw [if_neg hh]; obtain ⟨w1, r1, ⟨_, h1⟩, rfl, rfl⟩ := h
        obtain ⟨c1, l1, h2, h3, h4⟩ := h1 c l trivial hg hl
        exact ⟨c1, l1, ⟨_, _, h2, rfl, rfl⟩, h3, h4⟩

theorem sim_replay {y : SigId} {i : Nat} {v v' : World} {r : Res} (h : (body env (.replay y i) v).Via (Sub env s o n) v' r) :
    Sim env s o n (.replay y i) v v' r := by
  intro c l _ hg hl
  refine go_of ?_
  simp only [body] at h ⊢
  rw [show ((ins s o n c l v).sig y).argsQueue = (v.sig y).argsQueue from rfl]
  cases hx : (v.sig y).argsQueue[i]? with
  | none => rw [hx] at h; obtain ⟨rfl, rfl⟩ := h; exact ⟨c, l, ⟨rfl, rfl⟩, hg, hl⟩
  | some x =>
    rw [hx] at h
    obtain ⟨w1, r1, ⟨h0, h1⟩, h⟩ := h
    obtain ⟨c1, l1, h2, h3, h4⟩ := h1 c l trivial hg hl
    cases r1 with
    | error x => obtain ⟨rfl, rfl⟩ := h; exact ⟨c1, l1, ⟨_, _, h2, rfl, rfl⟩, h3, h4⟩
    | ok u =>
      obtain ⟨w2, r2, ⟨_, h5⟩, rfl, rfl⟩ := h
      obtain ⟨c2, l2, h6, h7, h8⟩ := h5 c1 l1 trivial h3 h4
      exact ⟨c2, l2, ⟨_, _, h2, _, _, h6, rfl, rfl⟩, h7, h8⟩

theorem sim_resume {y : SigId} {red : Option Reducer} {v v' : World} {r : Res} (h : (body env (.resume y red) v).Via (Sub env s o n) v' r) :
    Sim env s o n (.resume y red) v v' r := by
  intro c l _ hg hl
  have hu : Good env s o n (v.unpause y) := hg.upd (g := fun st => { st with paused := false }) (fun _ => rfl) (fun _ => rfl) fun _ h => ⟨rfl, h.2⟩
  have eu : ∀ {c l}, (ins s o n c l v).unpause y = ins s o n c l (v.unpause y) :=
    ins_upd (g := fun st => { st with paused := false }) (fun _ _ _ => rfl) (fun _ => rfl) fun _ => rfl
  have hc : ∀ {w1 : World}, Good env s o n w1 → Good env s o n (w1.clearArgs y) := fun h =>
    h.upd (g := fun st => { st with argsQueue := [] }) (fun _ => rfl) (fun _ => rfl) fun _ h => ⟨h.1, rfl⟩
  have ec : ∀ {c1 l1} {w1 : World}, (ins s o n c1 l1 w1).clearArgs y = ins s o n c1 l1 (w1.clearArgs y) :=
    ins_upd (g := fun st => { st with argsQueue := [] }) (fun _ _ _ => rfl) (fun _ => rfl) fun _ => rfl
  refine go_of ?_
  simp only [body] at h ⊢
  rw [eu, show ((ins s o n c l v).sig y).argsQueue = (v.sig y).argsQueue from rfl, ec]
  by_cases h1 : (v.sig y).argsQueue.isEmpty = true
  · rw [if_pos h1] at h ⊢; obtain ⟨rfl, rfl⟩ := h; exact ⟨c, l, ⟨rfl, rfl⟩, hu, hl⟩
  rw [if_neg h1] at h ⊢
  have hy : y ≠ s := by rintro rfl; rw [hg.quiet.2] at h1; exact h1 rfl
  have e1 : ((ins s o n c l v).sig y).slots.isEmpty = (v.sig y).slots.isEmpty := by rw [ins_len hy]; cases (v.sig y).slots <;> rfl
  rw [e1]
  by_cases h2 : (v.sig y).slots.isEmpty = true
  · rw [if_pos h2] at h ⊢; obtain ⟨rfl, rfl⟩ := h; exact ⟨c, l, ⟨rfl, rfl⟩, hc hu, hl⟩
  rw [if_neg h2] at h ⊢
  cases red with
  | none =>
    obtain ⟨w1, r1, ⟨_, h3⟩, h⟩ := h
    obtain ⟨c1, l1, h4, h5, h6⟩ := h3 c l trivial hu hl
    cases r1 with
    | error x => obtain ⟨rfl, rfl⟩ := h; exact ⟨c1, l1, ⟨_, _, h4, rfl, rfl⟩, h5, h6⟩
    | ok u => obtain ⟨rfl, rfl⟩ := h; exact ⟨c1, l1, ⟨_, _, h4, ec.symm, rfl⟩, hc h5, h6⟩
  | some rd =>
    dsimp only at h ⊢
    cases hrd : rd.run (v.sig y).argsQueue with
    | error x => rw [hrd] at h; obtain ⟨rfl, rfl⟩ := h; exact ⟨c, l, ⟨rfl, rfl⟩, hu, hl⟩
    | ok args =>
      rw [hrd] at h
      obtain ⟨w1, r1, ⟨_, h3⟩, h⟩ := h
      obtain ⟨c1, l1, h4, h5, h6⟩ := h3 c l trivial hu hl
      cases r1 with
      | error x => obtain ⟨rfl, rfl⟩ := h; exact ⟨c1, l1, ⟨_, _, h4, rfl, rfl⟩, h5, h6⟩
      | ok u => obtain ⟨rfl, rfl⟩ := h; exact ⟨c1, l1, ⟨_, _, h4, ec.symm, rfl⟩, hc h5, h6⟩

theorem sim_drain {t : ThreadId} {v v' : World} {r : Res} (h : (body env (.drain t) v).Via (Sub env s o n) v' r) :
    Sim env s o n (.drain t) v v' r := by
  intro c l _ hg hl
  refine go_of ?_
  simp only [body] at h ⊢
  rw [show (ins s o n c l v).tq t = (v.tq t).map fun q => (ren n q.1, q.2) from rfl]
  cases hq : v.tq t with
  | nil => rw [hq] at h; obtain ⟨rfl, rfl⟩ := h; exact ⟨c, l, ⟨rfl, rfl⟩, hg, hl⟩
  | cons y k =>
    obtain ⟨x, args⟩ := y
    rw [hq] at h
    obtain ⟨w1, r1, ⟨_, h1⟩, h⟩ := h
    have hm : ∀ t', ∀ q ∈ (v.getQueue t x args).tq t', q ∈ v.tq t' := by
      intro t' q h
      simp only [World.getQueue] at h
      split at h
      · rename_i ht; subst ht; exact List.mem_of_mem_tail h
      · exact h
    have hgq : Good env s o n (v.getQueue t x args) :=
      ⟨hg.hook, hg.slots, hg.prio, hg.zero, hg.quiet, fun t' q h => hg.tq t' q (hm t' q h), hg.num, hg.serial, fun t' q h => hg.wait t' q (hm t' q h)⟩
    have e1 : (ins s o n c l v).getQueue t (ren n x) args = ins s o n c (l ++ [.get t x.base args]) (v.getQueue t x args) := by
      simp only [World.getQueue, ins, World.ev, World.mk.injEq, true_and, and_true, ren_base]
      funext t'
      by_cases h' : t' = t
      · subst h'; simp
      · simp [h']
    obtain ⟨c1, l1, h2, h3, h4⟩ := h1 c _ (fun z hz => absurd hz (hg.tq t (x, args) (by rw [hq]; exact .head _) z)) hgq (hl.ev (.get t x.base args))
    simp only [List.map_cons]
    rw [e1]
    cases r1 with
    | error x => obtain ⟨rfl, rfl⟩ := h; exact ⟨c1, l1, ⟨_, _, direct_ren h2, rfl, rfl⟩, h3, h4⟩
    | ok u =>
      obtain ⟨w2, r2, ⟨_, h5⟩, rfl, rfl⟩ := h
      obtain ⟨c2, l2, h6, h7, h8⟩ := h5 c1 l1 trivial h3 h4
      exact ⟨c2, l2, ⟨_, _, direct_ren h2, _, _, h6, rfl, rfl⟩, h7, h8⟩

theorem sim (hG : Given env s o) (hc : env.Only (Act.Ignores env s o.base o.priority)) {t : Task} {v v' : World} {r : Res} (h : Runs env t v v' r) :
    Sim env s o n t v v' r := by
  refine Runs.induct (P := Sim env s o n) ?_ h
  clear h
  intro t v v' r h
  cases t with
  | prog p => exact sim_prog hG h
  | emit y a c => exact sim_emit h
  | emitFast y a => exact sim_emitFast h
  | runLoop y a => exact sim_runLoop h
  | inner y em => exact sim_inner h
  | forSlots y em a i => exact sim_forSlots hG h
  | forLatest y em a i => exact sim_forLatest hG h
  | forQueued y em a i => exact sim_forQueued hG h
  | whileQueued y em i => exact sim_whileQueued h
  | cb em src x a => exact sim_cb h
  | direct em src x a => exact sim_direct hc h
  | slotRelay y a => exact sim_slotRelay h
  | resume y red => exact sim_resume h
  | replay y i => exact sim_replay h
  | drain t => exact sim_drain h

theorem good_init : Good env s o 0 .init :=
  ⟨nofun, fun _ _ h => (List.not_mem_nil h).elim, fun _ h => (List.not_mem_nil h).elim, fun _ _ h => (List.not_mem_nil h).elim, ⟨rfl, rfl⟩,
    fun _ _ h => (List.not_mem_nil h).elim, Nat.zero_le _, fun _ _ h => (List.not_mem_nil h).elim, fun _ _ h => (List.not_mem_nil h).elim⟩

theorem turns (hG : Given env s o) (hc : env.Only (Act.Ignores env s o.base o.priority)) {ps : List (Bool × ThreadId × Prog)}
    (hp : ∀ x ∈ ps, x.2.2.Only (Act.Ignores env s o.base o.priority)) {v v' : World} {rs : List (Bool × Res)} (h : Turns env ps v rs v') :
    ∀ {c l}, Good env s o n v → LogOk o l v → ∃ c' l', Turns env ps (ins s o n c l v) rs (ins s o n c' l' v') ∧ Good env s o n v' ∧ LogOk o l' v' := by
  induction h with
  | nil => intro c l hg hl; exact ⟨c, l, .nil, hg, hl⟩
  | @cons b t p ps w w1 w2 r rs h1 _ ih =>
    intro c l hg hl
    obtain ⟨c1, l1, h2, h3, h4⟩ := sim (n := n) hG hc h1 c l (hp _ (.head _))
      ⟨hg.hook, hg.slots, hg.prio, hg.zero, hg.quiet, hg.tq, hg.num, hg.serial, hg.wait⟩ hl
    obtain ⟨c2, l2, h5, h6, h7⟩ := ih (fun x hx => hp x (.tail _ hx)) h3 h4
    exact ⟨c2, l2, .cons h2 h5, h6, h7⟩

end
end Watch
end Psygnal
