import Verif.ConcCore

/-! # Simulation of the sequential model by one thread -/
namespace Psygnal.Conc

/-- The two states agree; the locks are free or held by thread `t`. -/
structure Rel (t : Nat) (w : World) (σ : St) : Prop where
  queue : ∀ s, (w.sig s).emitQueue = (σ.queue s).map fun a => [.atom a]
  depth : ∀ s, (w.sig s).depth = σ.depth s
  maxd : ∀ s, (w.sig s).maxDepth = σ.maxd s
  slots : ∀ s, (w.sig s).slots = (σ.slots s).map (coreSlot s)
  quiet : ∀ s, (w.sig s).blocked = false ∧ (w.sig s).paused = false
  emitter : w.emitter = σ.cur
  hook : w.hook = none
  dead : ∀ o, w.dead o = false
  locks : ∀ s, σ.locks s = none ∨ ∃ n, σ.locks s = some (t, n + 1)
  log : w.log.filterMap coreCall = σ.log.filterMap concCall

/-- Thread `t` gets from one state to another. -/
def Reach (e : Env) (t : Nat) (σ σ' : St) : Prop := ∃ n, run e (List.replicate n t) σ = σ'

theorem Reach.refl (e : Env) (t : Nat) (σ : St) : Reach e t σ σ := ⟨0, rfl⟩

theorem run_then (e : Env) : ∀ (l l' : List Nat) (σ : St), run e (l ++ l') σ = run e l' (run e l σ)
  | [], _, _ => rfl
  | _ :: l, l', _ => run_then e l l' _

theorem Reach.trans {e : Env} {t : Nat} {σ σ' σ'' : St} (h : Reach e t σ σ') (h' : Reach e t σ' σ'') : Reach e t σ σ'' := by
  obtain ⟨n, rfl⟩ := h
  obtain ⟨m, rfl⟩ := h'
  exact ⟨n + m, by rw [← List.replicate_append_replicate, run_then]⟩

theorem Reach.step {e : Env} {t : Nat} {σ σ' : St} (h : Conc.step e t σ = some σ') : Reach e t σ σ' := ⟨1, by simp [run, h]⟩

theorem Reach.head {e : Env} {t : Nat} {σ σ' σ'' : St} (h : Conc.step e t σ = some σ') (h' : Reach e t σ' σ'') : Reach e t σ σ'' :=
  (Reach.step h).trans h'

/-- What has to be shown: from `σ` the thread gets to a state that agrees with `w'`, with this control and stack. -/
def Goes (e : Env) (t : Nat) (σ : St) (w' : World) (c : Ctl) (st : List Frame) : Prop :=
  ∃ σ', Reach e t σ σ' ∧ Rel t w' σ' ∧ σ'.thr t = ⟨c, st⟩

theorem Goes.head {e : Env} {t : Nat} {σ σ' : St} {w' : World} {c : Ctl} {st : List Frame} (h : Conc.step e t σ = some σ')
    (h' : Goes e t σ' w' c st) : Goes e t σ w' c st := by
  obtain ⟨σ'', h1, h2⟩ := h'
  exact ⟨σ'', .head h h1, h2⟩

theorem Goes.bind {e : Env} {t : Nat} {σ : St} {w' w'' : World} {c c' : Ctl} {st st' : List Frame} (h : Goes e t σ w' c st)
    (h' : ∀ σ', Rel t w' σ' → σ'.thr t = ⟨c, st⟩ → Goes e t σ' w'' c' st') : Goes e t σ w'' c' st' := by
  obtain ⟨σ', h1, h2, h3⟩ := h
  obtain ⟨σ'', h4, h5⟩ := h' σ' h2 h3
  exact ⟨σ'', h1.trans h4, h5⟩

theorem Rel.thr {t : Nat} {w : World} {σ : St} (h : Rel t w σ) (f : Nat → Thread) : Rel t w { σ with thr := f } :=
  ⟨h.1, h.2, h.3, h.4, h.5, h.6, h.7, h.8, h.9, h.10⟩

/-- Did it end normally? -/
def okOf {α : Type} : Except Exc α → Bool
  | .ok _ => true
  | .error _ => false

theorem okOf_wrap (s : Nat) (r : Res) : okOf (wrapRes s r) = okOf r := by
  cases r <;> rfl

/-- For each procedure of the sequential model: where the thread is when it begins, and where when it ends. -/
structure Sim (e : Env) (t n : Nat) : Prop where
  prog : ∀ (c : Code) (w w' : World) (r : Res) (σ : St) (st : List Frame), Plain c → exec e.core n (.prog (trans c)) w = some (w', r) →
    Rel t w σ → σ.thr t = ⟨.run c, st⟩ → Goes e t σ w' (.fin (okOf r)) st
  emit : ∀ (s a : Nat) (w w' : World) (r : Res) (σ : St) (st : List Frame), exec e.core n (.emit s [.atom a] false) w = some (w', r) →
    Rel t w σ → σ.thr t = ⟨.check s a, st⟩ → Goes e t σ w' (.fin (okOf r)) st
  runLoop : ∀ (s a : Nat) (w w' : World) (r : Res) (σ : St) (st : List Frame), exec e.core n (.runLoop s [.atom a]) w = some (w', r) →
    Rel t w σ → σ.thr t = ⟨.check s a, st⟩ → Goes e t σ w' (.fin (okOf r)) st
  inner : ∀ (s em : Nat) (p : Option Nat) (w w' : World) (r : Res) (σ : St) (st : List Frame), exec e.core n (.inner s em) w = some (w', r) →
    Rel t w σ → σ.queue s ≠ [] → σ.thr t = ⟨.start s p, st⟩ → Goes e t σ w' (.restore s p (okOf r)) st
  slots : ∀ (s em a i k : Nat) (p : Option Nat) (w w' : World) (r : Res) (σ : St) (st : List Frame), e.mode s = .immediate →
    exec e.core n (.forSlots s em [.atom a] i) w = some (w', r) → Rel t w σ → σ.thr t = ⟨.next s p ⟨a, i, k⟩, st⟩ →
    Goes e t σ w' (.restore s p (okOf r)) st
  latest : ∀ (s em a i k : Nat) (p : Option Nat) (w w' : World) (r : Res) (σ : St) (st : List Frame), e.mode s = .latest →
    exec e.core n (.forLatest s em [.atom a] i) w = some (w', r) → Rel t w σ → σ.thr t = ⟨.next s p ⟨a, i, k⟩, st⟩ →
    Goes e t σ w' (.restore s p (okOf r)) st
  queued : ∀ (s em a i k : Nat) (p : Option Nat) (w w' : World) (r : Res) (σ : St) (st : List Frame), e.mode s = .queued →
    exec e.core n (.forQueued s em [.atom a] i) w = some (w', r) → Rel t w σ → σ.thr t = ⟨.next s p ⟨a, i, k⟩, st⟩ →
    if okOf r = true then ∃ σ' j, Reach e t σ σ' ∧ Rel t w' σ' ∧ (σ'.slots s)[j]? = none ∧ σ'.thr t = ⟨.next s p ⟨a, j, k⟩, st⟩
    else Goes e t σ w' (.restore s p false) st
  while_ : ∀ (s em k : Nat) (p : Option Nat) (w w' : World) (r : Res) (σ : St) (st : List Frame), e.mode s = .queued →
    exec e.core n (.whileQueued s em k) w = some (w', r) → Rel t w σ →
    σ.thr t = ⟨(match (σ.queue s)[k]? with
      | some a => .next s p ⟨a, 0, k⟩
      | none => .restore s p true), st⟩ →
    Goes e t σ w' (.restore s p (okOf r)) st
  cb : ∀ (s em x a : Nat) (w w' : World) (r : Res) (σ : St) (st : List Frame),
    exec e.core n (.cb (some em) (some s) (coreSlot s x) [.atom a]) w = some (w', r) → Rel t w σ → ∀ σ1, Conc.St.log σ1 = σ.log ++ [.call t s x a] →
    σ1.queue = σ.queue → σ1.depth = σ.depth → σ1.maxd = σ.maxd → σ1.slots = σ.slots → σ1.cur = σ.cur → σ1.locks = σ.locks →
    σ1.thr t = ⟨.run (e.body s x a), st⟩ → Goes e t σ1 w' (.fin (okOf r)) st
  direct : ∀ (s em x a : Nat) (w w' : World) (r : Res) (σ : St) (st : List Frame),
    exec e.core n (.direct (some em) (some s) (coreSlot s x) [.atom a]) w = some (w', r) → Rel t w σ → ∀ σ1, Conc.St.log σ1 = σ.log ++ [.call t s x a] →
    σ1.queue = σ.queue → σ1.depth = σ.depth → σ1.maxd = σ.maxd → σ1.slots = σ.slots → σ1.cur = σ.cur → σ1.locks = σ.locks →
    σ1.thr t = ⟨.run (e.body s x a), st⟩ → Goes e t σ1 w' (.fin (okOf r)) st

variable {e : Env} {t n : Nat}

theorem run_done {f : Task → World → Option (World × Res)} {tk : Task} {w w' : World} {r : Res}
    (h : runComp f (.call tk w .done) = some (w', r)) : f tk w = some (w', r) := by
  simp only [runComp] at h
  cases h1 : f tk w with
  | none => rw [h1] at h; cases h
  | some q =>
    obtain ⟨q1, q2⟩ := q
    rw [h1] at h
    simpa [runComp] using h

theorem run_call {f : Task → World → Option (World × Res)} {tk : Task} {w w' : World} {r : Res} {k : World → Res → Comp}
    (h : runComp f (.call tk w k) = some (w', r)) : ∃ w1 r1, f tk w = some (w1, r1) ∧ runComp f (k w1 r1) = some (w', r) := by
  simp only [runComp] at h
  cases h1 : f tk w with
  | none => rw [h1] at h; cases h
  | some q => rw [h1] at h; exact ⟨q.1, q.2, rfl, h⟩

theorem sim_prog (hp : Sim e t n) (c : Code) (w w' : World) (r : Res) (σ : St) (st : List Frame) (hc : Plain c)
    (h : exec e.core (n + 1) (.prog (trans c)) w = some (w', r)) (hr : Rel t w σ) (ht : σ.thr t = ⟨.run c, st⟩) :
    Goes e t σ w' (.fin (okOf r)) st := by
  cases c with
  | ret =>
    simp only [trans, exec, body, runComp, Option.some.injEq, Prod.mk.injEq] at h
    obtain ⟨rfl, rfl⟩ := h
    refine .head (σ' := { σ with thr := set σ.thr t ⟨.fin true, st⟩ }) (by simp only [Conc.step, ht]) ⟨_, .refl .., hr.thr _, by simp [set, okOf]⟩
  | raise =>
    simp only [trans, exec, body, runComp, Option.some.injEq, Prod.mk.injEq] at h
    obtain ⟨rfl, rfl⟩ := h
    refine .head (σ' := { σ with thr := set σ.thr t ⟨.fin false, st⟩ }) (by simp only [Conc.step, ht]) ⟨_, .refl .., hr.thr _, by simp [set, okOf]⟩
  | see k =>
    simp only [trans, exec, body, Act.task?, Act.run, runComp] at h
    cases h1 : exec e.core n (.prog (trans (k w.emitter))) w with
    | none => rw [h1] at h; cases h
    | some q =>
      rw [h1] at h
      simp only [Option.some.injEq, Prod.mk.injEq] at h
      obtain ⟨e1, e2⟩ := h
      obtain ⟨q1, q2⟩ := q
      simp only at e1 e2
      subst e1; subst e2
      refine .head (σ' := { σ with thr := set σ.thr t ⟨.run (k σ.cur), st⟩, log := σ.log ++ [.saw t (innermost st) σ.cur] })
        (by simp only [Conc.step, ht]) ?_
      rw [hr.emitter] at h1
      refine hp.prog (k σ.cur) w q1 q2 _ st (hc _) h1 ?_ (by simp [set])
      exact ⟨hr.1, hr.2, hr.3, hr.4, hr.5, hr.6, hr.7, hr.8, hr.9, by simp [hr.log, concCall]⟩
  | emit s a k =>
    simp only [trans, exec, body, Act.task?, runComp] at h
    cases h1 : exec e.core n (.emit s [.atom a] false) w with
    | none => rw [h1] at h; cases h
    | some q =>
      rw [h1] at h
      obtain ⟨w1, r1⟩ := q
      simp only at h
      refine .head (σ' := { σ with thr := set σ.thr t ⟨.check s a, .cont k :: st⟩ }) (by simp only [Conc.step, ht]) ?_
      refine (hp.emit s a w w1 r1 _ (.cont k :: st) h1 (hr.thr _) (by simp [set])).bind ?_
      intro σ1 hr1 ht1
      refine .head (σ' := { σ1 with thr := set σ1.thr t ⟨.run (k (okOf r1)), st⟩ }) (by simp only [Conc.step, ht1]) ?_
      have h2 : exec e.core n (.prog (trans (k (okOf r1)))) w1 = some (w', r) := by
        cases r1 with
        | ok u =>
          exact run_done (f := exec e.core n) (by simpa only [runComp, Except.map, okOf] using h)
        | error u =>
          exact run_done (f := exec e.core n) (by simpa only [runComp, Except.map, okOf] using h)
      exact hp.prog (k (okOf r1)) w1 w' r _ st (hc _) h2 (hr1.thr _) (by simp [set])
  | hold s c k => exact absurd hc (by simp [Plain])
  | slots s f k => exact absurd hc (by simp [Plain])

theorem sim_emit (hp : Sim e t n) (s a : Nat) (w w' : World) (r : Res) (σ : St) (st : List Frame)
    (h : exec e.core (n + 1) (.emit s [.atom a] false) w = some (w', r)) (hr : Rel t w σ) (ht : σ.thr t = ⟨.check s a, st⟩) :
    Goes e t σ w' (.fin (okOf r)) st := by
  rw [exec] at h
  simp only [body, (hr.quiet s).1, (hr.quiet s).2, hr.hook, Bool.false_eq_true, if_false, false_and] at h
  exact hp.runLoop s a w w' r σ st (run_done h) hr ht

theorem upd_sig (w : World) (s : Nat) (f : SigState → SigState) (x : Nat) : (w.upd s f).sig x = if x = s then f (w.sig x) else w.sig x := rfl

/-- A change of the attributes of one signal, the same in both states. -/
theorem Rel.upd {w : World} {σ : St} (hr : Rel t w σ) (s : Nat) (f : SigState → SigState) (q : List Nat) (d m : Nat)
    (hq : (f (w.sig s)).emitQueue = q.map fun a => [.atom a]) (hd : (f (w.sig s)).depth = d) (hm : (f (w.sig s)).maxDepth = m)
    (hs : (f (w.sig s)).slots = (w.sig s).slots) (hb : (f (w.sig s)).blocked = (w.sig s).blocked)
    (hp : (f (w.sig s)).paused = (w.sig s).paused) :
    Rel t (w.upd s f) { σ with queue := set σ.queue s q, depth := set σ.depth s d, maxd := set σ.maxd s m } := by
  refine ⟨?_, ?_, ?_, ?_, ?_, hr.emitter, hr.hook, hr.dead, hr.locks, hr.log⟩
  · intro x
    simp only [upd_sig, set]
    split
    · rename_i h; subst h; exact hq
    · exact hr.queue x
  · intro x
    simp only [upd_sig, set]
    split
    · rename_i h; subst h; exact hd
    · exact hr.depth x
  · intro x
    simp only [upd_sig, set]
    split
    · rename_i h; subst h; exact hm
    · exact hr.maxd x
  · intro x
    simp only [upd_sig]
    split
    · rename_i h; subst h; rw [hs]; exact hr.slots x
    · exact hr.slots x
  · intro x
    simp only [upd_sig]
    split
    · rename_i h; subst h; rw [hb, hp]; exact hr.quiet x
    · exact hr.quiet x

theorem set_self {α : Type} (f : Nat → α) (s : Nat) : set f s (f s) = f := by
  funext x
  simp only [set]
  split
  · rename_i h; rw [h]
  · rfl

/-- Taking and giving back a lock. -/
theorem Rel.lock {w : World} {σ : St} (hr : Rel t w σ) (s : Nat) : ∃ m, acquire t (σ.locks s) = some (t, m + 1) ∧
    Rel t w { σ with locks := set σ.locks s (some (t, m + 1)) } := by
  have key : ∀ m, Rel t w { σ with locks := set σ.locks s (some (t, m + 1)) } := by
    intro m
    refine ⟨hr.1, hr.2, hr.3, hr.4, hr.5, hr.6, hr.7, hr.8, ?_, hr.10⟩
    intro x
    simp only [set]
    split
    · exact .inr ⟨m, rfl⟩
    · exact hr.locks x
  rcases hr.locks s with h | ⟨m, h⟩
  · exact ⟨0, by rw [h]; rfl, key 0⟩
  · exact ⟨m + 1, by rw [h]; simp [acquire], key _⟩

theorem Rel.release {w : World} {σ : St} (hr : Rel t w σ) (s : Nat) (b : Bool) :
    Rel t w { σ with locks := set σ.locks s (unlock (σ.locks s)), log := if b then σ.log else σ.log ++ [.done t s] } := by
  refine ⟨hr.1, hr.2, hr.3, hr.4, hr.5, hr.6, hr.7, hr.8, ?_, ?_⟩
  · intro x
    simp only [set]
    split
    · rcases hr.locks s with h | ⟨m, h⟩
      · rw [h]; exact .inl rfl
      · rw [h]
        cases m with
        | zero => exact .inl rfl
        | succ m => exact .inr ⟨m, rfl⟩
    · exact hr.locks x
  · simp only
    cases b <;> simp [hr.log, concCall]

theorem goes_release {w : World} {σ : St} {st : List Frame} {s : Nat} {ok : Bool} (hr : Rel t w σ) (ht : σ.thr t = ⟨.release s ok, st⟩) :
    Goes e t σ w (.fin ok) st := by
  have h1 := (hr.release s (looping s st)).thr (set σ.thr t ⟨.fin ok, st⟩)
  refine .head (by simp only [Conc.step, ht]) ⟨_, .refl .., h1, by simp [set]⟩

theorem Goes.one {σ σ' : St} {w' : World} {c : Ctl} {st : List Frame} (h : Conc.step e t σ = some σ') (hr : Rel t w' σ')
    (ht : σ'.thr t = ⟨c, st⟩) : Goes e t σ w' c st := ⟨σ', .step h, hr, ht⟩

theorem goes_check {w : World} {σ : St} {st : List Frame} {s a : Nat} (hr : Rel t w σ) (he : e.limit = 300)
    (ht : σ.thr t = ⟨.check s a, st⟩) : Goes e t σ w (if (w.sig s).depth ≥ LIMIT then .fin false else .wait s a) st := by
  have hd := hr.depth s
  by_cases hl : (w.sig s).depth ≥ LIMIT
  · rw [if_pos hl]
    have hl' : e.limit ≤ σ.depth s := by simp only [LIMIT] at hl; omega
    exact .one (by simp only [Conc.step, ht, if_pos hl']; rfl) (hr.thr _) (by simp [set])
  · rw [if_neg hl]
    have hl' : ¬ e.limit ≤ σ.depth s := by simp only [LIMIT] at hl; omega
    exact .one (by simp only [Conc.step, ht, if_neg hl']; rfl) (hr.thr _) (by simp [set])

theorem goes_wait {w : World} {σ : St} {st : List Frame} {s a : Nat} (hr : Rel t w σ) (ht : σ.thr t = ⟨.wait s a, st⟩) :
    Goes e t σ w (.locked s a) st := by
  obtain ⟨m, hm, hr1⟩ := hr.lock s
  exact .one (by simp only [Conc.step, ht, hm]) (hr1.thr (set σ.thr t ⟨.locked s a, st⟩)) (by simp [set])

/-- Ghosts do not matter. -/
theorem Rel.ghost {w : World} {σ : St} (hr : Rel t w σ) (a : Nat → List (Nat × Nat)) (l : Nat → Bool) : Rel t w { σ with acc := a, lost := l } :=
  ⟨hr.1, hr.2, hr.3, hr.4, hr.5, hr.6, hr.7, hr.8, hr.9, hr.10⟩

theorem Rel.quietLog {w : World} {σ : St} (hr : Rel t w σ) {ev : Psygnal.Ev} (he : coreCall ev = none) : Rel t (w.ev ev) σ :=
  ⟨hr.1, hr.2, hr.3, hr.4, hr.5, hr.6, hr.7, hr.8, hr.9, by simp [World.ev, he, hr.log]⟩

theorem Rel.enqueue {w : World} {σ : St} (hr : Rel t w σ) (s a : Nat) :
    Rel t (w.enqueue s [.atom a]) { σ with queue := set σ.queue s (σ.queue s ++ [a]) } := by
  have h := hr.upd s (fun st => { st with emitQueue := st.emitQueue ++ [[.atom a]] }) (σ.queue s ++ [a]) (σ.depth s) (σ.maxd s)
    (by simp [hr.queue s]) (hr.depth s) (hr.maxd s) rfl rfl rfl
  rw [set_self, set_self] at h
  exact h.quietLog rfl

theorem goes_locked {w : World} {σ : St} {st : List Frame} {s a : Nat} (hr : Rel t w σ) (ht : σ.thr t = ⟨.locked s a, st⟩) :
    if ((w.enqueue s [.atom a]).sig s).emitQueue.length > 1 then Goes e t σ (w.enqueue s [.atom a]) (.release s true) st
    else Goes e t σ ((w.enqueue s [.atom a]).upd s SigState.enter) (.readPrev s) st := by
  have h1 := hr.enqueue s a
  have hl : ((w.enqueue s [.atom a]).sig s).emitQueue.length = (σ.queue s ++ [a]).length := by
    rw [h1.queue s]; simp [set]
  rw [hl]
  split
  · rename_i h
    have h' : 1 < (σ.queue s ++ [a]).length := h
    exact .one (by simp only [Conc.step, ht, if_pos h'])
      ((h1.ghost (set σ.acc s (σ.acc s ++ [(t, a)])) σ.lost).thr (set σ.thr t ⟨.release s true, st⟩)) (by simp [set])
  · rename_i h
    have h' : ¬ 1 < (σ.queue s ++ [a]).length := h
    have h2 := h1.upd s SigState.enter (σ.queue s ++ [a]) (σ.depth s + 1) (max (σ.maxd s) (σ.depth s + 1))
      (by have := h1.queue s; simpa [SigState.enter, set] using this)
      (by have := h1.depth s; simp only at this; simp [SigState.enter, this])
      (by
        have d := h1.depth s; have m := h1.maxd s; simp only at d m
        simp only [SigState.enter, d, m]
        omega) rfl rfl rfl
    have e1 : set (set σ.queue s (σ.queue s ++ [a])) s (σ.queue s ++ [a]) = set σ.queue s (σ.queue s ++ [a]) := by
      funext x; simp only [set]; split <;> rfl
    simp only [e1] at h2
    exact .one (by simp only [Conc.step, ht, if_neg h'])
      ((h2.ghost (set σ.acc s (σ.acc s ++ [(t, a)])) σ.lost).thr (set σ.thr t ⟨.readPrev s, st⟩)) (by simp [set])

theorem goes_read {w : World} {σ : St} {st : List Frame} {s : Nat} (hr : Rel t w σ) (ht : σ.thr t = ⟨.readPrev s, st⟩) (k : Nat) :
    Goes e t σ { w with emitter := some s, nextEm := k } (.start s w.emitter) st := by
  refine Goes.bind (w' := w) (c := .writeCur s w.emitter) (st := st) (.one (by simp only [Conc.step, ht]; rfl) (hr.thr _) (by simp [set, hr.emitter])) ?_
  intro σ1 hr1 ht1
  refine .one (σ' := { σ1 with cur := some s, thr := set σ1.thr t ⟨.start s w.emitter, st⟩ }) (by simp only [Conc.step, ht1]) ?_ (by simp [set])
  exact ⟨hr1.1, hr1.2, hr1.3, hr1.4, hr1.5, rfl, hr1.7, hr1.8, hr1.9, hr1.10⟩

theorem goes_restore {w : World} {σ : St} {st : List Frame} {s : Nat} {p : Option Nat} {ok : Bool} (hr : Rel t w σ)
    (ht : σ.thr t = ⟨.restore s p ok, st⟩) : Goes e t σ (w.endLoop s p) (.fin ok) st := by
  have h1 : Rel t { w with emitter := p } { σ with cur := p, thr := set σ.thr t ⟨.cleanup s ok, st⟩ } :=
    ⟨hr.1, hr.2, hr.3, hr.4, hr.5, rfl, hr.7, hr.8, hr.9, hr.10⟩
  refine Goes.bind (c := .cleanup s ok) (st := st) (.one (by simp only [Conc.step, ht]) h1 (by simp [set])) ?_
  intro σ1 hr1 ht1
  refine Goes.bind (w' := w.endLoop s p) (c := .release s ok) (st := st) ?_ fun σ2 hr2 ht2 => goes_release hr2 ht2
  have hd : (w.sig s).depth = (σ1.depth s : Int) := hr1.depth s
  have hm : (w.sig s).maxDepth = (σ1.maxd s : Int) := hr1.maxd s
  have h2 := hr1.upd s SigState.leave [] (σ1.depth s - 1) (if σ1.depth s - 1 = 0 then 0 else σ1.maxd s)
    (by simp only [SigState.leave]; split <;> rfl)
    (by simp only [SigState.leave]; split <;> simp only <;> omega)
    (by simp only [SigState.leave]; split <;> split <;> simp only <;> omega)
    (by simp only [SigState.leave]; split <;> rfl) (by simp only [SigState.leave]; split <;> rfl) (by simp only [SigState.leave]; split <;> rfl)
  exact .one (by simp only [Conc.step, ht1]) (h2.thr (set σ1.thr t ⟨.release s ok, st⟩)) (by simp [set])

theorem sim_runLoop (hp : Sim e t n) (he : e.limit = 300) (s a : Nat) (w w' : World) (r : Res) (σ : St) (st : List Frame)
    (h : exec e.core (n + 1) (.runLoop s [.atom a]) w = some (w', r)) (hr : Rel t w σ) (ht : σ.thr t = ⟨.check s a, st⟩) :
    Goes e t σ w' (.fin (okOf r)) st := by
  rw [exec] at h
  simp only [body] at h
  have h0 := goes_check (e := e) hr he ht
  by_cases hl : (w.sig s).depth ≥ LIMIT
  · rw [if_pos hl] at h h0
    simp only [runComp, Option.some.injEq, Prod.mk.injEq] at h
    obtain ⟨rfl, rfl⟩ := h
    exact h0
  · rw [if_neg hl] at h h0
    refine h0.bind fun σ1 hr1 ht1 => (goes_wait hr1 ht1).bind fun σ2 hr2 ht2 => ?_
    have h2 := goes_locked (e := e) hr2 ht2
    by_cases hq : ((w.enqueue s [.atom a]).sig s).emitQueue.length > 1
    · rw [if_pos hq] at h h2
      simp only [runComp, Option.some.injEq, Prod.mk.injEq] at h
      obtain ⟨rfl, rfl⟩ := h
      exact h2.bind fun σ3 hr3 ht3 => goes_release hr3 ht3
    · rw [if_neg hq] at h h2
      obtain ⟨w1, r1, h3, h4⟩ := run_call h
      simp only [runComp, Option.some.injEq, Prod.mk.injEq] at h4
      obtain ⟨rfl, rfl⟩ := h4
      refine h2.bind fun σ3 hr3 ht3 => (goes_read hr3 ht3 (w.nextEm + 1)).bind fun σ4 hr4 ht4 => ?_
      have hne : σ4.queue s ≠ [] := by
        intro hn
        have := hr4.queue s
        rw [hn] at this
        simp [upd_sig, SigState.enter, World.enqueue, World.ev] at this
      rw [okOf_wrap]
      exact (hp.inner s w.nextEm w.emitter _ w1 r1 σ4 st h3 hr4 hne ht4).bind fun σ5 hr5 ht5 => goes_restore hr5 ht5

theorem Rel.slot {w : World} {σ : St} (hr : Rel t w σ) (s i : Nat) : (w.sig s).slots[i]? = ((σ.slots s)[i]?).map (coreSlot s) := by
  rw [hr.slots s, List.getElem?_map]

theorem goes_call (hp : Sim e t n) {s em a i k x : Nat} {p : Option Nat} {w w1 : World} {r1 : Res} {σ : St} {st : List Frame}
    (hr : Rel t w σ) (ht : σ.thr t = ⟨.next s p ⟨a, i, k⟩, st⟩) (hx : (σ.slots s)[i]? = some x)
    (hl : ¬ (e.mode s = .latest ∧ σ.depth s < σ.maxd s))
    (h : exec e.core n (.cb (some em) (some s) (coreSlot s x) [.atom a]) w = some (w1, r1)) :
    Goes e t σ w1 (.fin (okOf r1)) (.loop s p ⟨a, i + 1, k⟩ :: st) :=
  .head (σ' := { σ with thr := set σ.thr t ⟨.run (e.body s x a), .loop s p ⟨a, i + 1, k⟩ :: st⟩, log := σ.log ++ [.call t s x a] })
    (by simp only [Conc.step, ht, hx, if_neg hl]) (hp.cb s em x a w w1 r1 σ _ h hr _ rfl rfl rfl rfl rfl rfl rfl (by simp [set]))

theorem goes_back {s : Nat} {p : Option Nat} {w : World} {σ : St} {st : List Frame} {ok : Bool} {l : Loop} (he : e.limit = 300)
    (hr : Rel t w σ) (ht : σ.thr t = ⟨.fin ok, .loop s p l :: st⟩) :
    Goes e t σ w (if ok = false ∨ (e.mode s = .queued ∧ ((w.sig s).emitQueue.length : Int) > LIMIT) then .restore s p false
      else .next s p l) st := by
  have hq : (((w.sig s).emitQueue.length : Int) > LIMIT) ↔ e.limit < (σ.queue s).length := by
    rw [hr.queue s, he, List.length_map]
    simp only [LIMIT]
    omega
  simp only [hq]
  split
  · rename_i h
    exact .one (by simp only [Conc.step, ht, if_pos h]) ((hr.ghost σ.acc (set σ.lost s true)).thr (set σ.thr t ⟨.restore s p false, st⟩)) (by simp [set])
  · rename_i h
    exact .one (by simp only [Conc.step, ht, if_neg h]) (hr.thr (set σ.thr t ⟨.next s p l, st⟩)) (by simp [set])

theorem sim_slots (hp : Sim e t n) (he : e.limit = 300) (s em a i k : Nat) (p : Option Nat) (w w' : World) (r : Res) (σ : St) (st : List Frame)
    (hm : e.mode s = .immediate) (h : exec e.core (n + 1) (.forSlots s em [.atom a] i) w = some (w', r)) (hr : Rel t w σ)
    (ht : σ.thr t = ⟨.next s p ⟨a, i, k⟩, st⟩) : Goes e t σ w' (.restore s p (okOf r)) st := by
  rw [exec] at h
  simp only [body, hr.slot s i] at h
  cases hx : (σ.slots s)[i]? with
  | none =>
    simp only [hx, Option.map_none, runComp, Option.some.injEq, Prod.mk.injEq] at h
    obtain ⟨rfl, rfl⟩ := h
    exact .one (by simp only [Conc.step, ht, hx, hm, reduceCtorEq, if_false]; rfl) (hr.thr _) (by simp [set, okOf])
  | some x =>
    simp only [hx, Option.map_some] at h
    obtain ⟨w1, r1, h1, h2⟩ := run_call h
    refine (goes_call hp hr ht hx (by simp [hm]) h1).bind fun σ1 hr1 ht1 => (goes_back he hr1 ht1).bind fun σ2 hr2 ht2 => ?_
    cases r1 with
    | error x =>
      simp only [runComp, Option.some.injEq, Prod.mk.injEq] at h2
      obtain ⟨rfl, rfl⟩ := h2
      rw [if_pos (.inl rfl)] at ht2
      exact ⟨σ2, .refl .., hr2, ht2⟩
    | ok u =>
      rw [if_neg (by simp [okOf, hm])] at ht2
      exact hp.slots s em a (i + 1) k p w1 w' r σ2 st hm (run_done h2) hr2 ht2

theorem sim_latest (hp : Sim e t n) (he : e.limit = 300) (s em a i k : Nat) (p : Option Nat) (w w' : World) (r : Res) (σ : St) (st : List Frame)
    (hm : e.mode s = .latest) (h : exec e.core (n + 1) (.forLatest s em [.atom a] i) w = some (w', r)) (hr : Rel t w σ)
    (ht : σ.thr t = ⟨.next s p ⟨a, i, k⟩, st⟩) : Goes e t σ w' (.restore s p (okOf r)) st := by
  rw [exec] at h
  simp only [body, hr.slot s i] at h
  cases hx : (σ.slots s)[i]? with
  | none =>
    simp only [hx, Option.map_none, runComp, Option.some.injEq, Prod.mk.injEq] at h
    obtain ⟨rfl, rfl⟩ := h
    exact .one (by simp only [Conc.step, ht, hx, hm, reduceCtorEq, if_false]; rfl) (hr.thr _) (by simp [set, okOf])
  | some x =>
    simp only [hx, Option.map_some] at h
    have hd := hr.depth s
    have hmx := hr.maxd s
    by_cases hl : (w.sig s).depth < (w.sig s).maxDepth
    · rw [if_pos hl] at h
      simp only [runComp, Option.some.injEq, Prod.mk.injEq] at h
      obtain ⟨rfl, rfl⟩ := h
      have hl' : e.mode s = .latest ∧ σ.depth s < σ.maxd s := ⟨hm, by omega⟩
      exact .one (by simp only [Conc.step, ht, hx, if_pos hl']; rfl) (hr.thr _) (by simp [set, okOf])
    · rw [if_neg hl] at h
      obtain ⟨w1, r1, h1, h2⟩ := run_call h
      refine (goes_call hp hr ht hx (fun q => hl (by omega)) h1).bind fun σ1 hr1 ht1 => (goes_back he hr1 ht1).bind fun σ2 hr2 ht2 => ?_
      cases r1 with
      | error x =>
        simp only [runComp, Option.some.injEq, Prod.mk.injEq] at h2
        obtain ⟨rfl, rfl⟩ := h2
        rw [if_pos (.inl rfl)] at ht2
        exact ⟨σ2, .refl .., hr2, ht2⟩
      | ok u =>
        rw [if_neg (by simp [okOf, hm])] at ht2
        exact hp.latest s em a (i + 1) k p w1 w' r σ2 st hm (run_done h2) hr2 ht2

theorem sim_queued (hp : Sim e t n) (he : e.limit = 300) (s em a i k : Nat) (p : Option Nat) (w w' : World) (r : Res) (σ : St) (st : List Frame)
    (hm : e.mode s = .queued) (h : exec e.core (n + 1) (.forQueued s em [.atom a] i) w = some (w', r)) (hr : Rel t w σ)
    (ht : σ.thr t = ⟨.next s p ⟨a, i, k⟩, st⟩) :
    if okOf r = true then ∃ σ' j, Reach e t σ σ' ∧ Rel t w' σ' ∧ (σ'.slots s)[j]? = none ∧ σ'.thr t = ⟨.next s p ⟨a, j, k⟩, st⟩
    else Goes e t σ w' (.restore s p false) st := by
  rw [exec] at h
  simp only [body, hr.slot s i] at h
  cases hx : (σ.slots s)[i]? with
  | none =>
    simp only [hx, Option.map_none, runComp, Option.some.injEq, Prod.mk.injEq] at h
    obtain ⟨rfl, rfl⟩ := h
    exact ⟨σ, i, .refl .., hr, hx, ht⟩
  | some x =>
    simp only [hx, Option.map_some] at h
    obtain ⟨w1, r1, h1, h2⟩ := run_call h
    have h3 := (goes_call hp hr ht hx (by simp [hm]) h1).bind fun σ1 hr1 ht1 => goes_back he hr1 ht1
    cases r1 with
    | error x =>
      simp only [runComp, Option.some.injEq, Prod.mk.injEq] at h2
      obtain ⟨rfl, rfl⟩ := h2
      rw [if_pos (.inl rfl)] at h3
      exact h3
    | ok u =>
      simp only at h2
      by_cases hq : ((w1.sig s).emitQueue.length : Int) > LIMIT
      · rw [if_pos hq] at h2
        simp only [runComp, Option.some.injEq, Prod.mk.injEq] at h2
        obtain ⟨rfl, rfl⟩ := h2
        rw [if_pos (.inr ⟨hm, hq⟩)] at h3
        exact h3
      · rw [if_neg hq] at h2
        rw [if_neg (by simp only [okOf, Bool.true_eq_false, false_or]; exact fun q => hq q.2)] at h3
        obtain ⟨σ2, h4, hr2, ht2⟩ := h3
        have h5 := hp.queued s em a (i + 1) k p w1 w' r σ2 st hm (run_done h2) hr2 ht2
        split
        · rename_i hok
          rw [if_pos hok] at h5
          obtain ⟨σ3, j, h6, h7⟩ := h5
          exact ⟨σ3, j, h4.trans h6, h7⟩
        · rename_i hok
          rw [if_neg hok] at h5
          obtain ⟨σ3, h6, h7⟩ := h5
          exact ⟨σ3, h4.trans h6, h7⟩

theorem sim_while (hp : Sim e t n) (s em k : Nat) (p : Option Nat) (w w' : World) (r : Res) (σ : St) (st : List Frame)
    (hm : e.mode s = .queued) (h : exec e.core (n + 1) (.whileQueued s em k) w = some (w', r)) (hr : Rel t w σ)
    (ht : σ.thr t = ⟨(match (σ.queue s)[k]? with
      | some a => .next s p ⟨a, 0, k⟩
      | none => .restore s p true), st⟩) : Goes e t σ w' (.restore s p (okOf r)) st := by
  rw [exec] at h
  simp only [body, hr.queue s, List.getElem?_map] at h
  cases hq : (σ.queue s)[k]? with
  | none =>
    simp only [hq, Option.map_none, runComp, Option.some.injEq, Prod.mk.injEq] at h ht
    obtain ⟨rfl, rfl⟩ := h
    exact ⟨σ, .refl .., hr, ht⟩
  | some a =>
    simp only [hq, Option.map_some] at h ht
    obtain ⟨w1, r1, h1, h2⟩ := run_call h
    have h3 := hp.queued s em a 0 k p w w1 r1 σ st hm h1 hr ht
    cases r1 with
    | error x =>
      simp only [runComp, Option.some.injEq, Prod.mk.injEq] at h2
      obtain ⟨rfl, rfl⟩ := h2
      rw [if_neg (by simp [okOf])] at h3
      exact h3
    | ok u =>
      rw [if_pos (show okOf (Except.ok u) = true from rfl)] at h3
      obtain ⟨σ1, j, h4, hr1, hx, ht1⟩ := h3
      have h5 : Goes e t σ1 w' (.restore s p (okOf r)) st := by
        cases hq1 : (σ1.queue s)[k + 1]? with
        | none =>
          refine .head (σ' := { σ1 with thr := set σ1.thr t ⟨.restore s p true, st⟩ })
            (by simp only [Conc.step, ht1, hx, hm, if_true, hq1]) ?_
          exact hp.while_ s em (k + 1) p w1 w' r _ st hm (run_done h2) (hr1.thr _) (by simp [set, hq1])
        | some b =>
          refine .head (σ' := { σ1 with thr := set σ1.thr t ⟨.next s p ⟨b, 0, k + 1⟩, st⟩ })
            (by simp only [Conc.step, ht1, hx, hm, if_true, hq1]) ?_
          exact hp.while_ s em (k + 1) p w1 w' r _ st hm (run_done h2) (hr1.thr _) (by simp [set, hq1])
      obtain ⟨σ2, h6, h7⟩ := h5
      exact ⟨σ2, h4.trans h6, h7⟩

theorem sim_inner (hp : Sim e t n) (s em : Nat) (p : Option Nat) (w w' : World) (r : Res) (σ : St) (st : List Frame)
    (h : exec e.core (n + 1) (.inner s em) w = some (w', r)) (hr : Rel t w σ) (hne : σ.queue s ≠ []) (ht : σ.thr t = ⟨.start s p, st⟩) :
    Goes e t σ w' (.restore s p (okOf r)) st := by
  rw [exec] at h
  cases hq : σ.queue s with
  | nil => exact absurd hq hne
  | cons a q =>
    have hq' : (w.sig s).emitQueue = [.atom a] :: q.map fun a => [.atom a] := by rw [hr.queue s, hq]; rfl
    have hpop : Rel t (w.popQueue s) { σ with queue := set σ.queue s q } := by
      have h := hr.upd s (fun st => { st with emitQueue := st.emitQueue.tail }) q (σ.depth s) (σ.maxd s)
        (by simp [hq']) (hr.depth s) (hr.maxd s) rfl rfl rfl
      rw [set_self, set_self] at h
      exact h
    have hmode : (e.core.decl s).mode = (e.mode s).core := rfl
    cases hm : e.mode s with
    | immediate =>
      simp only [body, hmode, hm, Mode.core, hq'] at h
      refine .head (σ' := { σ with queue := set σ.queue s q, thr := set σ.thr t ⟨.next s p ⟨a, 0, 0⟩, st⟩ })
        (by simp only [Conc.step, ht, hq, hm, reduceCtorEq, if_false]) ?_
      exact hp.slots s em a 0 0 p _ w' r _ st hm (run_done h) (hpop.thr _) (by simp [set])
    | latest =>
      simp only [body, hmode, hm, Mode.core, hq'] at h
      refine .head (σ' := { σ with queue := set σ.queue s q, thr := set σ.thr t ⟨.next s p ⟨a, 0, 0⟩, st⟩ })
        (by simp only [Conc.step, ht, hq, hm, reduceCtorEq, if_false]) ?_
      exact hp.latest s em a 0 0 p _ w' r _ st hm (run_done h) (hpop.thr _) (by simp [set])
    | queued =>
      simp only [body, hmode, hm, Mode.core, hq'] at h
      refine .head (σ' := { σ with thr := set σ.thr t ⟨.next s p ⟨a, 0, 0⟩, st⟩ })
        (by simp only [Conc.step, ht, hq, hm, if_true]) ?_
      exact hp.while_ s em 0 p _ w' r _ st hm (run_done h) (hr.thr _) (by simp [set, hq])

theorem sim_cb (hp : Sim e t n) (s em x a : Nat) (w w' : World) (r : Res) (σ : St) (st : List Frame)
    (h : exec e.core (n + 1) (.cb (some em) (some s) (coreSlot s x) [.atom a]) w = some (w', r)) (hr : Rel t w σ) (σ1 : St)
    (h1 : σ1.log = σ.log ++ [.call t s x a]) (h2 : σ1.queue = σ.queue) (h3 : σ1.depth = σ.depth) (h4 : σ1.maxd = σ.maxd)
    (h5 : σ1.slots = σ.slots) (h6 : σ1.cur = σ.cur) (h7 : σ1.locks = σ.locks) (ht : σ1.thr t = ⟨.run (e.body s x a), st⟩) :
    Goes e t σ1 w' (.fin (okOf r)) st := by
  rw [exec] at h
  simp only [body, coreSlot] at h
  exact hp.direct s em x a w w' r σ st (run_done h) hr σ1 h1 h2 h3 h4 h5 h6 h7 ht

theorem sim_direct (hp : Sim e t n) (hb : ∀ s x a, Plain (e.body s x a)) (s em x a : Nat) (w w' : World) (r : Res) (σ : St) (st : List Frame)
    (h : exec e.core (n + 1) (.direct (some em) (some s) (coreSlot s x) [.atom a]) w = some (w', r)) (hr : Rel t w σ) (σ1 : St)
    (h1 : σ1.log = σ.log ++ [.call t s x a]) (h2 : σ1.queue = σ.queue) (h3 : σ1.depth = σ.depth) (h4 : σ1.maxd = σ.maxd)
    (h5 : σ1.slots = σ.slots) (h6 : σ1.cur = σ.cur) (h7 : σ1.locks = σ.locks) (ht : σ1.thr t = ⟨.run (e.body s x a), st⟩) :
    Goes e t σ1 w' (.fin (okOf r)) st := by
  rw [exec] at h
  have hd : (Base.method s x).isDead w = false := by simp [Base.isDead, Base.owner?, hr.dead]
  simp only [body, coreSlot, hd, Bool.false_eq_true, if_false, Slot.callArgs, List.nil_append] at h
  obtain ⟨w1, r1, k1, k2⟩ := run_call h
  simp only [runComp, Option.some.injEq, Prod.mk.injEq] at k2
  obtain ⟨rfl, rfl⟩ := k2
  have hr1 : Rel t (w.logCall (some em) (some s) (.method s x) [.atom a]) σ1 := by
    refine ⟨?_, ?_, ?_, ?_, hr.5, ?_, hr.7, hr.8, ?_, ?_⟩
    · rw [h2]; exact hr.1
    · rw [h3]; exact hr.2
    · rw [h4]; exact hr.3
    · rw [h5]; exact hr.4
    · rw [h6]; exact hr.6
    · rw [h7]; exact hr.9
    · rw [h1]; simp [World.logCall, World.ev, coreCall, concCall, hr.log]
  have hbody : e.core.body (.method s x) [.atom a] = trans (e.body s x a) := by simp [Env.core]
  rw [hbody] at k1
  exact (hp.prog _ _ _ _ σ1 st (hb s x a) k1 hr1 ht).bind fun σ2 hr2 ht2 => ⟨σ2, .refl .., hr2.quietLog rfl, ht2⟩

theorem sim (e : Env) (t : Nat) (he : e.limit = 300) (hb : ∀ s x a, Plain (e.body s x a)) : ∀ n, Sim e t n
  | 0 => by
    constructor <;> intros <;> simp_all [exec]
  | n + 1 => by
    have hp := sim e t he hb n
    exact ⟨sim_prog hp, sim_emit hp, sim_runLoop hp he, sim_inner hp, sim_slots hp he, sim_latest hp he, sim_queued hp he,
      sim_while hp, sim_cb hp, sim_direct hp hb⟩

theorem rel_init (e : Env) (prog : Nat → Code) (t : Nat) : Rel t e.world (init e prog) :=
  ⟨fun _ => rfl, fun _ => rfl, fun _ => rfl, fun _ => rfl, fun _ => ⟨rfl, rfl⟩, rfl, rfl, fun _ => rfl, fun _ => .inl rfl, rfl⟩

end Psygnal.Conc
