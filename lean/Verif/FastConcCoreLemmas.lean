import Verif.FastConcCore

/-! # Simulation of the sequential model by one thread that uses `emit_fast` and `emit` -/
namespace Psygnal.FC

/-- The two states agree; the locks are free or held by thread `t` (`/repo/src/psygnal/_signal.py:551-557`). -/
structure Rel (e : Env) (t : Nat) (w : World) (σ : St) : Prop where
  queue : ∀ s, (w.sig s).emitQueue = []
  depth : ∀ s, (w.sig s).depth = σ.depth s
  maxd : ∀ s, (w.sig s).maxDepth = σ.maxd s
  slots : ∀ s, (w.sig s).slots = (e.slots s).map (coreSlot s)
  quiet : ∀ s, (w.sig s).blocked = false ∧ (w.sig s).paused = false
  hook : w.hook = none
  dead : ∀ o, w.dead o = false
  locks : ∀ s, σ.locks s = none ∨ ∃ n, σ.locks s = some (t, n + 1)
  log : w.log.filterMap coreCall = (σ.thr t).log.filterMap fastCall

/-- Thread `t` gets from one state to another. -/
def Reach (e : Env) (t : Nat) (σ σ' : St) : Prop := ∃ n, run e (List.replicate n t) σ = σ'

theorem Reach.refl (e : Env) (t : Nat) (σ : St) : Reach e t σ σ := ⟨0, rfl⟩

theorem run_then (e : Env) : ∀ (l l' : List Nat) (σ : St), run e (l ++ l') σ = run e l' (run e l σ)
  | [], _, _ => rfl
  | _ :: l, l', _ => run_then e l l' _

theorem Reach.trans {e : Env} {t : Nat} {σ σ' σ'' : St} (h : Reach e t σ σ') (h' : Reach e t σ' σ'') : Reach e t σ σ'' := by
  obtain ⟨n, rfl⟩ := h
  obtain ⟨m, rfl⟩ := h'
  exact ⟨n + m, by rw [← List.replicate_append_replicate, run_then]⟩

theorem Reach.step {e : Env} {t : Nat} {σ σ' : St} (h : FC.step e t σ = some σ') : Reach e t σ σ' := ⟨1, by simp [run, h]⟩

/-- From `σ` the thread gets to a state that agrees with `w'`, with this control and stack. -/
def Goes (e : Env) (t : Nat) (σ : St) (w' : World) (c : Ctl) (st : List Frame) : Prop :=
  ∃ σ', Reach e t σ σ' ∧ Rel e t w' σ' ∧ (σ'.thr t).ctl = c ∧ (σ'.thr t).stack = st

variable {e : Env} {t n : Nat}

theorem Goes.head {σ σ' : St} {w' : World} {c : Ctl} {st : List Frame} (h : FC.step e t σ = some σ')
    (h' : Goes e t σ' w' c st) : Goes e t σ w' c st := by
  obtain ⟨σ'', h1, h2⟩ := h'
  exact ⟨σ'', (Reach.step h).trans h1, h2⟩

theorem Goes.bind {σ : St} {w' w'' : World} {c c' : Ctl} {st st' : List Frame} (h : Goes e t σ w' c st)
    (h' : ∀ σ', Rel e t w' σ' → (σ'.thr t).ctl = c → (σ'.thr t).stack = st → Goes e t σ' w'' c' st') : Goes e t σ w'' c' st' := by
  obtain ⟨σ', h1, h2, h3, h3'⟩ := h
  obtain ⟨σ'', h4, h5⟩ := h' σ' h2 h3 h3'
  exact ⟨σ'', h1.trans h4, h5⟩

theorem Goes.one {σ σ' : St} {w' : World} {c : Ctl} {st : List Frame} (h : FC.step e t σ = some σ') (hr : Rel e t w' σ')
    (h1 : (σ'.thr t).ctl = c) (h2 : (σ'.thr t).stack = st) : Goes e t σ w' c st := ⟨σ', .step h, hr, h1, h2⟩

theorem Rel.thr {w : World} {σ : St} (h : Rel e t w σ) (th : Thread) (hl : th.log.filterMap fastCall = (σ.thr t).log.filterMap fastCall) :
    Rel e t w { σ with thr := set σ.thr t th } :=
  ⟨h.1, h.2, h.3, h.4, h.5, h.6, h.7, h.8, by simp [set, hl, h.log]⟩

/-- Did it end normally? -/
def okOf {α : Type} : Except Exc α → Bool
  | .ok _ => true
  | .error _ => false

theorem okOf_wrap (s : Nat) (r : Res) : okOf (wrapRes s r) = okOf r := by
  cases r <;> rfl

/-- Where an emission goes after its loop (`/repo/src/psygnal/_signal.py:1255`, `:1298`). -/
def after (m : Em) (ok : Bool) : Ctl := if m.fast then .test m ok else .dload m ok

/-- For each procedure of the sequential model: where the thread is when it begins, and where when it ends. -/
structure Sim (e : Env) (t n : Nat) : Prop where
  prog : ∀ (c : Code) (w w' : World) (r : Res) (σ : St) (st : List Frame), exec e.core n (.prog (trans c)) w = some (w', r) →
    Rel e t w σ → (σ.thr t).ctl = .run c → (σ.thr t).stack = st → Goes e t σ w' (.fin (okOf r)) st
  emit : ∀ (s a : Nat) (w w' : World) (r : Res) (σ : St) (st : List Frame), exec e.core n (.emit s [.atom a] false) w = some (w', r) →
    Rel e t w σ → (σ.thr t).ctl = .check false s a → (σ.thr t).stack = st → Goes e t σ w' (.fin (okOf r)) st
  fast : ∀ (s a : Nat) (w w' : World) (r : Res) (σ : St) (st : List Frame), exec e.core n (.emitFast s [.atom a]) w = some (w', r) →
    Rel e t w σ → (σ.thr t).ctl = .check true s a → (σ.thr t).stack = st → Goes e t σ w' (.fin (okOf r)) st
  runLoop : ∀ (s a : Nat) (w w' : World) (r : Res) (σ : St) (st : List Frame), exec e.core n (.runLoop s [.atom a]) w = some (w', r) →
    Rel e t w σ → (σ.thr t).ctl = .check false s a → (σ.thr t).stack = st → Goes e t σ w' (.fin (okOf r)) st
  inner : ∀ (em : Nat) (m : Em) (w w' : World) (r : Res) (σ : St) (st : List Frame), m.fast = false →
    exec e.core n (.inner m.s em) w = some (w', r) → (w.sig m.s).emitQueue = [[.atom m.a]] → Rel e t (w.popQueue m.s) σ →
    (σ.thr t).ctl = .next m 0 → (σ.thr t).stack = st → Goes e t σ w' (after m (okOf r)) st
  slots : ∀ (em i : Nat) (m : Em) (w w' : World) (r : Res) (σ : St) (st : List Frame), (m.fast = true ∨ e.latest m.s = false) →
    exec e.core n (.forSlots m.s em [.atom m.a] i) w = some (w', r) → Rel e t w σ → (σ.thr t).ctl = .next m i → (σ.thr t).stack = st →
    Goes e t σ w' (after m (okOf r)) st
  latest : ∀ (em i : Nat) (m : Em) (w w' : World) (r : Res) (σ : St) (st : List Frame), m.fast = false → e.latest m.s = true →
    exec e.core n (.forLatest m.s em [.atom m.a] i) w = some (w', r) → Rel e t w σ → (σ.thr t).ctl = .next m i → (σ.thr t).stack = st →
    Goes e t σ w' (after m (okOf r)) st
  cb : ∀ (em x : Nat) (m : Em) (w w' : World) (r : Res) (σ : St) (st : List Frame),
    exec e.core n (.cb (some em) (some m.s) (coreSlot m.s x) [.atom m.a]) w = some (w', r) → Rel e t w σ → ∀ k,
    Goes e t { σ with thr := set σ.thr t ⟨.run (e.body m.s x m.a), st, k, (σ.thr t).log ++ [.call m x]⟩ } w' (.fin (okOf r)) st
  direct : ∀ (em x : Nat) (m : Em) (w w' : World) (r : Res) (σ : St) (st : List Frame),
    exec e.core n (.direct (some em) (some m.s) (coreSlot m.s x) [.atom m.a]) w = some (w', r) → Rel e t w σ → ∀ k,
    Goes e t { σ with thr := set σ.thr t ⟨.run (e.body m.s x m.a), st, k, (σ.thr t).log ++ [.call m x]⟩ } w' (.fin (okOf r)) st

theorem run_done {f : Task → World → Option (World × Res)} {tk : Task} {w w' : World} {r : Res}
    (h : runComp f (.call tk w .done) = some (w', r)) : f tk w = some (w', r) := by
  simp only [runComp] at h
  cases h1 : f tk w with
  | none => rw [h1] at h; cases h
  | some q =>
    obtain ⟨q1, q2⟩ := q
    rw [h1] at h
    simpa [runComp] using h

theorem run_call {f : Task → World → Option (World × Res)} {tk : Task} {w w' : World} {r : Res} {k : World → Res → Comp}
    (h : runComp f (.call tk w k) = some (w', r)) : ∃ w1 r1, f tk w = some (w1, r1) ∧ runComp f (k w1 r1) = some (w', r) := by
  simp only [runComp] at h
  cases h1 : f tk w with
  | none => rw [h1] at h; cases h
  | some q => rw [h1] at h; exact ⟨q.1, q.2, rfl, h⟩

theorem fm_done (l : List Ev) (m : Em) (ok : Bool) : (l ++ [Ev.done m ok]).filterMap fastCall = l.filterMap fastCall := by
  simp [List.filterMap_append, List.filterMap_cons, fastCall]

theorem set_at {α : Type} (f : Nat → α) (s : Nat) (v : α) : set f s v s = v := by simp [set]

theorem goes_emit {s a : Nat} {f : Bool} {k : Bool → Code} {w w1 w' : World} {r1 r : Res} {σ : St} {st : List Frame}
    (hp : Sim e t n) (hr : Rel e t w σ) (hc : (σ.thr t).ctl = .run (.emit f s a k)) (hst : (σ.thr t).stack = st)
    (hg : ∀ σ1, Rel e t w σ1 → (σ1.thr t).ctl = .check f s a → (σ1.thr t).stack = .cont k :: st → Goes e t σ1 w1 (.fin (okOf r1)) (.cont k :: st))
    (h2 : exec e.core n (.prog (trans (k (okOf r1)))) w1 = some (w', r)) : Goes e t σ w' (.fin (okOf r)) st := by
  refine .head (by simp only [FC.step, hc]; rfl) ?_
  refine Goes.bind (hg _ (hr.thr _ (by rfl)) (by simp [set_at]) (by simp [set_at, hst])) ?_
  intro σ1 hr1 hc1 hs1
  refine .head (by simp only [FC.step, hc1, hs1]; rfl) ?_
  exact hp.prog _ w1 w' r _ st h2 (hr1.thr _ (by rfl)) (by simp [set_at]) (by simp [set_at])

theorem sim_prog (hp : Sim e t n) (c : Code) (w w' : World) (r : Res) (σ : St) (st : List Frame)
    (h : exec e.core (n + 1) (.prog (trans c)) w = some (w', r)) (hr : Rel e t w σ) (hc : (σ.thr t).ctl = .run c)
    (hst : (σ.thr t).stack = st) : Goes e t σ w' (.fin (okOf r)) st := by
  cases c with
  | ret =>
    simp only [trans, exec, body, runComp, Option.some.injEq, Prod.mk.injEq] at h
    obtain ⟨rfl, rfl⟩ := h
    exact .one (by simp only [FC.step, hc]; rfl) (hr.thr _ (by rfl)) (by simp [set_at, okOf]) (by simp [set_at, hst])
  | raise =>
    simp only [trans, exec, body, runComp, Option.some.injEq, Prod.mk.injEq] at h
    obtain ⟨rfl, rfl⟩ := h
    exact .one (by simp only [FC.step, hc]; rfl) (hr.thr _ (by rfl)) (by simp [set_at, okOf]) (by simp [set_at, hst])
  | emit f s a k =>
    cases f with
    | false =>
      simp only [trans, exec, body, Act.task?] at h
      obtain ⟨w1, r1, h1, h2⟩ := run_call h
      refine goes_emit hp hr hc hst (fun σ1 a b c => hp.emit s _ w w1 r1 σ1 _ h1 a b c) ?_
      cases r1 with
      | ok u => exact run_done (f := exec e.core n) (by simpa only [Except.map, okOf] using h2)
      | error u => exact run_done (f := exec e.core n) (by simpa only [Except.map, okOf] using h2)
    | true =>
      simp only [trans, exec, body, Act.task?] at h
      obtain ⟨w1, r1, h1, h2⟩ := run_call h
      refine goes_emit hp hr hc hst (fun σ1 a b c => hp.fast s _ w w1 r1 σ1 _ h1 a b c) ?_
      cases r1 with
      | ok u => exact run_done (f := exec e.core n) (by simpa only [Except.map, okOf] using h2)
      | error u => exact run_done (f := exec e.core n) (by simpa only [Except.map, okOf] using h2)

theorem sim_emit (hp : Sim e t n) (s a : Nat) (w w' : World) (r : Res) (σ : St) (st : List Frame)
    (h : exec e.core (n + 1) (.emit s [.atom a] false) w = some (w', r)) (hr : Rel e t w σ) (hc : (σ.thr t).ctl = .check false s a)
    (hst : (σ.thr t).stack = st) : Goes e t σ w' (.fin (okOf r)) st := by
  rw [exec] at h
  simp only [body, (hr.quiet s).1, (hr.quiet s).2, hr.hook, Bool.false_eq_true, if_false, false_and] at h
  exact hp.runLoop s a w w' r σ st (run_done h) hr hc hst

theorem upd_sig (w : World) (s : Nat) (f : SigState → SigState) (x : Nat) : (w.upd s f).sig x = if x = s then f (w.sig x) else w.sig x := rfl

theorem set_self {α : Type} (f : Nat → α) (s : Nat) : set f s (f s) = f := by
  funext x
  simp only [set]
  split
  · rename_i h; rw [h]
  · rfl

/-- A change of the attributes of one signal, the same in both states. -/
theorem Rel.upd {w : World} {σ : St} (hr : Rel e t w σ) (s : Nat) (f : SigState → SigState) (d m : Int)
    (hq : (f (w.sig s)).emitQueue = []) (hd : (f (w.sig s)).depth = d) (hm : (f (w.sig s)).maxDepth = m)
    (hs : (f (w.sig s)).slots = (w.sig s).slots) (hb : (f (w.sig s)).blocked = (w.sig s).blocked)
    (hp : (f (w.sig s)).paused = (w.sig s).paused) :
    Rel e t (w.upd s f) { σ with depth := set σ.depth s d, maxd := set σ.maxd s m } := by
  refine ⟨?_, ?_, ?_, ?_, ?_, hr.hook, hr.dead, hr.locks, hr.log⟩
  · intro x
    simp only [upd_sig]
    split
    · rename_i h; subst h; exact hq
    · exact hr.queue x
  · intro x
    simp only [upd_sig, set]
    split
    · rename_i h; subst h; exact hd
    · exact hr.depth x
  · intro x
    simp only [upd_sig, set]
    split
    · rename_i h; subst h; exact hm
    · exact hr.maxd x
  · intro x
    simp only [upd_sig]
    split
    · rename_i h; subst h; rw [hs]; exact hr.slots x
    · exact hr.slots x
  · intro x
    simp only [upd_sig]
    split
    · rename_i h; subst h; rw [hb, hp]; exact hr.quiet x
    · exact hr.quiet x

theorem Rel.updDepth {w : World} {σ : St} (hr : Rel e t w σ) (s : Nat) (f : SigState → SigState) (d : Int)
    (hq : (f (w.sig s)).emitQueue = []) (hd : (f (w.sig s)).depth = d) (hm : (f (w.sig s)).maxDepth = (w.sig s).maxDepth)
    (hs : (f (w.sig s)).slots = (w.sig s).slots) (hb : (f (w.sig s)).blocked = (w.sig s).blocked)
    (hp : (f (w.sig s)).paused = (w.sig s).paused) :
    Rel e t (w.upd s f) { σ with depth := set σ.depth s d } := by
  have h := hr.upd s f d (σ.maxd s) hq hd (hm.trans (hr.maxd s)) hs hb hp
  rwa [set_self] at h

theorem Rel.quietLog {w : World} {σ : St} (hr : Rel e t w σ) {ev : Psygnal.Ev} (he : coreCall ev = none) : Rel e t (w.ev ev) σ :=
  ⟨hr.1, hr.2, hr.3, hr.4, hr.5, hr.6, hr.7, hr.8, by simp [World.ev, he, hr.log]⟩

theorem Rel.fields {w : World} {σ : St} (hr : Rel e t w σ) (em : Option Nat) (k : Nat) : Rel e t { w with emitter := em, nextEm := k } σ :=
  ⟨hr.1, hr.2, hr.3, hr.4, hr.5, hr.6, hr.7, hr.8, hr.9⟩

theorem sim_fast (hp : Sim e t n) (he : e.limit = 300) (s a : Nat) (w w' : World) (r : Res) (σ : St) (st : List Frame)
    (h : exec e.core (n + 1) (.emitFast s [.atom a]) w = some (w', r)) (hr : Rel e t w σ) (hc : (σ.thr t).ctl = .check true s a)
    (hst : (σ.thr t).stack = st) : Goes e t σ w' (.fin (okOf r)) st := by
  rw [exec] at h
  simp only [body, (hr.quiet s).1, (hr.quiet s).2, Bool.false_eq_true, if_false] at h
  have hd := hr.depth s
  by_cases hl : (w.sig s).depth ≥ LIMIT
  · rw [if_pos hl] at h
    simp only [runComp, Option.some.injEq, Prod.mk.injEq] at h
    obtain ⟨rfl, rfl⟩ := h
    have hl' : e.limit ≤ σ.depth s := by simp only [LIMIT] at hl; omega
    exact .one (by simp only [FC.step, hc, if_pos hl']; rfl) (hr.thr _ (by simp [fastCall])) (by simp [set_at, okOf]) (by simp [set_at, hst])
  · rw [if_neg hl] at h
    have hl' : ¬ e.limit ≤ σ.depth s := by simp only [LIMIT] at hl; omega
    obtain ⟨w1, r1, h1, h2⟩ := run_call h
    simp only [runComp, Option.some.injEq, Prod.mk.injEq] at h2
    obtain ⟨rfl, rfl⟩ := h2
    refine .head (by simp only [FC.step, hc, if_neg hl', if_true]; rfl) ?_
    refine .head (by simp only [FC.step, set_at]; rfl) ?_
    refine .head (by simp only [FC.step, set_at, if_true]; rfl) ?_
    have hr0 : Rel e t (w.startFast s [.atom a]) { σ with depth := set σ.depth s (σ.depth s + 1) } := by
      have q := hr.updDepth s (fun st => { st with depth := st.depth + 1 }) (σ.depth s + 1) (hr.queue s) (by simp [hd]) rfl rfl rfl rfl
      exact ((q.quietLog (ev := .fast s [.atom a] w.nextEm) rfl).fields w.emitter (w.nextEm + 1))
    rw [okOf_wrap]
    refine Goes.bind (w' := w1) (c := .test ⟨(σ.thr t).n, true, s, a⟩ (okOf r1)) (st := st) ?_ ?_
    · refine hp.slots w.nextEm 0 ⟨(σ.thr t).n, true, s, a⟩ _ w1 r1 _ st (.inl rfl) h1 ?_ (by simp [set_at]) (by simp [set_at, hst])
      exact ⟨hr0.1, hr0.2, hr0.3, hr0.4, hr0.5, hr0.6, hr0.7, hr0.8, by simpa [set_at] using hr0.9⟩
    · intro σ1 hr1 hc1 hs1
      have hd1 := hr1.depth s
      by_cases hpos : 0 < σ1.depth s
      · refine .head (by simp only [FC.step, hc1, if_pos hpos]; rfl) ?_
        refine .head (by simp only [FC.step, set_at]; rfl) ?_
        refine .one (by simp only [FC.step, set_at, if_true]; rfl) ?_ (by simp [set_at]) (by simp [set_at, hs1])
        have hpos' : (w1.sig s).depth > 0 := by omega
        have q := hr1.updDepth s (fun st => if st.depth > 0 then { st with depth := st.depth - 1 } else st) (σ1.depth s - 1)
          (by rw [if_pos hpos']; exact hr1.queue s) (by rw [if_pos hpos']; simp [hd1]) (by rw [if_pos hpos']) (by rw [if_pos hpos'])
          (by rw [if_pos hpos']) (by rw [if_pos hpos'])
        exact ⟨q.1, q.2, q.3, q.4, q.5, q.6, q.7, q.8, Eq.trans hr1.log (by simp only [set_at]; exact (fm_done ..).symm)⟩
      · refine .one (by simp only [FC.step, hc1, if_neg hpos]; rfl) ?_ (by simp [set_at]) (by simp [set_at, hs1])
        have hpos' : ¬ (w1.sig s).depth > 0 := by omega
        have q := hr1.updDepth s (fun st => if st.depth > 0 then { st with depth := st.depth - 1 } else st) (σ1.depth s)
          (by rw [if_neg hpos']; exact hr1.queue s) (by rw [if_neg hpos']; exact hd1) (by rw [if_neg hpos']) (by rw [if_neg hpos'])
          (by rw [if_neg hpos']) (by rw [if_neg hpos'])
        rw [set_self] at q
        exact q.thr _ (by simp [fastCall])

/-- Taking and giving back a lock. -/
theorem Rel.lock {w : World} {σ : St} (hr : Rel e t w σ) (s : Nat) : ∃ m, acquire t (σ.locks s) = some (t, m + 1) ∧
    Rel e t w { σ with locks := set σ.locks s (some (t, m + 1)) } := by
  have key : ∀ m, Rel e t w { σ with locks := set σ.locks s (some (t, m + 1)) } := by
    intro m
    refine ⟨hr.1, hr.2, hr.3, hr.4, hr.5, hr.6, hr.7, ?_, hr.9⟩
    intro x
    simp only [set]
    split
    · exact .inr ⟨m, rfl⟩
    · exact hr.locks x
  rcases hr.locks s with h | ⟨m, h⟩
  · exact ⟨0, by rw [h]; rfl, key 0⟩
  · exact ⟨m + 1, by rw [h]; simp [acquire], key _⟩

theorem Rel.release {w : World} {σ : St} (hr : Rel e t w σ) (s : Nat) : Rel e t w { σ with locks := set σ.locks s (unlock (σ.locks s)) } := by
  refine ⟨hr.1, hr.2, hr.3, hr.4, hr.5, hr.6, hr.7, ?_, hr.9⟩
  intro x
  simp only [set]
  split
  · rcases hr.locks s with h | ⟨m, h⟩
    · rw [h]; exact .inl rfl
    · rw [h]
      cases m with
      | zero => exact .inl rfl
      | succ m => exact .inr ⟨m, rfl⟩
  · exact hr.locks x

/-- The end of an emission by `emit`. -/
theorem goes_leave {w : World} {σ : St} {st : List Frame} {m : Em} {ok : Bool} (p : Option Nat) (hf : m.fast = false) (hr : Rel e t w σ)
    (hc : (σ.thr t).ctl = .dload m ok) (hst : (σ.thr t).stack = st) : Goes e t σ (w.endLoop m.s p) (.fin ok) st := by
  have hd := hr.depth m.s
  refine .head (by simp only [FC.step, hc]; rfl) ?_
  refine .head (by simp only [FC.step, set_at, hf, Bool.false_eq_true, if_false]; rfl) ?_
  by_cases hz : σ.depth m.s - 1 ≤ 0
  · refine .head (by simp only [FC.step, set_at, if_pos hz]; rfl) ?_
    refine .head (by simp only [FC.step, set_at]; rfl) ?_
    refine .one (by simp only [FC.step, set_at]; rfl) ?_ (by simp [set_at]) (by simp [set_at, hst])
    have hz' : (w.sig m.s).depth - 1 ≤ 0 := by omega
    have q := ((hr.upd m.s SigState.leave 0 0 (by simp [SigState.leave, hz']) (by simp [SigState.leave, hz']) (by simp [SigState.leave, hz'])
      (by simp [SigState.leave, hz']) (by simp [SigState.leave, hz']) (by simp [SigState.leave, hz'])).release m.s).fields p w.nextEm
    refine ⟨q.1, ?_, q.3, q.4, q.5, q.6, q.7, q.8, ?_⟩
    · intro x
      refine Eq.trans (q.2 x) ?_
      simp only [set]
      split <;> rfl
    · exact Eq.trans hr.log (by simp only [set_at]; exact (fm_done ..).symm)
  · refine .head (by simp only [FC.step, set_at, if_neg hz]; rfl) ?_
    refine .one (by simp only [FC.step, set_at]; rfl) ?_ (by simp [set_at]) (by simp [set_at, hst])
    have hz' : ¬ (w.sig m.s).depth - 1 ≤ 0 := by omega
    have q := ((hr.updDepth m.s SigState.leave (σ.depth m.s - 1) (by simp [SigState.leave, hz']) (by simp [SigState.leave, hd, hz])
      (by simp [SigState.leave, hz']) (by simp [SigState.leave, hz']) (by simp [SigState.leave, hz']) (by simp [SigState.leave, hz'])).release m.s).fields p w.nextEm
    exact ⟨q.1, q.2, q.3, q.4, q.5, q.6, q.7, q.8, Eq.trans hr.log (by simp only [set_at]; exact (fm_done ..).symm)⟩

theorem sim_runLoop (hp : Sim e t n) (he : e.limit = 300) (s a : Nat) (w w' : World) (r : Res) (σ : St) (st : List Frame)
    (h : exec e.core (n + 1) (.runLoop s [.atom a]) w = some (w', r)) (hr : Rel e t w σ) (hc : (σ.thr t).ctl = .check false s a)
    (hst : (σ.thr t).stack = st) : Goes e t σ w' (.fin (okOf r)) st := by
  rw [exec] at h
  simp only [body] at h
  have hd := hr.depth s
  by_cases hl : (w.sig s).depth ≥ LIMIT
  · rw [if_pos hl] at h
    simp only [runComp, Option.some.injEq, Prod.mk.injEq] at h
    obtain ⟨rfl, rfl⟩ := h
    have hl' : e.limit ≤ σ.depth s := by simp only [LIMIT] at hl; omega
    exact .one (by simp only [FC.step, hc, if_pos hl']; rfl) (hr.thr _ (by simp [fastCall])) (by simp [set_at, okOf]) (by simp [set_at, hst])
  · rw [if_neg hl] at h
    have hl' : ¬ e.limit ≤ σ.depth s := by simp only [LIMIT] at hl; omega
    have hq : ¬ ((w.enqueue s [.atom a]).sig s).emitQueue.length > 1 := by
      simp [World.enqueue, World.ev, upd_sig, hr.queue s]
    rw [if_neg hq] at h
    obtain ⟨w1, r1, h1, h2⟩ := run_call h
    simp only [runComp, Option.some.injEq, Prod.mk.injEq] at h2
    obtain ⟨rfl, rfl⟩ := h2
    obtain ⟨m, hm, hrl⟩ := hr.lock s
    refine .head (by simp only [FC.step, hc, if_neg hl', Bool.false_eq_true, if_false]; rfl) ?_
    refine .head (by simp only [FC.step, set_at, hm]; rfl) ?_
    refine .head (by simp only [FC.step, set_at]; rfl) ?_
    refine .head (by simp only [FC.step, set_at, Bool.false_eq_true, if_false]; rfl) ?_
    refine .head (by simp only [FC.step, set_at]; rfl) ?_
    rw [okOf_wrap]
    refine Goes.bind (w' := w1) (c := .dload ⟨(σ.thr t).n, false, s, a⟩ (okOf r1)) (st := st) ?_ ?_
    · refine hp.inner w.nextEm ⟨(σ.thr t).n, false, s, a⟩ _ w1 r1 _ st rfl h1 ?_ ?_ (by simp [set_at]) (by simp [set_at, hst])
      · simp [World.startLoop, World.enqueue, World.ev, upd_sig, SigState.enter, hr.queue s]
      · have q := hrl.upd s SigState.enter (σ.depth s + 1) (max (σ.maxd s) (σ.depth s + 1)) (hr.queue s) (by simp [SigState.enter, hd])
          (by simp [SigState.enter, hd, hr.maxd s]) rfl rfl rfl
        have q := (q.quietLog (ev := .req s [.atom a]) rfl).fields (some s) (w.nextEm + 1)
        refine ⟨?_, ?_, ?_, ?_, ?_, q.6, q.7, ?_, ?_⟩
        · intro x
          by_cases hx : x = s
          · subst hx; simp [World.popQueue, World.startLoop, World.enqueue, World.ev, upd_sig, SigState.enter, hr.queue]
          · simp [World.popQueue, World.startLoop, World.enqueue, World.ev, upd_sig, hx, hr.queue]
        · intro x
          have := q.2 x
          by_cases hx : x = s
          · subst hx; simpa [World.popQueue, World.startLoop, World.enqueue, World.ev, upd_sig, SigState.enter, set] using this
          · simpa [World.popQueue, World.startLoop, World.enqueue, World.ev, upd_sig, hx, set] using this
        · intro x
          have := q.3 x
          by_cases hx : x = s
          · subst hx; simpa [World.popQueue, World.startLoop, World.enqueue, World.ev, upd_sig, SigState.enter, set] using this
          · simpa [World.popQueue, World.startLoop, World.enqueue, World.ev, upd_sig, hx, set] using this
        · intro x
          have := q.4 x
          by_cases hx : x = s
          · subst hx; simpa [World.popQueue, World.startLoop, World.enqueue, World.ev, upd_sig, SigState.enter, set] using this
          · simpa [World.popQueue, World.startLoop, World.enqueue, World.ev, upd_sig, hx, set] using this
        · intro x
          have := q.5 x
          by_cases hx : x = s
          · subst hx; simpa [World.popQueue, World.startLoop, World.enqueue, World.ev, upd_sig, SigState.enter, set] using this
          · simpa [World.popQueue, World.startLoop, World.enqueue, World.ev, upd_sig, hx, set] using this
        · intro x
          exact q.8 x
        · have := q.9
          simpa [World.popQueue, World.startLoop, World.enqueue, World.ev, World.upd, set_at] using this
    · intro σ1 hr1 hc1 hs1
      exact goes_leave (m := ⟨(σ.thr t).n, false, s, a⟩) w.emitter rfl hr1 hc1 hs1

theorem Rel.slot {w : World} {σ : St} (hr : Rel e t w σ) (s i : Nat) : (w.sig s).slots[i]? = ((e.slots s)[i]?).map (coreSlot s) := by
  rw [hr.slots s, List.getElem?_map]

theorem goes_call (hp : Sim e t n) {em i x : Nat} {m : Em} {w w1 : World} {r1 : Res} {σ : St} {st : List Frame}
    (hr : Rel e t w σ) (hc : (σ.thr t).ctl = .next m i) (hst : (σ.thr t).stack = st) (hx : (e.slots m.s)[i]? = some x)
    (hl : ¬ (m.fast = false ∧ e.latest m.s ∧ σ.depth m.s < σ.maxd m.s))
    (h : exec e.core n (.cb (some em) (some m.s) (coreSlot m.s x) [.atom m.a]) w = some (w1, r1)) :
    Goes e t σ w1 (match okOf r1 with | true => .next m (i + 1) | false => after m false) st := by
  refine Goes.bind (w' := w1) (c := .fin (okOf r1)) (st := .loop m (i + 1) :: st)
    (.head (by simp only [FC.step, hc, hx, if_neg hl, hst]; rfl) (hp.cb em x m w w1 r1 σ _ h hr _)) ?_
  intro σ1 hr1 hc1 hs1
  cases hok : okOf r1 with
  | true => exact .one (by simp only [FC.step, hc1, hs1, hok, if_true]; rfl) (hr1.thr _ (by rfl)) (by simp [set_at]) (by simp [set_at])
  | false =>
    exact .one (by simp only [FC.step, hc1, hs1, hok, Bool.false_eq_true, if_false]; rfl) (hr1.thr _ (by rfl)) (by simp [set_at, after]) (by simp [set_at])

theorem sim_slots (hp : Sim e t n) (em i : Nat) (m : Em) (w w' : World) (r : Res) (σ : St) (st : List Frame)
    (hm : m.fast = true ∨ e.latest m.s = false) (h : exec e.core (n + 1) (.forSlots m.s em [.atom m.a] i) w = some (w', r)) (hr : Rel e t w σ)
    (hc : (σ.thr t).ctl = .next m i) (hst : (σ.thr t).stack = st) : Goes e t σ w' (after m (okOf r)) st := by
  rw [exec] at h
  simp only [body, hr.slot m.s i] at h
  cases hx : (e.slots m.s)[i]? with
  | none =>
    simp only [hx, Option.map_none, runComp, Option.some.injEq, Prod.mk.injEq] at h
    obtain ⟨rfl, rfl⟩ := h
    exact .one (by simp only [FC.step, hc, hx]; rfl) (hr.thr _ (by rfl)) (by simp [set_at, okOf, after]) (by simp [set_at, hst])
  | some x =>
    simp only [hx, Option.map_some] at h
    obtain ⟨w1, r1, h1, h2⟩ := run_call h
    refine (goes_call hp hr hc hst hx (by grind) h1).bind fun σ1 hr1 hc1 hs1 => ?_
    cases r1 with
    | error x =>
      simp only [runComp, Option.some.injEq, Prod.mk.injEq] at h2
      obtain ⟨rfl, rfl⟩ := h2
      exact ⟨σ1, .refl .., hr1, hc1, hs1⟩
    | ok u => exact hp.slots em (i + 1) m w1 w' r σ1 st hm (run_done h2) hr1 hc1 hs1

theorem sim_latest (hp : Sim e t n) (em i : Nat) (m : Em) (w w' : World) (r : Res) (σ : St) (st : List Frame)
    (hf : m.fast = false) (hm : e.latest m.s = true) (h : exec e.core (n + 1) (.forLatest m.s em [.atom m.a] i) w = some (w', r))
    (hr : Rel e t w σ) (hc : (σ.thr t).ctl = .next m i) (hst : (σ.thr t).stack = st) : Goes e t σ w' (after m (okOf r)) st := by
  rw [exec] at h
  simp only [body, hr.slot m.s i] at h
  cases hx : (e.slots m.s)[i]? with
  | none =>
    simp only [hx, Option.map_none, runComp, Option.some.injEq, Prod.mk.injEq] at h
    obtain ⟨rfl, rfl⟩ := h
    exact .one (by simp only [FC.step, hc, hx]; rfl) (hr.thr _ (by rfl)) (by simp [set_at, okOf, after]) (by simp [set_at, hst])
  | some x =>
    simp only [hx, Option.map_some] at h
    have hd := hr.depth m.s
    have hmx := hr.maxd m.s
    by_cases hl : (w.sig m.s).depth < (w.sig m.s).maxDepth
    · rw [if_pos hl] at h
      simp only [runComp, Option.some.injEq, Prod.mk.injEq] at h
      obtain ⟨rfl, rfl⟩ := h
      have hl' : m.fast = false ∧ e.latest m.s = true ∧ σ.depth m.s < σ.maxd m.s := ⟨hf, hm, by omega⟩
      exact .one (by simp only [FC.step, hc, hx, if_pos hl']; rfl) (hr.thr _ (by rfl)) (by simp [set_at, okOf, after, hf]) (by simp [set_at, hst])
    · rw [if_neg hl] at h
      obtain ⟨w1, r1, h1, h2⟩ := run_call h
      refine (goes_call hp hr hc hst hx (fun q => hl (by omega)) h1).bind fun σ1 hr1 hc1 hs1 => ?_
      cases r1 with
      | error x =>
        simp only [runComp, Option.some.injEq, Prod.mk.injEq] at h2
        obtain ⟨rfl, rfl⟩ := h2
        exact ⟨σ1, .refl .., hr1, hc1, hs1⟩
      | ok u => exact hp.latest em (i + 1) m w1 w' r σ1 st hf hm (run_done h2) hr1 hc1 hs1

theorem sim_inner (hp : Sim e t n) (em : Nat) (m : Em) (w w' : World) (r : Res) (σ : St) (st : List Frame) (hf : m.fast = false)
    (h : exec e.core (n + 1) (.inner m.s em) w = some (w', r)) (hq : (w.sig m.s).emitQueue = [[.atom m.a]]) (hr : Rel e t (w.popQueue m.s) σ)
    (hc : (σ.thr t).ctl = .next m 0) (hst : (σ.thr t).stack = st) : Goes e t σ w' (after m (okOf r)) st := by
  rw [exec] at h
  have hmode : (e.core.decl m.s).mode = if e.latest m.s then .latest else .immediate := rfl
  cases hl : e.latest m.s with
  | false =>
    simp only [body, hmode, hl, hq, Bool.false_eq_true, if_false] at h
    exact hp.slots em 0 m _ w' r σ st (.inr hl) (run_done h) hr hc hst
  | true =>
    simp only [body, hmode, hl, hq, if_true] at h
    exact hp.latest em 0 m _ w' r σ st hf hl (run_done h) hr hc hst

theorem sim_cb (hp : Sim e t n) (em x : Nat) (m : Em) (w w' : World) (r : Res) (σ : St) (st : List Frame)
    (h : exec e.core (n + 1) (.cb (some em) (some m.s) (coreSlot m.s x) [.atom m.a]) w = some (w', r)) (hr : Rel e t w σ) (k : Nat) :
    Goes e t { σ with thr := set σ.thr t ⟨.run (e.body m.s x m.a), st, k, (σ.thr t).log ++ [.call m x]⟩ } w' (.fin (okOf r)) st := by
  rw [exec] at h
  simp only [body, coreSlot] at h
  exact hp.direct em x m w w' r σ st (run_done h) hr k

theorem sim_direct (hp : Sim e t n) (em x : Nat) (m : Em) (w w' : World) (r : Res) (σ : St) (st : List Frame)
    (h : exec e.core (n + 1) (.direct (some em) (some m.s) (coreSlot m.s x) [.atom m.a]) w = some (w', r)) (hr : Rel e t w σ) (k : Nat) :
    Goes e t { σ with thr := set σ.thr t ⟨.run (e.body m.s x m.a), st, k, (σ.thr t).log ++ [.call m x]⟩ } w' (.fin (okOf r)) st := by
  rw [exec] at h
  have hd : (Base.method m.s x).isDead w = false := by simp [Base.isDead, Base.owner?, hr.dead]
  simp only [body, coreSlot, hd, Bool.false_eq_true, if_false, Slot.callArgs, List.nil_append] at h
  obtain ⟨w1, r1, k1, k2⟩ := run_call h
  simp only [runComp, Option.some.injEq, Prod.mk.injEq] at k2
  obtain ⟨rfl, rfl⟩ := k2
  have hbody : e.core.body (.method m.s x) [.atom m.a] = trans (e.body m.s x m.a) := by simp [Env.core]
  rw [hbody] at k1
  refine (hp.prog _ _ _ _ _ st k1 ?_ (by simp [set_at]) (by simp [set_at])).bind fun σ2 hr2 hc2 hs2 => ⟨σ2, .refl .., hr2.quietLog rfl, hc2, hs2⟩
  exact ⟨hr.1, hr.2, hr.3, hr.4, hr.5, hr.6, hr.7, hr.8, by simp [World.logCall, World.ev, coreCall, fastCall, hr.log, set_at]⟩

theorem sim (e : Env) (t : Nat) (he : e.limit = 300) : ∀ n, Sim e t n
  | 0 => by
    constructor <;> intros <;> simp_all [exec]
  | n + 1 => by
    have hp := sim e t he n
    exact ⟨sim_prog hp, sim_emit hp, sim_fast hp he, sim_runLoop hp he, sim_inner hp, sim_slots hp, sim_latest hp, sim_cb hp, sim_direct hp⟩

theorem rel_init (e : Env) (prog : Nat → Code) (t : Nat) : Rel e t e.world (init prog) :=
  ⟨fun _ => rfl, fun _ => rfl, fun _ => rfl, fun _ => rfl, fun _ => ⟨rfl, rfl⟩, rfl, fun _ => rfl, fun _ => .inl rfl, rfl⟩

end Psygnal.FC
