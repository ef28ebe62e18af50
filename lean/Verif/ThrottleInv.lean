import Verif.ThrottleLemmas

/-! # Invariants of throttlers and debouncers when methods run as a whole -/
namespace Psygnal.Thr

/-- Every invocation in the trace stands in relation `R` to what came before it. -/
def Each (R : List Obs → Nat → Nat → Nat → Prop) (tr : List Obs) : Prop :=
  ∀ p t a k q, tr = p ++ .invoked t a k :: q → R p t a k

theorem Each.snoc {R : List Obs → Nat → Nat → Nat → Prop} {tr : List Obs} (h : Each R tr) (o : Obs)
    (ho : ∀ t a k, o = .invoked t a k → R tr t a k) : Each R (tr ++ [o]) := by
  intro p t a k q e
  rcases List.eq_nil_or_concat q with rfl | ⟨q', x, rfl⟩
  · rw [List.append_eq_append_iff] at e
    have e' := List.append_inj_right' (s₁ := tr) (t₁ := [o]) (s₂ := p) (t₂ := [.invoked t a k]) (by
      rcases e with ⟨as, h1, h2⟩ | ⟨bs, h1, h2⟩
      · rw [h1, List.append_assoc, ← h2]
      · rw [h1, List.append_assoc, ← h2]) rfl
    have e'' := List.append_inj_left' (s₁ := tr) (t₁ := [o]) (s₂ := p) (t₂ := [.invoked t a k]) (by
      rcases e with ⟨as, h1, h2⟩ | ⟨bs, h1, h2⟩
      · rw [h1, List.append_assoc, ← h2]
      · rw [h1, List.append_assoc, ← h2]) rfl
    subst e''
    exact ho _ _ _ (List.cons.inj e').1
  · have e2 : tr ++ [o] = (p ++ .invoked t a k :: q') ++ [x] := by simpa using e
    exact h p t a k q' (List.append_inj_left' e2 rfl)

theorem Each.nil {R : List Obs → Nat → Nat → Nat → Prop} : Each R [] := by
  intro p t a k q e
  have := congrArg List.length e
  simp at this

/-- The function has been called before, at time `t` last, or not at all. -/
def lastInvoked : List Obs → Nat → Prop := fun tr t => ∃ a k, .invoked t a k ∈ tr

/-! ## The interval -/

/-- Neither `cancel` nor `flush`. -/
def Ev.plain : Ev → Prop
  | .cancel => False
  | .flush => False
  | _ => True

structure Gap (c : Cfg) (v : View) : Prop where
  fin : ∀ d, v.tm.status = .waiting d → v.tm.finished = false
  each : Each (fun p t _ _ => ∀ t' a k, .invoked t' a k ∈ p → t' + c.interval ≤ t) v.trace
  wait : ∀ d t a k, v.tm.status = .waiting d → .invoked t a k ∈ v.trace → t + c.interval ≤ d
  dead : ∀ t a k, v.tm.status = .dead → .invoked t a k ∈ v.trace → t + c.interval ≤ v.now

theorem Gap.note {c : Cfg} {v : View} (h : Gap c v) (a : Nat) : Gap c (v.note a) where
  fin := h.fin
  each := h.each.snoc _ (by intro t a k e; cases e)
  wait := by
    intro d t a k hd hm
    simp only [View.note, List.mem_append, List.mem_singleton] at hm
    rcases hm with hm | e
    · exact h.wait d t a k hd hm
    · cases e
  dead := by
    intro t a k hd hm
    simp only [View.note, List.mem_append, List.mem_singleton] at hm
    rcases hm with hm | e
    · exact h.dead t a k hd hm
    · cases e

theorem Gap.fire {c : Cfg} {v : View} (h : Gap c v)
    (hd : ∀ t a k, .invoked t a k ∈ v.trace → t + c.interval ≤ v.now) : Gap c (v.fire c false) where
  fin := by intro d _; rfl
  each := by
    refine h.each.snoc _ ?_
    intro t a k e
    cases e
    exact hd
  wait := by
    intro d t a k hs hm
    simp only [View.fire, Bool.false_eq_true, if_false, Status.waiting.injEq] at hs
    simp only [View.fire, List.mem_append, List.mem_singleton] at hm
    rcases hm with hm | e
    · have := hd t a k hm; omega
    · cases e; omega
  dead := by intro t a k hs; simp [View.fire] at hs

theorem Gap.restart {c : Cfg} {v : View} (h : Gap c v)
    (hd : ∀ t a k, .invoked t a k ∈ v.trace → t ≤ v.now) : Gap c (v.restart c) where
  fin := by intro d _; rfl
  each := h.each
  wait := by
    intro d t a k hs hm
    simp only [View.restart, Status.waiting.injEq] at hs
    have := hd t a k hm
    omega
  dead := by intro t a k hs; simp [View.restart] at hs

/-- Invocations are in the past. -/
def Past (v : View) : Prop := ∀ t a k, .invoked t a k ∈ v.trace → t ≤ v.now

theorem Past.note {v : View} (h : Past v) (a : Nat) : Past (v.note a) := by
  intro t a k hm
  simp only [View.note, List.mem_append, List.mem_singleton] at hm
  rcases hm with hm | e
  · exact h t a k hm
  · cases e

theorem Past.fire {c : Cfg} {r : Bool} {v : View} (h : Past v) : Past (v.fire c r) := by
  intro t a k hm
  simp only [View.fire, List.mem_append, List.mem_singleton] at hm
  rcases hm with hm | e
  · exact h t a k hm
  · cases e; exact Nat.le_refl _

theorem gap_step {c : Cfg} (hk : c.kind = .throttler) {v : View} {e : Ev} (h : Gap c v ∧ Past v)
    (he : e.plain) (hr : v.tm.status = .dead ∨ ∃ d, v.tm.status = .waiting d) :
    Gap c (v.step c false e) ∧ Past (v.step c false e) := by
  obtain ⟨h, hp⟩ := h
  cases e with
  | tick =>
    refine ⟨⟨h.fin, h.each, h.wait, fun t a k hs hm => ?_⟩, fun t a k hm => ?_⟩
    · have := h.dead t a k hs hm
      simp only [View.step]; omega
    · have := hp t a k hm
      simp only [View.step]; omega
  | call a =>
    simp only [View.step, hk]
    rcases ha : v.tm.alive with _ | _
    · have hdead : v.tm.status = .dead := by
        rcases hr with hr | ⟨d, hr⟩
        · exact hr
        · simp [Timer.alive, hr] at ha
      simp only [Bool.false_eq_true, if_false]
      split
      · refine ⟨(h.note a).fire ?_, (hp.note a).fire⟩
        intro t a' k hm
        exact (h.note a).dead t a' k hdead hm
      · exact ⟨(h.note a).restart (hp.note a), hp.note a⟩
    · simp only [if_true]
      exact ⟨h.note a, hp.note a⟩
  | cancel => exact he.elim
  | flush => exact he.elim
  | fire k =>
    rcases v with ⟨now, pend, args, kwargs, ⟨cb, st, fin⟩, tr⟩
    simp only [View.step]
    split
    · rename_i cb' d heq
      simp only [Timer.mk.injEq] at heq
      obtain ⟨rfl, rfl, rfl⟩ := heq
      split
      · rename_i hle
        split
        · simp only [Bool.false_eq_true, if_false]
          refine ⟨h.fire ?_, Past.fire (c := c) (r := false) hp⟩
          intro t a k hm
          have := h.wait d t a k rfl hm
          show t + c.interval ≤ now
          omega
        · refine ⟨⟨by intro d' hd; simp at hd, h.each, by intro d' t a k hd; simp at hd, ?_⟩, hp⟩
          intro t a k _ hm
          have := h.wait d t a k rfl hm
          show t + c.interval ≤ now
          omega
      · exact ⟨h, hp⟩
    · exact ⟨h, hp⟩
  | reap k =>
    rcases v with ⟨now, pend, args, kwargs, ⟨cb, st, fin⟩, tr⟩
    simp only [View.step]
    split
    · rename_i cb' d heq
      simp only [Timer.mk.injEq] at heq
      obtain ⟨rfl, rfl, rfl⟩ := heq
      exact absurd (h.fin d rfl) (by simp)
    · exact ⟨h, hp⟩

/-! ## The last call -/

/-- The trace ends with a call exactly if one is pending, and its arguments are stored; every
invocation directly follows the call whose arguments it has. -/
structure Args (v : View) : Prop where
  each : Each (fun p _ a k => k = a ∧ ∃ p' t, p = p' ++ [.called t a]) v.trace
  yes : v.pending = true → v.kwargs = v.args ∧ ∃ p t, v.trace = p ++ [.called t v.args]
  no : v.pending = false → ∀ p t a, v.trace ≠ p ++ [.called t a]

theorem Args.note {v : View} (h : Args v) (a : Nat) : Args (v.note a) where
  each := h.each.snoc _ (by intro t a k e; cases e)
  yes := fun _ => ⟨rfl, v.trace, v.now, rfl⟩
  no := by intro hp; cases hp

theorem Args.fire {v : View} (h : Args v) (hp : v.pending = true) (c : Cfg) (r : Bool) : Args (v.fire c r) where
  each := by
    refine h.each.snoc _ ?_
    intro t a k e
    cases e
    obtain ⟨h1, p, t, h2⟩ := h.yes hp
    exact ⟨h1, p, t, h2⟩
  yes := by intro hp; cases hp
  no := by
    intro _ p t a e
    have := List.append_inj_right' (s₁ := v.trace) (t₁ := [.invoked v.now v.args v.kwargs]) e rfl
    cases this

/-- Only the timer differs. -/
theorem Args.of {v v' : View} (h : Args v) (h1 : v'.pending = v.pending) (h2 : v'.args = v.args)
    (h3 : v'.kwargs = v.kwargs) (h4 : v'.trace = v.trace) : Args v' where
  each := by rw [h4]; exact h.each
  yes := by rw [h1, h2, h3, h4]; exact h.yes
  no := by rw [h1, h4]; exact h.no

theorem args_step {c : Cfg} {v : View} {e : Ev} {r : Bool} (h : Args v) : Args (v.step c r e) := by
  cases e with
  | tick => exact h.of rfl rfl rfl rfl
  | call a =>
    have hn := h.note a
    have hf : ∀ r, Args ((v.note a).fire c r) := fun r => hn.fire rfl c r
    simp only [View.step]
    split
    · split
      · exact hn
      · split
        · exact hf r
        · exact hn.of rfl rfl rfl rfl
    · split
      · split
        · exact hf r
        · exact (hf r).of rfl rfl rfl rfl
      · exact hn.of rfl rfl rfl rfl
  | cancel =>
    refine ⟨h.each.snoc _ (by intro t a k e; cases e), (by intro hp; cases hp), ?_⟩
    intro _ p t a e
    have := List.append_inj_right' (s₁ := v.trace) (t₁ := [.cancelled v.now]) e rfl
    cases this
  | flush =>
    simp only [View.step]
    split
    · rename_i hp; exact h.fire hp c r
    · exact h
  | fire k =>
    simp only [View.step]
    split
    · split
      · split
        · rename_i hp
          exact (h.fire hp.2 c r).of rfl rfl rfl rfl
        · exact h.of rfl rfl rfl rfl
      · exact h
    · exact h
  | reap k =>
    simp only [View.step]
    split
    · exact h.of rfl rfl rfl rfl
    · exact h

/-! ## Nothing is lost -/

/-- Timers that will call back are due within the interval. -/
def Near (c : Cfg) (v : View) : Prop :=
  ∀ d, v.tm.status = .waiting d → v.tm.finished = false → d ≤ v.now + c.interval

theorem near_step {c : Cfg} {v : View} {e : Ev} {r : Bool} (h : Near c v) : Near c (v.step c r e) := by
  have hr : ∀ v : View, Near c (v.restart c) := by
    intro v d hd _
    simp only [View.restart, Status.waiting.injEq] at hd
    simp only [View.restart]; omega
  have hf : ∀ v : View, Near c v → ∀ r, Near c (v.fire c r) := by
    intro v hv r
    cases r with
    | true => exact hv
    | false => exact hr v
  cases e with
  | tick =>
    intro d hd hf
    have := h d hd hf
    simp only [View.step]; omega
  | call a =>
    have hn : Near c (v.note a) := h
    simp only [View.step]
    split
    · split
      · exact hn
      · split
        · exact hf _ hn r
        · exact hr _
    · split
      · split
        · exact hf _ hn r
        · exact hr _
      · exact hr _
  | cancel => intro d _ hf; simp [View.step] at hf
  | flush =>
    simp only [View.step]
    split
    · exact hf _ h r
    · exact h
  | fire k =>
    simp only [View.step]
    split
    · split
      · split
        · cases r with
          | true => intro d hd; simp at hd
          | false => exact hr v
        · intro d hd; simp at hd
      · exact h
    · exact h
  | reap k =>
    simp only [View.step]
    split
    · intro d hd; simp at hd
    · exact h

/-- Time passes and timers work, nobody calls a method. -/
def Ev.quiet : Ev → Prop
  | .tick => True
  | .fire _ => True
  | .reap _ => True
  | _ => False

/-- The call with argument `a` was made at `t` and either a timer is going to invoke the function
in time or the invocation has happened. -/
def Served (c : Cfg) (t a : Nat) (v : View) : Prop :=
  t ≤ v.now ∧
  ((v.pending = true ∧ v.args = a ∧ v.kwargs = a ∧
      ∃ d, v.tm = ⟨true, .waiting d, false⟩ ∧ d ≤ t + c.interval) ∨
   (v.pending = false ∧ ∃ p t', v.trace = p ++ [.invoked t' a a] ∧ t ≤ t'))

theorem served_step {c : Cfg} {v : View} {e : Ev} {r : Bool} {t a : Nat} (h : Served c t a v)
    (he : e.quiet) : Served c t a (v.step c r e) := by
  obtain ⟨ht, h⟩ := h
  rcases v with ⟨now, pend, args, kwargs, tm, tr⟩
  cases e with
  | tick => exact ⟨Nat.le_succ_of_le ht, h⟩
  | call a => exact he.elim
  | cancel => exact he.elim
  | flush => exact he.elim
  | fire k =>
    rcases h with ⟨h1, h2, h3, d, h4, h5⟩ | ⟨h1, h2⟩
    · simp only at h1 h2 h3 h4
      subst h1; subst h2; subst h3; subst h4
      simp only [View.step]
      split
      · rename_i hle
        simp only [and_self, if_true]
        exact ⟨ht, .inr ⟨rfl, tr, now, rfl, ht⟩⟩
      · exact ⟨ht, .inl ⟨rfl, rfl, rfl, d, rfl, h5⟩⟩
    · simp only at h1
      subst h1
      simp only [View.step]
      split
      · split
        · rw [if_neg (by simp)]
          exact ⟨ht, .inr ⟨rfl, h2⟩⟩
        · exact ⟨ht, .inr ⟨rfl, h2⟩⟩
      · exact ⟨ht, .inr ⟨rfl, h2⟩⟩
  | reap k =>
    rcases h with ⟨h1, h2, h3, d, h4, h5⟩ | ⟨h1, h2⟩
    · simp only at h4
      subst h4
      exact ⟨ht, .inl ⟨h1, h2, h3, d, rfl, h5⟩⟩
    · simp only [View.step]
      split
      · exact ⟨ht, .inr ⟨h1, h2⟩⟩
      · exact ⟨ht, .inr ⟨h1, h2⟩⟩

/-- The call itself. -/
theorem served_call {c : Cfg} {v : View} {r : Bool} (a : Nat) (h : Near c v)
    (hz : c.kind = .throttler → v.tm.alive = true → v.tm.cb = true ∧ v.tm.finished = false)
    (hr : v.tm.status = .dead ∨ ∃ d, v.tm.status = .waiting d) :
    Served c v.now a (v.step c r (.call a)) := by
  have hf : ∀ r, Served c v.now a ((v.note a).fire c r) := by
    intro r
    exact ⟨Nat.le_refl _, .inr ⟨rfl, (v.note a).trace, v.now, rfl, Nat.le_refl _⟩⟩
  have hs : Served c v.now a ((v.note a).restart c) :=
    ⟨Nat.le_refl _, .inl ⟨rfl, rfl, rfl, _, rfl, Nat.le_refl _⟩⟩
  simp only [View.step]
  split
  · rename_i hk
    split
    · rename_i hal
      obtain ⟨h1, h2⟩ := hz hk hal
      rcases hr with hr | ⟨d, hr⟩
      · simp [Timer.alive, hr] at hal
      · refine ⟨Nat.le_refl _, .inl ⟨rfl, rfl, rfl, d, ?_, h d hr h2⟩⟩
        show v.tm = _
        rcases htm : v.tm with ⟨cb, st, fin⟩
        rw [htm] at h1 h2 hr
        simp only at h1 h2 hr
        rw [h1, h2, hr]
    · split
      · exact hf r
      · exact hs
  · split
    · split
      · exact hf r
      · exact ⟨Nat.le_refl _, .inr ⟨rfl, (v.note a).trace, v.now, rfl, Nat.le_refl _⟩⟩
    · exact hs

/-! ## The debouncer -/

/-- Neither `flush` nor leading edge: invocations come at least the interval after the call. -/
structure Late (c : Cfg) (v : View) : Prop where
  args : Args v
  each : Each (fun p t a _ => ∃ p' t0, p = p' ++ [.called t0 a] ∧ t0 + c.interval ≤ t) v.trace
  wait : ∀ d p t a, v.tm = ⟨true, .waiting d, false⟩ → v.pending = true → v.trace = p ++ [.called t a] →
    t + c.interval ≤ d

theorem late_step {c : Cfg} (hk : c.kind = .debouncer) (hl : c.leading = false) {v : View} {e : Ev} {r : Bool}
    (h : Late c v) (he : e ≠ .flush) : Late c (v.step c r e) := by
  refine ⟨args_step h.args, ?_, ?_⟩
  · cases e with
    | tick => exact h.each
    | call a =>
      simp only [View.step, hk, hl, Bool.false_eq_true, and_false, if_false]
      exact h.each.snoc (.called v.now a) (by intro t a k e; cases e)
    | cancel => exact h.each.snoc (.cancelled v.now) (by intro t a k e; cases e)
    | flush => exact absurd rfl he
    | fire k =>
      have hw := h.wait
      have hy := h.args.yes
      simp only [View.step]
      split
      · rename_i cb d htm
        split
        · rename_i hle
          split
          · rename_i hp
            refine h.each.snoc _ ?_
            intro t a k e
            cases e
            obtain ⟨_, p, t0, h2⟩ := hy hp.2
            refine ⟨p, t0, h2, ?_⟩
            have := hw d p t0 v.args (by rw [htm, hp.1]) hp.2 h2
            omega
          · exact h.each
        · exact h.each
      · exact h.each
    | reap k =>
      simp only [View.step]
      split <;> exact h.each
  · cases e with
    | tick => exact h.wait
    | call a =>
      intro d p t b htm hp htr
      simp only [View.step, hk, hl, Bool.false_eq_true, and_false, if_false, View.restart, View.note] at htm htr
      have := List.append_inj_right' htr rfl
      cases this
      cases htm
      exact Nat.le_refl _
    | cancel => intro d p t b _ hp; cases hp
    | flush => exact absurd rfl he
    | fire k =>
      have hw := h.wait
      simp only [View.step]
      split
      · split
        · split
          · intro d p t b _ hp; cases hp
          · intro d p t b htm; cases htm
        · exact hw
      · exact hw
    | reap k =>
      have hw := h.wait
      simp only [View.step]
      split
      · intro d p t b htm; cases htm
      · exact hw

/-! ## Cancelling -/

/-- Nothing is pending and nothing happened since the trace was `tr`. -/
theorem idle_step {c : Cfg} {v : View} {e : Ev} {r : Bool} {tr : List Obs}
    (h : v.pending = false ∧ ∃ q, v.trace = tr ++ q ∧ ∀ o ∈ q, ∃ t, o = .cancelled t) (he : ∀ a, e ≠ .call a) :
    (v.step c r e).pending = false ∧ ∃ q, (v.step c r e).trace = tr ++ q ∧ ∀ o ∈ q, ∃ t, o = .cancelled t := by
  obtain ⟨hp, q, hq, ha⟩ := h
  cases e with
  | tick => exact ⟨hp, q, hq, ha⟩
  | call a => exact absurd rfl (he a)
  | cancel =>
    refine ⟨rfl, q ++ [.cancelled v.now], by simp [View.step, hq], ?_⟩
    intro o ho
    rcases List.mem_append.mp ho with ho | ho
    · exact ha o ho
    · exact ⟨v.now, List.mem_singleton.mp ho⟩
  | flush =>
    simp only [View.step]
    rw [if_neg (by simp [hp])]
    exact ⟨hp, q, hq, ha⟩
  | fire k =>
    simp only [View.step]
    split
    · split
      · rw [if_neg (by simp [hp])]
        exact ⟨hp, q, hq, ha⟩
      · exact ⟨hp, q, hq, ha⟩
    · exact ⟨hp, q, hq, ha⟩
  | reap k =>
    simp only [View.step]
    split <;> exact ⟨hp, q, hq, ha⟩

end Psygnal.Thr
