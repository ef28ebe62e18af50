import Verif.Throttle

/-! # The current timer is the only one that matters -/
namespace Psygnal.Thr

/-- What the behaviour depends on when methods run as a whole: the state with the current timer
only. -/
structure View where
  now : Nat
  pending : Bool
  args : Nat
  kwargs : Nat
  tm : Timer
  trace : List Obs

def St.tm (s : St) : Timer := (s.timers[s.cur]?).getD ⟨false, .dead, true⟩

def St.view (s : St) : View := ⟨s.now, s.pending, s.args, s.kwargs, s.tm, s.trace⟩

/-- Between events: the current timer exists, it waits or has ended, and no other timer will
fire. -/
structure Good (s : St) : Prop where
  cur : s.cur < s.timers.length
  rest : s.tm.status = .dead ∨ ∃ d, s.tm.status = .waiting d
  others : ∀ (k : Nat) (t : Timer), s.timers[k]? = some t → k ≠ s.cur → t.status = .dead ∨ t.finished = true

/-- `_start_timer` as a whole. -/
def St.restart (c : Cfg) (s : St) : St :=
  { s with
    cur := s.timers.length
    timers := s.timers.modify s.cur (fun t => { t with finished := true }) ++
      [⟨true, .waiting (s.now + c.interval), false⟩] }

theorem modify_last {α : Type} (f : α → α) (a : α) (l : List α) :
    (l ++ [a]).modify l.length f = l ++ [f a] := by
  induction l with
  | nil => rfl
  | cons x xs ih => simp [ih]

theorem exec_startTimer (c : Cfg) (rs : St → Bool) (k : Prog) (s : St) :
    exec c rs (startTimer k) s = exec c rs k (s.restart c) := by
  simp only [startTimer, exec, St.cancelCur, St.upd, St.newTimer, St.startCur, List.length_modify,
    St.restart]
  rw [List.getElem?_append_right (by simp)]
  simp only [List.length_modify, Nat.sub_self, List.getElem?_cons_zero]
  congr 1
  simp only [St.mk.injEq, true_and, and_true]
  have h := modify_last (fun t : Timer => { t with status := .waiting (s.now + c.interval) })
    ⟨true, .created, false⟩ (s.timers.modify s.cur fun t => { t with finished := true })
  rw [List.length_modify] at h
  exact h

theorem restart_tm (c : Cfg) (s : St) : (s.restart c).tm = ⟨true, .waiting (s.now + c.interval), false⟩ := by
  simp only [St.tm, St.restart]
  rw [List.getElem?_append_right (by simp)]
  simp

theorem tm_get {s : St} (h : s.cur < s.timers.length) : s.timers[s.cur]? = some s.tm := by
  simp [St.tm, h]

theorem alive_tm {s : St} (h : s.cur < s.timers.length) : s.alive = s.tm.alive := by
  simp [St.alive, tm_get h]

theorem restart_good (c : Cfg) {s : St} (hc : s.cur < s.timers.length)
    (ho : ∀ (k : Nat) (t : Timer), s.timers[k]? = some t → k ≠ s.cur → t.status = .dead ∨ t.finished = true) :
    Good (s.restart c) where
  cur := by simp [St.restart]
  rest := .inr ⟨_, by rw [restart_tm]⟩
  others := by
    intro k t hk hne
    have hlt : k < s.timers.length := by
      have := (List.getElem?_eq_some_iff.mp hk).1
      simp only [St.restart, List.length_append, List.length_modify, List.length_singleton] at this hne
      omega
    simp only [St.restart] at hk
    rw [List.getElem?_append_left (by simpa using hlt), List.getElem?_modify] at hk
    by_cases e : s.cur = k
    · subst e
      simp only [if_pos, tm_get hc, Option.map_eq_map, Option.map_some, Option.some.injEq] at hk
      exact .inr (by rw [← hk])
    · simp only [if_neg e, Option.map_eq_map, Option.map_id'] at hk
      exact ho k t (by simpa using hk) (Ne.symm e)

/-- `_actually_call` on a view. -/
def View.fire (c : Cfg) (rs : Bool) (v : View) : View :=
  { v with
    pending := false
    trace := v.trace ++ [.invoked v.now v.args v.kwargs]
    tm := if rs then v.tm else ⟨true, .waiting (v.now + c.interval), false⟩ }

def View.restart (c : Cfg) (v : View) : View := { v with tm := ⟨true, .waiting (v.now + c.interval), false⟩ }

def View.note (v : View) (a : Nat) : View :=
  { v with trace := v.trace ++ [.called v.now a], pending := true, args := a, kwargs := a }

/-- One event on a view; `r`: the wrapped function raises if it is called. -/
def View.step (c : Cfg) (r : Bool) (v : View) : Ev → View
  | .tick => { v with now := v.now + 1 }
  | .call a =>
    match c.kind with
    | .throttler =>
      if v.tm.alive then v.note a
      else if c.leading then (v.note a).fire c r else (v.note a).restart c
    | .debouncer =>
      if v.tm.alive = false ∧ c.leading = true then
        if r then (v.note a).fire c r else ((v.note a).fire c r).restart c
      else (v.note a).restart c
  | .cancel => { v with pending := false, tm := { v.tm with finished := true }, trace := v.trace ++ [.cancelled v.now] }
  | .flush => if v.pending then v.fire c r else v
  | .fire _ =>
    match v.tm with
    | ⟨cb, .waiting d, false⟩ =>
      if d ≤ v.now then
        if cb = true ∧ v.pending = true then
          { v.fire c r with tm := if r then ⟨cb, .dead, true⟩ else ⟨true, .waiting (v.now + c.interval), false⟩ }
        else { v with tm := ⟨cb, .dead, true⟩ }
      else v
    | _ => v
  | .reap _ =>
    match v.tm with
    | ⟨cb, .waiting _, true⟩ => { v with tm := ⟨cb, .dead, true⟩ }
    | _ => v

theorem Good.of {s s' : St} (h : Good s) (ht : s'.timers = s.timers) (hc : s'.cur = s.cur) : Good s' where
  cur := by rw [ht, hc]; exact h.cur
  rest := by simp only [St.tm, ht, hc]; exact h.rest
  others := by rw [ht, hc]; exact h.others

theorem Good.restart {c : Cfg} {s : St} (h : Good s) : Good (s.restart c) := restart_good c h.cur h.others

theorem restart_view (c : Cfg) (s : St) : (s.restart c).view = s.view.restart c := by
  simp only [St.view, restart_tm, View.restart]
  rfl

theorem invoke_view (s : St) : ({ s with pending := false } : St).invoke.view = s.view.fire c true := rfl

theorem fire_restart (c : Cfg) (v : View) : (v.fire c true).restart c = v.fire c false := rfl

theorem exec_actuallyCall (c : Cfg) (rs : St → Bool) (k : Prog) (s : St) :
    exec c rs (actuallyCall k) s =
      if rs { s with pending := false } then ({ s with pending := false } : St).invoke
      else exec c rs k ((({ s with pending := false } : St).invoke).restart c) := by
  simp only [actuallyCall, exec, exec_startTimer]

theorem exec_callIfHasPending (c : Cfg) (rs : St → Bool) (s : St) :
    exec c rs callIfHasPending s =
      if s.pending then
        if rs { s with pending := false } then ({ s with pending := false } : St).invoke
        else (({ s with pending := false } : St).invoke).restart c
      else s := by
  simp only [callIfHasPending, exec, exec_actuallyCall]

/-- Changing timer `k`. -/
theorem upd_get (s : St) (k j : Nat) (f : Timer → Timer) :
    (s.upd k f).timers[j]? = if k = j then s.timers[j]?.map f else s.timers[j]? := by
  simp only [St.upd, List.getElem?_modify, Option.map_eq_map]
  split <;> simp

theorem upd_cur_tm {s : St} (h : s.cur < s.timers.length) (f : Timer → Timer) : (s.upd s.cur f).tm = f s.tm := by
  have : (s.upd s.cur f).timers[(s.upd s.cur f).cur]? = some (f s.tm) := by
    show (s.upd s.cur f).timers[s.cur]? = _
    rw [upd_get, if_pos rfl, tm_get h]; rfl
  simp only [St.tm, this, Option.getD_some]

theorem upd_other_tm {s : St} {k : Nat} (h : k ≠ s.cur) (f : Timer → Timer) : (s.upd k f).tm = s.tm := by
  have : (s.upd k f).timers[(s.upd k f).cur]? = s.timers[s.cur]? := by
    show (s.upd k f).timers[s.cur]? = _
    rw [upd_get, if_neg h]
  simp only [St.tm, this]

theorem upd_length (s : St) (k : Nat) (f : Timer → Timer) : (s.upd k f).timers.length = s.timers.length := by
  simp [St.upd]

/-- Ending a timer keeps the state good. -/
theorem Good.upd_cur {s : St} (hc : s.cur < s.timers.length)
    (ho : ∀ (k : Nat) (t : Timer), s.timers[k]? = some t → k ≠ s.cur → t.status = .dead ∨ t.finished = true)
    (f : Timer → Timer) (hf : (f s.tm).status = .dead ∨ ∃ d, (f s.tm).status = .waiting d) :
    Good (s.upd s.cur f) where
  cur := by rw [upd_length]; exact hc
  rest := by rw [upd_cur_tm hc]; exact hf
  others := by
    intro k t hk hne
    have hne : k ≠ s.cur := hne
    rw [upd_get, if_neg (Ne.symm hne)] at hk
    exact ho k t hk hne

theorem Good.upd_other {s : St} (h : Good s) {k : Nat} (hk : k ≠ s.cur) (f : Timer → Timer)
    (hf : ∀ t : Timer, t.status = .dead ∨ t.finished = true → (f t).status = .dead ∨ (f t).finished = true) :
    Good (s.upd k f) where
  cur := by rw [upd_length]; exact h.cur
  rest := by rw [upd_other_tm hk]; exact h.rest
  others := by
    intro j t hj hne
    rw [upd_get] at hj
    split at hj
    · rcases hg : s.timers[j]? with _ | t'
      · rw [hg] at hj; cases hj
      · rw [hg] at hj
        cases hj
        exact hf _ (h.others j t' hg hne)
    · exact h.others j t hj hne

theorem good_init : Good St.init where
  cur := by decide
  rest := .inr ⟨0, rfl⟩
  others := by
    intro k t hk hne
    rcases k with _ | k
    · exact absurd rfl hne
    · simp [St.init] at hk

theorem due_cur {s : St} (h : Good s) {k : Nat} {t : Timer} (hd : due s k = some t) :
    k = s.cur ∧ t = s.tm ∧ ∃ cb d, s.tm = ⟨cb, .waiting d, false⟩ ∧ d ≤ s.now := by
  unfold due at hd
  split at hd
  · rename_i cb d hk
    split at hd
    · rename_i hle
      cases hd
      have e : k = s.cur := by
        apply Classical.byContradiction
        intro hne
        have := h.others k _ hk hne
        simp at this
      subst e
      have : s.tm = ⟨cb, .waiting d, false⟩ := by
        have := tm_get h.cur
        rw [hk] at this
        exact (Option.some.inj this).symm
      exact ⟨rfl, this.symm, cb, d, this, hle⟩
    · cases hd
  · cases hd

theorem due_none {s : St} (h : Good s) (hd : due s s.cur = none) {cb : Bool} {d : Nat}
    (ht : s.tm = ⟨cb, .waiting d, false⟩) : ¬ d ≤ s.now := by
  intro hle
  unfold due at hd
  rw [tm_get h.cur, ht] at hd
  simp [hle] at hd

/-- Every event does to the view what `View.step` says, or nothing if it concerns another timer. -/
theorem step_view (c : Cfg) (rs : St → Bool) {s : St} (h : Good s) (e : Ev) :
    Good (step c rs s e) ∧ ∃ r, ((∀ s, rs s = false) → r = false) ∧
      ((step c rs s e).view = s.view.step c r e ∨
        (step c rs s e).view = s.view ∧ ((∃ k, e = .fire k) ∨ ∃ k, e = .reap k)) := by
  cases e with
  | tick => exact ⟨h.of rfl rfl, false, fun _ => rfl, .inl rfl⟩
  | call a =>
    have hg : Good ({ s.obs (.called s.now a) with pending := true, args := a, kwargs := a } : St) := h.of rfl rfl
    have hv : ({ s.obs (.called s.now a) with pending := true, args := a, kwargs := a } : St).view = s.view.note a := rfl
    have hal : ({ s.obs (.called s.now a) with pending := true, args := a, kwargs := a } : St).alive = s.view.tm.alive :=
      alive_tm hg.cur
    generalize hs1 : ({ s.obs (.called s.now a) with pending := true, args := a, kwargs := a } : St) = s1 at *
    have hx : step c rs s (.call a) = exec c rs (match c.kind with
        | .throttler => .ifAlive .done (if c.leading then actuallyCall .done else startTimer .done)
        | .debouncer =>
          .ifAlive (startTimer .done) (if c.leading then actuallyCall (startTimer .done) else startTimer .done)) s1 := by
      subst hs1; rfl
    rw [hx]
    rcases hk : c.kind with _ | _
    · simp only [exec, hal, View.step, hk]
      rcases Bool.eq_false_or_eq_true s.view.tm.alive with ha | ha
      · simp only [ha, if_true]
        exact ⟨hg, false, fun _ => rfl, .inl hv⟩
      · simp only [ha, Bool.false_eq_true, if_false]
        rcases Bool.eq_false_or_eq_true c.leading with hl | hl
        · simp only [hl, if_true, exec_actuallyCall, exec]
          rcases hr : rs { s1 with pending := false } with _ | _
          · simp only [Bool.false_eq_true, if_false]
            refine ⟨(Good.of (s' := ({ s1 with pending := false } : St).invoke) hg rfl rfl).restart, false, fun _ => rfl, .inl ?_⟩
            rw [restart_view, invoke_view (c := c), hv, fire_restart]
          · simp only [if_true]
            refine ⟨hg.of rfl rfl, true, fun hf => ?_, .inl ?_⟩
            · rw [hf] at hr; cases hr
            · rw [invoke_view (c := c), hv]
        · simp only [hl, Bool.false_eq_true, if_false, exec_startTimer, exec]
          exact ⟨hg.restart, false, fun _ => rfl, .inl (by rw [restart_view, hv])⟩
    · simp only [exec, hal, View.step, hk]
      rcases Bool.eq_false_or_eq_true s.view.tm.alive with ha | ha
      · simp only [ha, if_true, exec_startTimer, exec, Bool.true_eq_false, false_and, if_false]
        exact ⟨hg.restart, false, fun _ => rfl, .inl (by rw [restart_view, hv])⟩
      · simp only [ha, Bool.false_eq_true, if_false, true_and]
        rcases Bool.eq_false_or_eq_true c.leading with hl | hl
        · simp only [hl, if_true, exec_actuallyCall, exec_startTimer, exec]
          rcases hr : rs { s1 with pending := false } with _ | _
          · simp only [Bool.false_eq_true, if_false]
            refine ⟨(Good.of (s' := ({ s1 with pending := false } : St).invoke) hg rfl rfl).restart.restart, false, fun _ => rfl, .inl ?_⟩
            simp only [Bool.false_eq_true, if_false]
            rw [restart_view, restart_view, invoke_view (c := c), hv, fire_restart]
          · simp only [if_true]
            refine ⟨hg.of rfl rfl, true, fun hf => ?_, .inl ?_⟩
            · rw [hf] at hr; cases hr
            · simp only [if_true]; rw [invoke_view (c := c), hv]
        · simp only [hl, Bool.false_eq_true, if_false, exec_startTimer, exec]
          exact ⟨hg.restart, false, fun _ => rfl, .inl (by rw [restart_view, hv])⟩
  | cancel =>
    have hg : Good ({ s with pending := false } : St) := h.of rfl rfl
    have hg2 : Good (({ s with pending := false } : St).cancelCur) :=
      Good.upd_cur hg.cur hg.others (fun t => { t with finished := true }) hg.rest
    refine ⟨Good.of hg2 rfl rfl, false, fun _ => rfl, .inl ?_⟩
    have ht := upd_cur_tm hg.cur (fun t => { t with finished := true })
    simp only [step, cancelProg, exec, View.step, St.view, View.mk.injEq]
    exact ⟨rfl, rfl, rfl, rfl, ht, rfl⟩
  | flush =>
    simp only [step, flushProg, exec_callIfHasPending, View.step]
    rcases hp : s.pending with _ | _
    · simp only [Bool.false_eq_true, if_false]
      refine ⟨h, false, fun _ => rfl, .inl ?_⟩
      rw [if_neg (by simp [St.view, hp])]
    · simp only [if_true]
      rcases hr : rs { s with pending := false } with _ | _
      · simp only [Bool.false_eq_true, if_false]
        refine ⟨(Good.of (s' := ({ s with pending := false } : St).invoke) h rfl rfl).restart, false, fun _ => rfl, .inl ?_⟩
        rw [if_pos (by exact hp), restart_view, invoke_view (c := c), fire_restart]
      · simp only [if_true]
        refine ⟨h.of rfl rfl, true, fun hf => ?_, .inl ?_⟩
        · rw [hf] at hr; cases hr
        · rw [if_pos (by exact hp), invoke_view (c := c)]
  | fire k =>
    simp only [step]
    rcases hd : due s k with _ | t
    · exact ⟨h, false, fun _ => rfl, .inr ⟨rfl, .inl ⟨k, rfl⟩⟩⟩
    · obtain ⟨rfl, rfl, cb, d, ht, hle⟩ := due_cur h hd
      simp only [ht]
      have hc1 : (s.upd s.cur fun t => { t with status := .running }).cur <
          (s.upd s.cur fun t => { t with status := .running }).timers.length := by
        rw [upd_length]; exact h.cur
      have ho1 : ∀ (k : Nat) (t : Timer), (s.upd s.cur fun t => { t with status := .running }).timers[k]? = some t →
          k ≠ (s.upd s.cur fun t => { t with status := .running }).cur → t.status = .dead ∨ t.finished = true := by
        intro k t hk hne
        have hne : k ≠ s.cur := hne
        rw [upd_get, if_neg (Ne.symm hne)] at hk
        exact h.others k t hk hne
      have htm1 : (s.upd s.cur fun t => { t with status := .running }).tm = ⟨cb, .running, false⟩ := by
        rw [upd_cur_tm h.cur, ht]
      have hcur : (s.upd s.cur fun t => { t with status := .running }).cur = s.cur := rfl
      have hnow : (s.upd s.cur fun t => { t with status := .running }).now = s.now := rfl
      have hpe : (s.upd s.cur fun t => { t with status := .running }).pending = s.pending := rfl
      have htr : (s.upd s.cur fun t => { t with status := .running }).trace = s.trace := rfl
      have har : (s.upd s.cur fun t => { t with status := .running }).args = s.args := rfl
      have hkw : (s.upd s.cur fun t => { t with status := .running }).kwargs = s.kwargs := rfl
      generalize hs1 : (s.upd s.cur fun t => { t with status := .running }) = s1 at *
      -- the callback does nothing
      have hno : ∀ r, (cb = true ∧ s.pending = true → False) →
          Good (s1.upd s.cur fun t => { t with status := .dead, finished := true }) ∧
          (s1.upd s.cur fun t => { t with status := .dead, finished := true }).view = s.view.step c r (.fire s.cur) := by
        intro r hf
        rw [← hcur]
        refine ⟨Good.upd_cur hc1 ho1 _ (.inl rfl), ?_⟩
        have ht2 := upd_cur_tm hc1 (fun t => { t with status := .dead, finished := true })
        have hvt : s.view.tm = ⟨cb, .waiting d, false⟩ := ht
        have hle' : d ≤ s.view.now := hle
        simp only [View.step, hvt]
        rw [if_pos hle', if_neg (by exact hf)]
        simp only [St.view, View.mk.injEq]
        rw [ht2, htm1]
        exact ⟨hnow, hpe, har, hkw, rfl, htr⟩
      rcases hcb : cb with _ | _
      · simp only [Bool.false_eq_true, if_false]
        have := hno false (by simp [hcb])
        exact ⟨this.1, false, fun _ => rfl, .inl this.2⟩
      · simp only [if_true, exec_callIfHasPending, hpe]
        rcases hp : s.pending with _ | _
        · simp only [Bool.false_eq_true, if_false]
          have := hno false (by simp [hp])
          exact ⟨this.1, false, fun _ => rfl, .inl this.2⟩
        · simp only [if_true]
          have hvt : s.view.tm = ⟨true, .waiting d, false⟩ := by rw [hcb] at ht; exact ht
          have hle' : d ≤ s.view.now := hle
          have hvp : s.view.pending = true := hp
          rcases hr : rs { s1 with pending := false } with _ | _
          · simp only [Bool.false_eq_true, if_false]
            have hg : Good ((({ s1 with pending := false } : St).invoke).restart c) := restart_good c hc1 ho1
            have hne : s.cur ≠ ((({ s1 with pending := false } : St).invoke).restart c).cur := by
              show s.cur ≠ s1.timers.length
              rw [← hcur]; exact Nat.ne_of_lt hc1
            refine ⟨hg.upd_other hne _ (fun t _ => .inl rfl), false, fun _ => rfl, .inl ?_⟩
            have ht2 := upd_other_tm hne (fun t => { t with status := .dead, finished := true })
            simp only [View.step, hvt]
            rw [if_pos hle', if_pos ⟨trivial, hvp⟩]
            simp only [St.view, View.mk.injEq, View.fire, Bool.false_eq_true, if_false]
            rw [ht2, restart_tm]
            refine ⟨hnow, rfl, har, hkw, ?_, ?_⟩
            · show (⟨true, .waiting (s1.now + c.interval), false⟩ : Timer) = _
              rw [hnow]
            · show s1.trace ++ [.invoked s1.now s1.args s1.kwargs] = _
              rw [htr, hnow, har, hkw]
          · simp only [if_true]
            have ht2 := upd_cur_tm (s := ({ s1 with pending := false } : St).invoke) hc1
              (fun t => { t with status := .dead, finished := true })
            have hc2 : ({ s1 with pending := false } : St).invoke.cur = s.cur := hcur
            rw [← hc2]
            refine ⟨Good.upd_cur (s := ({ s1 with pending := false } : St).invoke) hc1 ho1 _ (.inl rfl), true,
              fun hf => ?_, .inl ?_⟩
            · rw [hf] at hr; cases hr
            · simp only [View.step, hvt]
              rw [if_pos hle', if_pos ⟨trivial, hvp⟩]
              simp only [St.view, View.mk.injEq, View.fire, if_true]
              rw [ht2]
              refine ⟨hnow, rfl, har, hkw, ?_, ?_⟩
              · have : ({ s1 with pending := false } : St).invoke.tm = ⟨cb, .running, false⟩ := htm1
                rw [this, hcb]
              · show s1.trace ++ [.invoked s1.now s1.args s1.kwargs] = _
                rw [htr, hnow, har, hkw]
  | reap k =>
    simp only [step, reap]
    split
    · rename_i cb d hk
      by_cases e : k = s.cur
      · subst e
        have ht : s.tm = ⟨cb, .waiting d, true⟩ := by
          have := tm_get h.cur
          rw [hk] at this
          exact (Option.some.inj this).symm
        refine ⟨Good.upd_cur h.cur h.others _ (.inl rfl), false, fun _ => rfl, .inl ?_⟩
        have ht2 := upd_cur_tm h.cur (fun t => { t with status := .dead })
        have hvt : s.view.tm = ⟨cb, .waiting d, true⟩ := ht
        simp only [View.step, hvt]
        simp only [St.view, View.mk.injEq]
        rw [ht2, ht]
        exact ⟨rfl, rfl, rfl, rfl, rfl, rfl⟩
      · refine ⟨h.upd_other e _ (fun t _ => .inl rfl), false, fun _ => rfl, .inr ⟨?_, .inr ⟨k, rfl⟩⟩⟩
        simp only [St.view, View.mk.injEq]
        rw [upd_other_tm e]
        exact ⟨rfl, rfl, rfl, rfl, rfl, rfl⟩
    · exact ⟨h, false, fun _ => rfl, .inr ⟨rfl, .inr ⟨k, rfl⟩⟩⟩

/-- Invariants of the view are invariants of histories. -/
theorem run_view (c : Cfg) (rs : St → Bool) (ok : Ev → Prop) (P : View → Prop)
    (hstep : ∀ v e r, P v → ok e → ((∀ s, rs s = false) → r = false) →
      (v.tm.status = .dead ∨ ∃ d, v.tm.status = .waiting d) → P (v.step c r e))
    (es : List Ev) : ∀ {s : St}, Good s → P s.view → (∀ e ∈ es, ok e) →
      Good (run c rs es s) ∧ P (run c rs es s).view := by
  induction es with
  | nil => exact fun hg hp _ => ⟨hg, hp⟩
  | cons e es ih =>
    intro s hg hp hok
    obtain ⟨hg', r, hr, hv⟩ := step_view c rs hg e
    refine ih hg' ?_ fun x hx => hok x (.tail _ hx)
    rcases hv with hv | ⟨hv, _⟩
    · rw [hv]; exact hstep _ _ r hp (hok e (.head _)) hr hg.rest
    · rw [hv]; exact hp

end Psygnal.Thr
