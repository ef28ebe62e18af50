import Verif.ConnConcLemmas

/-! # The order of events (C90) -/
namespace Psygnal.CoC

/-- The thread of an event. -/
def Ev.of (t : Nat) : Ev → Bool
  | .call u _ => u = t
  | .called u _ _ => u = t
  | .effect u _ _ => u = t
  | .ret u _ _ => u = t
  | .died _ => false

/-- The calls of callbacks that an emission says it has made; other calls make none. -/
def made (t : Nat) : Op → Res → List Ev
  | .emit a, .calls fs => fs.map (fun f => .called t f a)
  | _, _ => []

/-- The call of `o` in thread `t` was made, then the callbacks it says were called, then it had the effect with result `r`; since then the
thread has done nothing else. -/
def Moment (t : Nat) (o : Op) (r : Res) (L : List Ev) : Prop :=
  ∃ m1 m2 m3, L = m1 ++ .call t o :: (m2 ++ .effect t o r :: m3) ∧ m2.filter (Ev.of t) = made t o r ∧ m3.filter (Ev.of t) = []

/-- The call that a thread is in. -/
def Ctl.op : Ctl → Op
  | .run _ => .len
  | .wait o _ => o
  | .scan o _ _ => o
  | .add f u p _ => .conn f u p
  | .place f u p _ _ => .conn f u p
  | .ins f u p _ _ => .conn f u p
  | .pop f ok _ _ => .disc f ok
  | .clear _ => .discAll
  | .size _ => .len
  | .loop a _ _ _ => .emit a
  | .rel o _ _ => o
  | .back o _ _ => o

/-- The events of a call so far. -/
def Ctl.made (t : Nat) : Ctl → List Ev
  | .loop a _ _ fs => fs.map (fun f => .called t f a)
  | _ => []

/-- The call is made and had no effect yet. -/
def Before (t : Nat) (o : Op) (es : List Ev) (L : List Ev) : Prop := ∃ m1 m2, L = m1 ++ .call t o :: m2 ∧ m2.filter (Ev.of t) = es

/-- What happened in the call that a thread is in. -/
def Told (t : Nat) (L : List Ev) : Ctl → Prop
  | .run _ => True
  | .rel o _ r => Moment t o r L
  | .back o _ r => Moment t o r L
  | c => Before t c.op (c.made t) L

structure Hist (σ : St) : Prop where
  rets : ∀ l1 l2 t o r, σ.log = l1 ++ .ret t o r :: l2 → Moment t o r l1
  told : ∀ t, Told t σ.log (σ.thr t)

theorem moment_more {t : Nat} {o : Op} {r : Res} {L es : List Ev} (h : Moment t o r L) (he : es.filter (Ev.of t) = []) : Moment t o r (L ++ es) := by
  obtain ⟨m1, m2, m3, rfl, h1, h2⟩ := h
  exact ⟨m1, m2, m3 ++ es, by simp, h1, by rw [List.filter_append, h2, he]; rfl⟩

theorem before_more {t : Nat} {o : Op} {xs L es : List Ev} (h : Before t o xs L) : Before t o (xs ++ es.filter (Ev.of t)) (L ++ es) := by
  obtain ⟨m1, m2, rfl, h1⟩ := h
  exact ⟨m1, m2 ++ es, by simp, by rw [List.filter_append, h1]⟩

theorem told_more {t : Nat} {c : Ctl} {L es : List Ev} (h : Told t L c) (he : es.filter (Ev.of t) = []) : Told t (L ++ es) c := by
  have hb : ∀ o xs, Before t o xs L → Before t o xs (L ++ es) := fun o xs h => by
    have := before_more (es := es) h
    rwa [he, List.append_nil] at this
  cases c <;> first | exact trivial | exact moment_more h he | exact hb _ _ h

theorem hist_go {σ σ' : St} (h : Hist σ) {t : Nat} {c : Ctl} {es : List Ev} (hl : σ'.log = σ.log ++ es)
    (ht : ∀ u, σ'.thr u = if u = t then c else σ.thr u) (h1 : Told t (σ.log ++ es) c) (h2 : ∀ u, u ≠ t → es.filter (Ev.of u) = [])
    (h3 : ∀ l1 l2 u o r, es = l1 ++ .ret u o r :: l2 → l1 = [] ∧ Moment u o r σ.log) : Hist σ' where
  rets := fun l1 l2 u o r e => by
    rw [hl] at e
    rcases List.append_eq_append_iff.mp e with ⟨x, e1, e2⟩ | ⟨x, e1, e2⟩
    · obtain ⟨rfl, hm⟩ := h3 x l2 u o r e2
      rw [List.append_nil] at e1
      rw [e1]
      exact hm
    · cases x with
      | nil =>
        obtain ⟨_, hm⟩ := h3 [] l2 u o r (by simpa using e2.symm)
        rw [List.append_nil] at e1
        rwa [← e1]
      | cons y x =>
        have := List.cons.inj e2
        rw [← this.1] at e1
        exact h.rets l1 x u o r e1
  told := fun u => by
    rw [ht u, hl]
    split
    · rename_i e
      rw [e]
      exact h1
    · rename_i hu
      exact told_more (h.told u) (h2 u hu)

/-- A step within a call that adds no event. -/
theorem hist_quiet {σ σ' : St} (h : Hist σ) {t : Nat} {c : Ctl} (hl : σ'.log = σ.log) (ht : ∀ u, σ'.thr u = if u = t then c else σ.thr u)
    (h1 : Told t σ.log c) : Hist σ' :=
  hist_go h (es := []) (by rw [hl, List.append_nil]) ht (by rw [List.append_nil]; exact h1) (fun _ _ => rfl)
    (fun l1 l2 u o r e => by cases l1 <;> cases e)

theorem single {t u : Nat} {e : Ev} (he : ∀ v, e.of v = true → v = t) (hu : u ≠ t) : [e].filter (Ev.of u) = [] := by
  rw [List.filter_eq_nil_iff]
  intro x hx hh
  rcases List.mem_singleton.mp hx with rfl
  exact hu (he u hh)

theorem noret {σ : St} {e : Ev} (he : ∀ u o r, e ≠ .ret u o r) : ∀ l1 l2 u o r, [e] = l1 ++ .ret u o r :: l2 → l1 = [] ∧ Moment u o r σ.log := by
  intro l1 l2 u o r h
  cases l1 with
  | nil => exact absurd (List.cons.inj h).1 (he u o r)
  | cons x l1 => have := congrArg List.length h; simp at this

theorem hist_eff {σ : St} (h : Hist σ) {t : Nat} {o : Op} {k : Res → Code} {r : Res} {l : List Slot} (hb : Before t o (made t o r) σ.log) :
    Hist (σ.eff t o k r l) := by
  refine hist_go h (es := [.effect t o r]) rfl (fun u => rfl) ?_ (fun u hu => single (fun v hv => by simpa [Ev.of] using Eq.symm (of_decide_eq_true hv)) hu)
    (noret (fun _ _ _ e => by cases e))
  obtain ⟨m1, m2, e, h1⟩ := hb
  exact ⟨m1, m2, [], by rw [e]; simp, h1, rfl⟩

theorem hist_step {σ : St} (h : Hist σ) (t : Nat) : Hist (step t σ) := by
  have hk := h.told t
  unfold step
  split
  · exact h
  · rename_i o k hc
    refine hist_go h (es := [.call t o]) (c := if o = .len then .size k else .wait o k) rfl (fun u => rfl) ?_
      (fun u hu => single (fun v hv => by simpa [Ev.of] using Eq.symm (of_decide_eq_true hv)) hu) (noret (fun _ _ _ e => by cases e))
    split
    · rename_i e
      subst e
      exact ⟨σ.log, [], rfl, rfl⟩
    · exact ⟨σ.log, [], rfl, rfl⟩
  · rename_i o k hc
    rw [hc] at hk
    split
    · refine hist_quiet h (t := t) (c := first o k) rfl (fun u => rfl) ?_
      unfold first
      split
      · exact hk
      · exact hk
      · exact hk
      · exact hk
    · exact h
  · rename_i o k i hc
    rw [hc] at hk
    have hm : ∀ r, (∀ fs, r ≠ .calls fs) → Before t o (made t o r) σ.log := fun r hr => by
      have : made t o r = [] := by
        unfold made
        split
        · exact absurd rfl (hr _)
        · rfl
      rw [this]
      exact hk
    split
    · split
      · split
        · exact hist_eff h (hm _ (fun _ e => by cases e))
        · exact hist_quiet h rfl (fun _ => rfl) hk
        · exact hist_eff h (hm _ (fun _ e => by cases e))
        · exact hist_eff h (hm _ (fun _ e => by cases e))
      · exact hist_quiet h rfl (fun _ => rfl) hk
    · split
      · exact hist_quiet h rfl (fun _ => rfl) hk
      · exact hist_eff h (hm _ (fun _ e => by split at e <;> cases e))
      · exact hist_eff h (hm _ (fun _ e => by cases e))
  · rename_i hc
    rw [hc] at hk
    split
    · exact hist_eff h hk
    · exact hist_quiet h rfl (fun _ => rfl) hk
  · rename_i hc
    rw [hc] at hk
    split
    · split <;> exact hist_quiet h rfl (fun _ => rfl) hk
    · exact hist_eff h hk
  · rename_i hc
    rw [hc] at hk
    exact hist_eff h hk
  · rename_i hc
    rw [hc] at hk
    split <;> exact hist_eff h hk
  · rename_i hc
    rw [hc] at hk
    exact hist_eff h hk
  · rename_i k hc
    rw [hc] at hk
    refine hist_go h (es := [.effect t .len (.num σ.slots.length)]) (c := .back .len k (.num σ.slots.length)) rfl (fun u => rfl) ?_
      (fun u hu => single (fun v hv => by simpa [Ev.of] using Eq.symm (of_decide_eq_true hv)) hu) (noret (fun _ _ _ e => by cases e))
    obtain ⟨m1, m2, e, h1⟩ := hk
    exact ⟨m1, m2, [], by rw [e]; simp [Ctl.op], h1, rfl⟩
  · rename_i a k j fs hc
    rw [hc] at hk
    split
    · rename_i s hs
      refine hist_go h (es := [.called t s.f a]) (c := .loop a k (j + 1) (fs ++ [s.f])) rfl (fun u => rfl) ?_
        (fun u hu => single (fun v hv => by simpa [Ev.of] using Eq.symm (of_decide_eq_true hv)) hu) (noret (fun _ _ _ e => by cases e))
      have := before_more (es := [.called t s.f a]) hk
      show Before t (.emit a) ((fs ++ [s.f]).map _) _
      rw [List.map_append]
      simpa [Ev.of, Ctl.made, Ctl.op] using this
    · exact hist_eff h hk
  · rename_i hc
    rw [hc] at hk
    exact hist_quiet h rfl (fun _ => rfl) hk
  · rename_i o k r hc
    rw [hc] at hk
    refine hist_go h (es := [.ret t o r]) (c := .run (k r)) rfl (fun u => rfl) trivial
      (fun u hu => single (fun v hv => by simpa [Ev.of] using Eq.symm (of_decide_eq_true hv)) hu) ?_
    intro l1 l2 u o' r' e
    cases l1 with
    | nil =>
      cases (List.cons.inj e).1
      exact ⟨rfl, hk⟩
    | cons x l1 => have := congrArg List.length e; simp at this

theorem hist_run (prog : Nat → Code) (sched : List Who) : Hist (run sched (init prog)) := by
  have : ∀ (s : List Who) (σ : St), Hist σ → Hist (run s σ) := by
    intro s
    induction s with
    | nil => exact fun _ h => h
    | cons w s ih =>
      intro σ h
      refine ih _ ?_
      cases w with
      | thr t => exact hist_step h t
      | gc f =>
        refine ⟨fun l1 l2 u o r e => ?_, fun t => told_more (h.told t) rfl⟩
        change σ.log ++ [.died f] = _ at e
        rcases List.append_eq_append_iff.mp e with ⟨x, e1, e2⟩ | ⟨x, e1, e2⟩
        · have := (noret (σ := σ) (e := .died f) (fun _ _ _ e => by cases e)) x l2 u o r e2
          rw [e1, this.1, List.append_nil]
          exact this.2
        · cases x with
          | nil =>
            rw [List.append_nil] at e1
            rw [← e1]
            exact ((noret (σ := σ) (e := .died f) (fun _ _ _ e => by cases e)) [] l2 u o r (by simpa using e2.symm)).2
          | cons y x =>
            have := List.cons.inj e2
            rw [← this.1] at e1
            exact h.rets l1 x u o r e1
  refine this _ _ ⟨fun l1 l2 t o r e => ?_, fun t => trivial⟩
  cases l1 <;> cases e

/-- What one step can do to the slots. -/
theorem slots_act (σ : St) (w : Who) : (act σ w).slots = σ.slots ∨
    (∃ t f u p i, (act σ w).log = σ.log ++ [.effect t (.conn f u p) .ok] ∧ (act σ w).slots = σ.slots.take i ++ ⟨f, p⟩ :: σ.slots.drop i) ∨
    (∃ t f ok i, (act σ w).log = σ.log ++ [.effect t (.disc f ok) .ok] ∧ (act σ w).slots = σ.slots.eraseIdx i) ∨
    (∃ t, (act σ w).log = σ.log ++ [.effect t .discAll .ok] ∧ (act σ w).slots = []) ∨
    (∃ f, w = .gc f ∧ (act σ w).log = σ.log ++ [.died f] ∧ (act σ w).slots = σ.slots.eraseP (·.f = f)) := by
  cases w with
  | gc f => exact .inr (.inr (.inr (.inr ⟨f, rfl, rfl, rfl⟩)))
  | thr t =>
    have app : ∀ x : Slot, σ.slots ++ [x] = σ.slots.take σ.slots.length ++ x :: σ.slots.drop σ.slots.length := by simp
    show (step t σ).slots = _ ∨ _
    simp only [act]
    unfold step
    split
    · exact .inl rfl
    · exact .inl rfl
    · split <;> exact .inl rfl
    · split
      · split
        · split <;> exact .inl rfl
        · exact .inl rfl
      · split <;> exact .inl rfl
    · split
      · exact .inr (.inl ⟨_, _, _, _, _, rfl, app _⟩)
      · exact .inl rfl
    · split
      · split <;> exact .inl rfl
      · exact .inr (.inl ⟨_, _, _, _, _, rfl, app _⟩)
    · exact .inr (.inl ⟨_, _, _, _, _, rfl, rfl⟩)
    · split
      · exact .inr (.inr (.inl ⟨_, _, _, _, rfl, rfl⟩))
      · exact .inl rfl
    · exact .inr (.inr (.inr (.inl ⟨_, rfl, rfl⟩)))
    · exact .inl rfl
    · split <;> exact .inl rfl
    · exact .inl rfl
    · exact .inl rfl

/-- The log only grows. -/
theorem log_act (σ : St) (w : Who) : ∃ es, (act σ w).log = σ.log ++ es := by
  cases w with
  | gc f => exact ⟨_, rfl⟩
  | thr t =>
    simp only [act]
    unfold step
    have hn : ∃ es, σ.log = σ.log ++ es := ⟨[], by simp⟩
    split
    · exact hn
    · exact ⟨_, rfl⟩
    · split <;> exact hn
    · split
      · split
        · split <;> first | exact hn | exact ⟨_, rfl⟩
        · exact hn
      · split <;> first | exact hn | exact ⟨_, rfl⟩
    · split
      · exact ⟨_, rfl⟩
      · exact hn
    · split
      · split <;> exact hn
      · exact ⟨_, rfl⟩
    · exact ⟨_, rfl⟩
    · split <;> exact ⟨_, rfl⟩
    · exact ⟨_, rfl⟩
    · exact ⟨_, rfl⟩
    · split <;> exact ⟨_, rfl⟩
    · exact hn
    · exact ⟨_, rfl⟩

theorem log_run : ∀ (s : List Who) (σ : St), ∃ es, (run s σ).log = σ.log ++ es
  | [], σ => ⟨[], by simp [run]⟩
  | w :: s, σ => by
    obtain ⟨es, h⟩ := log_act σ w
    obtain ⟨es', h'⟩ := log_run s (act σ w)
    exact ⟨es ++ es', by show (run s (act σ w)).log = _; rw [h', h, List.append_assoc]⟩

end Psygnal.CoC
