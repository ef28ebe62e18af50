import Verif.EventedSetSteps

/-!
# Sets: the elements do not depend on the listeners (lemmas for C31)
-/

namespace Psygnal.ES
open Psygnal.Py (M Err)

variable {α : Type} [DecidableEq α] {c : Cfg α} [c.Passive]

/-- The same set with listeners that do not raise. -/
def Cfg.hush (c : Cfg α) : Cfg α := { c with fails := fun _ => false }

instance : c.hush.Passive := ⟨Cfg.Passive.react (c := c)⟩

/-- The same elements. -/
def Sim (s t : St α) : Prop := s.data = t.data ∧ s.paused = t.paused

/-- Nothing is delivered: the signal is paused, or the set has none. -/
def Mute (c : Cfg α) (s : St α) : Prop := c.evented = true → s.paused = true

/-- Two runs without delivery. -/
def SimOk (m n : M (St α) Unit) (c : Cfg α) : Prop :=
  ∀ s t, Sim s t → Mute c s → (m s).1 = (n t).1 ∧ Sim (m s).2 (n t).2 ∧ (m s).2.paused = s.paused

omit [DecidableEq α] in
omit [c.Passive] in
theorem SimOk.forEach {β : Type} (l : List β) {f g : β → M (St α) Unit} (h : ∀ b, SimOk (f b) (g b) c) :
    SimOk (M.forEach l f) (M.forEach l g) c := by
  intro s t hs hm
  induction l generalizing s t with
  | nil => exact ⟨rfl, hs, rfl⟩
  | cons b l ih =>
    obtain ⟨h1, h2, h3⟩ := h b s t hs hm
    simp only [M.forEach, M.bind_app]
    rcases hf : f b s with ⟨r, s1⟩
    rcases hg : g b t with ⟨r', t1⟩
    rw [hf, hg] at h1 h2
    rw [hf] at h3
    cases h1
    cases r with
    | error e => exact ⟨rfl, h2, h3⟩
    | ok _ =>
      obtain ⟨h4, h5, h6⟩ := ih s1 t1 h2 (fun he => h3.trans (hm he))
      exact ⟨h4, h5, h6.trans h3⟩

omit [DecidableEq α] in
omit [c.Passive] in
theorem emitChange_mute (a b : List α) : SimOk (emitChange c a b) (emitChange c.hush a b) c := by
  intro s t hs hm
  have hu : c.hush.evented = c.evented := rfl
  simp only [emitChange, hu]
  cases he : c.evented
  · exact ⟨rfl, hs, rfl⟩
  · simp only [if_true, hm he, ← hs.2]
    exact ⟨trivial, ⟨hs.1, rfl⟩, trivial⟩

omit [c.Passive] in
theorem add_mute (x : α) : SimOk (add c x) (add c.hush x) c := by
  intro s t hs hm
  simp only [add, M.bind_eq, M.bind_app, M.get_app, M.modify_app]
  rw [hs.1]
  by_cases hx : x ∈ t.data
  · simp only [hx, if_true]
    exact ⟨rfl, ⟨rfl, hs.2⟩, rfl⟩
  · simp only [hx, if_false, M.bind_app, M.modify_app]
    exact emitChange_mute [x] [] _ _ ⟨rfl, hs.2⟩ hm

omit [c.Passive] in
theorem discard_mute (x : α) : SimOk (discard c x) (discard c.hush x) c := by
  intro s t hs hm
  simp only [discard, M.bind_eq, M.bind_app, M.get_app, M.modify_app]
  rw [hs.1]
  by_cases hx : x ∈ t.data
  · simp only [hx, if_true, M.bind_app, M.modify_app]
    exact emitChange_mute [] [x] _ _ ⟨rfl, hs.2⟩ hm
  · simp only [hx, if_false]
    exact ⟨rfl, ⟨rfl, hs.2⟩, rfl⟩

omit [c.Passive] in
theorem toggle_mute (x : α) : SimOk (toggle c x) (toggle c.hush x) c := by
  intro s t hs hm
  simp only [toggle, M.bind_eq, M.bind_app, M.get_app]
  rw [hs.1]
  by_cases hx : x ∈ t.data
  · simp only [hx, if_true]
    exact discard_mute x s t hs hm
  · simp only [hx, if_false]
    exact add_mute x s t hs hm

/-- Two runs at rest. -/
def SimRest (m n : M (St α) Unit) : Prop :=
  ∀ s t, Sim s t → s.paused = false → Sim (m s).2 (n t).2 ∧ (m s).2.paused = false

omit [DecidableEq α] in
theorem withPaused_rest {m n : M (St α) Unit} (h : SimOk m n c) : SimRest (withPaused c m) (withPaused c.hush n) := by
  intro s t hs hp
  have hp' : t.paused = false := hs.2 ▸ hp
  have hu : c.hush.evented = c.evented := rfl
  simp only [withPaused, hu]
  cases he : c.evented
  · obtain ⟨-, h2, h3⟩ := h s t hs (by simp [Mute, he])
    exact ⟨h2, h3.trans hp⟩
  · obtain ⟨-, h2, h3⟩ := h { s with paused := true } { t with paused := true } ⟨hs.1, rfl⟩ (fun _ => rfl)
    simp only [if_true, hp, hp', Bool.false_eq_true, if_false]
    have res : ∀ (c : Cfg α) [c.Passive] (r : Except Err Unit) (s1 : St α), (match resume c s1 with
        | (.ok _, s2) => (r, s2)
        | (.error e, s2) => (.error e, s2)).2.data = s1.data ∧ (match resume c s1 with
        | (.ok _, s2) => (r, s2)
        | (.error e, s2) => (.error e, s2)).2.paused = false := by
      intro c _ r s1
      simp only [resume]
      by_cases hq : s1.queue = []
      · simp only [hq, if_true]
        trivial
      · simp only [hq, if_false]
        obtain ⟨h1, h2, -⟩ := deliver_keeps (c := c) (reduceEvents s1.queue) { s1 with paused := false }
        rcases hd : deliver c (reduceEvents s1.queue) { s1 with paused := false } with ⟨_ | _, s2⟩ <;>
          (rw [hd] at h1 h2; exact ⟨h1, h2⟩)
    rcases hm : m { s with paused := true } with ⟨r, s1⟩
    rcases hn : n { t with paused := true } with ⟨r', t1⟩
    rw [hm, hn] at h2
    obtain ⟨h4, h5⟩ := res c r s1
    obtain ⟨h6, h7⟩ := res c.hush r' t1
    exact ⟨⟨h4.trans (h2.1.trans h6.symm), h5.trans h7.symm⟩, h5⟩

omit [DecidableEq α] in
theorem emitChange_rest (a b : List α) : SimRest (emitChange c a b) (emitChange c.hush a b) := by
  intro s t hs hp
  have hp' : t.paused = false := hs.2 ▸ hp
  have hu : c.hush.evented = c.evented := rfl
  simp only [emitChange, hu]
  cases c.evented
  · exact ⟨hs, hp⟩
  · simp only [if_true, hp, hp', Bool.false_eq_true, if_false]
    obtain ⟨h1, h2, -⟩ := deliver_keeps (c := c) (a, b) s
    obtain ⟨h3, h4, -⟩ := deliver_keeps (c := c.hush) (a, b) t
    exact ⟨⟨h1.trans (hs.1.trans h3.symm), h2.trans (hs.2.trans h4.symm)⟩, h2.trans hp⟩

theorem add_rest (x : α) : SimRest (add c x) (add c.hush x) := by
  intro s t hs hp
  simp only [add, M.bind_eq, M.bind_app, M.get_app, M.modify_app]
  rw [hs.1]
  by_cases hx : x ∈ t.data
  · simp only [hx, if_true]
    exact ⟨⟨rfl, hs.2⟩, hp⟩
  · simp only [hx, if_false, M.bind_app, M.modify_app]
    exact emitChange_rest [x] [] _ _ ⟨rfl, hs.2⟩ hp

theorem discard_rest (x : α) : SimRest (discard c x) (discard c.hush x) := by
  intro s t hs hp
  simp only [discard, M.bind_eq, M.bind_app, M.get_app, M.modify_app]
  rw [hs.1]
  by_cases hx : x ∈ t.data
  · simp only [hx, if_true, M.bind_app, M.modify_app]
    exact emitChange_rest [] [x] _ _ ⟨rfl, hs.2⟩ hp
  · simp only [hx, if_false]
    exact ⟨⟨rfl, hs.2⟩, hp⟩

omit [DecidableEq α] in
theorem bind_snd {β γ : Type} (m : M (St α) β) (f : β → M (St α) γ) (hf : ∀ b s, (f b s).2 = s) (s : St α) :
    (M.bind m f s).2 = (m s).2 := by
  simp only [M.bind_app]
  rcases m s with ⟨_ | b, s1⟩
  · rfl
  · exact hf b s1

/-- The elements after an operation do not depend on whether listeners raise. -/
theorem step_sim (op : Op α) (hi : ¬ op.InPlace) {s t : St α} (hs : Sim s t) (hp : s.paused = false) :
    Sim (step c op s).2 (step c.hush op t).2 ∧ (step c op s).2.paused = false := by
  have unit : ∀ {m n : M (St α) Unit}, SimRest m n →
      Sim (M.bind m (fun _ => pure (Res.unit : Res α)) s).2 (M.bind n (fun _ => pure (Res.unit : Res α)) t).2 ∧
        (M.bind m (fun _ => pure (Res.unit : Res α)) s).2.paused = false := by
    intro m n h
    rw [bind_snd m _ (fun _ _ => rfl), bind_snd n _ (fun _ _ => rfl)]
    exact h s t hs hp
  cases op with
  | add x => exact unit (add_rest x)
  | discard x => exact unit (discard_rest x)
  | remove x =>
    refine unit (m := remove c x) (n := remove c.hush x) ?_
    intro s t hs hp
    simp only [remove, M.bind_eq, M.bind_app, M.get_app]
    rw [hs.1]
    by_cases hx : x ∈ t.data
    · simp only [hx, if_true]
      exact discard_rest x s t hs hp
    · simp only [hx, if_false]
      exact ⟨hs, hp⟩
  | pop =>
    simp only [step, M.bind_eq]
    rw [bind_snd (pop c) _ (fun _ _ => rfl), bind_snd (pop c.hush) _ (fun _ _ => rfl)]
    simp only [pop, M.bind_eq]
    rcases ht : t.data with _ | ⟨x, d⟩
    · have hsd := hs.1.trans ht
      simp only [M.bind_app, M.get_app, hsd, ht]
      exact ⟨hs, hp⟩
    · have hsd := hs.1.trans ht
      simp only [M.bind_app M.get, M.get_app, hsd, ht]
      rw [bind_snd (discard c x) _ (fun _ _ => rfl), bind_snd (discard c.hush x) _ (fun _ _ => rfl)]
      exact discard_rest x s t hs hp
  | clear | isubSelf | ixorSelf =>
    refine unit (m := clear c) (n := clear c.hush) (withPaused_rest ?_)
    intro s t hs hm
    simp only [M.bind_eq, M.bind_app, M.get_app, M.modify_app]
    rw [hs.1]
    by_cases hx : t.data = []
    · simp only [hx, if_true]
      exact ⟨rfl, ⟨hs.1.trans hx ▸ rfl, hs.2⟩, rfl⟩
    · simp only [hx, if_false, M.bind_app, M.modify_app]
      exact emitChange_mute [] _ _ _ ⟨rfl, hs.2⟩ hm
  | update o => exact unit (withPaused_rest (SimOk.forEach _ add_mute))
  | differenceUpdate o => exact unit (withPaused_rest (SimOk.forEach _ discard_mute))
  | differenceUpdateSelf | symmetricDifferenceUpdateSelf =>
    refine unit (m := differenceUpdateSelf c) (n := differenceUpdateSelf c.hush) (withPaused_rest ?_)
    intro s t hs hm
    rcases ht : t.data with _ | ⟨x, d⟩
    · have hsd := hs.1.trans ht
      simp only [M.bind_eq, M.bind_app, M.get_app, hsd, ht]
      exact ⟨rfl, hs, rfl⟩
    · have hsd := hs.1.trans ht
      obtain ⟨h1, h2, h3⟩ := discard_mute x s t hs hm
      simp only [M.bind_eq, M.bind_app M.get, M.get_app, hsd, ht]
      rw [bind_snd (discard c x) _ (fun _ _ => rfl), bind_snd (discard c.hush x) _ (fun _ _ => rfl)]
      refine ⟨?_, h2, h3⟩
      simp only [M.bind_app]
      rcases hd1 : discard c x s with ⟨_ | _, s1⟩ <;> rcases hd2 : discard c.hush x t with ⟨_ | _, t1⟩ <;>
        rw [hd1, hd2] at h1
      · simpa using h1
      · cases h1
      · cases h1
      · rfl
  | intersectionUpdate o =>
    refine unit (m := intersectionUpdate c o) (n := intersectionUpdate c.hush o) (withPaused_rest ?_)
    intro s t hs hm
    by_cases ho : o = []
    · simp only [ho, if_true]
      exact ⟨rfl, hs, rfl⟩
    · simp only [ho, if_false, M.bind_eq, M.bind_app, M.get_app]
      rw [hs.1]
      exact SimOk.forEach _ discard_mute s t hs hm
  | symmetricDifferenceUpdate xs => exact unit (withPaused_rest (SimOk.forEach _ toggle_mute))
  | ior | iand | isub | ixor => exact absurd trivial hi
  | intersection o =>
    by_cases ho : o = []
    · simp only [step, ho, if_true]
      exact ⟨hs, hp⟩
    · simp only [step, ho, if_false]
      exact ⟨hs, hp⟩
  | _ => exact ⟨hs, hp⟩

theorem run_sim (ops : List (Op α)) (hi : ∀ op ∈ ops, ¬ op.InPlace) {s t : St α} (hs : Sim s t) (hp : s.paused = false) :
    Sim (run c ops s).2 (run c.hush ops t).2 ∧ (run c ops s).2.paused = false := by
  induction ops generalizing s t with
  | nil => exact ⟨hs, hp⟩
  | cons op ops ih =>
    obtain ⟨h1, h2⟩ := step_sim (c := c) op (hi op (by simp)) hs hp
    exact ih (fun o ho => hi o (by simp [ho])) h1 h2

end Psygnal.ES
