import Verif.EventedDictLemmas
import Verif.EventedListEvents

/-!
# Events of `EventedDict`: lemmas for C30
-/

namespace Psygnal.ED
open Psygnal.Py (M Err)

variable {K V : Type} [DecidableEq K] [DecidableEq V] {c : Cfg K V} [c.Passive]

/-- `Eff d log d'`: starting from `d`, the changes reported by `log` are exactly those that led to `d'`, each announced
right before. -/
inductive Eff (d : List (K × V)) : List (Ev K V × List (K × V)) → List (K × V) → Prop
  | refl : Eff d [] d
  | adding {log d1} (k) : Eff d log d1 → Eff d (log ++ [(.adding k, d1)]) d1
  | added {log d1 k} (v) : Eff d log d1 → lookup d1 k = none →
      Eff d (log ++ [(.adding k, d1)] ++ [(.added k v, put d1 k v)]) (put d1 k v)
  | changing {log d1} (k) : Eff d log d1 → Eff d (log ++ [(.changing k, d1)]) d1
  | changed {log d1 k old v} : Eff d log d1 → lookup d1 k = some old → v ≠ old →
      Eff d (log ++ [(.changing k, d1)] ++ [(.changed k old v, put d1 k v)]) (put d1 k v)
  | removing {log d1} (k) : Eff d log d1 → Eff d (log ++ [(.removing k, d1)]) d1
  | removed {log d1 k v} : Eff d log d1 → lookup d1 k = some v →
      Eff d (log ++ [(.removing k, d1)] ++ [(.removed k v, del d1 k)]) (del d1 k)

/-- The log tells how `d` became the current contents. -/
def Told (d : List (K × V)) (s : St K V) : Prop := Eff d s.log s.dict

omit [DecidableEq K] [DecidableEq V] in
theorem emit_cases (e : Ev K V) (s : St K V) :
    emit c e s = (.error .emitLoop, { s with log := s.log ++ [(e, s.dict)] }) ∨
    emit c e s = (.ok (), { s with log := s.log ++ [(e, s.dict)] }) := by
  simp only [emit, Cfg.Passive.react (c := c), Cfg.Passive.early (c := c), if_true, M.pure_app]
  split
  · exact .inl rfl
  · exact .inr rfl

omit [DecidableEq K] [DecidableEq V] in
theorem emit_state (e : Ev K V) (s : St K V) : (emit c e s).2 = { s with log := s.log ++ [(e, s.dict)] } := by
  simp [emit, Cfg.Passive.react (c := c), Cfg.Passive.early (c := c)]

theorem setItem_told {d : List (K × V)} (k : K) (v : V) : M.Keeps (Told d) (setItem c k v) := by
  intro s hs
  simp only [setItem, M.bind_eq, M.bind_app, hash]
  by_cases hk : c.hashable k = true
  · simp only [hk, if_true, M.pure_eq, M.pure_app, M.get_app]
    rcases hl : lookup s.dict k with _ | old
    · simp only [M.bind_app]
      rcases emit_cases (c := c) (.adding k) s with h | h <;> simp only [h]
      · exact Eff.adding k hs
      · simp only [baseSet]
        by_cases hv : c.okType v = true
        · simp only [hv, if_true, M.modify_app, emit_state]
          exact Eff.added v hs hl
        · simp only [hv]
          exact Eff.adding k hs
    · simp only
      by_cases he : v = old
      · simp only [if_pos he]
        exact hs
      · simp only [if_neg he, M.bind_app]
        rcases emit_cases (c := c) (.changing k) s with h | h <;> simp only [h]
        · exact Eff.changing k hs
        · simp only [baseSet]
          by_cases hv : c.okType v = true
          · simp only [hv, if_true, M.modify_app, emit_state]
            exact Eff.changed hs hl he
          · simp only [hv]
            exact Eff.changing k hs
  · simp only [hk]
    exact hs

omit [DecidableEq V] in
theorem delItem_told {d : List (K × V)} (k : K) : M.Keeps (Told d) (delItem c k) := by
  intro s hs
  simp only [delItem, M.bind_eq, M.bind_app, getItem_app]
  by_cases hk : c.hashable k = true
  · simp only [hk, if_true]
    rcases hl : lookup s.dict k with _ | v
    · exact hs
    · simp only
      rcases emit_cases (c := c) (.removing k) s with h | h <;> simp only [h]
      · exact Eff.removing k hs
      · simp only [baseDel, M.bind_eq, M.bind_app, M.get_app, hl, M.modify_app, emit_state]
        exact Eff.removed hs hl
  · simp only [hk]
    exact hs

omit [DecidableEq V] in
omit [c.Passive] in
theorem getItem_told {d : List (K × V)} (k : K) : M.Keeps (Told d) (getItem c k) := by
  intro s hs
  rw [getItem_app]
  exact hs

omit [DecidableEq V] in
theorem popItem_told {d : List (K × V)} : M.Keeps (Told d) (popItem c) := by
  refine M.Keeps.get.seq fun s => ?_
  rcases s.dict with _ | ⟨p, d'⟩
  · exact M.Keeps.raise _
  · exact (getItem_told _).seq fun _ => (delItem_told _).seq fun _ => M.Keeps.pure' _

omit [DecidableEq V] in
theorem clearLoop_told {d : List (K × V)} (n : Nat) : M.Keeps (Told d) (clearLoop c n) := by
  induction n with
  | zero => exact M.Keeps.pure _
  | succ n ih =>
    intro s hs
    have := popItem_told (c := c) s hs
    simp only [clearLoop]
    rcases hp : popItem c s with ⟨e | r, s'⟩ <;> rw [hp] at this
    · cases e <;> exact this
    · exact ih s' this

theorem update_told {d : List (K × V)} (l : List (K × V)) : M.Keeps (Told d) (update c l) :=
  M.Keeps.forEach _ fun _ => setItem_told _ _

theorem step_told {d : List (K × V)} (op : Op K V) : M.Keeps (Told d) (step c op) := by
  cases op with
  | getItem k => exact (getItem_told k).seq fun _ => M.Keeps.pure' _
  | setItem k v => exact (setItem_told k v).seq fun _ => M.Keeps.pure' _
  | delItem k => exact (delItem_told k).seq fun _ => M.Keeps.pure' _
  | len | items => exact fun _ h => h
  | contains k =>
    refine M.Keeps.seq (fun s hs => ?_) fun _ => M.Keeps.pure' _
    simp only [contains, getItem_app]
    split <;> simp_all
  | get k v =>
    refine M.Keeps.seq (fun s hs => ?_) fun _ => M.Keeps.pure' _
    simp only [get, getItem_app]
    split <;> simp_all
  | pop k v =>
    refine M.Keeps.seq (fun s hs => ?_) fun _ => M.Keeps.pure' _
    have h0 := getItem_told (c := c) k s hs
    simp only [pop]
    split
    · rename_i s' e
      rw [e] at h0
      split <;> exact h0
    · rename_i s' e
      rw [e] at h0
      exact h0
    · rename_i s' e
      rw [e] at h0
      exact ((delItem_told k).bind fun _ => M.Keeps.pure _) s' h0
  | popItem => exact popItem_told.seq fun _ => M.Keeps.pure' _
  | clear => exact M.Keeps.seq (fun s hs => clearLoop_told _ s hs) fun _ => M.Keeps.pure' _
  | update l => exact (update_told l).seq fun _ => M.Keeps.pure' _
  | setDefault k v =>
    refine M.Keeps.seq (fun s hs => ?_) fun _ => M.Keeps.pure' _
    have h0 := getItem_told (c := c) k s hs
    simp only [setDefault]
    split
    · rename_i s' e
      rw [e] at h0
      exact ((setItem_told k v).bind fun _ => M.Keeps.pure _) s' h0
    · exact h0
  | copy =>
    refine M.Keeps.seq (fun s hs => ?_) fun _ => M.Keeps.pure' _
    simp only [copy]
    split <;> exact hs
  | reversed => exact M.Keeps.raise _

theorem run_told {d : List (K × V)} (ops : List (Op K V)) {s : St K V} (h : Told d s) : Told d (run c ops s).2 := by
  induction ops generalizing s with
  | nil => exact h
  | cons op ops ih => exact ih (step_told op s h)

/-! ## What the grammar of logs says -/

omit [DecidableEq V] in
theorem replay_snoc (d : List (K × V)) (log : List (Ev K V × List (K × V))) (e : Ev K V × List (K × V)) :
    replay d (log ++ [e]) = observe (replay d log) e.1 := by
  simp [replay, List.foldl_append]

/-- Replaying the events from `d` gives `d'`, and after every single event what the dict was then. -/
def Story (d : List (K × V)) (log : List (Ev K V × List (K × V))) (d' : List (K × V)) : Prop :=
  replay d log = d' ∧ ∀ pre e post, log = pre ++ e :: post → replay d (pre ++ [e]) = e.2

omit [DecidableEq V] in
theorem Story.snoc {d d1 d2 : List (K × V)} {log : List (Ev K V × List (K × V))} {e : Ev K V} (h : Story d log d1)
    (he : observe d1 e = d2) : Story d (log ++ [(e, d2)]) d2 := by
  have h2 : replay d (log ++ [(e, d2)]) = d2 := by rw [replay_snoc, h.1, he]
  refine ⟨h2, ?_⟩
  intro pre e' post h3
  rcases EL.snoc_split h3 with ⟨post', -, h4⟩ | ⟨-, h4, h5⟩
  · exact h.2 _ _ _ h4
  · subst h4 h5
    exact h2

omit [DecidableEq V] in
theorem Eff.story {d d' : List (K × V)} {log : List (Ev K V × List (K × V))} (h : Eff d log d') : Story d log d' := by
  induction h with
  | refl => exact ⟨rfl, by intro pre e post h; simp at h⟩
  | adding k _ ih | removing k _ ih | changing k _ ih => exact ih.snoc rfl
  | added v _ _ ih => exact (ih.snoc (e := .adding _) rfl).snoc rfl
  | changed _ _ _ ih => exact (ih.snoc (e := .changing _) rfl).snoc rfl
  | removed _ _ ih => exact (ih.snoc (e := .removing _) rfl).snoc rfl

/-- What must come right before an event `e` emitted with contents `d`. -/
def Announced (e : Ev K V) (d : List (K × V)) (before : List (Ev K V × List (K × V))) : Prop :=
  match e with
  | .added k v => ∃ before' d0, before = before' ++ [(.adding k, d0)] ∧ lookup d0 k = none ∧ d = put d0 k v
  | .changed k old v => ∃ before' d0, before = before' ++ [(.changing k, d0)] ∧ lookup d0 k = some old ∧ v ≠ old ∧
      d = put d0 k v
  | .removed k v => ∃ before' d0, before = before' ++ [(.removing k, d0)] ∧ lookup d0 k = some v ∧ d = del d0 k
  | _ => True

omit [DecidableEq V] in
theorem Eff.announced {d d' : List (K × V)} {log : List (Ev K V × List (K × V))} (h : Eff d log d') :
    ∀ pre e d1 post, log = pre ++ (e, d1) :: post → Announced e d1 pre := by
  have one : ∀ {log : List (Ev K V × List (K × V))} {e : Ev K V} {d1 : List (K × V)},
      (∀ pre e d1 post, log = pre ++ (e, d1) :: post → Announced e d1 pre) → Announced e d1 log →
      ∀ pre e' d2 post, log ++ [(e, d1)] = pre ++ (e', d2) :: post → Announced e' d2 pre := by
    intro log e d1 h1 h2 pre e' d2 post h3
    rcases EL.snoc_split h3 with ⟨post', -, h4⟩ | ⟨-, h4, h5⟩
    · exact h1 _ _ _ _ h4
    · subst h4
      cases h5
      exact h2
  induction h with
  | refl => intro pre e d1 post h; simp at h
  | adding k _ ih | removing k _ ih | changing k _ ih => exact one ih trivial
  | added v _ hl ih => exact one (one ih (e := .adding _) trivial) ⟨_, _, rfl, hl, rfl⟩
  | changed _ hl hv ih => exact one (one ih (e := .changing _) trivial) ⟨_, _, rfl, hl, hv, rfl⟩
  | removed _ hl ih => exact one (one ih (e := .removing _) trivial) ⟨_, _, rfl, hl, rfl⟩

end Psygnal.ED
