import Verif.EventedSetSpec

/-!
# Sets: lemmas for C31
-/

namespace Psygnal.ES
open Psygnal.Py (M Err)

variable {α : Type} [DecidableEq α] {c : Cfg α}

/-! ## Building new sets -/

theorem insData_nodup (hf : c.Fair) {d : List α} (h : d.Nodup) (x : α) : (insData c x d).Nodup := by
  simp only [insData]
  split
  · exact h
  · rename_i hx
    exact (hf d x).nodup_iff.2 (List.nodup_cons.2 ⟨hx, h⟩)

theorem insData_mem (hf : c.Fair) {d : List α} {x y : α} : y ∈ insData c x d ↔ y = x ∨ y ∈ d := by
  simp only [insData]
  split
  · rename_i hx
    constructor
    · exact .inr
    · rintro (rfl | h)
      · exact hx
      · exact h
  · rw [(hf d x).mem_iff, List.mem_cons]

theorem foldl_ins_nodup (hf : c.Fair) (xs : List α) {d : List α} (h : d.Nodup) :
    (xs.foldl (fun d x => insData c x d) d).Nodup := by
  induction xs generalizing d with
  | nil => exact h
  | cons x xs ih => exact ih (insData_nodup hf h x)

theorem foldl_ins_mem (hf : c.Fair) (xs : List α) {d : List α} {y : α} :
    y ∈ xs.foldl (fun d x => insData c x d) d ↔ y ∈ d ∨ y ∈ xs := by
  induction xs generalizing d with
  | nil => simp
  | cons x xs ih =>
    rw [List.foldl_cons, ih, insData_mem hf, List.mem_cons]
    grind

theorem mk_nodup (hf : c.Fair) (xs : List α) : (mk c xs).Nodup := foldl_ins_nodup hf xs List.nodup_nil
theorem mk_mem (hf : c.Fair) (xs : List α) {y : α} : y ∈ mk c xs ↔ y ∈ xs := by simp [mk, foldl_ins_mem hf]

/-! ## Collecting changes -/

/-- The elements `data` come from `old` by adding `A` and removing `R`. -/
structure Diff (old A R data : List α) : Prop where
  addedNodup : A.Nodup
  removedNodup : R.Nodup
  added : ∀ y ∈ A, y ∉ old
  removed : ∀ y ∈ R, y ∈ old
  mem : ∀ y, y ∈ data ↔ (y ∈ old ∧ y ∉ R) ∨ y ∈ A
  nodup : data.Nodup

omit [DecidableEq α] in
theorem Diff.refl {d : List α} (h : d.Nodup) : Diff d [] [] d :=
  ⟨List.nodup_nil, List.nodup_nil, by simp, by simp, by simp, h⟩

omit [DecidableEq α] in
theorem Diff.add (hf : c.Fair) {old A R data : List α} (h : Diff old A R data) {x : α} (hx : x ∉ data) (hr : x ∉ R) :
    Diff old (A ++ [x]) R (c.place data x) := by
  have h1 := h.mem x
  have hxo : x ∉ old ∧ x ∉ A := by grind
  refine ⟨?_, h.removedNodup, ?_, h.removed, ?_, (hf data x).nodup_iff.2 (List.nodup_cons.2 ⟨hx, h.nodup⟩)⟩
  · rw [List.nodup_append]
    refine ⟨h.addedNodup, by simp, ?_⟩
    intro a ha b hb e
    simp only [List.mem_singleton] at hb
    exact hxo.2 (hb ▸ e ▸ ha)
  · intro y hy
    rcases List.mem_append.1 hy with hy | hy
    · exact h.added y hy
    · simp only [List.mem_singleton] at hy
      exact hy ▸ hxo.1
  · intro y
    rw [(hf data x).mem_iff, List.mem_cons, List.mem_append, List.mem_singleton, h.mem y]
    grind

theorem Diff.discard {old A R data : List α} (h : Diff old A R data) {x : α} (hx : x ∈ data) (ha : x ∉ A) :
    Diff old A (R ++ [x]) (data.erase x) := by
  have h1 := h.mem x
  have hxo : x ∈ old ∧ x ∉ R := by grind
  refine ⟨h.addedNodup, ?_, h.added, ?_, ?_, h.nodup.erase x⟩
  · rw [List.nodup_append]
    refine ⟨h.removedNodup, by simp, ?_⟩
    intro a ha b hb e
    simp only [List.mem_singleton] at hb
    exact hxo.2 (hb ▸ e ▸ ha)
  · intro y hy
    rcases List.mem_append.1 hy with hy | hy
    · exact h.removed y hy
    · simp only [List.mem_singleton] at hy
      exact hy ▸ hxo.1
  · intro y
    rw [h.nodup.mem_erase_iff, List.mem_append, List.mem_singleton, h.mem y]
    have := h.added y
    by_cases e : y = x
    · subst e
      grind
    · grind

/-- The state while changes are collected: `A` added and `R` removed so far, nothing reported. -/
structure Acc (c : Cfg α) (old A R : List α) (log : List ((List α × List α) × List α))
    (pd : Option (List (List α × List α))) (s : St α) : Prop where
  diff : Diff old A R s.data
  paused : s.paused = c.evented
  log_eq : s.log = log
  queueA : c.evented = true → s.queue.flatMap (·.1) = A
  queueR : c.evented = true → s.queue.flatMap (·.2) = R
  queueNe : ∀ q ∈ s.queue, q.1 ≠ [] ∨ q.2 ≠ []
  quiet : c.evented = false → s.queue = []
  idle : s.pending = pd

theorem add_acc (hf : c.Fair) {old A R : List α} {log pd} {s : St α} (h : Acc c old A R log pd s) {x : α} (hr : x ∉ R) :
    ∃ A' s', add c x s = (.ok (), s') ∧ Acc c old A' R log pd s' ∧ (∀ y, y ∈ s'.data ↔ y = x ∨ y ∈ s.data) ∧
      (∀ y ∈ A', y ∈ A ∨ y = x) := by
  simp only [add, M.bind_eq, M.bind_app, M.get_app, M.modify_app]
  by_cases hx : x ∈ s.data
  · simp only [hx, if_true]
    refine ⟨A, _, rfl, ⟨h.diff, h.paused, h.log_eq, h.queueA, h.queueR, h.queueNe, h.quiet, h.idle⟩, ?_, fun y => .inl⟩
    intro y
    constructor
    · exact .inr
    · rintro (rfl | h)
      · exact hx
      · exact h
  · simp only [hx, if_false, M.bind_app, M.modify_app, emitChange]
    have hp := h.paused
    have hm : ∀ y, y ∈ c.place s.data x ↔ y = x ∨ y ∈ s.data := fun y => by rw [(hf _ _).mem_iff, List.mem_cons]
    have hA : ∀ y ∈ A ++ [x], y ∈ A ∨ y = x := fun y hy => by simpa using hy
    cases he : c.evented
    · simp only [Bool.false_eq_true, if_false]
      refine ⟨A ++ [x], _, rfl, ⟨h.diff.add hf hx hr, by simpa [he] using hp, h.log_eq, by simp [he], by simp [he], ?_, ?_, h.idle⟩,
        hm, hA⟩
      · exact h.queueNe
      · exact h.quiet
    · rw [he] at hp
      simp only [if_true, hp]
      refine ⟨A ++ [x], _, rfl, ⟨h.diff.add hf hx hr, by simp [he], h.log_eq, ?_, ?_, ?_, by simp [he], h.idle⟩, hm, hA⟩
      · intro _
        simp [List.flatMap_append, h.queueA he]
      · intro _
        simp [List.flatMap_append, h.queueR he]
      · intro q hq
        rcases List.mem_append.1 hq with hq | hq
        · exact h.queueNe q hq
        · simp only [List.mem_singleton] at hq
          simp [hq]

theorem discard_acc {old A R : List α} {log pd} {s : St α} (h : Acc c old A R log pd s) {x : α} (ha : x ∉ A) :
    ∃ R' s', discard c x s = (.ok (), s') ∧ Acc c old A R' log pd s' ∧ (∀ y, y ∈ s'.data ↔ y ≠ x ∧ y ∈ s.data) ∧
      (∀ y ∈ R', y ∈ R ∨ y = x) := by
  simp only [discard, M.bind_eq, M.bind_app, M.get_app, M.modify_app]
  by_cases hx : x ∈ s.data
  · simp only [hx, if_true, M.bind_app, M.modify_app, emitChange]
    have hp := h.paused
    have hm : ∀ y, y ∈ s.data.erase x ↔ y ≠ x ∧ y ∈ s.data := fun y => h.diff.nodup.mem_erase_iff
    have hR : ∀ y ∈ R ++ [x], y ∈ R ∨ y = x := fun y hy => by simpa using hy
    cases he : c.evented
    · simp only [Bool.false_eq_true, if_false]
      refine ⟨R ++ [x], _, rfl, ⟨h.diff.discard hx ha, by simpa [he] using hp, h.log_eq, by simp [he], by simp [he], ?_, ?_, h.idle⟩,
        hm, hR⟩
      · exact h.queueNe
      · exact h.quiet
    · rw [he] at hp
      simp only [if_true, hp]
      refine ⟨R ++ [x], _, rfl, ⟨h.diff.discard hx ha, by simp [he], h.log_eq, ?_, ?_, ?_, by simp [he], h.idle⟩, hm, hR⟩
      · intro _
        simp [List.flatMap_append, h.queueA he]
      · intro _
        simp [List.flatMap_append, h.queueR he]
      · intro q hq
        rcases List.mem_append.1 hq with hq | hq
        · exact h.queueNe q hq
        · simp only [List.mem_singleton] at hq
          simp [hq]
  · simp only [hx, if_false]
    refine ⟨R, _, rfl, ⟨h.diff, h.paused, h.log_eq, h.queueA, h.queueR, h.queueNe, h.quiet, h.idle⟩, ?_, fun y => .inl⟩
    intro y
    constructor
    · intro hy
      exact ⟨fun e => hx (e ▸ hy), hy⟩
    · exact And.right

theorem adds_acc (hf : c.Fair) (xs : List α) {old A : List α} {log pd} {s : St α} (h : Acc c old A [] log pd s) :
    ∃ A' s', M.forEach xs (add c) s = (.ok (), s') ∧ Acc c old A' [] log pd s' ∧ (∀ y, y ∈ s'.data ↔ y ∈ s.data ∨ y ∈ xs) := by
  induction xs generalizing A s with
  | nil => exact ⟨A, s, rfl, h, by simp⟩
  | cons x xs ih =>
    obtain ⟨A1, s1, h1, h2, h3, -⟩ := add_acc hf h (x := x) (by simp)
    obtain ⟨A2, s2, h4, h5, h6⟩ := ih h2
    refine ⟨A2, s2, ?_, h5, ?_⟩
    · rw [M.forEach, M.bind_ok h1, h4]
    · intro y
      rw [h6, h3, List.mem_cons]
      grind

theorem discards_acc (xs : List α) {old R : List α} {log pd} {s : St α} (h : Acc c old [] R log pd s) :
    ∃ R' s', M.forEach xs (discard c) s = (.ok (), s') ∧ Acc c old [] R' log pd s' ∧
      (∀ y, y ∈ s'.data ↔ y ∈ s.data ∧ y ∉ xs) := by
  induction xs generalizing R s with
  | nil => exact ⟨R, s, rfl, h, by simp⟩
  | cons x xs ih =>
    obtain ⟨A1, s1, h1, h2, h3, -⟩ := discard_acc h (x := x) (by simp)
    obtain ⟨A2, s2, h4, h5, h6⟩ := ih h2
    refine ⟨A2, s2, ?_, h5, ?_⟩
    · rw [M.forEach, M.bind_ok h1, h4]
    · intro y
      rw [h6, h3, List.mem_cons]
      grind

theorem toggles_acc (hf : c.Fair) (xs : List α) (hn : xs.Nodup) {old A R : List α} {log pd} {s : St α}
    (h : Acc c old A R log pd s) (hA : ∀ x ∈ xs, x ∉ A) (hR : ∀ x ∈ xs, x ∉ R) :
    ∃ A' R' s', M.forEach xs (toggle c) s = (.ok (), s') ∧ Acc c old A' R' log pd s' ∧
      (∀ y, y ∈ s'.data ↔ (y ∈ s.data ∧ y ∉ xs) ∨ (y ∉ s.data ∧ y ∈ xs)) := by
  induction xs generalizing A R s with
  | nil => exact ⟨A, R, s, rfl, h, by simp⟩
  | cons x xs ih =>
    rw [List.nodup_cons] at hn
    by_cases hx : x ∈ s.data
    · obtain ⟨R1, s1, h1, h2, h3, h7⟩ := discard_acc h (x := x) (hA x (by simp))
      obtain ⟨A2, R2, s2, h4, h5, h6⟩ := ih hn.2 h2 (fun z hz => hA z (by simp [hz])) (by
        intro z hz hz2
        rcases h7 z hz2 with h8 | rfl
        · exact hR z (by simp [hz]) h8
        · exact hn.1 hz)
      refine ⟨A2, R2, s2, ?_, h5, ?_⟩
      · have : toggle c x s = (.ok (), s1) := by
          simp only [toggle, M.bind_eq, M.bind_app, M.get_app, hx, if_true, h1]
        rw [M.forEach, M.bind_ok this, h4]
      · intro y
        rw [h6, h3, List.mem_cons]
        by_cases e : y = x
        · subst e
          simp [hx, hn.1]
        · simp [e]
    · obtain ⟨R1, s1, h1, h2, h3, h7⟩ := add_acc hf h (x := x) (hR x (by simp))
      obtain ⟨A2, R2, s2, h4, h5, h6⟩ := ih hn.2 h2 (by
        intro z hz hz2
        rcases h7 z hz2 with h8 | rfl
        · exact hA z (by simp [hz]) h8
        · exact hn.1 hz) (fun z hz => hR z (by simp [hz]))
      refine ⟨A2, R2, s2, ?_, h5, ?_⟩
      · have : toggle c x s = (.ok (), s1) := by
          simp only [toggle, M.bind_eq, M.bind_app, M.get_app, hx, if_false, h1]
        rw [M.forEach, M.bind_ok this, h4]
      · intro y
        rw [h6, h3, List.mem_cons]
        by_cases e : y = x
        · subst e
          simp [hx, hn.1]
        · simp [e]

/-! ## Whole operations -/

/-- The state between operations. -/
structure Clean (s : St α) : Prop where
  nodup : s.data.Nodup
  paused : s.paused = false
  queue : s.queue = []
  idle : s.pending = none

variable [c.Passive]

/-- What an operation reports: nothing without change, else one exact event; a plain `OrderedSet` reports nothing. -/
def Reports (c : Cfg α) (s s' : St α) : Prop :=
  (c.evented = true → (s'.log = s.log ∧ ∀ y, y ∈ s.data ↔ y ∈ s'.data) ∨
    ∃ e, s'.log = s.log ++ [(e, s'.data)] ∧ Exact s.data e s'.data) ∧
  (c.evented = false → s'.log = s.log)

omit [DecidableEq α] in
theorem deliver_passive (a : List α × List α) {s : St α} (hs : s.pending = none) :
    deliver c a s = (if c.fails (s.log ++ [(a, s.data)]) then .error .emitLoop else .ok (),
      { s with log := s.log ++ [(a, s.data)] }) := by
  simp only [deliver, hs, drain, Cfg.Passive.react (c := c), M.pure_app]
  cases c.fails _ <;> simp [← hs]

omit [DecidableEq α] in
theorem deliver_keeps (a : List α × List α) (s : St α) : (deliver c a s).2.data = s.data ∧
    (deliver c a s).2.paused = s.paused ∧ (deliver c a s).2.hist = s.hist := by
  rcases hs : s.pending with _ | q
  · rw [deliver_passive a hs]
    exact ⟨rfl, rfl, rfl⟩
  · simp [deliver, hs]

omit [DecidableEq α] in
theorem deliver_quiet (hq : c.Quiet) (a : List α × List α) {s : St α} (hs : s.pending = none) :
    deliver c a s = (.ok (), { s with log := s.log ++ [(a, s.data)] }) := by
  rw [deliver_passive a hs]
  simp [hq _]

omit [DecidableEq α] in
theorem Diff.exact {old A R data : List α} (h : Diff old A R data) (hne : A ≠ [] ∨ R ≠ []) : Exact old (A, R) data := by
  refine ⟨h.addedNodup, h.removedNodup, ?_, ?_, hne⟩
  · intro y
    have := h.added y
    have := h.mem y
    grind
  · intro y
    have := h.removed y
    have := h.added y
    have := h.mem y
    grind

omit [DecidableEq α] in
/-- A collecting context around a body that collects. -/
theorem withPaused_quiet (hq : c.Quiet) {s : St α} (hs : Clean s) {m : M (St α) Unit} {r : Except Err Unit} {s1 : St α}
    {A R : List α} (hm : m { s with paused := c.evented } = (r, s1)) (ha : Acc c s.data A R s.log s.pending s1) :
    ∃ s', withPaused c m s = (r, s') ∧ s'.data = s1.data ∧ Clean s' ∧ Reports c s s' := by
  cases he : c.evented
  · have e : ({ s with paused := c.evented } : St α) = s := by
      rw [he, ← hs.paused]
    rw [e] at hm
    refine ⟨s1, ?_, rfl, ⟨ha.diff.nodup, by rw [ha.paused, he], ha.quiet he, ha.idle.trans hs.idle⟩, ?_, ?_⟩
    · simp only [withPaused, he, hm]
      rfl
    · simp [he]
    · intro _
      exact ha.log_eq
  · rw [he] at hm
    by_cases hqe : s1.queue = []
    · refine ⟨{ s1 with paused := false }, ?_, rfl, ⟨ha.diff.nodup, rfl, hqe, ha.idle.trans hs.idle⟩, ?_, by simp [he]⟩
      · simp only [withPaused, he, if_true, hm, hs.paused, resume, hqe]
        rfl
      · intro _
        refine .inl ⟨ha.log_eq, ?_⟩
        intro y
        have hA := ha.queueA he
        have hR := ha.queueR he
        simp only [hqe, List.flatMap_nil] at hA hR
        have := ha.diff.mem y
        rw [← hA, ← hR] at this
        simpa [iff_comm] using this
    · refine ⟨{ s1 with paused := false, log := s1.log ++ [((A, R), s1.data)], queue := [] }, ?_, rfl,
        ⟨ha.diff.nodup, rfl, rfl, ha.idle.trans hs.idle⟩, ?_, by simp [he]⟩
      · simp only [withPaused, he, if_true, hm, hs.paused, resume, hqe, if_false, reduceEvents,
          ha.queueA he, ha.queueR he]
        rw [deliver_quiet hq _ (by exact ha.idle.trans hs.idle)]
        rfl
      · intro _
        refine .inr ⟨(A, R), by rw [ha.log_eq], ha.diff.exact ?_⟩
        rw [← ha.queueA he, ← ha.queueR he]
        rcases hs1 : s1.queue with _ | ⟨q, qs⟩
        · exact absurd hs1 hqe
        · have := ha.queueNe q (by simp [hs1])
          simp only [List.flatMap_cons, ne_eq, List.append_eq_nil_iff]
          rcases this with h | h
          · exact .inl fun e => h e.1
          · exact .inr fun e => h e.1

omit [DecidableEq α] in
omit [c.Passive] in
theorem acc_start {s : St α} (hn : s.data.Nodup) (hq : s.queue = []) :
    Acc c s.data [] [] s.log s.pending { s with paused := c.evented } :=
  ⟨Diff.refl hn, rfl, rfl, by simp [hq], by simp [hq], by simp [hq], by simp [hq], rfl⟩

theorem update_quiet (hf : c.Fair) (hq : c.Quiet) {s : St α} (hs : Clean s) (o : List (List α)) :
    ∃ s', update c o s = (.ok (), s') ∧ Clean s' ∧ Reports c s s' ∧ (∀ y, y ∈ s'.data ↔ y ∈ s.data ∨ y ∈ o.flatten) := by
  obtain ⟨A, s1, h1, h2, h3⟩ := adds_acc hf o.flatten (acc_start (c := c) hs.nodup hs.queue)
  obtain ⟨s', h4, h5, h6, h7⟩ := withPaused_quiet hq hs h1 h2
  exact ⟨s', h4, h6, h7, by rw [h5]; exact h3⟩

theorem differenceUpdate_quiet (hq : c.Quiet) {s : St α} (hs : Clean s) (o : List (List α)) :
    ∃ s', differenceUpdate c o s = (.ok (), s') ∧ Clean s' ∧ Reports c s s' ∧
      (∀ y, y ∈ s'.data ↔ y ∈ s.data ∧ y ∉ o.flatten) := by
  obtain ⟨A, s1, h1, h2, h3⟩ := discards_acc o.flatten (acc_start (c := c) hs.nodup hs.queue)
  obtain ⟨s', h4, h5, h6, h7⟩ := withPaused_quiet hq hs h1 h2
  exact ⟨s', h4, h6, h7, by rw [h5]; exact h3⟩

theorem intersectionUpdate_quiet (hq : c.Quiet) {s : St α} (hs : Clean s) {o : List (List α)} (ho : o ≠ []) :
    ∃ s', intersectionUpdate c o s = (.ok (), s') ∧ Clean s' ∧ Reports c s s' ∧
      (∀ y, y ∈ s'.data ↔ y ∈ s.data ∧ ∀ l ∈ o, y ∈ l) := by
  obtain ⟨A, s1, h1, h2, h3⟩ :=
    discards_acc (s.data.filter fun x => !o.all (x ∈ ·)) (acc_start (c := c) hs.nodup hs.queue)
  obtain ⟨s', h4, h5, h6, h7⟩ := withPaused_quiet hq hs
    (m := (do
      if o = [] then M.raise .type else do
        let s ← M.get
        M.forEach (s.data.filter fun x => !o.all (x ∈ ·)) (discard c))) (by
        simp only [ho, if_false, M.bind_eq, M.bind_app, M.get_app]
        exact h1) h2
  refine ⟨s', h4, h6, h7, ?_⟩
  intro y
  rw [h5, h3]
  simp
  grind

theorem symmetricDifferenceUpdate_quiet (hf : c.Fair) (hq : c.Quiet) {s : St α} (hs : Clean s) {xs : List α}
    (hn : xs.Nodup) :
    ∃ s', symmetricDifferenceUpdate c xs s = (.ok (), s') ∧ Clean s' ∧ Reports c s s' ∧
      (∀ y, y ∈ s'.data ↔ (y ∈ s.data ∧ y ∉ xs) ∨ (y ∉ s.data ∧ y ∈ xs)) := by
  obtain ⟨A, R, s1, h1, h2, h3⟩ := toggles_acc hf xs hn (acc_start (c := c) hs.nodup hs.queue) (by simp) (by simp)
  obtain ⟨s', h4, h5, h6, h7⟩ := withPaused_quiet hq hs h1 h2
  exact ⟨s', h4, h6, h7, by rw [h5]; exact h3⟩

omit [DecidableEq α] in
omit [c.Passive] in
theorem clear_acc {s : St α} (hn : s.data.Nodup) (hq : s.queue = []) : ∃ s1 A R, (do
      let s ← M.get
      M.modify fun s => { s with hist := s.hist ++ [Prim.clr] }
      if s.data = [] then pure () else do
        M.modify fun s => { s with data := [] }
        emitChange c [] s.data : M (St α) Unit) { s with paused := c.evented } = (.ok (), s1) ∧
      Acc c s.data A R s.log s.pending s1 ∧ s1.data = [] := by
  simp only [M.bind_eq, M.bind_app, M.get_app, M.modify_app]
  by_cases h : s.data = []
  · simp only [h, if_true]
    refine ⟨_, [], [], rfl, ?_, rfl⟩
    have := acc_start (c := c) hn hq
    exact ⟨by simpa [h] using this.diff, this.paused, this.log_eq, this.queueA, this.queueR, this.queueNe, this.quiet,
      this.idle⟩
  · simp only [h, if_false, M.bind_app, M.modify_app, emitChange]
    have hd : Diff s.data [] s.data [] :=
      ⟨List.nodup_nil, hn, by simp, by simp, by simp, List.nodup_nil⟩
    cases he : c.evented
    · simp only [Bool.false_eq_true, if_false]
      exact ⟨_, [], s.data, rfl, ⟨hd, by simp [he], rfl, by simp [he], by simp [he], by simp [hq], by simp [hq], rfl⟩,
        rfl⟩
    · simp only [if_true]
      refine ⟨_, [], s.data, rfl, ⟨hd, by simp [he], rfl, ?_, ?_, ?_, by simp [he], rfl⟩, rfl⟩
      · simp [hq]
      · simp [hq]
      · simp [hq, h]

omit [DecidableEq α] in
theorem clear_quiet (hq : c.Quiet) {s : St α} (hs : Clean s) :
    ∃ s', clear c s = (.ok (), s') ∧ Clean s' ∧ Reports c s s' ∧ s'.data = [] := by
  obtain ⟨s1, A, R, h1, h2, h3⟩ := clear_acc (c := c) hs.nodup hs.queue
  obtain ⟨s', h4, h5, h6, h7⟩ := withPaused_quiet hq hs h1 h2
  exact ⟨s', h4, h6, h7, by rw [h5, h3]⟩

/-! Single changes, reported at once. -/

theorem add_quiet (hf : c.Fair) (hq : c.Quiet) {s : St α} (hs : Clean s) (x : α) :
    ∃ s', add c x s = (.ok (), s') ∧ Clean s' ∧ Reports c s s' ∧ (∀ y, y ∈ s'.data ↔ y = x ∨ y ∈ s.data) := by
  simp only [add, M.bind_eq, M.bind_app, M.get_app, M.modify_app]
  by_cases hx : x ∈ s.data
  · simp only [hx, if_true]
    refine ⟨_, rfl, ⟨hs.nodup, hs.paused, hs.queue, hs.idle⟩, ⟨fun _ => .inl ⟨rfl, fun _ => Iff.rfl⟩, fun _ => rfl⟩, ?_⟩
    intro y
    constructor
    · exact .inr
    · rintro (rfl | h)
      · exact hx
      · exact h
  · have hd := (Diff.refl hs.nodup).add hf hx (by simp)
    have hm : ∀ y, y ∈ c.place s.data x ↔ y = x ∨ y ∈ s.data := fun y => by rw [(hf _ _).mem_iff, List.mem_cons]
    simp only [hx, if_false, M.bind_app, M.modify_app, emitChange, hs.paused, Bool.false_eq_true]
    rw [deliver_quiet hq _ (by exact hs.idle)]
    cases he : c.evented
    · simp only [Bool.false_eq_true, if_false]
      exact ⟨_, rfl, ⟨hd.nodup, rfl, hs.queue, hs.idle⟩, ⟨by simp [he], fun _ => rfl⟩, hm⟩
    · simp only [if_true]
      exact ⟨_, rfl, ⟨hd.nodup, rfl, hs.queue, hs.idle⟩, ⟨fun _ => .inr ⟨_, rfl, hd.exact (by simp)⟩,
        by simp [he]⟩, hm⟩

theorem discard_quiet (hq : c.Quiet) {s : St α} (hs : Clean s) (x : α) :
    ∃ s', discard c x s = (.ok (), s') ∧ Clean s' ∧ Reports c s s' ∧ (∀ y, y ∈ s'.data ↔ y ∈ s.data ∧ y ≠ x) := by
  simp only [discard, M.bind_eq, M.bind_app, M.get_app, M.modify_app]
  by_cases hx : x ∈ s.data
  · have hd := (Diff.refl hs.nodup).discard hx (by simp)
    have hm : ∀ y, y ∈ s.data.erase x ↔ y ∈ s.data ∧ y ≠ x := fun y => by rw [hs.nodup.mem_erase_iff, and_comm]
    simp only [hx, if_true, M.bind_app, M.modify_app, emitChange, hs.paused, Bool.false_eq_true, if_false]
    rw [deliver_quiet hq _ (by exact hs.idle)]
    cases he : c.evented
    · simp only [Bool.false_eq_true, if_false]
      exact ⟨_, rfl, ⟨hd.nodup, rfl, hs.queue, hs.idle⟩, ⟨by simp [he], fun _ => rfl⟩, hm⟩
    · simp only [if_true]
      exact ⟨_, rfl, ⟨hd.nodup, rfl, hs.queue, hs.idle⟩, ⟨fun _ => .inr ⟨_, rfl, hd.exact (by simp)⟩,
        by simp [he]⟩, hm⟩
  · simp only [hx, if_false]
    refine ⟨_, rfl, ⟨hs.nodup, hs.paused, hs.queue, hs.idle⟩, ⟨fun _ => .inl ⟨rfl, fun _ => Iff.rfl⟩, fun _ => rfl⟩, ?_⟩
    intro y
    constructor
    · intro hy
      exact ⟨hy, fun e => hx (e ▸ hy)⟩
    · exact And.left

end Psygnal.ES
