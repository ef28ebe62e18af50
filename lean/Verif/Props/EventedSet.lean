import Verif.EventedSetSim
import Verif.EventedSetOrder

/-!
# Sets: C31 and C32

A history of a set: it is made from an iterable `xs`, then the operations `ops` are done.
-/

namespace Psygnal.ES
open Psygnal.Py (M Err)

variable {α : Type} [DecidableEq α] {c : Cfg α} [c.Passive]

/-- **C31**, first part (partial).  After every history, every operation gives the result of a built-in set with the same
elements, raises the same error, and leaves the same elements; `pop` is free to choose its element.  Listeners do not
raise.  Missing, and false: the operations that are not `Plain`. -/
theorem C31_set_partial (hf : c.Fair) (hq : c.Quiet) (xs : List α) (ops : List (Op α)) (hp : ∀ o ∈ ops, o.Plain)
    (op : Op α) (ho : op.Plain) :
    let s := (run c ops (new c xs)).2
    s.data.Nodup ∧ PySet s.data (step c op s).1 (step c op s).2.data op :=
  ⟨(run_clean hf hq ops hp (new_clean hf xs)).1.nodup,
    (step_good hf hq op ho (run_clean hf hq ops hp (new_clean hf xs)).1).set⟩

/-- **C31**, second part (partial).  After every history, an operation that changes nothing emits nothing; one that
changes the elements emits `items_changed` exactly once, after the change, with exactly the added and the removed
elements.  Missing, and false: the operations that are not `Plain`, and the in-place operators. -/
theorem C31_event_partial (hf : c.Fair) (hq : c.Quiet) (he : c.evented = true) (xs : List α) (ops : List (Op α))
    (hp : ∀ o ∈ ops, o.Plain) (op : Op α) (ho : op.Plain) (hi : ¬ op.InPlace) :
    let s := (run c ops (new c xs)).2
    let s' := (step c op s).2
    (s'.log = s.log ∧ ∀ y, y ∈ s.data ↔ y ∈ s'.data) ∨
    ∃ e, s'.log = s.log ++ [(e, s'.data)] ∧ Exact s.data e s'.data :=
  ((step_good hf hq op ho (run_clean hf hq ops hp (new_clean hf xs)).1).once hi).1 he

/-- **C31**: over a whole history, in-place operators included, the events are exact and lead from the first elements to
the present ones: an observer that adds and removes what the events report has the elements of the set at every event,
and after every operation. -/
theorem C31_observer (hf : c.Fair) (hq : c.Quiet) (he : c.evented = true) (xs : List α) (ops : List (Op α))
    (hp : ∀ o ∈ ops, o.Plain) :
    Story (new c xs).data (run c ops (new c xs)).2.log (run c ops (new c xs)).2.data := by
  obtain ⟨es, h1, h2⟩ := (run_clean hf hq ops hp (new_clean hf xs)).2.1 he
  have : (run c ops (new c xs)).2.log = es := by simpa [new] using h1
  rw [this]
  exact h2

/-- **C31**: whatever the listeners raise, every history (without in-place operators) leaves the elements that it leaves
in a built-in set. -/
theorem C31_elements (hf : c.Fair) (xs : List α) (ops : List (Op α)) (hp : ∀ o ∈ ops, o.Plain)
    (hi : ∀ o ∈ ops, ¬ o.InPlace) (op : Op α) (ho : op.Plain) (hoi : ¬ op.InPlace) :
    let s := (run c ops (new c xs)).2
    ∃ r, PySet s.data r (step c op s).2.data op := by
  intro s
  have hf' : c.hush.Fair := hf
  have hq' : c.hush.Quiet := fun _ => rfl
  obtain ⟨h1, h2⟩ := run_sim (c := c) ops hi (s := new c xs) (t := new c.hush xs) ⟨rfl, rfl⟩ rfl
  have h3 := C31_set_partial hf' hq' xs ops hp op ho
  obtain ⟨h4, -⟩ := step_sim (c := c) op hoi h1 h2
  have h5 := h3.2
  rw [← h4.1, ← h1.1] at h5
  exact ⟨_, h5⟩

/-! Non-trivial cases. -/

/-- A set for the examples, with new elements in front and a listener. -/
def exCfg : Cfg Nat := { place := fun l x => x :: l, evented := true, fails := fun _ => false }

instance : exCfg.Passive := ⟨rfl⟩

theorem exCfg_fair : exCfg.Fair := fun _ _ => List.Perm.refl _
theorem exCfg_quiet : exCfg.Quiet := fun _ => rfl

example : (run exCfg [.update [[3, 4], [1]], .symmetricDifferenceUpdate [4, 7], .pop, .remove 9, .clear] (new exCfg [1, 2])).2.log
    = [(([3, 4], []), [4, 3, 2, 1]), (([7], [4]), [7, 3, 2, 1]), (([], [7]), [3, 2, 1]), (([], [3, 2, 1]), [])] := by
  decide

example := C31_event_partial exCfg_fair exCfg_quiet rfl [1, 2] [.update [[3, 4], [1]], .add 5] (by simp [Op.Plain])
  (.intersectionUpdate [[2, 3], [3, 4]]) (by simp [Op.Plain]) (by simp [Op.InPlace])

instance (f : List ((List Nat × List Nat) × List Nat) → Bool) : ({ exCfg with fails := f } : Cfg Nat).Passive := ⟨rfl⟩

example := C31_elements (c := { exCfg with fails := fun l => l.length % 2 == 1 }) exCfg_fair [1, 2]
  [.update [[3, 4], [1]], .add 5] (by simp [Op.Plain]) (by simp [Op.InPlace])
  (.intersectionUpdate [[2, 3], [3, 4]]) (by simp [Op.Plain]) (by simp [Op.InPlace])

/-! What is false. -/

/-- `symmetric_difference_update` with a repeated element adds it and removes it again: a built-in set would have it, and
the event reports it as added and as removed. -/
theorem C31_repeated_refuted :
    let s' := (step exCfg (.symmetricDifferenceUpdate [4, 4]) (new exCfg [1])).2
    ¬ (∃ r, PySet [1] r s'.data (.symmetricDifferenceUpdate [4, 4])) ∧ s'.log = [(([4], [4]), [1])] := by
  refine ⟨?_, by decide⟩
  rintro ⟨r, -, h⟩
  have : (4 : Nat) ∈ [1] := (h 4).2 (.inr ⟨by decide, by decide⟩)
  exact absurd this (by decide)

/-- `s.difference_update(s)` and `s.symmetric_difference_update(s)` raise `RuntimeError` after removing one element. -/
theorem C31_self_refuted (op : Op Nat) (ho : op = .differenceUpdateSelf ∨ op = .symmetricDifferenceUpdateSelf) :
    (step exCfg op (new exCfg [1, 2])).1 = .error .runtime ∧ (step exCfg op (new exCfg [1, 2])).2.data = [1] ∧
    ¬ PySet (new exCfg [1, 2]).data (step exCfg op (new exCfg [1, 2])).1 (step exCfg op (new exCfg [1, 2])).2.data op := by
  rcases ho with rfl | rfl
  · refine ⟨by decide, by decide, ?_⟩
    rintro ⟨h, -⟩
    exact absurd h (by decide)
  · refine ⟨by decide, by decide, ?_⟩
    rintro ⟨h, -⟩
    exact absurd h (by decide)

/-- `s.intersection()` and `s.intersection_update()` raise `TypeError`; a built-in set has all elements of `s`. -/
theorem C31_no_argument_refuted (op : Op Nat) (ho : op = .intersection [] ∨ op = .intersectionUpdate []) :
    (step exCfg op (new exCfg [1, 2])).1 = .error .type ∧
    ¬ PySet (new exCfg [1, 2]).data (step exCfg op (new exCfg [1, 2])).1 (step exCfg op (new exCfg [1, 2])).2.data op := by
  rcases ho with rfl | rfl
  · refine ⟨by decide, ?_⟩
    rintro ⟨⟨l, h, -⟩, -⟩
    have e : (step exCfg (.intersection []) (new exCfg [1, 2])).1 = .error .type := by decide
    rw [e] at h
    cases h
  · refine ⟨by decide, ?_⟩
    rintro ⟨h, -⟩
    exact absurd h (by decide)

/-- `s |= {1, 2}` emits `items_changed` twice; so do the other in-place operators. -/
theorem C31_in_place_refuted :
    (step exCfg (.ior [1, 2]) (new exCfg [])).2.log = [(([1], []), [1]), (([2], []), [2, 1])] ∧
    (step exCfg (.iand [3]) (new exCfg [1, 2])).2.log.length = 2 ∧
    (step exCfg (.isub [1, 2]) (new exCfg [1, 2])).2.log.length = 2 ∧
    (step exCfg (.ixor [1, 3]) (new exCfg [1, 2])).2.log.length = 2 := by
  decide

/-- After a listener has raised in a bulk operation, the next bulk operation reports the earlier changes again. -/
theorem C31_stale_refuted :
    let c : Cfg Nat := { exCfg with fails := fun l => l.length == 1 }
    (run c [.update [[1]], .update [[2]]] (new c [])).2.log = [(([1], []), [1]), (([1, 2], []), [2, 1])] := by
  decide

/-! ## C32 -/

/-- **C32**, first part.  After every history of an `OrderedSet` or an `EventedOrderedSet`, whatever the listeners do:
iteration yields just the elements that were added and not removed since, each once, in the order of their first
addition since their last removal.  (`hist`: the calls of `_do_add`, `_do_discard` and `_do_clear` so far.) -/
theorem C32_order (hd : c.Dict) (xs : List α) (ops : List (Op α)) :
    let s := (run c ops (new c xs)).2
    s.data.Nodup ∧ (∀ x, x ∈ s.data ↔ ∃ n, Born s.hist x n) ∧
    s.data.Pairwise fun x y => ∀ m n, Born s.hist x m → Born s.hist y n → m < n := by
  have h := run_ordered hd ops (new_ordered hd xs)
  refine ⟨h.nodup, h.mem, h.order.imp ?_⟩
  rintro x y ⟨m, n, h1, h2, h3⟩ m' n' h4 h5
  rw [h4.unique h1, h5.unique h2]
  exact h3

/-- **C32**: `pop` removes the element that was added first. -/
theorem C32_pop (hd : c.Dict) (xs : List α) (ops : List (Op α)) {x : α} {s' : St α}
    (h : step c .pop (run c ops (new c xs)).2 = (.ok (.item x), s')) :
    let s := (run c ops (new c xs)).2
    ∃ m, Born s.hist x m ∧ ∀ y n, Born s.hist y n → y ≠ x → m < n := by
  have ho := run_ordered hd ops (new_ordered hd xs)
  generalize (run c ops (new c xs)).2 = s at h ho
  simp only [step, pop, M.bind_eq, M.bind_app, M.get_app] at h
  rcases hs : s.data with _ | ⟨z, d⟩
  · rw [hs] at h
    cases h
  · have e : z = x := by
      rw [hs] at h
      simp only [M.bind_app] at h
      rcases hz : discard c z s with ⟨_ | _, s1⟩
      · rw [hz] at h
        cases h
      · rw [hz] at h
        cases h
        rfl
    subst e
    have hm := ho.mem
    have hor := ho.order
    rw [hs] at hm hor
    obtain ⟨m, hb⟩ := (hm z).1 (by simp)
    refine ⟨m, hb, fun y n hy hne => ?_⟩
    have hyd : y ∈ d := by
      have := (hm y).2 ⟨n, hy⟩
      simpa [hne] using this
    obtain ⟨m', n', h1, h2, h3⟩ := (List.pairwise_cons.1 hor).1 y hyd
    rw [hb.unique h1, hy.unique h2]
    exact h3

/-- **C32**, second part (partial).  The set algebra of an ordered set agrees with that of sets.  Missing, and false: the
operations that are not `Plain`. -/
theorem C32_algebra_partial (hd : c.Dict) (hq : c.Quiet) (xs : List α) (ops : List (Op α)) (hp : ∀ o ∈ ops, o.Plain)
    (op : Op α) (ho : op.Plain) :
    let s := (run c ops (new c xs)).2
    PySet s.data (step c op s).1 (step c op s).2.data op :=
  (C31_set_partial hd.fair hq xs ops hp op ho).2

omit [c.Passive] in
/-- The new sets that set algebra yields are ordered, too: as if their elements had been added one by one, those of the
set itself first (for `symmetric_difference`: last). -/
theorem C32_algebra_order (hd : c.Dict) (s : St α) (xs : List α) (o : List (List α)) :
    (∃ l, (step c .copy s).1 = .ok (.set l) ∧ InOrder (s.data.map .ins) l) ∧
    (∃ l, (step c (.union o) s).1 = .ok (.set l) ∧ InOrder ((s.data ++ o.flatten).map .ins) l) ∧
    (∃ l, (step c (.or xs) s).1 = .ok (.set l) ∧ InOrder ((s.data ++ xs).map .ins) l) ∧
    (∃ l, (step c (.difference o) s).1 = .ok (.set l) ∧ InOrder ((s.data.filter (· ∉ o.flatten)).map .ins) l) ∧
    (∃ l, (step c (.symmetricDifference xs) s).1 = .ok (.set l) ∧
      InOrder ((xs.filter (· ∉ s.data) ++ s.data.filter (· ∉ xs)).map .ins) l) := by
  have key : ∀ ys : List α, InOrder (ys.map .ins) (mk c ys) := fun ys => by
    simpa [mk] using new_ordered_aux hd ys InOrder.start
  refine ⟨⟨_, rfl, key _⟩, ⟨_, rfl, ?_⟩, ⟨_, rfl, key _⟩, ⟨_, rfl, key _⟩, ⟨_, rfl, key _⟩⟩
  have := key (s.data ++ o.flatten)
  rw [mk, List.foldl_append] at this
  exact this

/-! Non-trivial cases. -/

/-- A plain `OrderedSet`. -/
def exOrdered : Cfg Nat := { place := fun l x => l ++ [x], evented := false, fails := fun _ => false }

instance : exOrdered.Passive := ⟨rfl⟩

example : (run exOrdered [.add 3, .discard 1, .update [[2, 4, 1]], .pop, .ixor [7, 3]] (new exOrdered [1, 2])).2.data
    = [4, 1, 7] := by decide

example := C32_order (c := exOrdered) rfl [1, 2] [.add 3, .discard 1, .update [[2, 4, 1]], .differenceUpdateSelf]

example := C32_pop (c := exOrdered) rfl [1, 2] [.add 3, .discard 1, .add 1] (x := 2) rfl

/-- As for C31: `s.difference_update(s)` raises for an `OrderedSet`, too. -/
theorem C32_self_refuted :
    (step exOrdered .differenceUpdateSelf (new exOrdered [1, 2])).1 = .error .runtime ∧
    (step exOrdered .differenceUpdateSelf (new exOrdered [1, 2])).2.data = [2] := by
  decide

end Psygnal.ES
