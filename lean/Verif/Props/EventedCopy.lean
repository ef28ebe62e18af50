import Verif.EventedCopyLemmas

/-!
# C74: copies of evented objects

`Spec.run`: every object has its own values and its own callbacks; a copy has the values of the original and no callbacks; a callback is called when a field of *its* object
changes.  `stored`: the group is kept in the `__dict__` of the object (the default for classes without `__slots__`).
-/
namespace Psygnal.EvCopy

/-- **C74.** When groups are not kept in the `__dict__` of the object (`cache_on_instance=False`, or `__slots__`): for all programs with copies at any time, the calls
of callbacks are exactly those for the object they were connected to, and say so. -/
theorem C74_unstored (ops : List Op) : (run false ops {}).log = (Spec.run ops {}).log := by
  have h := (Rel.init (stored := false) (strict := true)).run ops _ _ (Or.inl rfl)
  simpa using h.log

/-- **C74 (partial).** When groups are kept in `__dict__` and no object whose events have been used is copied by `copy.copy`: callbacks are called exactly for changes of
their object, with field, new and old value.  Which object the group is bound to is left open. -/
theorem C74_deep_partial (ops : List Op) (h : CopiesUnused false ops {}) :
    (run true ops {}).log.map (fun c => (c.cb, c.field, c.new, c.old)) = (Spec.run ops {}).log.map (fun c => (c.cb, c.field, c.new, c.old)) := by
  have h := (Rel.init (stored := true) (strict := false)).run ops _ _ (Or.inr h)
  have hl := h.log
  simp only [Bool.false_eq_true, if_false] at hl
  have := congrArg (List.map fun c : Call => (c.cb, c.field, c.new, c.old)) hl
  rw [List.map_map, List.map_map] at this
  exact this

/-- **C74 (partial).** When objects are copied, in either way, only before their events have been used: also the object that the group is bound to is right. -/
theorem C74_unused_partial (ops : List Op) (h : CopiesUnused true ops {}) : (run true ops {}).log = (Spec.run ops {}).log := by
  have h := (Rel.init (stored := true) (strict := true)).run ops _ _ (Or.inr h)
  simpa using h.log

/-- **C74.** The values of the fields are never shared, whatever is copied and wherever groups are kept. -/
theorem C74_values (stored : Bool) (ops : List Op) (o f : Nat) : ((run stored ops {}).objs o).vals f = (Spec.run ops {}).vals o f := by
  have h : VRel (run stored ops {}) (Spec.run ops {}) :=
    VRel.run ops _ _ ⟨rfl, fun _ => rfl, (fun _ _ h => by cases h), (fun _ _ h => by cases h)⟩
  rw [h.vals]

/-- An object is used and deep-copied, both get callbacks, both change. -/
def sample : List Op := [.copy 0, .connect 0 1 10, .deepcopy 0, .connect 2 1 20, .assign 0 1 5, .assign 2 1 7, .assign 1 1 8]

example : CopiesUnused false sample {} ∧ (Spec.run sample {}).log = [⟨10, 1, 5, 0, 0⟩, ⟨20, 1, 7, 0, 2⟩] := by
  refine ⟨?_, by decide⟩
  simp [sample, CopiesUnused]

example : CopiesUnused true [.copy 0, .deepcopy 0, .connect 0 1 10, .connect 1 1 20, .assign 1 1 5, .assign 2 1 5] {} ∧
    (Spec.run [.copy 0, .deepcopy 0, .connect 0 1 10, .connect 1 1 20, .assign 1 1 5, .assign 2 1 5] {}).log = [⟨20, 1, 5, 0, 1⟩] := by
  refine ⟨?_, by decide⟩
  simp [CopiesUnused, Spec.step, Op.obj]

/-- **C74, refuted for `copy.copy`.** An object whose events have been used and its shallow copy share one group: a change of the copy calls the callbacks of the
original, which is unchanged. -/
theorem C74_shallow_refuted :
    (run true [.connect 0 1 10, .copy 0, .assign 1 1 5] {}).log = [⟨10, 1, 5, 0, 0⟩] ∧
    ((run true [.connect 0 1 10, .copy 0, .assign 1 1 5] {}).objs 0).vals 1 = 0 ∧
    (Spec.run [.connect 0 1 10, .copy 0, .assign 1 1 5] {}).log = [] := by decide

/-- **C74, refuted for the object of the group.** After `copy.deepcopy` the events of the copy are bound to the original. -/
theorem C74_bound_refuted :
    (run true [.get 0, .deepcopy 0, .connect 1 1 10, .assign 1 1 5] {}).log = [⟨10, 1, 5, 0, 0⟩] ∧
    (Spec.run [.get 0, .deepcopy 0, .connect 1 1 10, .assign 1 1 5] {}).log = [⟨10, 1, 5, 0, 1⟩] := by decide

end Psygnal.EvCopy
