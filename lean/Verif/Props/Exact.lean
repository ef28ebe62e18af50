import Verif.EventedListExact
import Verif.EventedDictExact
import Verif.Props.EventedList
import Verif.Props.EventedDict

/-!
# Exactly the right events: C66

`EL.expected` and `ED.expected` list, for every operation, the events it is to emit on a list or dict with given contents: an
announcement and a report for each item that is inserted, removed or moved, with the position or key and the value; a report for
each value that is replaced by a different one; nothing for operations that change nothing.
-/

namespace Psygnal.EL
open Psygnal.Py (M Err Key Slice)

variable {α : Type} [DecidableEq α] {c : Cfg α} [c.Passive]

/-- **C66** for lists (partial).  For every list, every sequence of operations, and every operation after it whose positions exist:
if the operation succeeds then it emits exactly the expected events, in order; if it raises then it emits nothing.  (`move_multiple`:
`C66_move_multiple`.  Items that are built-in lists are excluded, see C27.)  Missing, and false: positions that do not exist
(`C66_del_refuted`, `C66_move_refuted`). -/
theorem C66_list_partial (hq : c.Quiet) (hl : ∀ x, c.isList x = false) (d : List α) (ops : List (Op α)) (op : Op α)
    (ho : op.Here (run c ops { data := d }).2.data.length) :
    match step c op (run c ops { data := d }).2 with
    | (.ok _, s') => s'.log.map Prod.fst = (run c ops { data := d }).2.log.map Prod.fst ++
        expected (fun v x => decide (v = x) || c.eq v x) (run c ops { data := d }).2.data (run c ops { data := d }).2.conns op
    | (.error _, s') => s'.log = (run c ops { data := d }).2.log := by
  have hb : (run c ops { data := d }).2.blocked = false := (run_told (d := d) ops ⟨Eff.refl, rfl⟩).2
  rcases step_says hq hb (fun x _ => hl x) op ho with ⟨x, s', h1, h2⟩ | ⟨e, s', h1, h2⟩
  · rw [h1]
    exact h2
  · rw [h1]
    exact h2

/-- **C66** for `move_multiple`: if it succeeds then its events are announced moves, each followed by its report, not more of them
than the number it returns, and then a single `reordered`. -/
theorem C66_move_multiple (hq : c.Quiet) (d : List α) (ops : List (Op α)) {ks : List Key} {dest : Int} {n : Int} {s' : St α}
    (h : step c (.moveMultiple ks dest) (run c ops { data := d }).2 = (.ok (.int n), s')) :
    ∃ ms : List (Int × Int × Int × α), (ms.length : Int) ≤ n ∧
      s'.log.map Prod.fst = (run c ops { data := d }).2.log.map Prod.fst ++
        (ms.flatMap fun m => [.moving m.1 m.2.1, .moved m.1 m.2.2.1 m.2.2.2]) ++ [.reordered] := by
  have hb : (run c ops { data := d }).2.blocked = false := (run_told (d := d) ops ⟨Eff.refl, rfl⟩).2
  generalize (run c ops { data := d }).2 = s at h hb
  simp only [step, moveMultiple, M.bind_eq, M.bind_app, M.get_app, M.ofExcept_app] at h
  rcases hp : movePlan s.data.length ks dest with e | plan
  · simp [hp] at h
  · simp only [hp, withBlocked] at h
    rcases hr : M.forEach plan (fun p => do
      let _ ← move c p.1 p.2
      pure ()) { s with blocked := true } with ⟨e | u, s1⟩
    · simp only [M.bind_eq, M.pure_eq] at hr h
      simp [hr] at h
    · obtain ⟨h1, ms, h2, h3⟩ := moves_says hq plan rfl hr
      simp only [M.bind_eq, M.pure_eq] at hr h
      simp only [hr, emitReordered, hb, M.pure_app] at h
      simp [emit_quiet hq] at h
      obtain ⟨rfl, rfl⟩ := h
      refine ⟨ms, by exact_mod_cast h2, ?_⟩
      have h4 : s1.log.map Prod.fst = s.log.map Prod.fst ++ _ := h3
      simp [h4]

/-- A list of plain items, whose children's events are relayed. -/
def flatCfg : Cfg Nat := { exCfg true with isList := fun _ => false }

instance : flatCfg.Passive := ⟨rfl, rfl⟩

/-- `C66_list_partial` speaks of runs with slices, negative positions, children's events, and of errors. -/
example : flatCfg.Quiet ∧ (∀ x, flatCfg.isList x = false) ∧
    (run flatCfg [.extend [7, 8, 9], .setItem (-1) 6] { data := [1, 2] }).2.data = [1, 2, 7, 8, 6] ∧
    expected (fun v x => decide (v = x) || flatCfg.eq v x) [1, 2, 7, 8, 6] (fun _ => 1)
      (.delItem (.slice ⟨none, none, some 2⟩)) =
      [.removing 4, .removed 4 6, .removing 2, .removed 2 7, .removing 0, .removed 0 1] ∧
    expected (fun v x => decide (v = x) || flatCfg.eq v x) [1, 2, 7, 8, 6] (fun _ => 1) (.reverse true) =
      [.changed 0 1 6, .changed 4 6 1, .changed 1 2 8, .changed 3 8 2, .reordered] ∧
    expected (fun v x => decide (v = x) || flatCfg.eq v x) [1, 2, 7, 8, 6] (fun _ => 1) (.move (-1) (-3)) =
      [.moving (-1) 3, .moved (-1) 2 6, .reordered] ∧
    (Op.move (-1) (-3) : Op Nat).Here 5 :=
  ⟨fun _ => rfl, fun _ => rfl, rfl, by decide, by decide, by decide, by decide, by decide⟩

/-- A call that `C66_move_multiple` speaks of: three of the four planned moves change something. -/
example : flatCfg.Quiet ∧
    (run flatCfg [.moveMultiple [.int 0, .int 2, .slice ⟨some 3, none, none⟩] 1] { data := [1, 2, 7, 8, 6] }).1 = [.ok (.int 4)] ∧
    (run flatCfg [.moveMultiple [.int 0, .int 2, .slice ⟨some 3, none, none⟩] 1] { data := [1, 2, 7, 8, 6] }).2.log.map Prod.fst =
      [.moving 2 1, .moved 2 1 7, .moving 3 2, .moved 3 2 8, .moving 4 3, .moved 4 3 6, .reordered] :=
  ⟨fun _ => rfl, by decide +kernel, by decide +kernel⟩

/-- **C66 is false** for `del l[i]` at a position that does not exist: a removal is announced, then an `IndexError` is raised. -/
theorem C66_del_refuted :
    (run flatCfg [.delItem (.int 5)] { data := [1, 2] }).1 = [.error .index] ∧
    (run flatCfg [.delItem (.int 5)] { data := [1, 2] }).2.log = [(.removing 5, [1, 2])] :=
  ⟨by decide, by decide⟩

/-- **C66 is false** for moving an item that does not exist: the move is announced, then an `IndexError` is raised; the same in
`move_multiple`. -/
theorem C66_move_refuted :
    (run flatCfg [.move 5 0, .moveMultiple [.int 9] 1] { data := [1, 2] }).1 = [.error .index, .error .index] ∧
    (run flatCfg [.move 5 0, .moveMultiple [.int 9] 1] { data := [1, 2] }).2.log =
      [(.moving 5 0, [1, 2]), (.moving 9 1, [1, 2])] :=
  ⟨by decide, by decide⟩

end Psygnal.EL

namespace Psygnal.ED
open Psygnal.Py (M Err)

variable {K V : Type} [DecidableEq K] [DecidableEq V] {c : Cfg K V} [c.Passive]

/-- **C66** for dicts (partial).  For every sequence of operations on a new dict, and every operation after it whose values (and
keys, for `update`) are accepted: if the operation succeeds then it emits exactly the expected events, in order; if it raises then
it emits nothing.  Missing, and false: values that are rejected (`C66_reject_refuted`). -/
theorem C66_dict_partial (hq : c.Quiet) (ops : List (Op K V)) (op : Op K V) (ho : op.Fine c) :
    match step c op (run c ops { dict := [] }).2 with
    | (.ok _, s') => s'.log.map Prod.fst = (run c ops { dict := [] }).2.log.map Prod.fst ++
        expected (run c ops { dict := [] }).2.dict op
    | (.error _, s') => s'.log = (run c ops { dict := [] }).2.log := by
  have hk : Hashed c (run c ops { dict := [] }).2 := run_hk ops (by simp [Hashed])
  rcases step_says hq hk op ho with ⟨x, s', h1, h2⟩ | ⟨e, s', h1, h2⟩
  · rw [h1]
    exact h2
  · rw [h1]
    exact h2

/-- `C66_dict_partial` speaks of runs with additions, changes, equal values, defaults, removals, and of errors. -/
example : (exCfg).Quiet ∧ (run exCfg [.update [(1, 10), (2, 20)], .setItem 3 99] { dict := [] }).2.dict = [(1, 10), (2, 20)] ∧
    expected [(1, 10), (2, 20)] (.update [(3, 30), (2, 20), (1, 11), (3, 31)] : Op Nat Nat) =
      [.adding 3, .added 3 30, .changing 1, .changed 1 10 11, .changing 3, .changed 3 30 31] ∧
    expected [(1, 10), (2, 20)] (.clear : Op Nat Nat) = [.removing 1, .removed 1 10, .removing 2, .removed 2 20] ∧
    (Op.update [(3, 30), (2, 20), (1, 11), (3, 31)] : Op Nat Nat).Fine exCfg ∧
    (step exCfg (.pop 7 none) (run exCfg [.update [(1, 10), (2, 20)], .setItem 3 99] { dict := [] }).2).1 = .error .key := by
  refine ⟨fun _ => rfl, by decide, by decide, by decide, ?_, by decide⟩
  show ∀ p ∈ [(3, 30), (2, 20), (1, 11), (3, 31)], decide (p.1 < 100) = true ∧ decide (p.2 < 50) = true
  decide

/-- **C66 is false** for values that the dict rejects: an addition or change is announced, then a `TypeError` is raised. -/
theorem C66_reject_refuted :
    (run exCfg [.setItem 1 10, .setItem 2 99, .setItem 1 99] { dict := [] }).1 = [.ok .unit, .error .type, .error .type] ∧
    (run exCfg [.setItem 1 10, .setItem 2 99, .setItem 1 99] { dict := [] }).2.log =
      [(.adding 1, []), (.added 1 10, [(1, 10)]), (.adding 2, [(1, 10)]), (.changing 1, [(1, 10)])] :=
  ⟨by decide, by decide⟩

end Psygnal.ED
