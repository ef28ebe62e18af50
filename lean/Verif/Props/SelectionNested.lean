import Verif.Props.Selection
import Verif.SelectionNestedCurrent
import Verif.SelectionNestedQuiet

/-!
# C70: listeners that operate on the selection they listen to
-/

namespace Psygnal.SelN
open Psygnal.Py (M Err)
open Psygnal.Sel (Ev)

variable {α : Type} [DecidableEq α]

theorem new_facts (xs : List α) (parent : Option (List α)) :
    Sync (new xs parent) ∧ (new xs parent).data.Nodup ∧ Inv (new xs parent) ∧ (new xs parent).parent = parent ∧
    (new xs parent).failed = false ∧ (new xs parent).pending = none := by
  have h := Sel.new_rest (c := ({ fails := fun _ => false, depth := 1 } : Sel.Cfg α)) Nat.one_pos xs parent
  have hp : (new xs parent).parent = parent := by
    let c' : Cfg α := { react := fun _ => M.pure (), limit := 0, depth := 1 }
    let d' : Sel.Cfg α := { fails := fun _ => false, depth := 1 }
    have hq : Quiet c' d' := ⟨fun _ _ => rfl, rfl⟩
    have hk : ∀ log, Keeps False parent (c'.react log) := fun _ => .pure ()
    have hu := updateActive_sim hq 1
    have hm : Sim (M.bind (update c' (updateActive c' 1) [xs]) fun _ => updateActive c' 1)
        (M.bind (Sel.update d' (Sel.updateActive d' 1) [xs]) fun _ => Sel.updateActive d' 1) :=
      (withPaused_sim hq (.forEach (fun x => add_sim hq hu x) _)).bind hu
    have hK : Keeps False parent (M.bind (update c' (updateActive c' 1) [xs]) fun _ => updateActive c' 1) :=
      (update_keeps hk (updateActive_settles hk 1) [xs]).bind fun _ => fun s hs => (updateActive_settles hk 1 s hs).1
    have h1 := (hm { data := [], parent := parent } rfl).2.1
    have h2 := (hK { data := [], parent := parent } rfl).parent
    have h3 := congrArg Sel.St.parent h1
    exact h3.symm.trans h2
  refine ⟨h.consistent.active, h.k.w.nodup, ⟨h.k.par, h.consistent.current, fun _ _ => rfl⟩, hp, rfl, rfl⟩

/-- **C70**, `active`.  Whatever the listeners of the selection's events do to the selection, after every history `active` is
`x` just if `x` is the only selected item.  Missing: listeners that raise and nesting beyond the recursion limits
(`failed`; see `C33_raise_refuted`), and `active = x` for an `x` outside the parent (see `C33_refuted`). -/
theorem C70_active_partial (q : List (Ev α × List α) → Prog α) (limit depth n : Nat) (xs : List α) (parent : Option (List α))
    (ops : List (Op α)) (ho : ∀ o ∈ ops, o.Fine parent) (hq : ∀ log, (q log).All (Op.Fine parent))
    (hf : (run (listening q limit depth n) ops (new xs parent)).2.failed = false) (x : α) :
    (run (listening q limit depth n) ops (new xs parent)).2.active = some x ↔
      (run (listening q limit depth n) ops (new xs parent)).2.data = [x] := by
  obtain ⟨h1, h2, _, h4, _, _⟩ := new_facts xs parent
  have h := run_keeps (T := True) (fun log => listening_keeps (p := parent) (fun _ => hq) limit depth n log) ops (fun _ => ho) _ h4
  exact h.keep trivial h2 (fun _ => h1) hf x

/-- **C70**, each operation.  The same holds whenever an operation returns, also one that a listener has called in the middle
of another: if it has changed anything about the selected items or `active`, then `active` is right now. -/
theorem C70_each_partial (q : List (Ev α × List α) → Prog α) (limit depth n : Nat) (s : St α) (hn : s.data.Nodup) (o : Op α)
    (ho : o.Fine s.parent) (hq : ∀ log, (q log).All (Op.Fine s.parent))
    (hf : (step (listening q limit depth n) o s).2.failed = false)
    (hc : (step (listening q limit depth n) o s).2.data ≠ s.data ∨ (step (listening q limit depth n) o s).2.active ≠ s.active) (x : α) :
    (step (listening q limit depth n) o s).2.active = some x ↔ (step (listening q limit depth n) o s).2.data = [x] := by
  have h := step_keeps (T := True) (fun log => listening_keeps (p := s.parent) (fun _ => hq) limit depth n log) o (fun _ => ho) s rfl
  rcases h.sync trivial hn hf with h1 | ⟨h1, h2⟩
  · exact h1 x
  · exact absurd hc (by simp [h1, h2])

/-- **C70**, members.  Whatever listeners do, also if they raise: no item is selected twice, and every selected item is in the
parent. -/
theorem C70_members (q : List (Ev α × List α) → Prog α) (limit depth n : Nat) (xs : List α) (parent : Option (List α))
    (ops : List (Op α)) :
    (run (listening q limit depth n) ops (new xs parent)).2.data.Nodup ∧
    ∀ l, parent = some l → ∀ x ∈ (run (listening q limit depth n) ops (new xs parent)).2.data, x ∈ l := by
  obtain ⟨_, h2, h3, h4, _, _⟩ := new_facts xs parent
  have h := run_keeps (T := False) (fun log => listening_keeps (q := q) (p := parent) False.elim limit depth n log) ops False.elim _ h4
  refine ⟨h.nodup h2, fun l hl x hx => ?_⟩
  have := h.held h3.held x hx
  rw [h.parent, h4, hl] at this
  simpa using this

/-- **C70**, `_current`.  An active item is the current one, if neither the program nor the listeners assign `active` or call
`clear()` (both are needed: `C70_current_refuted`, `C70_clear_refuted`). -/
theorem C70_current_partial (q : List (Ev α × List α) → Prog α) (limit depth n : Nat) (xs : List α) (parent : Option (List α))
    (ops : List (Op α)) (ho : ∀ o ∈ ops, o.Light) (hq : ∀ log, (q log).All Op.Light)
    (hf : (run (listening q limit depth n) ops (new xs parent)).2.failed = false) (x : α)
    (hx : (run (listening q limit depth n) ops (new xs parent)).2.active = some x) :
    (run (listening q limit depth n) ops (new xs parent)).2.current = some x := by
  obtain ⟨_, _, h3, _, _, _⟩ := new_facts xs parent
  have h := run_safe (fun _ log => listening_keeps False.elim limit depth n log) (fun log => listening_safe hq limit depth n log) ops ho
    (new xs parent)
  exact (h.keep h3 hf).1.cur x hx

/-- **C70**, other listeners.  With listeners that only observe or raise, everything is as in C33 and C34: the same errors,
selected items, `active`, `_current` and events. -/
theorem C70_quiet (fails : List (Ev α × List α) → Bool) (limit depth n : Nat) (ops : List (Op α)) (s : St α) (hs : s.pending = none) :
    let c := listening (fun log => if fails log then .raise else .done) limit depth (n + 1)
    (run c ops s).1.map err = (Sel.run { fails := fails, depth := depth } (ops.map Op.sel) s.base).1.map err ∧
    (run c ops s).2.base = (Sel.run { fails := fails, depth := depth } (ops.map Op.sel) s.base).2 :=
  run_sim (quiet_listening fails limit depth n) ops s hs

/-! ## Cases -/

/-- Two operations. -/
def two (a b : Op Nat) : Prog Nat := .op a fun _ => .op b fun _ => .done

/-- A listener that keeps at least one item selected, and one that does not want 3 to be active. -/
def exProg (log : List (Ev Nat × List Nat)) : Prog Nat :=
  match log.getLast? with
  | some (.items _ [_], []) => .op (.add 1) fun _ => .done
  | some (.active (some 3), _) => two (.toggle 3) (.toggle 2)
  | _ => .done

/-- A history in which these listeners are at work. -/
def exOps : List (Op Nat) := [.discard 1, .selectOnly 3, .pop, .update [[1, 2]], .clear true]

theorem exProg_all (P : Op Nat → Prop) (h1 : P (.add 1)) (h2 : P (.toggle 3)) (h3 : P (.toggle 2)) (log : List (Ev Nat × List Nat)) :
    (exProg log).All P := by
  unfold exProg
  split
  · exact ⟨h1, fun _ => trivial⟩
  · exact ⟨h2, fun _ => ⟨h3, fun _ => trivial⟩⟩
  · exact trivial

/-- The theorems apply to it. -/
example : (∀ o ∈ exOps, o.Fine (some [1, 2, 3])) ∧ (∀ log, (exProg log).All (Op.Fine (some [1, 2, 3]))) ∧
    (∀ o ∈ exOps, o.Light) ∧ (∀ log, (exProg log).All Op.Light) ∧
    (run (listening exProg 5 5 6) exOps (new [1] (some [1, 2, 3]))).2.failed = false := by
  refine ⟨?_, fun log => exProg_all _ trivial trivial trivial log, ?_, fun log => exProg_all _ trivial trivial trivial log, by decide +kernel⟩
  · intro o ho
    simp only [exOps, List.mem_cons, List.not_mem_nil, or_false] at ho
    rcases ho with rfl | rfl | rfl | rfl | rfl <;> exact trivial
  · intro o ho
    simp only [exOps, List.mem_cons, List.not_mem_nil, or_false] at ho
    rcases ho with rfl | rfl | rfl | rfl | rfl <;> first | exact trivial | exact rfl

/-- The example for `C70_each_partial`: a listener adds 1 in the middle of the removal of 1, when `active` is still 1. -/
example : (step (listening exProg 5 5 6) (.discard 1) (new [1] (some [1, 2, 3]))).2.log.length = 2 ∧
    (step (listening exProg 5 5 6) (.discard 1) (new [1] (some [1, 2, 3]))).2.data = [1] ∧
    (step (listening exProg 5 5 6) (.selectOnly 3) (new [1] (some [1, 2, 3]))).2.data = [1, 3] ∧
    (step (listening exProg 5 5 6) (.selectOnly 3) (new [1] (some [1, 2, 3]))).2.failed = false := by
  decide +kernel

/-- Listeners for the cases below: they react to one event. -/
def on (e : Ev Nat) (p : Prog Nat) (log : List (Ev Nat × List Nat)) : Prog Nat :=
  match log.getLast? with
  | some (e', _) => if e' = e then p else .done
  | none => .done

/-- `active = 2` with a listener that selects 3 instead: the item 3 is active and 2 is current, and the last event of `active`
was 2. -/
theorem C70_current_refuted :
    (step (listening (on (.items [2] []) (.op (.selectOnly 3) fun _ => .done)) 5 5 5) (.setActive (some 2)) (new [] none)).1 = .ok .unit ∧
    (step (listening (on (.items [2] []) (.op (.selectOnly 3) fun _ => .done)) 5 5 5) (.setActive (some 2)) (new [] none)).2.failed = false ∧
    (step (listening (on (.items [2] []) (.op (.selectOnly 3) fun _ => .done)) 5 5 5) (.setActive (some 2)) (new [] none)).2.active = some 3 ∧
    (step (listening (on (.items [2] []) (.op (.selectOnly 3) fun _ => .done)) 5 5 5) (.setActive (some 2)) (new [] none)).2.current = some 2 ∧
    (step (listening (on (.items [2] []) (.op (.selectOnly 3) fun _ => .done)) 5 5 5) (.setActive (some 2)) (new [] none)).2.log.getLast? =
      some (.active (some 2), [3]) := by
  decide +kernel

/-- A listener that clears the selection and selects the item again that has just been removed: the item is active but not
current. -/
theorem C70_clear_refuted :
    (step (listening (on (.items [] [1]) (two (.clear false) (.add 1))) 5 5 5) (.discard 1) (new [1] none)).1 = .ok .unit ∧
    (step (listening (on (.items [] [1]) (two (.clear false) (.add 1))) 5 5 5) (.discard 1) (new [1] none)).2.failed = false ∧
    (step (listening (on (.items [] [1]) (two (.clear false) (.add 1))) 5 5 5) (.discard 1) (new [1] none)).2.active = some 1 ∧
    (step (listening (on (.items [] [1]) (two (.clear false) (.add 1))) 5 5 5) (.discard 1) (new [1] none)).2.current = none := by
  decide +kernel

/-- `active = 2` with a listener that selects 3 when nothing is active: 2 does not become the only selected item, and so
there is no active item although the last event of `active` was 2. -/
theorem C70_only_refuted :
    (step (listening (on (.active none) (.op (.add 3) fun _ => .done)) 5 5 5) (.setActive (some 2)) (new [1] none)).1 = .ok .unit ∧
    (step (listening (on (.active none) (.op (.add 3) fun _ => .done)) 5 5 5) (.setActive (some 2)) (new [1] none)).2.failed = false ∧
    (step (listening (on (.active none) (.op (.add 3) fun _ => .done)) 5 5 5) (.setActive (some 2)) (new [1] none)).2.data = [3, 2] ∧
    (step (listening (on (.active none) (.op (.add 3) fun _ => .done)) 5 5 5) (.setActive (some 2)) (new [1] none)).2.active = none ∧
    (step (listening (on (.active none) (.op (.add 3) fun _ => .done)) 5 5 5) (.setActive (some 2)) (new [1] none)).2.log.getLast?.map (·.1) =
      some (.active (some 2)) := by
  decide +kernel

/-- `clear()` with a listener that then selects 3: the listener is told twice that 1 and 2 have been removed, because what was
collected is forgotten only after the listeners have returned. -/
theorem C70_twice_refuted :
    (step (listening (on (.active none) .done) 5 5 5) (.clear true) (new [1, 2] none)).2.log = [(.items [] [1, 2], [])] ∧
    (step (listening (fun log => match log with | [(.items [] [1, 2], [])] => .op (.add 3) fun _ => .done | _ => .done) 5 5 5) (.clear true)
      (new [1, 2] none)).1 = .ok .unit ∧
    ((step (listening (fun log => match log with | [(.items [] [1, 2], [])] => .op (.add 3) fun _ => .done | _ => .done) 5 5 5) (.clear true)
      (new [1, 2] none)).2.log.filter (fun e => e.1 = .items [] [1, 2])).length = 2 := by
  decide +kernel

end Psygnal.SelN
