import Verif.EventedSetNested

/-!
# Listeners that operate on the set: C65

`listening c p` is the set `c` whose listeners perform the program `p log` at every event, where `log` are the events so far:
any methods of the set itself, depending on the results, after which they return or raise.  Changes they make are reported in
further events, at which the listeners are called again, and so on (at most `c.limit + 2` times in all, then a `RecursionError`);
`c.fails` are further listeners that may raise.
-/

namespace Psygnal.ES
open Psygnal.Py (M Err)

variable {α : Type} [DecidableEq α] {c : Cfg α}

/-- What an observer does with an event: it removes from its copy what is reported as removed, and adds what is reported as
added. -/
def observe (d : List α) (e : List α × List α) : List α := d.filter (· ∉ e.2) ++ e.1

theorem Story.observe {d new : List α} {es : List ((List α × List α) × List α)} (h : Story d es new) :
    ∀ d' : List α, (∀ y, y ∈ d' ↔ y ∈ d) → ∀ y, y ∈ (es.map Prod.fst).foldl ES.observe d' ↔ y ∈ new := by
  induction h with
  | nil h => exact fun d' h' y => (h' y).trans (h y)
  | cons he _ ih =>
    intro d' h'
    refine ih _ fun y => ?_
    simp only [ES.observe, List.mem_append, List.mem_filter, h', decide_eq_true_eq, he.removed, he.added]
    grind

theorem listening_told (hf : c.Fair) (he : c.evented = true) {p : List ((List α × List α) × List α) → Prog α}
    (hp : ∀ log, (p log).All Op.Plain) (xs : List α) (ops : List (Op α)) (ho : ∀ o ∈ ops, o.Plain)
    (hb : (∀ log, (p log).All fun o => ¬ o.Bulk) ∨ ∀ o ∈ ops, ¬ o.Bulk)
    (hok : .error .emitLoop ∉ (run (listening c p) ops (new c xs)).1) :
    Told (new c xs).data false true (run (listening c p) ops (new c xs)).2 := by
  have hf' : (listening c p).Fair := hf
  refine run_told hf' he (.inr fun log s hs => exec_told hf he (hp log) (.inl rfl) hs) ops ho (fun o h1 h2 => .inr ?_)
    ⟨rfl, mk_nodup hf xs, rfl, fun _ => rfl, [], rfl, .nil fun _ => Iff.rfl⟩ hok
  intro log s hs
  exact exec_told hf he (hp log) (.inr (hb.resolve_right (fun h => h o h1 h2) log)) hs

/-- **C65** (partial).  For every initial set, every sequence of operations, and listeners that operate on the set: an observer
that applies every event to its own copy has the elements of the set after the sequence, provided that no operation failed
because of a listener, and that either the listeners use none of the methods that collect changes (`update`, `clear`,
`difference_update`, `intersection_update`, `symmetric_difference_update`) or the operations outside of listeners use none.
Missing, and false: `C65_bulk_refuted`, `C65_raise_refuted`. -/
theorem C65_observer_partial (hf : c.Fair) (he : c.evented = true) {p : List ((List α × List α) × List α) → Prog α}
    (hp : ∀ log, (p log).All Op.Plain) (xs : List α) (ops : List (Op α)) (ho : ∀ o ∈ ops, o.Plain)
    (hb : (∀ log, (p log).All fun o => ¬ o.Bulk) ∨ ∀ o ∈ ops, ¬ o.Bulk)
    (hok : .error .emitLoop ∉ (run (listening c p) ops (new c xs)).1) (y : α) :
    y ∈ ((run (listening c p) ops (new c xs)).2.log.map Prod.fst).foldl observe (new c xs).data ↔
      y ∈ (run (listening c p) ops (new c xs)).2.data := by
  obtain ⟨es, h1, h2⟩ := (listening_told hf he hp xs ops ho hb hok).story
  have h3 := (listening_told hf he hp xs ops ho hb hok).nested
  rcases h4 : (run (listening c p) ops (new c xs)).2.pending with _ | q
  · rw [h4, Option.getD_none, List.append_nil] at h1
    rw [← h1]
    exact h2.observe _ (fun _ => Iff.rfl) y
  · simp [h4] at h3

/-- **C65**, the events (partial, as before): each event reports exactly the elements added and removed by one change, none twice,
in the order of the changes: `es` are the events with the contents after each change.  And between operations the set is in order:
its elements are distinct, and no event waits. -/
theorem C65_events_partial (hf : c.Fair) (he : c.evented = true) {p : List ((List α × List α) × List α) → Prog α}
    (hp : ∀ log, (p log).All Op.Plain) (xs : List α) (ops : List (Op α)) (ho : ∀ o ∈ ops, o.Plain)
    (hb : (∀ log, (p log).All fun o => ¬ o.Bulk) ∨ ∀ o ∈ ops, ¬ o.Bulk)
    (hok : .error .emitLoop ∉ (run (listening c p) ops (new c xs)).1) :
    (∃ es, es.map Prod.fst = (run (listening c p) ops (new c xs)).2.log.map Prod.fst ∧
      Story (new c xs).data es (run (listening c p) ops (new c xs)).2.data) ∧
    (run (listening c p) ops (new c xs)).2.data.Nodup ∧
    (run (listening c p) ops (new c xs)).2.pending = none ∧
    (run (listening c p) ops (new c xs)).2.paused = false ∧
    (run (listening c p) ops (new c xs)).2.queue = [] := by
  have h := listening_told hf he hp xs ops ho hb hok
  obtain ⟨es, h1, h2⟩ := h.story
  have h3 := h.nested
  rcases h4 : (run (listening c p) ops (new c xs)).2.pending with _ | q
  · rw [h4, Option.getD_none, List.append_nil] at h1
    exact ⟨⟨es, h1, h2⟩, h.nodup, rfl, h.paused, h.queue rfl⟩
  · simp [h4] at h3

/-! Non-trivial cases. -/

/-- The program that performs these operations and ignores their results. -/
def ops : List (Op α) → Prog α
  | [] => .done
  | o :: l => .op o fun _ => ops l

/-- A set of numbers for the examples. -/
def nestCfg : Cfg Nat where
  place := fun l x => l ++ [x]
  evented := true
  fails := fun _ => false
  limit := 20

theorem nestCfg_fair : nestCfg.Fair := fun l x => by
  show (l ++ [x]).Perm (x :: l)
  exact List.perm_append_comm

/-- A listener that keeps the set free of numbers above 9 and of the pair 1, 2. -/
def tidy (log : List ((List Nat × List Nat) × List Nat)) : Prog Nat :=
  match log.getLast? with
  | some ((a, _), d) => ops ((a.filter (9 < ·)).map .discard ++ if 1 ∈ d ∧ 2 ∈ d then [.add 3, .discard 1] else [])
  | none => .done

omit [DecidableEq α] in
theorem ops_all {P : Op α → Prop} {l : List (Op α)} (h : ∀ o ∈ l, P o) : (ops l).All P := by
  induction l with
  | nil => trivial
  | cons o l ih => exact ⟨h o (by simp), fun _ => ih fun o ho => h o (by simp [ho])⟩

theorem tidy_all (log : List ((List Nat × List Nat) × List Nat)) :
    (tidy log).All Op.Plain ∧ (tidy log).All fun o => ¬ o.Bulk := by
  unfold tidy
  split
  · constructor <;> refine ops_all fun o ho => ?_
    all_goals
      rw [List.mem_append, List.mem_map] at ho
      rcases ho with ⟨x, -, rfl⟩ | ho
      · simp [Op.Plain, Op.Bulk]
      · split at ho
        · simp only [List.mem_cons, List.not_mem_nil, or_false] at ho
          rcases ho with rfl | rfl <;> simp [Op.Plain, Op.Bulk]
        · simp at ho
  · exact ⟨trivial, trivial⟩

/-- The events while `update([1, 12, 2])` and `remove(2)` run: the reactions are reported after the whole update. -/
example : (run (listening nestCfg tidy) [.update [[1, 12, 2]], .remove 2] (new nestCfg [5])).1 = [.ok .unit, .ok .unit] ∧
    (run (listening nestCfg tidy) [.update [[1, 12, 2]], .remove 2] (new nestCfg [5])).2.data = [5, 3] ∧
    (run (listening nestCfg tidy) [.update [[1, 12, 2]], .remove 2] (new nestCfg [5])).2.log =
      [(([1, 12, 2], []), [5, 1, 12, 2]), (([], [12]), [5, 2, 3]), (([3], []), [5, 2, 3]), (([], [1]), [5, 2, 3]),
        (([], [2]), [5, 3])] := by
  decide +kernel

example := C65_observer_partial nestCfg_fair rfl (fun log => (tidy_all log).1) [5] [.update [[1, 12, 2]], .remove 2]
  (by simp [Op.Plain]) (.inl fun log => (tidy_all log).2) (by decide +kernel)

/-- Listeners that use `update` and `clear` while the operations outside do not. -/
example := C65_events_partial nestCfg_fair rfl (p := fun log => match log.getLast? with
    | some (([7], _), _) => ops [.update [[8], [9]], .symmetricDifferenceUpdate [5, 6]]
    | some ((_, [6]), _) => ops [.clear]
    | _ => .done) (by intro log; split <;> simp [ops, Prog.All, Op.Plain]) [5] [.add 7, .discard 6]
  (by simp [Op.Plain]) (.inr (by simp [Op.Bulk])) (by decide +kernel)

/-! What is not so. -/

/-- A listener that answers the addition of 1 with `discard(1)` and `update([2])`. -/
def swapIn (log : List ((List Nat × List Nat) × List Nat)) : Prog Nat := match log.getLast? with
  | some (([1], _), _) => ops [.discard 1, .update [[2]]]
  | _ => .done

/-- **C65 is false** when a listener of an event of `update` calls `update`: what the outer call collected is dropped only after
the listeners have returned, so the event of the inner call reports it again.  Here 1 is reported as added again, after it has been
reported as removed; the observer ends with 1 and 2, while the set has only 2. -/
theorem C65_bulk_refuted :
    (run (listening nestCfg swapIn) [.update [[1]]] (new nestCfg [])).1 = [.ok .unit] ∧
    (run (listening nestCfg swapIn) [.update [[1]]] (new nestCfg [])).2.data = [2] ∧
    (run (listening nestCfg swapIn) [.update [[1]]] (new nestCfg [])).2.log.map Prod.fst =
      [([1], []), ([], [1]), ([1, 2], [])] ∧
    ((run (listening nestCfg swapIn) [.update [[1]]] (new nestCfg [])).2.log.map Prod.fst).foldl observe [] = [1, 2] := by
  decide +kernel

/-- A listener that answers the addition of 1 by adding 2 and raising. -/
def addRaise (log : List ((List Nat × List Nat) × List Nat)) : Prog Nat := match log.getLast? with
  | some (([1], _), _) => .op (.add 2) fun _ => .raise
  | _ => .done

/-- **C65 is false** after an error of a listener: events that wait are dropped.  Nobody is ever told of the addition of 2. -/
theorem C65_raise_refuted :
    (run (listening nestCfg addRaise) [.add 1] (new nestCfg [])).1 = [.error .emitLoop] ∧
    (run (listening nestCfg addRaise) [.add 1] (new nestCfg [])).2.data = [1, 2] ∧
    (run (listening nestCfg addRaise) [.add 1] (new nestCfg [])).2.log.map Prod.fst = [([1], [])] := by
  decide +kernel

/-- A listener that answers the addition of 1 by adding 2 and discarding it again. -/
def flash (log : List ((List Nat × List Nat) × List Nat)) : Prog Nat := match log.getLast? with
  | some (([1], _), _) => ops [.add 2, .discard 2]
  | _ => .done

/-- While such an operation runs, the observer lags behind: it is told of the addition of 2 when 2 is no longer in the set. -/
theorem C65_lag_refuted :
    (run (listening nestCfg flash) [.add 1] (new nestCfg [])).2.log =
      [(([1], []), [1]), (([2], []), [1]), (([], [2]), [1])] := by
  decide +kernel

end Psygnal.ES
