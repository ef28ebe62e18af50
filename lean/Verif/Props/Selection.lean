import Verif.SelectionListActive

/-!
# C33 and C34: selections
-/

namespace Psygnal.Sel
open Psygnal.Py (M Err Key Slice)
open Psygnal.ES (Story)

variable {α : Type} [DecidableEq α] {c : Cfg α}

/-! ## Histories -/

theorem Rest.start {T : Prop} {s0 s : St α} (h : Rest T s0 none s) :
    Rest T { s with log := [] } none { s with log := [] } := by
  have hq := h.k.w.rest h.paused
  refine ⟨⟨⟨h.k.w.nodup, h.k.w.rest, rfl, fun _ => ⟨s.data, .nil fun _ => Iff.rfl, ES.Diff.refl h.k.w.nodup⟩, ?_, ?_, ?_⟩,
    h.k.par, .inr ⟨rfl, ?_⟩, h.k.synced⟩, h.paused⟩
  · intro _; simp [hq]
  · intro _; simp [hq]
  · intro _ q hqm; rw [hq] at hqm; simp at hqm
  · exact (h.k.told.resolve_left (by simp [Pend])).2

theorem new_rest (hd : 0 < c.depth) (xs : List α) (parent : Option (List α)) :
    Rest True (new c xs parent).2 none (new c xs parent).2 := by
  obtain ⟨n, hn⟩ : ∃ n, c.depth = n + 1 := ⟨c.depth - 1, by omega⟩
  let c' : Cfg α := { c with fails := fun _ => false }
  have hq : c'.Quiet := fun _ => rfl
  have h0 : Rest True ({ data := [], parent := parent } : St α) none { data := [], parent := parent } := by
    refine ⟨⟨⟨by simp, fun _ => rfl, rfl, fun _ => ⟨[], .nil fun _ => Iff.rfl, ES.Diff.refl (by simp)⟩, fun _ => rfl,
      fun _ => rfl, by simp⟩, fun x hx => by simp at hx, .inr ⟨rfl, by simp⟩, .inr fun x => by simp⟩, rfl⟩
  obtain ⟨s1, r, h1, h2, h3⟩ := update_to (n := n) hq h0 [xs]
  have hu := updateActive_quiet hq n h2.k.w.rest fun x hx => h2.k.par x (by rw [hx]; simp)
  have hnx := next_K h2.k.w h2.k.par (h2.k.told.imp id Told.weaken)
  have hr : Rest True ({ data := [], parent := parent } : St α) none (next s1) := ⟨hnx.1, (next_same s1).2.1.trans h2.paused⟩
  have hn' : updateActive c' c.depth = updateActive c' (n + 1) := congrArg (updateActive c') hn
  have e : Rest True ({ data := [], parent := parent } : St α) none
      ((M.bind (update c' (updateActive c' c.depth) [xs]) fun _ => updateActive c' c.depth) { data := [], parent := parent }).2 := by
    rw [hn', M.bind_app, h1]
    cases r
    · exact h2
    · simp only
      rw [hu]
      exact hr
  exact e.start

theorem Rest.untracked {T : Prop} {s0 s : St α} {p : Option (Option α)} (h : Rest T s0 p s) : Rest False s0 p s :=
  ⟨⟨⟨h.k.w.nodup, h.k.w.rest, h.k.w.cur, False.elim, False.elim, False.elim, False.elim⟩, h.k.par, h.k.told, h.k.synced⟩, h.paused⟩

theorem run_rest {T : Prop} {s0 : St α} (hd : 0 < c.depth) (hq : c.Quiet) (ops : List (Op α)) :
    ∀ s, Rest T s0 none s → (T → ∀ op ∈ ops, op.Plain) → NoBad c ops s → Rest T s0 none (run c ops s).2 := by
  induction ops with
  | nil => exact fun _ h _ _ => h
  | cons op ops ih =>
    intro s h hp hb
    exact ih _ (step_to hd hq h op (fun hT => hp hT op (by simp)) hb.1).1 (fun hT o ho => hp hT o (by simp [ho])) hb.2

theorem Rest.consistent {T : Prop} {s0 s : St α} (h : Rest T s0 none s) : Consistent s :=
  ⟨h.k.synced.resolve_left (by simp [Pend]), (h.k.told.resolve_left (by simp [Pend])).2⟩

theorem lrun_rl {T : Prop} {s0 : St α} (hd : 0 < c.depth) (hq : c.Quiet) (ops : List (LOp α)) :
    ∀ s, RL T s0 s → (T → ∀ op ∈ ops, op.Plain) → LFine c ops s → RL T s0 (lrun c ops s) := by
  induction ops with
  | nil => exact fun _ h _ _ => h
  | cons op ops ih =>
    intro s h hp hb
    exact ih _ (lstep_rl hd hq (fun hT => hp hT op (by simp)) hb.2.1 hb.1 h) (fun hT o ho => hp hT o (by simp [ho])) hb.2.2

omit [DecidableEq α] in
theorem lnew_rl [DecidableEq α] : RL True (lnew : St α) lnew :=
  ⟨⟨⟨⟨by simp [lnew], fun _ => rfl, rfl, fun _ => ⟨[], .nil fun _ => Iff.rfl, ES.Diff.refl (by simp)⟩, fun _ => rfl,
      fun _ => rfl, by simp [lnew]⟩, fun x hx => by simp [lnew] at hx, .inr ⟨rfl, by simp [lnew]⟩, .inr fun x => by simp [lnew]⟩, rfl⟩,
    [], rfl⟩

/-! ## C33 -/

/-- C33, first part.  After every operation on a selection, `active` is `x` iff `x` is the only selected item, and then it is
the current item, whatever operations came before, also ones that raised.  (Listeners do not raise; the parent does not
change; left out is `active = x` with an `x` that is not in the parent while nothing is selected: see `C33_refuted`.) -/
theorem C33_active_partial (hd : 0 < c.depth) (hq : c.Quiet) (xs : List α) (parent : Option (List α)) (ops : List (Op α))
    (hb : NoBad c ops (new c xs parent).2) : Consistent (run c ops (new c xs parent).2).2 :=
  (run_rest hd hq ops _ (new_rest hd xs parent).untracked False.elim hb).consistent

/-- C33, second part.  The events tell how the selection changes: the `items_changed` events, each of which reports just
the items that appeared and disappeared since the one before, lead from the first selection to the present one; the last
`active` event has the present value of `active`, and the last `_current` event that of `_current`. -/
theorem C33_events_partial (hd : 0 < c.depth) (hq : c.Quiet) (xs : List α) (parent : Option (List α)) (ops : List (Op α))
    (hb : NoBad c ops (new c xs parent).2) (hp : ∀ op ∈ ops, op.Plain) :
    let s0 := (new c xs parent).2
    let s := (run c ops s0).2
    Story s0.data (itemsOf s.log) s.data ∧ lastActive s0.active s.log = s.active ∧ lastCurrent s0.current s.log = s.current := by
  have h := run_rest hd hq ops _ (new_rest hd xs parent) (fun _ => hp) hb
  refine ⟨?_, ((h.k.told.resolve_left (by simp [Pend])).1).symm, h.k.w.cur.symm⟩
  obtain ⟨base, h1, h2⟩ := h.k.w.trk trivial
  have : Story base ([] : List ((List α × List α) × List α)) (run c ops (new c xs parent).2).2.data := by
    refine .nil fun y => ?_
    have := h2.mem y
    simp at this
    exact this.symm
  have := ES.Story.trans h1 this
  simpa using this

/-- Setting `active` to an item of the parent selects just that item. -/
theorem C33_set_active (hd : 0 < c.depth) (hq : c.Quiet) (xs : List α) (parent : Option (List α)) (ops : List (Op α))
    (hb : NoBad c ops (new c xs parent).2) {x : α} (hx : (run c ops (new c xs parent).2).2.inParent x = true) :
    let r := step c (.setActive (some x)) (run c ops (new c xs parent).2).2
    r.1 = .ok .unit ∧ r.2.data = [x] ∧ r.2.active = some x ∧ r.2.current = some x := by
  obtain ⟨n, hn⟩ : ∃ n, c.depth = n + 1 := ⟨c.depth - 1, by omega⟩
  have h : Rest False (new c xs parent).2 none (run c ops (new c xs parent).2).2 :=
    run_rest hd hq ops _ (new_rest hd xs parent).untracked False.elim hb
  obtain ⟨s', r, h1, h2, h3, h4⟩ := setActive_to (n := n) hq h (some x) fun y hy hf => by
    obtain rfl := Option.some.inj hy
    rw [hx] at hf
    cases hf
  obtain ⟨rfl, h5⟩ := h4 x rfl hx
  have ha := (h2.consistent.active x).2 h5
  simp only [step, hn, M.bind_eq, M.bind_app, h1]
  exact ⟨rfl, h5, ha, h2.consistent.current x ha⟩

/-- C33 for the selection of a list, through operations on the list and on the selection (assignments to items of the list
left out: see `C34_refuted`). -/
theorem C33_list_partial (hd : 0 < c.depth) (hq : c.Quiet) (ops : List (LOp α)) (hf : LFine c ops lnew) :
    Consistent (lrun c ops lnew) :=
  (lrun_rl hd hq ops _ ⟨lnew_rl.rest.untracked, lnew_rl.list⟩ False.elim hf).rest.consistent

/-- The bound on the nesting of `_update_active` in the model is of no consequence. -/
theorem C33_depth (m n : Nat) : updateActive c (m + 1) = updateActive c (n + 1) := updateActive_depth m n

/-- Nobody's listener raises, and `_update_active` may be nested. -/
abbrev quietCfg : Cfg Nat := { fails := fun _ => false, depth := 3 }

/-- A history with operations that raise: the theorems above apply to it. -/
theorem C33_example :
    let ops : List (Op Nat) := [.set (.add 2), .setActive (some 3), .setActive (some 9), .set (.update [[1, 3]]), .toggle 1,
      .set (.symmetricDifferenceUpdate [1, 2, 3])]
    let s := (run quietCfg ops (new quietCfg [1] (some [1, 2, 3])).2).2
    (new quietCfg [1] (some [1, 2, 3])).1 = .ok () ∧
    ((new quietCfg [1] (some [1, 2, 3])).2.active = some 1) ∧
    ((run quietCfg ops (new quietCfg [1] (some [1, 2, 3])).2).1[2]? = some (.error .value)) ∧
    s.data = [1, 2] ∧ s.active = none ∧ s.log.length = 21 := by
  decide +kernel

theorem C33_example_fine :
    NoBad quietCfg [.set (.add 2), .setActive (some 3), .setActive (some 9), .set (.update [[1, 3]]), .toggle 1,
      .set (.symmetricDifferenceUpdate [1, 2, 3])] (new quietCfg [1] (some [1, 2, 3])).2 := by
  refine ⟨?_, ?_, ?_, ?_, ?_, ?_, trivial⟩ <;> rintro ⟨x, h, hp, hd⟩ <;> first | (cases h; done) | skip
  · revert hd; decide +kernel
  · revert hd; decide +kernel

/-- C33 fails when `active` is set to an item that is not in the parent while nothing is selected: the `ValueError` leaves
`active` set. -/
theorem C33_refuted :
    let s := (new quietCfg [] (some [1, 2])).2
    (step quietCfg (.setActive (some 9)) s).1 = .error .value ∧
    (step quietCfg (.setActive (some 9)) s).2.active = some 9 ∧ (step quietCfg (.setActive (some 9)) s).2.data = [] := by
  decide

/-- C33 also fails when a listener of `items_changed` raises: `_update_active` is not reached. -/
theorem C33_raise_refuted :
    let c : Cfg Nat := { fails := fun log => log.length = 1, depth := 3 }
    let r := step c (.set (.add 1)) (new c [] none).2
    r.1 = .error .emitLoop ∧ r.2.data = [1] ∧ r.2.active = none := by
  decide +kernel

/-- Setting `active` from one item to another reports `None` in between, and the new item twice. -/
theorem C33_spurious_events :
    (step quietCfg (.setActive (some 2)) (new quietCfg [1] (some [1, 2])).2).2.log.map (·.1) =
      [.active none, .items [] [1], .items [2] [], .current (some 2), .active (some 2), .active (some 2)] := by
  decide +kernel

/-! ## C34 -/

/-- C34.  After every operation on the list or on its selection, every selected item is an element of the list (assignments
to items of the list left out); listeners of the selection may raise. -/
theorem C34_partial (ops : List (LOp α)) (ho : ∀ op ∈ ops, ¬ op.Assigns) :
    ∀ x ∈ (lrun c ops lnew).data, x ∈ (lrun c ops lnew).list := by
  have key : ∀ (ops : List (LOp α)) (s : St α), (∀ op ∈ ops, ¬ op.Assigns) → Held s → Held (lrun c ops s) := by
    intro ops
    induction ops with
    | nil => exact fun _ _ h => h
    | cons op ops ih => exact fun s ho h => ih _ (fun o h => ho o (by simp [h])) (lstep_held (ho op (by simp)) s h)
  have h : Held (lrun c ops lnew) := key ops lnew ho ⟨by simp [lnew], [], rfl, by simp [lnew]⟩
  intro x hx
  obtain ⟨l, hl, hm⟩ := h.mem
  rw [list_eq hl]
  exact hm x hx trivial

/-- The two theorems on lists apply to a history that inserts, selects, moves and removes. -/
theorem C34_example :
    let ops : List (LOp Nat) := [.extend [5, 6, 7, 8], .sel (.set (.update [[5, 6]])),
      .delItem (.slice { start := none, stop := some 1, step := none }), .move 0 3, .selectNext 1 true false, .reverse true,
      .removeSelected, .append 9, .selectNext (-1) true false]
    (∀ op ∈ ops, ¬ op.Assigns) ∧ LFine quietCfg ops lnew ∧ (lrun quietCfg ops lnew).list = [7, 9] ∧
      (lrun quietCfg ops lnew).data = [9, 7] ∧ (lrun quietCfg ops lnew).active = none := by
  refine ⟨by simp [LOp.Assigns], ?_, ?_⟩
  · simp only [LFine]
    refine ⟨?_, id, ?_, id, ?_, id, ?_, id, ?_, id, ?_, id, ?_, id, ?_, id, ?_, id, trivial⟩ <;> rintro ⟨o, h, x, h', hp, hd⟩ <;>
      cases h <;> cases h'
  · decide +kernel

/-- C34 fails on assignment to an item: the item that was replaced stays selected. -/
theorem C34_refuted :
    let s := lrun quietCfg [.append 5, .setItem 0 6] lnew
    s.list = [6] ∧ s.data = [5] ∧ s.active = some 5 := by
  decide

/-- The same with a slice. -/
theorem C34_slice_refuted :
    let s := lrun quietCfg [.append 5, .append 6, .setSlice { start := some 1, stop := none, step := none } (some [7, 8])] lnew
    s.list = [5, 7, 8] ∧ s.data = [6] := by
  decide +kernel

/-- `_current` may be an item that is no longer in the list; `select_next` then raises `ValueError`. -/
theorem C34_current_stale :
    let s := lrun quietCfg [.extend [5, 6, 7], .selectAll, .remove 7] lnew
    s.list = [5, 6] ∧ s.data = [5, 6] ∧ s.current = some 7 ∧ (lstep quietCfg (.selectNext 1 false false) s).1 = .error .value := by
  decide +kernel

end Psygnal.Sel
