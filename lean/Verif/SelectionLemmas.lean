import Verif.SelectionSpec
import Verif.EventedSetOrder

/-!
# Selections: the protocol of `_update_active` (lemmas for C33)
-/

namespace Psygnal.Sel
open Psygnal.Py (M Err Key Slice)
open Psygnal.ES (Diff Story Exact)

variable {α : Type} [DecidableEq α] {c : Cfg α}

/-! ## Nesting of `_update_active` -/

omit [DecidableEq α] in
theorem emit_data (e : Ev α) (s : St α) : (emit c e s).2.data = s.data := rfl

omit [DecidableEq α] in
theorem withPaused_noop_data (s : St α) : (withPaused c (M.pure ()) s).2.data = s.data := by
  simp only [withPaused, M.pure_app, resume]
  cases s.paused
  · simp only [Bool.false_eq_true, if_false]
    by_cases hq : s.queue = []
    · simp [hq]
    · simp only [hq, if_false, emit]
      cases c.fails _ <;> rfl
  · rfl

/-- The loop of `intersection_update` has nothing to do when the only selected item is kept. -/
theorem intersectionUpdate_single (u : M (St α) Unit) {t : St α} {x : α} (ht : t.data = [x]) :
    intersectionUpdate c u [[x]] t = withPaused c (M.pure ()) t := by
  have e : (M.bind M.get fun s : St α => M.forEach (s.data.filter fun y => !([[x]] : List (List α)).all (y ∈ ·)) (discard c u))
      { t with paused := true } = (.ok (), { t with paused := true }) := by
    simp only [M.bind_app, M.get_app, ht]
    simp [M.forEach]
  simp only [intersectionUpdate, withPaused, M.bind_eq, List.cons_ne_nil, if_false, e, M.pure_app]

theorem selectOnly_single (u : M (St α) Unit) {t : St α} {x : α} (ht : t.data = [x]) : selectOnly c u x t =
    match withPaused c (M.pure ()) t with
    | (.ok _, t') => if t'.inParent x then (.ok (), t') else (.error .value, t')
    | (.error e, t') => (.error e, t') := by
  simp only [selectOnly, M.bind_eq, M.bind_app, intersectionUpdate_single u ht]
  have hd := withPaused_noop_data (c := c) t
  rcases hw : withPaused c (M.pure ()) t with ⟨_ | _, t'⟩
  · rfl
  · rw [hw] at hd
    simp only at hd
    simp only [add, M.bind_eq, M.bind_app, M.get_app]
    cases t'.inParent x
    · simp
    · simp only [if_true, hd, ht, List.mem_singleton]
      rfl

/-- With just one item selected, making it active does not call `_update_active` again. -/
theorem setActive_single (u v : M (St α) Unit) {s : St α} {x : α} (h : s.data = [x]) :
    setActive c u (some x) s = setActive c v (some x) s := by
  simp only [setActive, M.bind_eq, M.bind_app, M.get_app]
  by_cases ha : some x = s.active
  · simp only [ha, if_true]
  · simp only [ha, if_false, M.bind_app, M.modify_app]
    have h' : ({ s with active := some x } : St α).data = [x] := h
    rw [selectOnly_single u h', selectOnly_single v h']

/-- One level of nesting is enough. -/
theorem updateActive_depth (m n : Nat) : updateActive c (m + 1) = updateActive c (n + 1) := by
  funext s
  simp only [updateActive, M.bind_eq, M.bind_app, M.get_app]
  rcases hd : s.data with _ | ⟨x, _ | ⟨y, l⟩⟩
  · rfl
  · exact setActive_single _ _ hd
  · rfl

/-! ## What `_update_active` does -/

/-- The state after `_update_active`. -/
def next (s : St α) : St α :=
  match s.data with
  | [x] =>
    if s.active = some x then s
    else { s with active := some x, current := some x, log := s.log ++ ((if s.current = some x then [] else [(.current (some x), [x])]) ++ [(.active (some x), [x])]) }
  | d => if s.active = none then s else { s with active := none, log := s.log ++ [(.active none, d)] }

omit [DecidableEq α] in
theorem emit_quiet (hq : c.Quiet) (e : Ev α) (s : St α) : emit c e s = (.ok (), { s with log := s.log ++ [(e, s.data)] }) := by
  simp [emit, hq _]

theorem setCurrent_quiet (hq : c.Quiet) (v : Option α) (s : St α) :
    setCurrent c v s = (.ok (), if v = s.current then s else { s with current := v, log := s.log ++ [(.current v, s.data)] }) := by
  simp only [setCurrent, M.bind_eq, M.bind_app, M.get_app]
  by_cases h : v = s.current
  · simp only [h, if_true]
    rfl
  · simp only [h, if_false, M.bind_app, M.modify_app, emit_quiet hq]

theorem updateActive_quiet (hq : c.Quiet) (n : Nat) {s : St α} (hr : s.paused = false → s.queue = [])
    (hp : ∀ x, s.data = [x] → s.inParent x = true) : updateActive c (n + 1) s = (.ok (), next s) := by
  simp only [updateActive, M.bind_eq, M.bind_app, M.get_app, next]
  rcases hd : s.data with _ | ⟨x, _ | ⟨y, l⟩⟩
  · by_cases ha : s.active = none
    · simp only [ha, if_true]
      rfl
    · simp only [ha, if_false, M.bind_app, M.modify_app, emit_quiet hq, hd]
  · simp only [setActive, M.bind_eq, M.bind_app, M.get_app]
    by_cases ha : some x = s.active
    · simp only [ha, if_true]
      rfl
    · have ha' : ¬ s.active = some x := fun h => ha h.symm
      simp only [ha, ha', if_false, M.bind_app, M.modify_app]
      have e : selectOnly c (updateActive c n) x { s with active := some x } = (.ok (), { s with active := some x }) := by
        have h' : ({ s with active := some x } : St α).data = [x] := hd
        have e1 : withPaused c (M.pure ()) { s with active := some x } = (.ok (), { s with active := some x }) := by
          simp only [withPaused, M.pure_app, resume]
          cases hpa : s.paused
          · simp [hr hpa]
          · simp
        rw [selectOnly_single _ h']
        simp only [e1]
        have : St.inParent { s with active := some x } x = true := hp x hd
        simp only [this, if_true]
      rw [e]
      simp only [setCurrent_quiet hq, emit_quiet hq]
      by_cases hc : some x = s.current
      · have hc' : s.current = some x := hc.symm
        simp only [hc', if_true, hd]
        simp
      · have hc' : ¬ s.current = some x := fun h => hc h.symm
        simp only [hc, hc', if_false, hd]
        simp
  · by_cases ha : s.active = none
    · simp only [ha, if_true]
      rfl
    · simp only [ha, if_false, M.bind_app, M.modify_app, emit_quiet hq, hd]

/-! ## The invariant -/

/-- Between and inside operations.  `s0` is the first state; `A` and `R` are the changes collected while paused; `T` says
whether the events of `items_changed` are followed. -/
structure W (T : Prop) (s0 : St α) (A R : List α) (s : St α) : Prop where
  nodup : s.data.Nodup
  rest : s.paused = false → s.queue = []
  cur : s.current = lastCurrent s0.current s.log
  trk : T → ∃ base, Story s0.data (itemsOf s.log) base ∧ Diff base A R s.data
  qA : T → s.queue.flatMap (·.1) = A
  qR : T → s.queue.flatMap (·.2) = R
  qNe : T → ∀ q ∈ s.queue, q.1 ≠ [] ∨ q.2 ≠ []

/-- All selected items are in the parent. -/
def Par (s : St α) : Prop := ∀ x ∈ s.data, s.inParent x = true

/-- `active` is what was reported, and is current. -/
def Told (s0 s : St α) : Prop := s.active = lastActive s0.active s.log ∧ ∀ x, s.active = some x → s.current = some x

/-- `active` is the only selected item. -/
def Synced (s : St α) : Prop := ∀ x, s.active = some x ↔ s.data = [x]

/-- `active` is what was reported, and is current if it is the only selected item. -/
def Told' (s0 s : St α) : Prop :=
  s.active = lastActive s0.active s.log ∧ ∀ x, s.active = some x → s.data = [x] → s.current = some x

omit [DecidableEq α] in
theorem Told.weaken {s0 s : St α} (h : Told s0 s) : Told' s0 s := ⟨h.1, fun x hx _ => h.2 x hx⟩

/-- The setter of `active` is under way, with the present value. -/
def Pend (p : Option (Option α)) (s : St α) : Prop := p = some s.active

/-- The invariant; `p` is `none` unless the setter of `active` is under way. -/
structure K (T : Prop) (s0 : St α) (p : Option (Option α)) (A R : List α) (s : St α) : Prop where
  w : W T s0 A R s
  par : Par s
  told : Pend p s ∨ Told s0 s
  synced : Pend p s ∨ Synced s

omit [DecidableEq α] in
theorem lastActive_snoc (a : Option α) (log : List (Ev α × List α)) (e : Ev α × List α) :
    lastActive a (log ++ [e]) = match e.1 with
      | .active v => v
      | _ => lastActive a log := by
  simp only [lastActive, List.foldl_append, List.foldl_cons, List.foldl_nil]
  cases e.1 <;> rfl

omit [DecidableEq α] in
theorem lastCurrent_snoc (a : Option α) (log : List (Ev α × List α)) (e : Ev α × List α) :
    lastCurrent a (log ++ [e]) = match e.1 with
      | .current v => v
      | _ => lastCurrent a log := by
  simp only [lastCurrent, List.foldl_append, List.foldl_cons, List.foldl_nil]
  cases e.1 <;> rfl

omit [DecidableEq α] in
theorem itemsOf_append (l l' : List (Ev α × List α)) : itemsOf (l ++ l') = itemsOf l ++ itemsOf l' := by
  simp [itemsOf, List.filterMap_append]

omit [DecidableEq α] in
theorem itemsOf_active (v : Option α) (d : List α) : itemsOf [(Ev.active v, d)] = [] := rfl
omit [DecidableEq α] in
theorem itemsOf_current (v : Option α) (d : List α) : itemsOf [(Ev.current v, d)] = [] := rfl
omit [DecidableEq α] in
theorem itemsOf_items (a r d : List α) : itemsOf [(Ev.items a r, d)] = [((a, r), d)] := rfl

variable {T : Prop} {s0 : St α} {p : Option (Option α)} {A R : List α}

omit [DecidableEq α] in
/-- An event of `active` or `_current` does not concern `items_changed`. -/
theorem W.other {s : St α} (h : W T s0 A R s) {s' : St α} (hd : s'.data = s.data) (hp : s'.paused = s.paused)
    (hq : s'.queue = s.queue) (hi : itemsOf s'.log = itemsOf s.log) (hc : s'.current = lastCurrent s0.current s'.log) :
    W T s0 A R s' :=
  ⟨hd ▸ h.nodup, fun hp' => hq ▸ h.rest (hp ▸ hp'), hc, fun hT => by rw [hi, hd]; exact h.trk hT,
    fun hT => hq ▸ h.qA hT, fun hT => hq ▸ h.qR hT, fun hT => hq ▸ h.qNe hT⟩

theorem next_same (s : St α) : (next s).data = s.data ∧ (next s).paused = s.paused ∧ (next s).queue = s.queue ∧
    (next s).parent = s.parent := by
  simp only [next]
  rcases hd : s.data with _ | ⟨x, _ | ⟨y, l⟩⟩
  · by_cases ha : s.active = none
    · simp [ha, hd]
    · simp [ha]
  · by_cases ha : s.active = some x
    · simp [ha, hd]
    · simp [ha]
  · by_cases ha : s.active = none
    · simp [ha, hd]
    · simp [ha]

/-- `_update_active` restores the invariant. -/
theorem next_K {s : St α} (h : W T s0 A R s) (hp : Par s) (ht : Pend p s ∨ Told' s0 s) :
    K T s0 p A R (next s) ∧ Synced (next s) := by
  obtain ⟨e1, e2, e3, e4⟩ := next_same s
  have hpar : Par (next s) := by
    intro x hx
    have := hp x (e1 ▸ hx)
    simpa [St.inParent, e4] using this
  suffices hs : (itemsOf (next s).log = itemsOf s.log ∧ (next s).current = lastCurrent s0.current (next s).log) ∧
      (Pend p (next s) ∨ Told s0 (next s)) ∧ Synced (next s) from
    ⟨⟨h.other e1 e2 e3 hs.1.1 hs.1.2, hpar, hs.2.1, .inr hs.2.2⟩, hs.2.2⟩
  have hc := h.cur
  simp only [next]
  rcases hd : s.data with _ | ⟨x, _ | ⟨y, l⟩⟩
  · by_cases ha : s.active = none
    · simp only [ha, if_true]
      exact ⟨⟨trivial, hc⟩, ht.imp id fun h => ⟨h.1, by simp [ha]⟩, fun z => by simp [ha, hd]⟩
    · simp only [ha, if_false]
      refine ⟨⟨by rw [itemsOf_append]; simp [itemsOf_active], by rw [lastCurrent_snoc]; exact hc⟩, .inr ⟨?_, by simp⟩, ?_⟩
      · rw [lastActive_snoc]
      · intro z
        simp
  · by_cases ha : s.active = some x
    · simp only [ha, if_true]
      refine ⟨⟨trivial, hc⟩, ht.imp id fun h => ⟨h.1, fun z hz => h.2 z hz (by rw [hd, Option.some.inj (ha.symm.trans hz)])⟩, fun z => ?_⟩
      rw [ha, hd]
      simp
    · simp only [ha, if_false]
      refine ⟨⟨?_, ?_⟩, .inr ⟨?_, ?_⟩, ?_⟩
      · rw [itemsOf_append, itemsOf_append]
        split <;> simp [itemsOf]
      · rw [← List.append_assoc, lastCurrent_snoc]
        by_cases h1 : s.current = some x
        · simp only [h1, if_true, List.append_nil]
          rw [← hc, h1]
        · simp only [h1, if_false]
          rw [lastCurrent_snoc]
      · rw [← List.append_assoc, lastActive_snoc]
      · exact fun z hz => hz
      · intro z
        simp
  · by_cases ha : s.active = none
    · simp only [ha, if_true]
      exact ⟨⟨trivial, hc⟩, ht.imp id fun h => ⟨h.1, by simp [ha]⟩, fun z => by simp [ha, hd]⟩
    · simp only [ha, if_false]
      refine ⟨⟨by rw [itemsOf_append]; simp [itemsOf_active], by rw [lastCurrent_snoc]; exact hc⟩, .inr ⟨?_, by simp⟩, ?_⟩
      · rw [lastActive_snoc]
      · intro z
        simp

end Psygnal.Sel
