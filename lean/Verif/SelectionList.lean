import Verif.SelectionOps
import Verif.EventedListMove
import Verif.EventedListChildren

/-!
# Lists with a selection: selected items are items of the list (lemmas for C34)
-/

namespace Psygnal.Sel
open Psygnal.Py (M Err Key Slice)

variable {α : Type} [DecidableEq α] {c : Cfg α}

/-- Every selected item, `x` excepted, is in the list. -/
structure HeldBut (P : α → Prop) (s : St α) : Prop where
  nodup : s.data.Nodup
  mem : ∃ l, s.parent = some l ∧ ∀ y ∈ s.data, P y → y ∈ l

/-- Every selected item is in the list. -/
abbrev Held (s : St α) : Prop := HeldBut (fun _ => True) s

omit [DecidableEq α] in
theorem HeldBut.of {P : α → Prop} {s s' : St α} (h : HeldBut P s) (hd : s'.data = s.data) (hp : s'.parent = s.parent) :
    HeldBut P s' := ⟨hd ▸ h.nodup, by rw [hp, hd]; exact h.mem⟩

/-! ## The selection -/

omit [DecidableEq α] in
theorem emit_held (e : Ev α) : M.Keeps Held (emit c e) := fun _ h => h.of rfl rfl

theorem setCurrent_held (v : Option α) : M.Keeps Held (setCurrent c v) := by
  refine M.Keeps.get.seq fun s => ?_
  by_cases h : v = s.current
  · simp only [h, if_true]; exact .pure' _
  · simp only [h, if_false]
    exact M.Keeps.seq (fun _ h => h.of rfl rfl) fun _ => emit_held _

omit [DecidableEq α] in
theorem emitItems_held (a r : List α) : M.Keeps Held (emitItems c a r) := by
  intro s h
  simp only [emitItems]
  split
  · exact h.of rfl rfl
  · exact emit_held _ _ h

omit [DecidableEq α] in
theorem resume_held : M.Keeps Held (resume c) := by
  intro s h
  simp only [resume]
  by_cases hq : s.queue = []
  · simp only [hq, if_true]; exact h.of rfl rfl
  · simp only [hq, if_false, emit]
    cases c.fails _ <;> exact h.of rfl rfl

omit [DecidableEq α] in
theorem withPaused_held {m : M (St α) Unit} (hm : M.Keeps Held m) : M.Keeps Held (withPaused c m) := by
  intro s h
  have h1 := hm { s with paused := true } (h.of rfl rfl)
  simp only [withPaused]
  rcases hr : m { s with paused := true } with ⟨r, s1⟩
  rw [hr] at h1
  simp only
  split
  · exact h1
  · have h2 := resume_held (c := c) s1 h1
    rcases hr2 : resume c s1 with ⟨_ | _, s2⟩ <;> (rw [hr2] at h2; exact h2)

section
variable {u : M (St α) Unit} (hu : M.Keeps Held u)
include hu

omit [DecidableEq α] in
theorem emitChange_held (a r : List α) : M.Keeps Held (emitChange c u a r) := (emitItems_held a r).seq fun _ => hu

theorem add_held (x : α) : M.Keeps Held (add c u x) := by
  intro s h
  simp only [add, M.bind_eq, M.bind_app, M.get_app]
  cases hip : s.inParent x
  · exact h
  · simp only [if_true]
    by_cases hm : x ∈ s.data
    · simp only [hm, if_true]; exact h
    · simp only [hm, if_false, M.bind_app, M.modify_app]
      refine emitChange_held hu _ _ _ ⟨?_, ?_⟩
      · exact (List.perm_append_singleton x s.data).nodup_iff.2 (List.nodup_cons.2 ⟨hm, h.nodup⟩)
      · obtain ⟨l, hl, hm'⟩ := h.mem
        refine ⟨l, hl, fun y hy _ => ?_⟩
        rcases List.mem_append.1 hy with hy | hy
        · exact hm' y hy trivial
        · rw [List.mem_singleton.1 hy]
          simpa [St.inParent, hl] using hip

/-- `discard` of an item that the list has just lost. -/
theorem discard_held' {x : α} {s : St α} (h : HeldBut (· ≠ x) s) : Held (discard c u x s).2 := by
  simp only [discard, M.bind_eq, M.bind_app, M.get_app]
  obtain ⟨l, hl, hm'⟩ := h.mem
  by_cases hm : x ∈ s.data
  · simp only [hm, if_true, M.bind_app, M.modify_app]
    refine emitChange_held hu _ _ _ ⟨h.nodup.erase x, l, hl, fun y hy _ => ?_⟩
    have := h.nodup.mem_erase_iff.1 hy
    exact hm' y this.2 this.1
  · simp only [hm, if_false]
    exact ⟨h.nodup, l, hl, fun y hy _ => hm' y hy (by rintro rfl; exact hm hy)⟩

theorem discard_held (x : α) : M.Keeps Held (discard c u x) := fun _ h =>
  discard_held' hu ⟨h.nodup, let ⟨l, hl, hm⟩ := h.mem; ⟨l, hl, fun y hy _ => hm y hy trivial⟩⟩

omit [DecidableEq α] in
theorem baseClear_held : M.Keeps Held (baseClear c u) := by
  refine withPaused_held fun s h => ?_
  simp only [M.bind_eq, M.bind_app, M.get_app]
  by_cases hd : s.data = []
  · simp only [hd, if_true]; exact h
  · simp only [hd, if_false, M.bind_app, M.modify_app]
    obtain ⟨l, hl, _⟩ := h.mem
    exact emitChange_held hu _ _ _ ⟨by simp, l, hl, by simp⟩

theorem clear_held (k : Bool) : M.Keeps Held (clear c u k) := by
  cases k
  · exact (setCurrent_held none).seq fun _ => baseClear_held hu
  · exact baseClear_held hu

theorem update_held (o : List (List α)) : M.Keeps Held (update c u o) :=
  withPaused_held (.forEach _ fun x => add_held hu x)

theorem differenceUpdate_held (o : List (List α)) : M.Keeps Held (differenceUpdate c u o) :=
  withPaused_held (.forEach _ fun x => discard_held hu x)

theorem differenceUpdateSelf_held : M.Keeps Held (differenceUpdateSelf c u) := by
  refine withPaused_held (M.Keeps.get.seq fun s => ?_)
  rcases s.data with _ | ⟨x, l⟩
  · exact .pure' _
  · exact (discard_held hu x).seq fun _ => .raise _

theorem intersectionUpdate_held (o : List (List α)) : M.Keeps Held (intersectionUpdate c u o) := by
  refine withPaused_held ?_
  by_cases ho : o = []
  · simp only [ho, if_true]; exact .raise _
  · simp only [ho, if_false]
    exact M.Keeps.get.seq fun s => .forEach _ fun x => discard_held hu x

theorem toggleOne_held (x : α) : M.Keeps Held (toggleOne c u x) := by
  refine M.Keeps.get.seq fun s => ?_
  by_cases hm : x ∈ s.data
  · simp only [hm, if_true]; exact discard_held hu x
  · simp only [hm, if_false]; exact add_held hu x

theorem symmetricDifferenceUpdate_held (xs : List α) : M.Keeps Held (symmetricDifferenceUpdate c u xs) :=
  withPaused_held (.forEach _ fun x => toggleOne_held hu x)

theorem selectOnly_held (x : α) : M.Keeps Held (selectOnly c u x) :=
  (intersectionUpdate_held hu _).seq fun _ => add_held hu x

theorem setActive_held (v : Option α) : M.Keeps Held (setActive c u v) := by
  refine M.Keeps.get.seq fun s => ?_
  by_cases hv : v = s.active
  · simp only [hv, if_true]; exact .pure' _
  · simp only [hv, if_false]
    refine M.Keeps.seq (fun _ h => h.of rfl rfl) fun _ => ?_
    rcases v with _ | x
    · exact (clear_held hu false).seq fun _ => (setCurrent_held _).seq fun _ => emit_held _
    · exact (selectOnly_held hu x).seq fun _ => (setCurrent_held _).seq fun _ => emit_held _

end

theorem updateActive_held (n : Nat) : M.Keeps Held (updateActive c n) := by
  induction n with
  | zero => exact .raise _
  | succ n ih =>
    refine M.Keeps.get.seq fun s => ?_
    have h2 : M.Keeps Held (if s.active = none then pure () else do
        M.modify fun s => { s with active := none }
        emit c (.active none) : M (St α) Unit) := by
      by_cases ha : s.active = none
      · simp only [ha, if_true]; exact .pure' _
      · simp only [ha, if_false]
        exact M.Keeps.seq (fun _ h => h.of rfl rfl) fun _ => emit_held _
    rcases s.data with _ | ⟨x, _ | ⟨y, l⟩⟩
    · exact h2
    · exact setActive_held ih _
    · exact h2

theorem setStep_held (n : Nat) (op : ES.Op α) : M.Keeps Held (setStep c (updateActive c n) op) := by
  have hu := updateActive_held (c := c) n
  cases op with
  | add x => exact (add_held hu x).seq fun _ => .pure' _
  | discard x => exact (discard_held hu x).seq fun _ => .pure' _
  | remove x =>
    refine M.Keeps.get.seq fun s => ?_
    by_cases hm : x ∈ s.data
    · simp only [hm, if_true]; exact (discard_held hu x).seq fun _ => .pure' _
    · simp only [hm, if_false]; exact (M.Keeps.raise _).seq fun _ => .pure' _
  | pop =>
    refine M.Keeps.get.seq fun s => ?_
    rcases s.data with _ | ⟨x, l⟩
    · exact .raise _
    · exact (discard_held hu x).seq fun _ => .pure' _
  | clear | isubSelf | ixorSelf => exact (clear_held hu _).seq fun _ => .pure' _
  | update o => exact (update_held hu o).seq fun _ => .pure' _
  | differenceUpdate o => exact (differenceUpdate_held hu o).seq fun _ => .pure' _
  | differenceUpdateSelf | symmetricDifferenceUpdateSelf => exact (differenceUpdateSelf_held hu).seq fun _ => .pure' _
  | intersectionUpdate o => exact (intersectionUpdate_held hu o).seq fun _ => .pure' _
  | symmetricDifferenceUpdate xs => exact (symmetricDifferenceUpdate_held hu xs).seq fun _ => .pure' _
  | ior xs => exact (M.Keeps.forEach _ fun x => add_held hu x).seq fun _ => .pure' _
  | iand xs =>
    refine M.Keeps.get.seq fun s => ?_
    exact (M.Keeps.forEach _ fun x => discard_held hu x).seq fun _ => .pure' _
  | isub xs => exact (M.Keeps.forEach _ fun x => discard_held hu x).seq fun _ => .pure' _
  | ixor xs => exact (M.Keeps.forEach _ fun x => toggleOne_held hu x).seq fun _ => .pure' _
  | _ => exact fun _ h => h

theorem step_held (op : Op α) : M.Keeps Held (step c op) := by
  have hu := updateActive_held (c := c) c.depth
  cases op with
  | set op => exact setStep_held _ op
  | setActive v => exact (setActive_held hu v).seq fun _ => .pure' _
  | clear k => exact (clear_held hu k).seq fun _ => .pure' _
  | toggle x => exact (symmetricDifferenceUpdate_held hu _).seq fun _ => .pure' _
  | selectOnly x => exact (selectOnly_held hu x).seq fun _ => .pure' _

/-! ## The list -/

omit [DecidableEq α] in
theorem listCfg_quiet [DecidableEq α] : (listCfg : EL.Cfg α).Quiet := fun _ => rfl

instance [DecidableEq α] : (listCfg : EL.Cfg α).Passive := ⟨rfl, rfl⟩

omit [DecidableEq α] in
theorem list_eq {s : St α} {l : List α} (h : s.parent = some l) : s.list = l := by simp [St.list, h]

omit [DecidableEq α] in
/-- A method of the list that only permutes it. -/
theorem liftList_held {β : Type} {m : M (EL.St α) β} (hm : ∀ l : List α, (m { data := l }).2.data.Perm l) :
    M.Keeps Held (liftList m) := by
  intro s h
  obtain ⟨l, hl, hd⟩ := h.mem
  refine ⟨h.nodup, _, rfl, fun y hy _ => ?_⟩
  exact (hm s.list).mem_iff.2 (list_eq hl ▸ hd y hy trivial)

omit [DecidableEq α] in
theorem liftList_same {β : Type} {m : M (EL.St α) β} (hm : ∀ l : List α, (m { data := l }).2.data = l) {s : St α} {l : List α}
    (h : s.parent = some l) : (liftList m s).2 = s := by
  simp only [liftList, hm, list_eq h]
  rw [← h]

theorem index_same (x : α) (l : List α) : (EL.index listCfg x 0 none ({ data := l } : EL.St α)).2.data = l := rfl

theorem getKey_same (k : Key) (l : List α) : (EL.getKey listCfg k ({ data := l } : EL.St α)).2.data = l := by
  have hg : ∀ i, (EL.getItem (listCfg : EL.Cfg α) i ({ data := l } : EL.St α)).2.data = l := by
    intro i
    simp only [EL.getItem, M.bind_eq, M.bind_app, M.get_app, M.ofExcept_app]
    cases Py.getItem l i <;> rfl
  cases k with
  | int i | indexable i =>
    have := hg i
    simp only [EL.getKey, M.bind_eq, M.bind_app, M.get_app]
    rcases he : EL.getItem (listCfg : EL.Cfg α) i ({ data := l } : EL.St α) with ⟨_ | _, s'⟩ <;> (rw [he] at this; exact this)
  | slice k =>
    simp only [EL.getKey, M.bind_eq, M.bind_app, M.get_app, M.ofExcept_app]
    cases Py.getSlice l k <;> rfl
  | other => rfl

theorem lindex_held (x : α) : M.Keeps Held (lindex x) := liftList_held fun l => by rw [index_same]

theorem linsert_held (i : Int) (x : α) : M.Keeps Held (linsert c i x) := by
  intro s h
  simp only [linsert, M.bind_eq, M.bind_app, M.get_app, setList, M.modify_app]
  refine setActive_held (updateActive_held _) _ _ ⟨h.nodup, _, rfl, fun y hy _ => ?_⟩
  obtain ⟨l, hl, hd⟩ := h.mem
  refine (EL.insert_perm _ i x).mem_iff.2 ?_
  rw [list_eq hl]
  exact List.mem_cons_of_mem _ (hd y hy trivial)

theorem lappend_held (x : α) : M.Keeps Held (lappend c x) := fun s h => linsert_held _ x s h

omit [DecidableEq α] in
theorem pop_perm {l l' : List α} {i : Int} {x : α} (h : Py.pop l i = .ok (x, l')) : l.Perm (x :: l') := by
  cases hn : Py.normIndex l.length i with
  | none => rw [Py.pop_err hn] at h; cases h
  | some j =>
    rw [Py.pop_ok hn] at h
    have hj := Py.normIndex_lt hn
    simp only [Except.ok.injEq, Prod.mk.injEq] at h
    rw [← h.1, ← h.2]
    exact EL.eraseIdx_perm hj

theorem ldelOne_held (i : Int) : M.Keeps Held (ldelOne c i) := by
  intro s h
  simp only [ldelOne, M.bind_eq, M.bind_app, M.get_app, M.ofExcept_app]
  rcases hp : Py.pop s.list i with _ | ⟨x, l'⟩
  · exact h
  · simp only [setList, M.modify_app, wrapErr]
    have hh : HeldBut (· ≠ x) { s with parent := some l' } := by
      obtain ⟨l, hl, hd⟩ := h.mem
      refine ⟨h.nodup, l', rfl, fun y hy hyx => ?_⟩
      rw [list_eq hl] at hp
      exact (List.mem_cons.1 ((pop_perm hp).mem_iff.1 (hd y hy trivial))).resolve_left hyx
    have := discard_held' (c := c) (updateActive_held (c := c) c.depth) hh
    rcases hr : discard c (updateActive c c.depth) x { s with parent := some l' } with ⟨_ | _, s'⟩ <;> (rw [hr] at this; exact this)

theorem ldelItem_held (k : Key) : M.Keeps Held (ldelItem c k) :=
  M.Keeps.get.seq fun _ => (M.Keeps.ofExcept _).seq fun _ => .forEach _ fun i => ldelOne_held i

theorem lpop_held (k : Key) : M.Keeps Held (lpop c k) :=
  (liftList_held fun l => by rw [getKey_same]).seq fun _ => ldelItem_held k

theorem lremove_held (x : α) : M.Keeps Held (lremove c x) := (lindex_held x).seq fun _ => ldelItem_held _

theorem lclearLoop_held (n : Nat) : M.Keeps Held (lclearLoop c n) := by
  induction n with
  | zero => exact .pure' _
  | succ n ih =>
    intro s h
    have := lpop_held (c := c) (.int (-1)) s h
    simp only [lclearLoop]
    rcases hr : lpop c (.int (-1)) s with ⟨e | _, s'⟩
    · rw [hr] at this
      cases e <;> exact this
    · rw [hr] at this
      exact ih _ this

theorem selectNext_held (n : Int) (e w : Bool) : M.Keeps Held (selectNext c n e w) := by
  refine M.Keeps.get.seq fun s => ?_
  by_cases hl : s.list = []
  · simp only [hl, if_true]; exact .pure' _
  · simp only [hl, if_false]
    have tail : ∀ idx : Int, M.Keeps Held (do
        let x ← M.ofExcept (Py.getItem s.list idx)
        if e then do
          add c (updateActive c c.depth) x
          setCurrent c (some x)
        else setActive c (updateActive c c.depth) (some x)) := by
      refine fun idx => (M.Keeps.ofExcept _).seq fun x => ?_
      cases e
      · exact setActive_held (updateActive_held _) _
      · exact (add_held (updateActive_held _) x).seq fun _ => setCurrent_held _
    by_cases hd : s.data = []
    · simp only [hd, if_true]; exact tail _
    · simp only [hd, if_false]
      rcases s.current with _ | x
      · exact (M.Keeps.raise _).seq fun _ => tail _
      · exact (lindex_held x).seq fun _ => tail _

theorem removeLoop_held (xs : List α) : ∀ idx, M.Keeps Held (removeLoop c xs idx) := by
  induction xs with
  | nil => exact fun _ => .pure' _
  | cons x xs ih => exact fun _ => (lindex_held x).seq fun i => (lremove_held x).seq fun _ => ih i

theorem removeSelected_held : M.Keeps Held (removeSelected c) := by
  refine M.Keeps.get.seq fun s => (removeLoop_held _ _).seq fun idx => M.Keeps.get.seq fun s' => ?_
  by_cases hi : (s'.list.length : Int) > max 0 (idx - 1)
  · simp only [hi, if_true]
    exact (M.Keeps.ofExcept _).seq fun x => (add_held (updateActive_held _) x).seq fun _ => .pure' _
  · simp only [hi, if_false]
    exact .pure' _

theorem lstep_held {op : LOp α} (ho : ¬ op.Assigns) : M.Keeps Held (lstep c op) := by
  have hu := updateActive_held (c := c) c.depth
  cases op with
  | sel op => exact (step_held op).seq fun _ => .pure' _
  | assignSelection xs => exact (intersectionUpdate_held hu _).seq fun _ => update_held hu _
  | insert i x => exact linsert_held i x
  | append x => exact lappend_held x
  | extend xs => exact .forEach _ fun x => lappend_held x
  | delItem k => exact ldelItem_held k
  | pop k => exact lpop_held k
  | remove x => exact lremove_held x
  | clear => exact fun s h => lclearLoop_held _ s h
  | setItem i x => exact absurd trivial ho
  | setSlice k vs => exact absurd trivial ho
  | reverse b =>
    refine liftList_held fun l => ?_
    obtain ⟨s', h1, h2⟩ := EL.reverse_quiet (listCfg_quiet (α := α)) (s := { data := l }) (fun _ _ => rfl) b
    rw [h1]
    exact h2 ▸ List.reverse_perm l
  | move a b =>
    exact (liftList_held fun l => EL.move_perm a b _ (.refl _)).seq fun _ => .pure' _
  | moveMultiple ks d =>
    exact (liftList_held fun l => EL.moveMultiple_perm ks d _ (.refl _)).seq fun _ => .pure' _
  | selectAll => exact fun s h => update_held hu _ s h
  | deselectAll => exact clear_held hu _
  | selectNext n e w => exact selectNext_held n e w
  | removeSelected => exact removeSelected_held.seq fun _ => .pure' _

end Psygnal.Sel
