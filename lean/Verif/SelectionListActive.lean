import Verif.SelectionList

/-!
# Lists with a selection: the active item (lemmas for C33)
-/

namespace Psygnal.Sel
open Psygnal.Py (M Err Key Slice)

variable {α : Type} [DecidableEq α] {c : Cfg α} {T : Prop} {s0 : St α}

/-- The invariant of a list with a selection. -/
structure RL (T : Prop) (s0 : St α) (s : St α) : Prop where
  rest : Rest T s0 none s
  list : ∃ l, s.parent = some l

theorem RL.of {s s' : St α} (h : RL T s0 s) (h' : Rest T s0 none s') (hp : s'.parent = s.parent) : RL T s0 s' :=
  ⟨h', hp ▸ h.list⟩

theorem inParent_iff {s : St α} {l : List α} (h : s.parent = some l) (x : α) : s.inParent x = true ↔ x ∈ l := by
  simp [St.inParent, h]

/-- The list is changed, the selected items stay. -/
theorem RL.reparent {s : St α} (h : RL T s0 s) {l : List α} (hl : ∀ x ∈ s.data, x ∈ l) : RL T s0 { s with parent := some l } := by
  obtain ⟨⟨⟨⟨h1, h2, h3, h4, h5, h6, h7⟩, _, h9, h10⟩, h11⟩, _⟩ := h
  exact ⟨⟨⟨⟨h1, h2, h3, h4, h5, h6, h7⟩, fun x hx => (inParent_iff rfl x).2 (hl x hx), h9, h10⟩, h11⟩, l, rfl⟩

theorem RL.mem {s : St α} (h : RL T s0 s) : ∀ x ∈ s.data, x ∈ s.list := by
  intro x hx
  obtain ⟨l, hl⟩ := h.list
  rw [list_eq hl]
  exact (inParent_iff hl x).1 (h.rest.k.par x hx)

theorem liftList_rl {β : Type} {m : M (EL.St α) β} (hm : ∀ l : List α, (m { data := l }).2.data.Perm l) :
    M.Keeps (RL T s0) (liftList m) := by
  intro s h
  exact h.reparent fun x hx => (hm s.list).mem_iff.2 (h.mem x hx)

variable (hd : 0 < c.depth) (hq : c.Quiet)
include hd hq

theorem add_rl (x : α) : M.Keeps (RL T s0) (add c (updateActive c c.depth) x) := by
  intro s h
  obtain ⟨n, hn⟩ : ∃ n, c.depth = n + 1 := ⟨c.depth - 1, by omega⟩
  obtain ⟨s', r, h1, h2, _⟩ := add_to (n := n) hq h.rest.k (x := x) (by simp)
  rw [hn, h1]
  exact h.of (h2.rest h.rest.paused) h2.parent

theorem setActive_rl {s : St α} (h : RL T s0 s) {x : α} (hx : x ∈ s.list) :
    RL T s0 (setActive c (updateActive c c.depth) (some x) s).2 := by
  obtain ⟨n, hn⟩ : ∃ n, c.depth = n + 1 := ⟨c.depth - 1, by omega⟩
  obtain ⟨l, hl⟩ := h.list
  rw [list_eq hl] at hx
  obtain ⟨s', r, h1, h2, h3, _⟩ := setActive_to (n := n) hq h.rest (some x) fun y hy hf => by
    obtain rfl := Option.some.inj hy
    rw [(inParent_iff hl _).2 hx] at hf
    cases hf
  rw [hn, h1]
  exact h.of h2 h3

theorem linsert_rl (i : Int) (x : α) : M.Keeps (RL T s0) (linsert c i x) := by
  intro s h
  simp only [linsert, M.bind_eq, M.bind_app, M.get_app, setList, M.modify_app]
  have hp := EL.insert_perm s.list i x
  refine setActive_rl hd hq (h.reparent fun y hy => hp.mem_iff.2 (List.mem_cons_of_mem _ (h.mem y hy))) ?_
  rw [list_eq rfl]
  exact hp.mem_iff.2 (by simp)

theorem lappend_rl (x : α) : M.Keeps (RL T s0) (lappend c x) := fun s h => linsert_rl hd hq _ x s h

theorem ldelOne_rl (i : Int) : M.Keeps (RL T s0) (ldelOne c i) := by
  intro s h
  obtain ⟨n, hn⟩ : ∃ n, c.depth = n + 1 := ⟨c.depth - 1, by omega⟩
  simp only [ldelOne, M.bind_eq, M.bind_app, M.get_app, M.ofExcept_app]
  rcases hp : Py.pop s.list i with _ | ⟨x, l'⟩
  · exact h
  · simp only [setList, M.modify_app, wrapErr]
    have hm := h.mem
    obtain ⟨⟨⟨⟨h1, h2, h3, h4, h5, h6, h7⟩, _, h9, h10⟩, h11⟩, _⟩ := h
    obtain ⟨s', g1, g2, _⟩ := discard_to' (n := n) (T := T) (s0 := s0) (p := none) (A := []) (R := []) (x := x)
      (s := { s with parent := some l' }) hq ⟨h1, h2, h3, h4, h5, h6, h7⟩ (fun y hy hyx => by
        refine (inParent_iff rfl y).2 ?_
        exact (List.mem_cons.1 ((pop_perm hp).mem_iff.1 (hm y hy))).resolve_left hyx) h9 h10 (by simp)
    rw [hn, g1]
    exact ⟨g2.rest h11, l', g2.parent⟩

theorem ldelItem_rl (k : Key) : M.Keeps (RL T s0) (ldelItem c k) :=
  M.Keeps.get.seq fun _ => (M.Keeps.ofExcept _).seq fun _ => .forEach _ fun i => ldelOne_rl hd hq i

theorem lpop_rl (k : Key) : M.Keeps (RL T s0) (lpop c k) :=
  (liftList_rl fun l => by rw [getKey_same]).seq fun _ => ldelItem_rl hd hq k

omit hd hq in
theorem lindex_rl (x : α) : M.Keeps (RL T s0) (lindex x) := liftList_rl fun l => by rw [index_same]

theorem lremove_rl (x : α) : M.Keeps (RL T s0) (lremove c x) := (lindex_rl x).seq fun _ => ldelItem_rl hd hq _

theorem lclearLoop_rl (n : Nat) : M.Keeps (RL T s0) (lclearLoop c n) := by
  induction n with
  | zero => exact .pure' _
  | succ n ih =>
    intro s h
    have := lpop_rl hd hq (.int (-1)) s h
    simp only [lclearLoop]
    rcases hr : lpop c (.int (-1)) s with ⟨e | _, s'⟩
    · rw [hr] at this
      cases e <;> exact this
    · rw [hr] at this
      exact ih _ this

omit hd in
/-- Making a selected item current. -/
theorem setCurrent_rl {s : St α} (h : RL T s0 s) {x : α} (hx : x ∈ s.data) : RL T s0 (setCurrent c (some x) s).2 := by
  rw [setCurrent_quiet hq]
  by_cases hc : some x = s.current
  · rw [if_pos hc]; exact h
  · rw [if_neg hc]
    obtain ⟨⟨⟨hw, h8, h9, h10⟩, h11⟩, h12⟩ := h
    have hs : Synced s := h10.resolve_left (by simp [Pend])
    refine ⟨⟨⟨hw.other rfl rfl rfl ?_ ?_, h8, .inr ⟨?_, ?_⟩, .inr hs⟩, h11⟩, h12⟩
    · simp [itemsOf_append, itemsOf_current]
    · rw [lastCurrent_snoc]
    · rw [lastActive_snoc]; exact (h9.resolve_left (by simp [Pend])).1
    · intro z hz
      have := (hs z).1 hz
      rw [this] at hx
      rw [List.mem_singleton.1 hx]

theorem selectNext_rl (stp : Int) (e w : Bool) : M.Keeps (RL T s0) (selectNext c stp e w) := by
  intro s h
  have tail : ∀ (idx : Int), RL T s0 ((do
      let x ← M.ofExcept (Py.getItem s.list idx)
      if e then do
        add c (updateActive c c.depth) x
        setCurrent c (some x)
      else setActive c (updateActive c c.depth) (some x) : M (St α) Unit) s).2 := by
    intro idx
    simp only [M.bind_eq, M.bind_app, M.ofExcept_app]
    rcases hg : Py.getItem s.list idx with _ | x
    · exact h
    · have hx : x ∈ s.list := by
        cases hn : Py.normIndex s.list.length idx with
        | none => rw [Py.getItem_err hn] at hg; cases hg
        | some j =>
          rw [Py.getItem_ok hn] at hg
          rw [← Except.ok.inj hg]
          exact List.getElem_mem _
      cases e
      · exact setActive_rl hd hq h hx
      · simp only [if_true, M.bind_app]
        obtain ⟨n, hn⟩ : ∃ n, c.depth = n + 1 := ⟨c.depth - 1, by omega⟩
        obtain ⟨s', r, h1, h2, h3, _⟩ := add_to (n := n) hq h.rest.k (x := x) (by simp)
        obtain ⟨l, hl⟩ := h.list
        obtain ⟨rfl, hda⟩ := h3 ((inParent_iff hl x).2 (list_eq hl ▸ hx))
        rw [hn, h1]
        refine setCurrent_rl hq (h.of (h2.rest h.rest.paused) h2.parent) ?_
        rw [hda]
        split
        · assumption
        · simp
  simp only [selectNext, M.bind_eq]
  rw [M.bind_app, M.get_app]
  simp only
  by_cases hl : s.list = []
  · simp only [hl, if_true]; exact h
  · simp only [hl, if_false]
    by_cases hda : s.data = []
    · simp only [hda, if_true]; exact tail _
    · simp only [hda, if_false]
      rcases s.current with _ | x
      · exact h
      · simp only
        rw [M.bind_app]
        obtain ⟨l, hl⟩ := h.list
        have e1 : (lindex x s).2 = s := liftList_same (index_same x) hl
        rcases hr : lindex x s with ⟨_ | i, s'⟩
        · rw [hr] at e1
          simp only at e1
          rw [e1]
          exact h
        · rw [hr] at e1
          simp only at e1
          rw [e1]
          exact tail _

theorem removeLoop_rl (xs : List α) : ∀ idx, M.Keeps (RL T s0) (removeLoop c xs idx) := by
  induction xs with
  | nil => exact fun _ => .pure' _
  | cons x xs ih => exact fun _ => (lindex_rl x).seq fun i => (lremove_rl hd hq x).seq fun _ => ih i

theorem removeSelected_rl : M.Keeps (RL T s0) (removeSelected c) := by
  refine M.Keeps.get.seq fun s => (removeLoop_rl hd hq _ _).seq fun idx => M.Keeps.get.seq fun s' => ?_
  by_cases hi : (s'.list.length : Int) > max 0 (idx - 1)
  · simp only [hi, if_true]
    exact (M.Keeps.ofExcept _).seq fun x => (add_rl hd hq x).seq fun _ => .pure' _
  · simp only [hi, if_false]
    exact .pure' _

theorem update_rl (o : List (List α)) : M.Keeps (RL T s0) (update c (updateActive c c.depth) o) := by
  intro s h
  obtain ⟨n, hn⟩ : ∃ n, c.depth = n + 1 := ⟨c.depth - 1, by omega⟩
  obtain ⟨s', r, h1, h2, h3⟩ := update_to (n := n) hq h.rest o
  rw [hn, h1]
  exact h.of h2 h3

theorem lstep_rl {op : LOp α} (hpl : T → op.Plain) (ho : ¬ op.Assigns) {s : St α} (hb : ¬ op.Bad s) (h : RL T s0 s) :
    RL T s0 (lstep c op s).2 := by
  obtain ⟨n, hn⟩ : ∃ n, c.depth = n + 1 := ⟨c.depth - 1, by omega⟩
  cases op with
  | sel op =>
    have := step_to hd hq h.rest op hpl fun hf => hb ⟨op, rfl, hf⟩
    simp only [lstep, M.bind_eq, M.bind_app]
    rcases hr : step c op s with ⟨_ | _, s'⟩ <;> (rw [hr] at this; exact h.of this.1 this.2)
  | assignSelection xs =>
    refine M.Keeps.seq (P := RL T s0) (fun s h => ?_) (fun _ => update_rl hd hq _) s h
    obtain ⟨s', r, h1, h2, h3, _⟩ := intersectionUpdate_to (n := n) hq h.rest [xs]
    rw [hn, h1]
    exact h.of h2 h3
  | insert i x => exact linsert_rl hd hq i x s h
  | append x => exact lappend_rl hd hq x s h
  | extend xs => exact M.Keeps.forEach _ (fun x => lappend_rl hd hq x) s h
  | delItem k => exact ldelItem_rl hd hq k s h
  | pop k => exact lpop_rl hd hq k s h
  | remove x => exact lremove_rl hd hq x s h
  | clear => exact lclearLoop_rl hd hq _ s h
  | setItem i x => exact absurd trivial ho
  | setSlice k vs => exact absurd trivial ho
  | reverse b =>
    refine liftList_rl (fun l => ?_) s h
    obtain ⟨s', h1, h2⟩ := EL.reverse_quiet (listCfg_quiet (α := α)) (s := { data := l }) (fun _ _ => rfl) b
    rw [h1]
    exact h2 ▸ List.reverse_perm l
  | move a b => exact (M.Keeps.seq (P := RL T s0) (liftList_rl fun l => EL.move_perm a b _ (.refl _)) fun _ => .pure' _) s h
  | moveMultiple ks d => exact (M.Keeps.seq (P := RL T s0) (liftList_rl fun l => EL.moveMultiple_perm ks d _ (.refl _)) fun _ => .pure' _) s h
  | selectAll => exact update_rl hd hq _ s h
  | deselectAll =>
    obtain ⟨s', h1, h2, h3, _⟩ := clear_to (n := n) hq h.rest false
    simp only [lstep]
    rw [hn, h1]
    exact h.of h2 h3
  | selectNext n e w => exact selectNext_rl hd hq n e w s h
  | removeSelected => exact (M.Keeps.seq (P := RL T s0) (removeSelected_rl hd hq) fun _ => .pure' _) s h

end Psygnal.Sel
