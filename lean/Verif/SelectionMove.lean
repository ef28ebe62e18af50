import Verif.SelectionListActive

/-!
# What the commands of `SelectableEventedList` do (lemmas for C78)
-/

namespace Psygnal.Sel
open Psygnal.Py (M Err Key Slice)

variable {α : Type} [DecidableEq α] {c : Cfg α} {T : Prop} {s0 : St α}

theorem indexLoop_idxOf (x : α) : ∀ (l : List α) (i : Int), EL.indexLoop listCfg x none l i =
    if x ∈ l then .ok (i + l.idxOf x) else .error .value := by
  intro l
  induction l with
  | nil => intro i; rfl
  | cons v vs ih =>
    intro i
    have e : EL.same (listCfg : EL.Cfg α) (EL.out listCfg v) x = decide (v = x) := by
      simp [EL.same, EL.out, listCfg]
    simp only [EL.indexLoop, Option.all_none, if_true, e]
    by_cases h : v = x
    · subst h
      simp
    · have h' : ¬ x = v := fun q => h q.symm
      rw [ih]
      simp only [decide_eq_true_eq, h, if_false, List.mem_cons, h', false_or, List.idxOf_cons]
      have hb : (v == x) = false := by simpa using h
      rw [hb]
      split
      · simp only [cond_false]
        congr 1
        omega
      · rfl

/-- `index` on the list. -/
theorem lindex_eq {s : St α} {l : List α} (h : s.parent = some l) (x : α) :
    lindex x s = (if x ∈ l then .ok (l.idxOf x : Int) else .error .value, s) := by
  have h2 : (lindex x s).2 = s := liftList_same (index_same x) h
  have h1 : (lindex x s).1 = if x ∈ l then .ok (l.idxOf x : Int) else .error .value := by
    simp only [lindex, liftList, EL.index, M.bind_eq, M.bind_app, M.get_app, list_eq h]
    simp [indexLoop_idxOf]
  rw [← h1]
  exact Prod.ext rfl h2

omit [DecidableEq α] in
/-- `l[i]` for a position in the list. -/
theorem getItem_at {l : List α} {j : Nat} (h : j < l.length) : Py.getItem l (j : Int) = .ok l[j] := by
  rw [Py.getItem_ok (Py.normIndex_nat h)]

omit [DecidableEq α] in
/-- `l[-1]`. -/
theorem getItem_last {l : List α} (h : 0 < l.length) : Py.getItem l (-1) = .ok (l[l.length - 1]'(by omega)) := by
  have : Py.normIndex l.length (-1) = some (l.length - 1) := by
    simp only [Py.normIndex]
    rw [if_pos (show (-1 : Int) < 0 by decide), if_pos (by omega)]
    congr 1
    omega
  rw [Py.getItem_ok this]

variable (hd : 0 < c.depth) (hq : c.Quiet)
include hd hq

/-- The setter of `active` with an item of the list. -/
theorem setActive_rl' {s : St α} (h : RL T s0 s) {x : α} (hx : x ∈ s.list) :
    ∃ s', setActive c (updateActive c c.depth) (some x) s = (.ok (), s') ∧ RL T s0 s' ∧ s'.parent = s.parent ∧ s'.data = [x] := by
  obtain ⟨n, hn⟩ : ∃ n, c.depth = n + 1 := ⟨c.depth - 1, by omega⟩
  obtain ⟨l, hl⟩ := h.list
  rw [list_eq hl] at hx
  have hp := (inParent_iff hl _).2 hx
  obtain ⟨s', r, h1, h2, h3, h4⟩ := setActive_to (n := n) hq h.rest (some x) fun y hy hf => by
    obtain rfl := Option.some.inj hy
    rw [hp] at hf
    cases hf
  obtain ⟨rfl, h5⟩ := h4 x rfl hp
  rw [hn, h1]
  exact ⟨s', rfl, h.of h2 h3, h3, h5⟩

/-- `add` with an item of the list. -/
theorem add_rl' {s : St α} (h : RL T s0 s) {x : α} (hx : x ∈ s.list) :
    ∃ s', add c (updateActive c c.depth) x s = (.ok (), s') ∧ RL T s0 s' ∧ s'.parent = s.parent ∧
      s'.data = if x ∈ s.data then s.data else s.data ++ [x] := by
  obtain ⟨n, hn⟩ : ∃ n, c.depth = n + 1 := ⟨c.depth - 1, by omega⟩
  obtain ⟨l, hl⟩ := h.list
  rw [list_eq hl] at hx
  obtain ⟨s', r, h1, h2, h3, _⟩ := add_to (n := n) hq h.rest.k (x := x) (by simp)
  obtain ⟨rfl, h5⟩ := h3 ((inParent_iff hl _).2 hx)
  rw [hn, h1]
  exact ⟨s', rfl, h.of (h2.rest h.rest.paused) h2.parent, h2.parent, h5⟩

omit hd in
theorem setCurrent_rl' {s : St α} (h : RL T s0 s) {x : α} (hx : x ∈ s.data) :
    ∃ s', setCurrent c (some x) s = (.ok (), s') ∧ RL T s0 s' ∧ s'.parent = s.parent ∧ s'.data = s.data ∧ s'.current = some x := by
  have h1 := setCurrent_rl hq h hx
  rw [setCurrent_quiet hq] at h1 ⊢
  by_cases hc : some x = s.current
  · rw [if_pos hc]
    rw [if_pos hc] at h1
    exact ⟨_, rfl, h1, rfl, rfl, hc.symm⟩
  · rw [if_neg hc]
    rw [if_neg hc] at h1
    exact ⟨_, rfl, h1, rfl, rfl, rfl⟩

/-- `remove` of an item of the list. -/
theorem lremove_rl' {s : St α} (h : RL T s0 s) {x : α} (hx : x ∈ s.list) :
    ∃ s', lremove c x s = (.ok (), s') ∧ RL T s0 s' ∧ s'.parent = some (s.list.erase x) ∧ s'.data = s.data.erase x := by
  obtain ⟨n, hn⟩ : ∃ n, c.depth = n + 1 := ⟨c.depth - 1, by omega⟩
  obtain ⟨l, hl⟩ := h.list
  rw [list_eq hl] at hx ⊢
  have hi : l.idxOf x < l.length := List.idxOf_lt_length_iff.2 hx
  have hpop : Py.pop l (l.idxOf x : Int) = .ok (x, l.erase x) := by
    rw [Py.pop_ok (Py.normIndex_nat hi), List.erase_eq_eraseIdx_of_idxOf rfl]
    simp
  have hm := h.mem
  rw [list_eq hl] at hm
  simp only [lremove, M.bind_eq, M.bind_app, lindex_eq hl, hx, if_true, ldelItem, M.get_app, EL.delIndices, M.ofExcept_app]
  rw [if_pos (by omega)]
  simp only [M.forEach, ldelOne, M.bind_eq, M.bind_app, M.get_app, M.ofExcept_app, list_eq hl, hpop, setList, M.modify_app, wrapErr]
  obtain ⟨⟨⟨⟨h1, h2, h3, h4, h5, h6, h7⟩, _, h9, h10⟩, h11⟩, _⟩ := h
  obtain ⟨s', g1, g2, g3, _⟩ := discard_to' (n := n) (T := T) (s0 := s0) (p := none) (A := []) (R := []) (x := x)
    (s := { s with parent := some (l.erase x) }) hq ⟨h1, h2, h3, h4, h5, h6, h7⟩ (fun y hy hyx => by
      refine (inParent_iff rfl y).2 ?_
      exact (List.mem_erase_of_ne hyx).2 (hm y hy)) h9 h10 (by simp)
  rw [hn, g1]
  exact ⟨s', rfl, ⟨g2.rest h11, _, g2.parent⟩, g2.parent, g3⟩

/-- The loop of `remove_selected`. -/
theorem removeLoop_eq : ∀ (xs : List α) {s : St α} (idx : Int), RL T s0 s → s.data = xs → 0 ≤ idx →
    ∃ s' i, removeLoop c xs idx s = (.ok i, s') ∧ RL T s0 s' ∧ s'.parent = some (xs.foldl List.erase s.list) ∧ s'.data = [] ∧
      0 ≤ i ∧ (xs = [] → i = idx) ∧ (xs ≠ [] → i ≤ (xs.foldl List.erase s.list).length) ∧
      ∀ ds z, xs = ds ++ [z] → i = (ds.foldl List.erase s.list).idxOf z := by
  intro xs
  induction xs with
  | nil =>
    intro s idx h hdx hi
    obtain ⟨l, hl⟩ := h.list
    exact ⟨s, idx, rfl, h, by rw [List.foldl_nil, list_eq hl, hl], hdx, hi, fun _ => rfl, fun q => absurd rfl q,
      fun ds z q => by cases ds <;> cases q⟩
  | cons x xs ih =>
    intro s idx h hdx hi
    obtain ⟨l, hl⟩ := h.list
    have hx : x ∈ s.list := h.mem x (by simp [hdx])
    obtain ⟨s1, g1, g2, g3, g4⟩ := lremove_rl' hd hq h hx
    have hn : 0 ≤ (l.idxOf x : Int) := by omega
    have hd1 : s1.data = xs := by rw [g4, hdx, List.erase_cons_head]
    obtain ⟨s2, i, k1, k2, k3, k4, k5, k6, k7, k8⟩ := ih (l.idxOf x : Int) g2 hd1 hn
    rw [list_eq g3] at k3 k7 k8
    have hx' : x ∈ l := list_eq hl ▸ hx
    refine ⟨s2, i, ?_, k2, ?_, k4, k5, (fun q => by cases q), fun _ => ?_, fun ds z q => ?_⟩
    · simp only [removeLoop, M.bind_eq, M.bind_app, lindex_eq hl, hx', if_true, g1, k1]
    · rw [k3, List.foldl_cons]
    · rw [List.foldl_cons]
      by_cases he : xs = []
      · rw [k6 he, he, List.foldl_nil, list_eq hl, List.length_erase_of_mem hx']
        have := List.idxOf_lt_length_iff.2 hx'
        omega
      · exact k7 he
    · cases ds with
      | nil =>
        simp only [List.nil_append, List.cons.injEq] at q
        rw [k6 q.2, q.1, List.foldl_nil, list_eq hl]
      | cons d ds =>
        simp only [List.cons_append, List.cons.injEq] at q
        rw [k8 ds z q.2, List.foldl_cons, q.1]

/-- The end of `select_next`. -/
theorem goTo_rl {s : St α} (h : RL T s0 s) {y : α} (hy : y ∈ s.list) (e : Bool) :
    ∃ s', (if e then (do
        add c (updateActive c c.depth) y
        setCurrent c (some y)) else setActive c (updateActive c c.depth) (some y) : M (St α) Unit) s = (.ok (), s') ∧
      RL T s0 s' ∧ s'.parent = s.parent ∧ s'.current = some y ∧
      s'.data = if e then (if y ∈ s.data then s.data else s.data ++ [y]) else [y] := by
  cases e
  · obtain ⟨s', h1, h2, h3, h4⟩ := setActive_rl' hd hq h hy
    refine ⟨s', h1, h2, h3, ?_, h4⟩
    exact (h2.rest.k.told.resolve_left (by simp [Pend])).2 y ((h2.rest.k.synced.resolve_left (by simp [Pend]) y).2 h4)
  · obtain ⟨s1, h1, h2, h3, h4⟩ := add_rl' hd hq h hy
    have hm : y ∈ s1.data := by
      rw [h4]
      split
      · assumption
      · simp
    obtain ⟨s2, g1, g2, g3, g4, g5⟩ := setCurrent_rl' hq h2 hm
    refine ⟨s2, ?_, g2, g3.trans h3, g5, g4.trans h4⟩
    simp only [if_true, M.bind_eq, M.bind_app, h1, g1]

/-- `select_next` from the current item. -/
theorem selectNext_from {s : St α} (h : RL T s0 s) {x : α} (hc : s.current = some x) (hx : x ∈ s.list) (hn : s.data ≠ [])
    {stp : Int} {e w : Bool} {j : Nat} (hj : j < s.list.length)
    (ht : if w then (j : Int) = (s.list.idxOf x + stp) % s.list.length
      else if (s.list.idxOf x : Int) + stp < 0 then j = 0
      else if (s.list.length : Int) ≤ s.list.idxOf x + stp then j = s.list.length - 1
      else (j : Int) = s.list.idxOf x + stp) :
    ∃ s', selectNext c stp e w s = (.ok (), s') ∧ RL T s0 s' ∧ s'.parent = s.parent ∧ s'.current = some s.list[j] ∧
      s'.data = if e then (if s.list[j] ∈ s.data then s.data else s.data ++ [s.list[j]]) else [s.list[j]] := by
  obtain ⟨l, hl⟩ := h.list
  have hll := list_eq hl
  obtain ⟨s', g1, g2⟩ := goTo_rl hd hq h (List.getElem_mem hj) e
  refine ⟨s', ?_, g2⟩
  have hlt : l.idxOf x < l.length := List.idxOf_lt_length_iff.2 (hll ▸ hx)
  rw [hll] at ht hx
  have hne : ¬ s.list = [] := by rw [hll]; rintro rfl; simp at hx
  rw [← g1]
  simp only [selectNext, M.bind_eq]
  rw [M.bind_app, M.get_app]
  simp only [hne, hn, if_false, hc]
  rw [M.bind_app, lindex_eq hl]
  simp only [hx, if_true, M.pure_eq]
  rw [M.bind_app, M.pure_app]
  simp only
  have key : Py.getItem s.list (if w = true then ((l.idxOf x : Int) + stp) % s.list.length
      else if s.list.length > (l.idxOf x : Int) + stp ∧ (l.idxOf x : Int) + stp ≥ 0 then (l.idxOf x : Int) + stp
      else if stp > 0 then -1 else 0) = .ok s.list[j] := by
    have hj' : j < l.length := by rw [hll] at hj; exact hj
    simp only [hll]
    cases w
    · simp only [Bool.false_eq_true, if_false] at ht ⊢
      by_cases h1 : (l.idxOf x : Int) + stp < 0
      · rw [if_pos h1] at ht
        rw [if_neg (by omega), if_neg (by omega)]
        subst ht
        exact getItem_at hj'
      · rw [if_neg h1] at ht
        by_cases h2 : (l.length : Int) ≤ l.idxOf x + stp
        · rw [if_pos h2] at ht
          rw [if_neg (by omega), if_pos (by omega)]
          subst ht
          exact getItem_last (by omega)
        · rw [if_neg h2] at ht
          rw [if_pos (by omega), ← ht]
          exact getItem_at hj'
    · simp only [if_true] at ht ⊢
      rw [← ht]
      exact getItem_at hj'
  rw [M.bind_app, M.ofExcept_app, key]

/-- `select_next` when nothing is selected. -/
theorem selectNext_none {s : St α} (h : RL T s0 s) (hl : s.list ≠ []) (hn : s.data = []) {stp : Int} {e w : Bool} {j : Nat}
    (hj : j < s.list.length) (ht : if stp > 0 then j = s.list.length - 1 else j = 0) :
    ∃ s', selectNext c stp e w s = (.ok (), s') ∧ RL T s0 s' ∧ s'.parent = s.parent ∧ s'.current = some s.list[j] ∧
      s'.data = [s.list[j]] := by
  obtain ⟨s', g1, g2, g3, g4, g5⟩ := goTo_rl hd hq h (List.getElem_mem hj) e
  refine ⟨s', ?_, g2, g3, g4, by rw [g5, hn]; cases e <;> simp⟩
  rw [← g1]
  simp only [selectNext, M.bind_eq]
  rw [M.bind_app, M.get_app]
  simp only [hl, hn, if_false, if_true, M.pure_eq]
  rw [M.bind_app, M.pure_app]
  simp only
  have key : Py.getItem s.list (if w = true then (if stp > 0 then (-1 : Int) else 0) % s.list.length
      else if s.list.length > (if stp > 0 then (-1 : Int) else 0) ∧ (if stp > 0 then (-1 : Int) else 0) ≥ 0
      then (if stp > 0 then (-1 : Int) else 0)
      else if stp > 0 then -1 else 0) = .ok s.list[j] := by
    by_cases hs : stp > 0
    · simp only [hs, if_true] at ht ⊢
      cases w
      · simp only [Bool.false_eq_true, if_false]
        rw [if_neg (by omega)]
        subst ht
        exact getItem_last (by omega)
      · simp only [if_true]
        have : (-1 : Int) % s.list.length = (j : Int) := by
          have h1 : (-1 : Int) = (j : Int) + s.list.length * (-1) := by omega
          rw [h1, Int.add_mul_emod_self_left]
          exact Int.emod_eq_of_lt (by omega) (by omega)
        rw [this]
        exact getItem_at hj
    · simp only [hs, if_false] at ht ⊢
      subst ht
      cases w
      · simp only [Bool.false_eq_true, if_false]
        rw [if_pos (by omega)]
        exact getItem_at hj
      · simp only [if_true, Int.zero_emod]
        exact getItem_at hj
  rw [M.bind_app, M.ofExcept_app, key]

omit hd in
/-- Adding items of the list, one by one. -/
theorem adds_data {n : Nat} {p : Option (Option α)} (xs : List α) : ∀ {s : St α} {A R : List α}, K T s0 p A R s →
    (T → ∀ x ∈ xs, x ∉ R) → (∀ x ∈ xs, s.inParent x = true) → ∃ s', M.forEach xs (add c (updateActive c (n + 1))) s = (.ok (), s') ∧
      (∀ y, y ∈ s'.data ↔ y ∈ s.data ∨ y ∈ xs) ∧ s.data <+: s'.data := by
  induction xs with
  | nil => exact fun {s} _ _ _ _ _ => ⟨s, rfl, by simp, List.prefix_refl _⟩
  | cons x xs ih =>
    intro s A R h hx hp
    obtain ⟨s1, r1, h1, ⟨⟨A1, R1, k1, hA1, hR1⟩, h3, h4⟩, h5, _⟩ := add_to (n := n) hq h (x := x) fun hT => hx hT x (by simp)
    obtain ⟨rfl, h6⟩ := h5 (hp x (by simp))
    obtain ⟨s2, g1, g2, g3⟩ := ih k1 (fun hT y hy hyR => by
        have := hR1 hT y hyR
        simp at this
        exact hx hT y (by simp [hy]) this) fun y hy => by
      have := hp y (by simp [hy])
      simpa [St.inParent, h4] using this
    refine ⟨s2, ?_, fun y => ?_, ?_⟩
    · simp only [M.forEach, M.bind_app, h1, g1]
    · rw [g2, h6]
      by_cases hm : x ∈ s.data
      · rw [if_pos hm]
        simp only [List.mem_cons]
        constructor
        · rintro (h | h)
          · exact .inl h
          · exact .inr (.inr h)
        · rintro (h | rfl | h)
          · exact .inl h
          · exact .inl hm
          · exact .inr h
      · rw [if_neg hm]
        simp [or_assoc]
    · refine List.IsPrefix.trans ?_ g3
      rw [h6]
      split
      · exact List.prefix_refl _
      · exact List.prefix_append _ _

/-- `select_all`. -/
theorem selectAll_rl {s : St α} (h : RL T s0 s) :
    ∃ s', update c (updateActive c c.depth) [s.list] s = (.ok (), s') ∧ RL T s0 s' ∧ s'.parent = s.parent ∧
      (∀ y, y ∈ s'.data ↔ y ∈ s.list) ∧ s.data <+: s'.data := by
  obtain ⟨n, hn⟩ : ∃ n, c.depth = n + 1 := ⟨c.depth - 1, by omega⟩
  obtain ⟨l, hl⟩ := h.list
  obtain ⟨s1, r, h1, h2⟩ := adds_to (n := n) hq [s.list].flatten h.rest.k.pause (by simp)
  obtain ⟨s1', g1, g2, g3⟩ := adds_data (n := n) hq [s.list].flatten h.rest.k.pause (by simp) fun x hx => by
    have : x ∈ l := by rw [← list_eq hl]; simpa using hx
    exact (inParent_iff hl x).2 this
  have he : (r, s1) = (.ok (), s1') := h1.symm.trans g1
  obtain ⟨rfl, rfl⟩ := Prod.mk.inj he
  obtain ⟨s', k1, k2, k3, k4, _⟩ := withPaused_to hq h.rest.paused h1 h2
  refine ⟨s', by rw [hn]; exact k1, h.of k2 k3, k3, fun y => ?_, by rw [k4]; exact g3⟩
  rw [k4, g2]
  simp only [List.flatten_cons, List.flatten_nil, List.append_nil]
  exact ⟨fun q => q.elim (h.mem y) id, .inr⟩

/-- `remove_selected`. -/
theorem removeSelected_rl' {s : St α} (h : RL T s0 s) :
    ∃ s', removeSelected c s = (.ok s.data, s') ∧ RL T s0 s' ∧ s'.list = s.data.foldl List.erase s.list ∧
      (s'.list = [] → s'.data = []) ∧ ∃ i : Nat, (s'.list ≠ [] → ∃ hi : i - 1 < s'.list.length, s'.data = [s'.list[i - 1]]) ∧
      (s.data = [] → i = 0) ∧ ∀ ds z, s.data = ds ++ [z] → i = (ds.foldl List.erase s.list).idxOf z := by
  obtain ⟨s1, i, h1, h2, h3, h4, h5, h6, h7, h8⟩ := removeLoop_eq hd hq s.data 0 h rfl (by omega)
  simp only [removeSelected, M.bind_eq]
  rw [M.bind_app, M.get_app]
  simp only
  rw [M.bind_app, h1]
  simp only
  rw [M.bind_app, M.get_app]
  simp only
  have hl1 := list_eq h3
  have h8' : ∀ ds z, s.data = ds ++ [z] → i.toNat = (ds.foldl List.erase s.list).idxOf z := fun ds z q => by
    have := h8 ds z q
    omega
  have h6' : s.data = [] → i.toNat = 0 := fun q => by rw [h6 q]; rfl
  by_cases hi : (s1.list.length : Int) > max 0 (i - 1)
  · rw [if_pos hi]
    have hm : (max 0 (i - 1)) = ((i.toNat - 1 : Nat) : Int) := by omega
    rw [hm] at hi ⊢
    have hj : i.toNat - 1 < s1.list.length := by omega
    have hg := getItem_at hj
    obtain ⟨s2, g1, g2, g3, g4⟩ := add_rl' hd hq h2 (List.getElem_mem hj)
    have hl2 : s2.list = s1.list := by rw [list_eq (g3.trans h3), hl1]
    refine ⟨s2, ?_, g2, hl2.trans hl1, fun q => ?_, i.toNat, fun _ => ⟨hl2 ▸ hj, ?_⟩, h6', h8'⟩
    · rw [M.bind_app, M.ofExcept_app, hg]
      simp only
      rw [M.bind_app, g1]
      rfl
    · rw [← hl2, q] at hj
      simp at hj
    · rw [g4, h4]
      simp [hl2]
  · rw [if_neg hi]
    refine ⟨s1, rfl, h2, hl1, fun _ => h4, i.toNat, fun q => ?_, h6', h8'⟩
    exfalso
    have hlen : 0 < s1.list.length := List.length_pos_iff.2 q
    rw [← hl1] at h7
    by_cases he : s.data = []
    · have := h6 he
      omega
    · have := h7 he
      omega

omit hd hq in
/-- `clear` of a set does not make an item current. -/
theorem baseClear_current {n : Nat} {t : St α} (ht : t.current = none) :
    (baseClear c (updateActive c (n + 1)) t).2.current = none := by
  let P : St α → Prop := fun s => s.current = none
  let Q : St α → Prop := fun s => s.current = none ∧ s.data = []
  have hr : M.Keeps P (resume c) := by
    intro s h
    simp only [resume]
    split
    · exact h
    · simp only [emit]
      split
      · rename_i heq
        obtain ⟨_, rfl⟩ := Prod.mk.inj heq
        exact h
      · rename_i heq
        obtain ⟨_, rfl⟩ := Prod.mk.inj heq
        exact h
  have hi : ∀ a r, M.Keeps Q (emitItems c a r) := by
    intro a r s h
    simp only [emitItems]
    split
    · exact h
    · exact h
  have hu : M.Keeps Q (updateActive c (n + 1)) := by
    intro s h
    simp only [updateActive, M.bind_eq, M.bind_app, M.get_app, h.2]
    split
    · exact h
    · exact h
  have hm : M.Keeps P (do
      let s ← M.get
      if s.data = [] then pure () else do
        M.modify fun s => { s with data := [] }
        emitChange c (updateActive c (n + 1)) [] s.data : M (St α) Unit) := by
    intro s h
    simp only [M.bind_eq]
    rw [M.bind_app, M.get_app]
    simp only
    split
    · exact h
    · rw [M.bind_app, M.modify_app]
      exact ((hi [] s.data).seq (fun _ => hu) { s with data := [] } ⟨h, rfl⟩).1
  have h1 := hm { t with paused := true } ht
  have h2 := hr _ h1
  simp only [baseClear, withPaused]
  split
  · exact h1
  · split
    · rename_i heq2
      rw [heq2] at h2
      exact h2
    · rename_i heq2
      rw [heq2] at h2
      exact h2

/-- `deselect_all`. -/
theorem deselect_rl {s : St α} (h : RL T s0 s) :
    ∃ s', clear c (updateActive c c.depth) false s = (.ok (), s') ∧ RL T s0 s' ∧ s'.parent = s.parent ∧ s'.data = [] ∧
      s'.current = none := by
  obtain ⟨n, hn⟩ : ∃ n, c.depth = n + 1 := ⟨c.depth - 1, by omega⟩
  obtain ⟨s', h1, h2, h3, h4, _⟩ := clear_to (n := n) hq h.rest false
  rw [hn]
  refine ⟨s', h1, h.of h2 h3, h3, h4, ?_⟩
  have e : s' = (clear c (updateActive c (n + 1)) false s).2 := by rw [h1]
  rw [e]
  have hs : (setCurrent c none s).2.current = none := by
    rw [setCurrent_quiet hq]
    split
    · rename_i hc
      exact hc.symm
    · rfl
  have e2 : (clear c (updateActive c (n + 1)) false s).2 = (baseClear c (updateActive c (n + 1)) (setCurrent c none s).2).2 := by
    simp only [clear, Bool.false_eq_true, if_false, M.bind_eq, M.bind_app, setCurrent_quiet hq]
  rw [e2]
  generalize (setCurrent c none s).2 = t at hs
  exact baseClear_current hs

/-- `insert`. -/
theorem linsert_rl' {s : St α} (h : RL T s0 s) (i : Int) (x : α) :
    ∃ s', linsert c i x s = (.ok (), s') ∧ RL T s0 s' ∧ s'.parent = some (Py.insert s.list i x) ∧ s'.data = [x] := by
  simp only [linsert, M.bind_eq, M.bind_app, M.get_app, setList, M.modify_app]
  have hp := EL.insert_perm s.list i x
  exact setActive_rl' hd hq (h.reparent fun y hy => hp.mem_iff.2 (List.mem_cons_of_mem _ (h.mem y hy))) (by
    rw [list_eq rfl]
    exact hp.mem_iff.2 (by simp))

/-- `pop()` of a list that is not empty. -/
theorem lpop_rl' {s : St α} (h : RL T s0 s) (hl : s.list ≠ []) :
    ∃ s', lpop c (.int (-1)) s = (.ok (), s') ∧ RL T s0 s' ∧ s'.list.length + 1 = s.list.length := by
  obtain ⟨n, hn⟩ : ∃ n, c.depth = n + 1 := ⟨c.depth - 1, by omega⟩
  have hrl := lpop_rl hd hq (.int (-1)) s h
  obtain ⟨l, hpl⟩ := h.list
  have hll := list_eq hpl
  rw [hll] at hl
  have hlen : 0 < l.length := List.length_pos_iff.2 hl
  have hm := h.mem
  rw [hll] at hm
  have hget : liftList (EL.getKey listCfg (.int (-1))) s = (.ok (true, [l[l.length - 1]'(by omega)]), s) := by
    have h2 : (liftList (EL.getKey listCfg (.int (-1))) s).2 = s := liftList_same (getKey_same _) hpl
    have h1 : (liftList (EL.getKey listCfg (.int (-1))) s).1 = .ok (true, [l[l.length - 1]'(by omega)]) := by
      simp only [liftList, EL.getKey, M.bind_eq, M.bind_app, M.get_app, EL.getItem, hll, M.ofExcept_app, getItem_last hlen]
      rfl
    rw [← h1]
    exact Prod.ext rfl h2
  have hpop : Py.pop l (((-1 : Int)) + l.length) = .ok (l[l.length - 1]'(by omega), l.eraseIdx (l.length - 1)) := by
    have : ((-1 : Int) + l.length) = ((l.length - 1 : Nat) : Int) := by omega
    rw [this, Py.pop_ok (Py.normIndex_nat (by omega))]
  have hex : ∃ s', lpop c (.int (-1)) s = (.ok (), s') ∧ s'.parent = some (l.eraseIdx (l.length - 1)) := by
    simp only [lpop, M.bind_eq]
    rw [M.bind_app, hget]
    simp only [ldelItem, M.bind_eq, M.bind_app, M.get_app, EL.delIndices, M.ofExcept_app]
    rw [if_neg (by omega)]
    simp only [M.forEach, ldelOne, M.bind_eq, M.bind_app, M.get_app, M.ofExcept_app, hll, hpop, setList, M.modify_app, wrapErr]
    obtain ⟨⟨⟨⟨h1, h2, h3, h4, h5, h6, h7⟩, _, h9, h10⟩, h11⟩, _⟩ := h
    obtain ⟨s', g1, g2, g3, _⟩ := discard_to' (n := n) (T := T) (s0 := s0) (p := none) (A := []) (R := [])
      (x := l[l.length - 1]'(by omega))
      (s := { s with parent := some (l.eraseIdx (l.length - 1)) }) hq ⟨h1, h2, h3, h4, h5, h6, h7⟩ (fun y hy hyx => by
        refine (inParent_iff rfl y).2 ?_
        exact (List.mem_cons.1 ((pop_perm hpop).mem_iff.1 (hm y hy))).resolve_left hyx) h9 h10 (by simp)
    rw [hn, g1]
    exact ⟨s', rfl, g2.parent⟩
  obtain ⟨s', h1, h2⟩ := hex
  rw [h1] at hrl
  refine ⟨s', h1, hrl, ?_⟩
  rw [list_eq h2, hll, List.length_eraseIdx_of_lt (by omega)]
  omega

/-- `clear()`. -/
theorem lclearLoop_rl' : ∀ (k : Nat) {s : St α}, RL T s0 s → s.list.length < k →
    ∃ s', lclearLoop c k s = (.ok (), s') ∧ RL T s0 s' ∧ s'.list = [] := by
  intro k
  induction k with
  | zero => intro s h hk; omega
  | succ k ih =>
    intro s h hk
    by_cases hl : s.list = []
    · obtain ⟨l, hpl⟩ := h.list
      refine ⟨s, ?_, h, hl⟩
      have hll := list_eq hpl
      rw [hl] at hll
      subst hll
      have : lpop c (.int (-1)) s = (.error .index, s) := by
        have h2 : (liftList (EL.getKey listCfg (.int (-1))) s).2 = s := liftList_same (getKey_same _) hpl
        have h1 : (liftList (EL.getKey listCfg (.int (-1))) s).1 = .error .index := by
          simp only [liftList, hl]
          rfl
        have he : liftList (EL.getKey listCfg (.int (-1))) s = (.error .index, s) := by
          rw [← h1]
          exact Prod.ext rfl h2
        simp only [lpop, M.bind_eq]
        rw [M.bind_app, he]
      simp only [lclearLoop, this]
    · obtain ⟨s1, g1, g2, g3⟩ := lpop_rl' hd hq h hl
      simp only [lclearLoop, g1]
      exact ih g2 (by omega)

end Psygnal.Sel
