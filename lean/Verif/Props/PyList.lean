import Verif.EventedListLemmas

/-!
# C27: the reference

C27 compares `EventedList` with built-in lists as `Py.lean` describes them.  Here that description is compared with what the
documentation of Python says about indices and slices.
-/

namespace Psygnal.Py

variable {α : Type}

/-- A negative index or bound counts from the end. -/
def fromEnd (n : Nat) (b : Int) : Int := if b < 0 then b + n else b

theorem mem_range_up {a b c : Int} (hc : 0 < c) (j : Int) : j ∈ range a b c ↔ (∃ m : Nat, j = a + m * c) ∧ j < b := by
  simp only [range, List.mem_map, List.mem_range, rangeLen, hc, if_true]
  constructor
  · rintro ⟨m, hm, rfl⟩
    refine ⟨⟨m, rfl⟩, ?_⟩
    split at hm
    · have h1 : (m : Int) ≤ (b - a - 1) / c := by
        have := Int.ediv_nonneg (a := b - a - 1) (b := c) (by omega) (by omega)
        omega
      have := (Int.le_ediv_iff_mul_le hc).1 h1
      omega
    · omega
  · rintro ⟨⟨m, rfl⟩, hb⟩
    refine ⟨m, ?_, rfl⟩
    have hmc : (0 : Int) ≤ m * c := Int.mul_nonneg (by omega) (by omega)
    rw [if_pos (by omega)]
    have h1 : (m : Int) ≤ (b - a - 1) / c := (Int.le_ediv_iff_mul_le hc).2 (by omega)
    omega

theorem mem_range_down {a b c : Int} (hc : c < 0) (j : Int) : j ∈ range a b c ↔ (∃ m : Nat, j = a + m * c) ∧ b < j := by
  simp only [range, List.mem_map, List.mem_range, rangeLen, if_neg (show ¬ 0 < c by omega), hc, if_true]
  constructor
  · rintro ⟨m, hm, rfl⟩
    refine ⟨⟨m, rfl⟩, ?_⟩
    split at hm
    · have h1 : (m : Int) ≤ (a - b - 1) / (-c) := by
        have := Int.ediv_nonneg (a := a - b - 1) (b := -c) (by omega) (by omega)
        omega
      have := (Int.le_ediv_iff_mul_le (show 0 < -c by omega)).1 h1
      rw [Int.mul_neg] at this
      omega
    · omega
  · rintro ⟨⟨m, rfl⟩, hb⟩
    refine ⟨m, ?_, rfl⟩
    have hmc : (0 : Int) ≤ m * (-c) := Int.mul_nonneg (by omega) (by omega)
    rw [Int.mul_neg] at hmc
    rw [if_pos (by omega)]
    have h1 : (m : Int) ≤ (a - b - 1) / (-c) :=
      (Int.le_ediv_iff_mul_le (show 0 < -c by omega)).2 (by rw [Int.mul_neg]; omega)
    omega

theorem range_sorted (a b c : Int) : (0 < c → (range a b c).Pairwise (· < ·)) ∧ (c < 0 → (range a b c).Pairwise (· > ·)) := by
  simp only [range, List.pairwise_map]
  constructor
  · intro hc
    refine List.pairwise_lt_range.imp fun {x y} h => ?_
    have : (x : Int) * c < y * c := Int.mul_lt_mul_of_pos_right (by omega) hc
    omega
  · intro hc
    refine List.pairwise_lt_range.imp fun {x y} h => ?_
    have : (y : Int) * c < x * c := Int.mul_lt_mul_of_neg_right (by omega) hc
    show _ < _
    omega

/-- A slice with a positive step selects, from left to right, the positions of the list that are a number of steps from its start
(the beginning, if absent or before the beginning) and before its stop. -/
theorem C27_ref_forward (k : Slice) (n : Nat) (hs : 0 < k.step.getD 1) :
    ∃ idx, sliceIdx k n = .ok idx ∧ idx.Pairwise (· < ·) ∧ ∀ j : Int, j ∈ idx ↔ 0 ≤ j ∧ j < n ∧
      (∃ m : Nat, j = max 0 (fromEnd n (k.start.getD 0)) + m * k.step.getD 1) ∧ ∀ b, k.stop = some b → j < fromEnd n b := by
  obtain ⟨start, stop, step⟩ := k
  simp only [sliceIdx, sliceIndices] at hs ⊢
  generalize step.getD 1 = st at hs ⊢
  rw [if_neg (by omega)]
  simp only [if_neg (show ¬ st < 0 by omega)]
  refine ⟨_, rfl, (range_sorted _ _ _).1 hs, fun j => ?_⟩
  rw [mem_range_up hs]
  have hb : ∀ a : Int, 0 ≤ a → (j < sliceBound n 0 n n stop ↔ j < n ∧ ∀ b, stop = some b → j < fromEnd n b) ∨ j < a := by
    intro a ha
    by_cases hja : j < a
    · exact .inr hja
    · refine .inl ?_
      cases stop with
      | none => simp [sliceBound]
      | some b =>
        simp only [sliceBound, fromEnd, Option.some.injEq, forall_eq']
        split <;> omega
  have ha : 0 ≤ sliceBound n 0 n 0 start := by
    cases start with
    | none => simp [sliceBound]
    | some b => simp only [sliceBound]; split <;> omega
  have hab : sliceBound n 0 n 0 start = max 0 (fromEnd n (start.getD 0)) ∨
      (sliceBound n 0 n 0 start = n ∧ n < max 0 (fromEnd n (start.getD 0))) := by
    cases start with
    | none => simp [sliceBound, fromEnd]
    | some b =>
      simp only [sliceBound, fromEnd, Option.getD_some]
      split <;> omega
  have hbn : sliceBound n 0 n n stop ≤ n := by
    cases stop with
    | none => simp [sliceBound]
    | some b => simp only [sliceBound]; split <;> omega
  constructor
  · rintro ⟨⟨m, rfl⟩, h⟩
    have hm : (0 : Int) ≤ m * st := Int.mul_nonneg (by omega) (by omega)
    have h1 := ((hb _ ha).resolve_right (by omega)).1 h
    refine ⟨by omega, h1.1, ⟨m, ?_⟩, h1.2⟩
    rcases hab with e | ⟨e, _⟩ <;> omega
  · rintro ⟨h0, hn, ⟨m, hm⟩, h⟩
    have hm0 : (0 : Int) ≤ m * st := Int.mul_nonneg (by omega) (by omega)
    rcases hab with e | ⟨_, e⟩
    · refine ⟨⟨m, by omega⟩, ?_⟩
      exact ((hb _ ha).resolve_right (by omega)).2 ⟨hn, h⟩
    · omega

/-- A slice with a negative step selects, from right to left, the positions of the list that are a number of steps from its start
(the end, if absent or past the end) and after its stop. -/
theorem C27_ref_backward (k : Slice) (n : Nat) (hs : k.step.getD 1 < 0) :
    ∃ idx, sliceIdx k n = .ok idx ∧ idx.Pairwise (· > ·) ∧ ∀ j : Int, j ∈ idx ↔ 0 ≤ j ∧ j < n ∧
      (∃ m : Nat, j = min ((n : Int) - 1) (fromEnd n (k.start.getD (n - 1))) + m * k.step.getD 1) ∧ ∀ b, k.stop = some b → fromEnd n b < j := by
  obtain ⟨start, stop, step⟩ := k
  simp only [sliceIdx, sliceIndices] at hs ⊢
  generalize step.getD 1 = st at hs ⊢
  rw [if_neg (by omega)]
  simp only [hs, if_true]
  refine ⟨_, rfl, (range_sorted _ _ _).2 hs, fun j => ?_⟩
  rw [mem_range_down hs]
  have hb : j < n → (sliceBound n (-1) (n - 1) (-1) stop < j ↔ 0 ≤ j ∧ ∀ b, stop = some b → fromEnd n b < j) := by
    intro hn
    cases stop with
    | none => simp only [sliceBound]; simp; omega
    | some b =>
      simp only [sliceBound, fromEnd, Option.some.injEq, forall_eq']
      split <;> omega
  have ha : sliceBound n (-1) (n - 1) (n - 1) start < n := by
    cases start with
    | none => simp only [sliceBound]; omega
    | some b => simp only [sliceBound]; split <;> omega
  have hab : sliceBound n (-1) (n - 1) (n - 1) start = min ((n : Int) - 1) (fromEnd n (start.getD (n - 1))) ∨
      (sliceBound n (-1) (n - 1) (n - 1) start = -1 ∧ min ((n : Int) - 1) (fromEnd n (start.getD (n - 1))) < 0) := by
    cases start with
    | none => simp only [sliceBound, fromEnd, Option.getD_none]; split <;> omega
    | some b =>
      simp only [sliceBound, fromEnd, Option.getD_some]
      split <;> omega
  have hbn : -1 ≤ sliceBound n (-1) (n - 1) (-1) stop := by
    cases stop with
    | none => simp [sliceBound]
    | some b => simp only [sliceBound]; split <;> omega
  have hneg : ∀ m : Nat, (m : Int) * st ≤ 0 := fun m => by
    have := Int.mul_nonneg (a := m) (b := -st) (by omega) (by omega)
    rw [Int.mul_neg] at this
    omega
  constructor
  · rintro ⟨⟨m, rfl⟩, h⟩
    have hm := hneg m
    have h1 := (hb (by omega)).1 h
    refine ⟨h1.1, by omega, ⟨m, ?_⟩, h1.2⟩
    rcases hab with e | ⟨e, _⟩ <;> omega
  · rintro ⟨h0, hn, ⟨m, hm⟩, h⟩
    have hm0 := hneg m
    rcases hab with e | ⟨_, e⟩
    · exact ⟨⟨m, by omega⟩, (hb hn).2 ⟨h0, h⟩⟩
    · omega

/-- A step of zero is a `ValueError`. -/
theorem C27_ref_zero (k : Slice) (n : Nat) (hs : k.step = some 0) : sliceIdx k n = .error .value := by
  simp [sliceIdx, sliceIndices, hs]

/-- `l[i]`, `l[i] = x` and `l.pop(i)`: indices from `-n` to `n - 1` count from the end or from the beginning. -/
theorem C27_ref_index (l : List α) (i : Int) (x : α) {j : Nat} (hj : j < l.length) (hi : i = j ∨ i = j - l.length) :
    getItem l i = .ok l[j] ∧ setItem l i x = .ok (l.set j x) ∧ pop l i = .ok (l[j], l.eraseIdx j) := by
  have hn : normIndex l.length i = some j := by
    simp only [normIndex]
    rcases hi with rfl | rfl
    · rw [if_neg (show ¬ (j : Int) < 0 by omega), if_pos (by omega)]
      simp
    · rw [if_pos (show (j : Int) - l.length < 0 by omega), if_pos (by omega)]
      congr 1
      omega
  exact ⟨getItem_ok hn, setItem_ok hn x, pop_ok hn⟩

/-- Other indices are an `IndexError`. -/
theorem C27_ref_index_error (l : List α) (i : Int) (x : α) (hi : i < -(l.length : Int) ∨ (l.length : Int) ≤ i) :
    getItem l i = .error .index ∧ setItem l i x = .error .index ∧ pop l i = .error .index := by
  have hn : normIndex l.length i = none := by
    simp only [normIndex]
    rw [if_neg]
    split <;> omega
  exact ⟨getItem_err hn, setItem_err hn x, pop_err hn⟩

/-- `l.insert(i, x)`: the index is brought into the list. -/
theorem C27_ref_insert (l : List α) (i : Int) (x : α) {k : Nat} (hk : (k : Int) = min (l.length : Int) (max 0 (fromEnd l.length i))) :
    insert l i x = l.take k ++ x :: l.drop k := by
  have : insertPos l.length i = k := by
    simp only [insertPos, fromEnd] at hk ⊢
    split at hk <;> split <;> omega
  rw [insert, this]

/-- `l[k]`: the items at the selected positions, in their order. -/
theorem C27_ref_get_slice (l : List α) (k : Slice) {idx : List Nat} (hi : sliceIdx k l.length = .ok (idx.map Int.ofNat))
    (hl : ∀ j ∈ idx, j < l.length) : ∃ xs, getSlice l k = .ok xs ∧ xs.length = idx.length ∧
      ∀ (m : Nat) (hm : m < idx.length), xs[m]? = l[idx[m]]? := by
  have h : getSlice l k = .ok (idx.filterMap (l[·]?)) := by
    simp only [getSlice, hi, List.filterMap_map]
    rfl
  have e : idx.filterMap (l[·]?) = idx.attach.map fun j => l[j.1]'(hl j.1 j.2) := by
    clear h hi
    induction idx with
    | nil => rfl
    | cons j idx ih =>
      rw [List.filterMap_cons, List.getElem?_eq_getElem (hl j (by simp))]
      simp only [ih fun y hy => hl y (by simp [hy]), List.attach_cons, List.map_cons, List.map_map]
      rfl
  refine ⟨_, h, by rw [e]; simp, fun m hm => ?_⟩
  rw [e]
  simp [hm, hl]

/-- `l[k] = vs` with step 1 replaces the part between the bounds, which are brought into the list. -/
theorem C27_ref_set_slice (l : List α) (k : Slice) (vs : List α) (hs : k.step.getD 1 = 1) {a b : Nat}
    (ha : (a : Int) = min (l.length : Int) (max 0 (fromEnd l.length (k.start.getD 0))))
    (hb : (b : Int) = min (l.length : Int) (max 0 (fromEnd l.length (k.stop.getD l.length)))) :
    setSlice l k vs = .ok (l.take a ++ vs ++ l.drop (max a b)) := by
  obtain ⟨start, stop, step⟩ := k
  simp only [setSlice, sliceIndices] at hs ha hb ⊢
  rw [hs]
  simp only [Int.reduceEq, Int.reduceLT, if_false, if_true]
  have h1 : sliceBound l.length 0 l.length 0 start = a := by
    rw [ha]
    cases start with
    | none => simp only [sliceBound, fromEnd, Option.getD_none]; split <;> omega
    | some x => simp only [sliceBound, fromEnd, Option.getD_some]; split <;> omega
  have h2 : sliceBound l.length 0 l.length l.length stop = b := by
    rw [hb]
    cases stop with
    | none => simp only [sliceBound, fromEnd, Option.getD_none]; split <;> omega
    | some x => simp only [sliceBound, fromEnd, Option.getD_some]; split <;> omega
  rw [h1, h2]
  have h3 : (max (a : Int) b).toNat = max a b := by omega
  rw [h3, Int.toNat_natCast]

theorem setAll_get : ∀ (ps : List (Nat × α)) (l : List α), (ps.map (·.1)).Nodup → (∀ p ∈ ps, p.1 < l.length) →
    (ps.foldl (fun l p => l.set p.1 p.2) l).length = l.length ∧
    (∀ p ∈ ps, (ps.foldl (fun l p => l.set p.1 p.2) l)[p.1]? = some p.2) ∧
    ∀ j, j ∉ ps.map (·.1) → (ps.foldl (fun l p => l.set p.1 p.2) l)[j]? = l[j]? := by
  intro ps
  induction ps with
  | nil => intro l _ _; simp
  | cons q ps ih =>
    intro l hn hl
    simp only [List.map_cons, List.nodup_cons] at hn
    obtain ⟨h1, h2, h3⟩ := ih (l.set q.1 q.2) hn.2 fun p hp => by rw [List.length_set]; exact hl p (by simp [hp])
    simp only [List.foldl_cons]
    refine ⟨by rw [h1, List.length_set], fun p hp => ?_, fun j hj => ?_⟩
    · rcases List.mem_cons.1 hp with rfl | hp
      · rw [h3 _ hn.1]
        simp [hl p (by simp)]
      · exact h2 p hp
    · simp only [List.map_cons, List.mem_cons, not_or] at hj
      rw [h3 j hj.2, List.getElem?_set_ne (fun q => hj.1 q.symm)]

/-- `l[k] = vs` with another step replaces the selected items one by one; the lengths must agree. -/
theorem C27_ref_set_extended (l : List α) (k : Slice) (vs : List α) (hs : k.step.getD 1 ≠ 1) {idx : List Nat}
    (hi : sliceIdx k l.length = .ok (idx.map Int.ofNat)) (hn : idx.Nodup) (hl : ∀ j ∈ idx, j < l.length) :
    (idx.length ≠ vs.length → setSlice l k vs = .error .value) ∧
    (idx.length = vs.length → ∃ l', setSlice l k vs = .ok l' ∧ l'.length = l.length ∧
      (∀ (m : Nat) (hm : m < idx.length), l'[idx[m]]? = vs[m]?) ∧ ∀ j, j ∉ idx → l'[j]? = l[j]?) := by
  simp only [sliceIdx] at hi
  simp only [setSlice]
  rcases h : sliceIndices k l.length with e | ⟨a, b, c⟩
  · rw [h] at hi
    cases hi
  · rw [h] at hi
    have hr : range a b c = idx.map Int.ofNat := Except.ok.inj hi
    have hc : c = k.step.getD 1 := by
      simp only [sliceIndices] at h
      split at h
      · cases h
      · have := Except.ok.inj h
        simp only [Prod.mk.injEq] at this
        exact this.2.2.symm
    simp only
    rw [if_neg (by rw [hc]; exact hs), hr]
    simp only [List.length_map]
    refine ⟨fun hne => by rw [if_neg hne], fun he => ?_⟩
    rw [if_pos he]
    have hz : ((idx.map Int.ofNat).zip vs).foldl (fun l p => l.set p.1.toNat p.2) l =
        (idx.zip vs).foldl (fun l p => l.set p.1 p.2) l := by
      rw [List.zip_map_left, List.foldl_map]
      rfl
    rw [hz]
    have hm1 : (idx.zip vs).map (·.1) = idx := List.map_fst_zip (by omega)
    obtain ⟨g1, g2, g3⟩ := setAll_get (idx.zip vs) l (by rw [hm1]; exact hn) fun p hp => hl p.1 (List.of_mem_zip hp).1
    refine ⟨_, rfl, g1, fun m hm => ?_, fun j hj => g3 j (by rw [hm1]; exact hj)⟩
    have hmv : m < vs.length := by omega
    have hz : m < (idx.zip vs).length := by simp; omega
    have hmem : (idx[m], vs[m]) ∈ idx.zip vs := by
      rw [List.mem_iff_getElem]
      exact ⟨m, hz, by simp⟩
    rw [g2 _ hmem, List.getElem?_eq_getElem hmv]

theorem zipIdx_filter (q : Nat → Bool) : ∀ (l : List α) (o : Nat), ((l.zipIdx o).filter fun p => q p.2).map (·.1) =
    ((List.range' o l.length).filter q).filterMap fun j => l[j - o]? := by
  intro l
  induction l with
  | nil => intro o; rfl
  | cons x l ih =>
    intro o
    have hc : ∀ js : List Nat, (∀ j ∈ js, o + 1 ≤ j) → js.filterMap (fun j => (x :: l)[j - o]?) = js.filterMap fun j => l[j - (o + 1)]? := by
      intro js hjs
      induction js with
      | nil => rfl
      | cons j js ihj =>
        have := hjs j (by simp)
        have e : j - o = (j - (o + 1)) + 1 := by omega
        rw [List.filterMap_cons, List.filterMap_cons, ihj fun y hy => hjs y (by simp [hy]), e, List.getElem?_cons_succ]
    have hr : ∀ j ∈ (List.range' (o + 1) l.length).filter q, o + 1 ≤ j := fun j hj => by
      have := (List.mem_filter.1 hj).1
      rw [List.mem_range'_1] at this
      exact this.1
    rw [List.zipIdx_cons, List.length_cons, List.range'_succ, List.filter_cons, List.filter_cons]
    cases hq : q o
    · simp only [Bool.false_eq_true, if_false]
      rw [ih, hc _ hr]
    · simp only [if_true, List.map_cons, List.filterMap_cons, Nat.sub_self, List.getElem?_cons_zero]
      rw [ih, hc _ hr]

/-- `del l[k]`: the items at the positions that are not selected, in their order. -/
theorem C27_ref_del_slice (l : List α) (k : Slice) {idx : List Int} (hi : sliceIdx k l.length = .ok idx) :
    delSlice l k = .ok (((List.range l.length).filter fun (j : Nat) => decide ((j : Int) ∉ idx)).filterMap (l[·]?)) := by
  simp only [delSlice, hi]
  have := zipIdx_filter (fun j => !idx.contains (j : Int)) l 0
  rw [List.range_eq_range']
  simp only [Nat.sub_zero] at this
  rw [this]
  congr 3
  funext j
  simp

/-- The theorems apply to slices and indices of all kinds. -/
theorem C27_ref_example :
    (sliceIdx ⟨some (-3), none, some 2⟩ 5).toOption = some [2, 4] ∧
    (sliceIdx ⟨some 9, some (-5), some (-2)⟩ 5).toOption = some [4, 2] ∧
    (getSlice [5, 6, 7, 8, 9] ⟨none, none, some (-2)⟩).toOption = some [9, 7, 5] ∧
    (setSlice [5, 6, 7, 8, 9] ⟨some (-4), some (-2), none⟩ [1]).toOption = some [5, 1, 8, 9] ∧
    (setSlice [5, 6, 7, 8, 9] ⟨some 3, some 1, none⟩ [1]).toOption = some [5, 6, 7, 1, 8, 9] ∧
    (setSlice [5, 6, 7, 8, 9] ⟨none, none, some (-2)⟩ [1, 2, 3]).toOption = some [3, 6, 2, 8, 1] ∧
    (delSlice [5, 6, 7, 8, 9] ⟨some (-9), some 4, some 3⟩).toOption = some [6, 7, 9] ∧
    insert [5, 6] (-1) 7 = [5, 7, 6] := by
  decide

end Psygnal.Py
