import Verif.EventedListSpec

/-!
# Lemmas about `EventedList`
-/

namespace Psygnal.Py

variable {α : Type}

theorem normIndex_lt {n : Nat} {i : Int} {j : Nat} (h : normIndex n i = some j) : j < n := by
  simp only [normIndex] at h
  split at h <;> split at h <;> simp at h <;> omega

theorem getItem_ok {l : List α} {i : Int} {j : Nat} (h : normIndex l.length i = some j) :
    getItem l i = .ok (l[j]'(normIndex_lt h)) := by
  simp [getItem, h, normIndex_lt h]

theorem getItem_err {l : List α} {i : Int} (h : normIndex l.length i = none) :
    getItem l i = .error .index := by
  simp [getItem, h]

theorem pop_ok {l : List α} {i : Int} {j : Nat} (h : normIndex l.length i = some j) :
    pop l i = .ok (l[j]'(normIndex_lt h), l.eraseIdx j) := by
  simp [pop, h, normIndex_lt h]

theorem pop_err {l : List α} {i : Int} (h : normIndex l.length i = none) :
    pop l i = .error .index := by
  simp [pop, h]

theorem setItem_ok {l : List α} {i : Int} {j : Nat} (h : normIndex l.length i = some j) (x : α) :
    setItem l i x = .ok (l.set j x) := by
  simp [setItem, h]

theorem setItem_err {l : List α} {i : Int} (h : normIndex l.length i = none) (x : α) :
    setItem l i x = .error .index := by
  simp [setItem, h]

theorem normIndex_nat {n j : Nat} (h : j < n) : normIndex n j = some j := by
  simp only [normIndex]
  grind

theorem normIndex_shift {n : Nat} {i : Int} (h : -(n : Int) ≤ i ∨ i < -(2 * n : Int)) :
    normIndex n (if i ≥ 0 then i else i + n) = normIndex n i := by
  simp only [normIndex]
  grind

theorem insert_length (l : List α) (x : α) : insert l l.length x = l ++ [x] := by
  have : insertPos l.length (l.length : Int) = l.length := by
    simp only [insertPos]
    rw [if_neg (by omega)]
    simp
  simp [insert, this]

end Psygnal.Py

namespace Psygnal.EL
open Psygnal.Py (M Err Key Slice)

variable {α : Type} {c : Cfg α} [c.Passive]

theorem emit_quiet (hq : c.Quiet) (e : Ev α) (s : St α) :
    emit c e s = (.ok (), { s with log := s.log ++ [(e, s.data)] }) := by
  simp [emit, hq _, Cfg.Passive.react (c := c), Cfg.Passive.early (c := c)]

theorem emit_state (e : Ev α) (s : St α) :
    (emit c e s).2 = { s with log := s.log ++ [(e, s.data)] } := by
  simp [emit, Cfg.Passive.react (c := c), Cfg.Passive.early (c := c)]

theorem emitReordered_quiet (hq : c.Quiet) (s : St α) :
    ∃ s', emitReordered c s = (.ok (), s') ∧ s'.data = s.data ∧ s'.conns = s.conns := by
  simp only [emitReordered]
  split
  · exact ⟨_, rfl, rfl, rfl⟩
  · exact ⟨_, emit_quiet hq _ s, rfl, rfl⟩

theorem insert_quiet (hq : c.Quiet) (i : Int) (x : α) (s : St α) :
    ∃ s', insert c i x s = (.ok (), s') ∧ s'.data = Py.insert s.data i x := by
  simp only [insert, M.bind_eq, M.bind_app, emit_quiet hq, M.get_app, setData, M.modify_app, postInsert]
  split
  · exact ⟨_, rfl, rfl⟩
  · exact ⟨_, rfl, rfl⟩

theorem append_quiet (hq : c.Quiet) (x : α) (s : St α) :
    ∃ s', append c x s = (.ok (), s') ∧ s'.data = s.data ++ [x] := by
  obtain ⟨s', h1, h2⟩ := insert_quiet hq s.data.length x s
  exact ⟨s', h1, by rw [h2, Py.insert_length]⟩

theorem extend_quiet (hq : c.Quiet) (xs : List α) (s : St α) :
    ∃ s', extend c xs s = (.ok (), s') ∧ s'.data = s.data ++ xs := by
  induction xs generalizing s with
  | nil => exact ⟨s, rfl, by simp⟩
  | cons x xs ih =>
    obtain ⟨s1, h1, h2⟩ := append_quiet hq x s
    obtain ⟨s2, h3, h4⟩ := ih s1
    refine ⟨s2, ?_, by simp [h4, h2]⟩
    show M.bind _ _ s = _
    rw [M.bind_ok h1]
    exact h3

omit [c.Passive] in
theorem getItem_app (i : Int) (s : St α) :
    getItem c i s = ((Py.getItem s.data i).map (out c), s) := by
  simp only [getItem, M.bind_eq, M.bind_app, M.get_app, M.ofExcept_app]
  cases Py.getItem s.data i <;> rfl

omit [c.Passive] in
theorem out_flat {x : α} (h : c.isList x = false) : out c x = x := by simp [out, h]

omit [c.Passive] in
theorem preRemove_ok {i : Int} {s : St α} {j : Nat} (h : Py.normIndex s.data.length i = some j) :
    ∃ s', preRemove c i s = (.ok (), s') ∧ s'.data = s.data ∧ s'.log = s.log ∧ s'.blocked = s.blocked := by
  simp only [preRemove]
  split
  · simp only [M.bind_eq, M.bind_app, getItem_app, Py.getItem_ok h, Except.map, disconnectChild, M.modify_app]
    exact ⟨_, rfl, rfl, rfl, rfl⟩
  · exact ⟨_, rfl, rfl, rfl, rfl⟩

theorem delOne_ok (hq : c.Quiet) {i : Int} {s : St α} {j : Nat} (h : Py.normIndex s.data.length i = some j) :
    ∃ s', delOne c i s = (.ok (), s') ∧ s'.data = s.data.eraseIdx j := by
  obtain ⟨s1, h1, h2, -, -⟩ := preRemove_ok (c := c) (i := i)
    (s := { s with log := s.log ++ [(.removing i, s.data)] }) (j := j) h
  simp only [delOne, M.bind_eq, M.bind_app, emit_quiet hq, h1, M.get_app, M.ofExcept_app, setData, M.modify_app]
  have h3 : Py.normIndex s1.data.length i = some j := by rw [h2]; exact h
  rw [Py.pop_ok h3]
  exact ⟨_, rfl, by simp [h2]⟩

theorem delOne_err (hq : c.Quiet) {i : Int} {s : St α} (h : Py.normIndex s.data.length i = none) :
    ∃ s', delOne c i s = (.error .index, s') ∧ s'.data = s.data := by
  cases hce : c.childEvents
  · simp only [delOne, M.bind_eq, M.bind_app, emit_quiet hq, preRemove, hce, Bool.false_eq_true, if_false,
      M.pure_eq, M.pure_app, M.get_app, M.ofExcept_app, Py.pop_err h]
    exact ⟨_, rfl, rfl⟩
  · simp only [delOne, M.bind_eq, M.bind_app, emit_quiet hq, preRemove, hce, if_true, getItem_app,
      Py.getItem_err h, Except.map]
    exact ⟨_, rfl, rfl⟩

theorem forEach_single {β σ : Type} (x : β) (f : β → M σ Unit) : M.forEach [x] f = f x := by
  funext s
  simp only [M.forEach, M.bind]
  rcases f x s with ⟨_ | ⟨⟩, s'⟩ <;> rfl

/-- Deleting with an integer index. -/
theorem delItem_int (hq : c.Quiet) {i : Int} {s : St α}
    (h : -(s.data.length : Int) ≤ i ∨ i < -(2 * s.data.length : Int)) :
    ∃ s', delItem c (.int i) s = ((Py.pop s.data i).map (fun _ => ()), s') ∧
      s'.data = match Py.pop s.data i with
        | .ok p => p.2
        | .error _ => s.data := by
  have hn := Py.normIndex_shift h
  simp only [delItem, M.bind_eq, M.bind_app, M.get_app, delIndices, M.ofExcept_app, forEach_single]
  rcases hj : Py.normIndex s.data.length i with _ | j
  · obtain ⟨s', h1, h2⟩ := delOne_err hq (hn.trans hj)
    exact ⟨s', by rw [h1, Py.pop_err hj]; rfl, by rw [h2, Py.pop_err hj]⟩
  · obtain ⟨s', h1, h2⟩ := delOne_ok hq (hn.trans hj)
    exact ⟨s', by rw [h1, Py.pop_ok hj]; rfl, by rw [h2, Py.pop_ok hj]⟩

end Psygnal.EL

/-! ## Slices -/

namespace Psygnal.Py
variable {α : Type}

theorem sliceBound_mem {n : Nat} {lo hi d : Int} (h : lo ≤ hi) (hn : lo ≤ 0) (hh : (n : Int) - 1 ≤ hi)
    (hd : lo ≤ d ∧ d ≤ hi) (b : Option Int) :
    lo ≤ sliceBound n lo hi d b ∧ sliceBound n lo hi d b ≤ hi := by
  cases b with
  | none => exact hd
  | some b =>
    simp only [sliceBound]
    split <;> omega

/-- The bounds of `slice.indices`. -/
theorem sliceIndices_bounds {k : Slice} {n : Nat} {a b st : Int} (h : sliceIndices k n = .ok (a, b, st)) :
    st ≠ 0 ∧ (0 < st → 0 ≤ a ∧ a ≤ n ∧ 0 ≤ b ∧ b ≤ n) ∧
    (st < 0 → -1 ≤ a ∧ a < n ∧ -1 ≤ b ∧ b < n) := by
  simp only [sliceIndices] at h
  split at h
  · cases h
  · rename_i h0
    injection h with h
    injection h with h1 h
    injection h with h2 h3
    subst h3
    refine ⟨h0, fun hp => ?_, fun hp => ?_⟩
    · rw [if_neg (by omega), if_neg (by omega), if_neg (by omega)] at h1
      rw [if_neg (by omega), if_neg (by omega), if_neg (by omega)] at h2
      have := @sliceBound_mem n 0 n 0 (by omega) (by omega) (by omega) (by omega) k.start
      have := @sliceBound_mem n 0 n n (by omega) (by omega) (by omega) (by omega) k.stop
      omega
    · rw [if_pos hp, if_pos hp, if_pos hp] at h1
      rw [if_pos hp, if_pos hp, if_pos hp] at h2
      have := @sliceBound_mem n (-1) (n - 1) (n - 1) (by omega) (by omega) (by omega) (by omega) k.start
      have := @sliceBound_mem n (-1) (n - 1) (-1) (by omega) (by omega) (by omega) (by omega) k.stop
      omega

theorem mem_range {a b st x : Int} (h : x ∈ range a b st) :
    (0 < st ∧ a ≤ x ∧ x < b) ∨ (st < 0 ∧ b < x ∧ x ≤ a) := by
  simp only [range, List.mem_map, List.mem_range, rangeLen] at h
  obtain ⟨k, hk, rfl⟩ := h
  split at hk
  · rename_i hst
    split at hk
    · refine .inl ⟨hst, ?_, ?_⟩
      · have := Int.mul_nonneg (Int.natCast_nonneg k) (Int.le_of_lt hst)
        omega
      · have h1 : (k : Int) ≤ (b - a - 1) / st := by omega
        have h2 : (k : Int) * st ≤ b - a - 1 := (Int.le_ediv_iff_mul_le hst).1 h1
        omega
    · omega
  · split at hk
    · rename_i hst
      split at hk
      · refine .inr ⟨hst, ?_, ?_⟩
        · have h1 : (k : Int) ≤ (a - b - 1) / (-st) := by omega
          have h2 : (k : Int) * (-st) ≤ a - b - 1 := (Int.le_ediv_iff_mul_le (by omega)).1 h1
          rw [Int.mul_neg] at h2
          omega
        · have := Int.mul_nonneg (Int.natCast_nonneg k) (show (0 : Int) ≤ -st by omega)
          rw [Int.mul_neg] at this
          omega
      · omega
    · omega

theorem sliceIdx_mem {k : Slice} {n : Nat} {idx : List Int} (h : sliceIdx k n = .ok idx) {x : Int}
    (hx : x ∈ idx) : 0 ≤ x ∧ x < n := by
  simp only [sliceIdx] at h
  split at h
  · rename_i a b st hs
    cases h
    have h1 := sliceIndices_bounds hs
    have h2 := mem_range hx
    omega
  · cases h

theorem range_nodup {a b st : Int} (h : st ≠ 0) : (range a b st).Nodup := by
  simp only [range]
  refine List.Pairwise.map _ ?_ List.nodup_range
  intro x y hxy h1
  apply hxy
  have : (x : Int) * st = y * st := by omega
  have := Int.eq_of_mul_eq_mul_right h this
  omega

theorem sliceIdx_nodup {k : Slice} {n : Nat} {idx : List Int} (h : sliceIdx k n = .ok idx) : idx.Nodup := by
  simp only [sliceIdx] at h
  split at h
  · rename_i a b st hs
    cases h
    exact range_nodup (sliceIndices_bounds hs).1
  · cases h

/-- The items at positions outside `idx`. -/
def dropAt (idx : List Int) (l : List α) : List α :=
  (l.zipIdx.filter fun p => !idx.contains (p.2 : Int)).map (·.1)

theorem filter_zipIdx_high {idx : List Int} {i : Nat} (h : ∀ j ∈ idx, j < (i : Int)) (l : List α) (k : Nat)
    (hk : i ≤ k) : ((l.zipIdx k).filter fun p => !idx.contains (p.2 : Int)).map (·.1) = l := by
  induction l generalizing k with
  | nil => rfl
  | cons x xs ih =>
    have : (!idx.contains ((k : Nat) : Int)) = true := by
      simp only [Bool.not_eq_true', List.contains_eq_mem, decide_eq_false_iff_not]
      intro hm
      have := h _ hm
      omega
    rw [List.zipIdx_cons, List.filter_cons]
    simp only [this, if_true, List.map_cons, ih (k + 1) (by omega)]

theorem dropAt_cons {idx : List Int} {i : Nat} {l : List α} (hi : i < l.length)
    (h : ∀ j ∈ idx, j < (i : Int)) : dropAt ((i : Int) :: idx) l = dropAt idx (l.eraseIdx i) := by
  obtain ⟨a, x, b, rfl, ha⟩ : ∃ a x b, l = a ++ x :: b ∧ a.length = i :=
    ⟨l.take i, l[i], l.drop (i + 1), by simp, by simp; omega⟩
  subst ha
  have e1 : (a ++ x :: b).eraseIdx a.length = a ++ b := by
    rw [List.eraseIdx_append_of_length_le (Nat.le_refl _)]
    simp
  rw [e1]
  simp only [dropAt, List.zipIdx_append, List.zipIdx_cons, List.filter_append, List.map_append, List.filter_cons]
  have hb1 := filter_zipIdx_high (α := α) (idx := (a.length : Int) :: idx) (i := a.length + 1)
    (by intro j hj; simp at hj; rcases hj with rfl | hj; · omega
        · have := h j hj; omega) b (0 + a.length + 1) (by omega)
  have hb2 := filter_zipIdx_high (α := α) (idx := idx) (i := a.length) h b (0 + a.length) (by omega)
  rw [hb2]
  simp only [Nat.zero_add, List.contains_cons, BEq.rfl, Bool.true_or, Bool.not_true, Bool.false_eq_true, if_false] at hb1 ⊢
  rw [hb1]
  congr 2
  refine List.filter_congr ?_
  intro p hp
  have := List.snd_lt_of_mem_zipIdx hp
  have : ((p.2 : Int) == (a.length : Int)) = false := by simp; omega
  rw [this, Bool.false_or]

end Psygnal.Py

namespace Psygnal.EL
open Psygnal.Py (M Err Key Slice)

variable {α : Type} {c : Cfg α} [c.Passive]

theorem delMany_ok (hq : c.Quiet) {idx : List Int} (hd : idx.Pairwise (fun a b => b < a)) {s : St α}
    (hb : ∀ i ∈ idx, 0 ≤ i ∧ i < s.data.length) :
    ∃ s', M.forEach idx (delOne c) s = (.ok (), s') ∧ s'.data = Py.dropAt idx s.data := by
  induction idx generalizing s with
  | nil => exact ⟨s, rfl, (Py.filter_zipIdx_high (i := 0) (by simp) s.data 0 (Nat.le_refl _)).symm⟩
  | cons i idx ih =>
    rw [List.pairwise_cons] at hd
    obtain ⟨h0, h1⟩ := hb i (by simp)
    obtain ⟨j, rfl⟩ : ∃ j : Nat, (j : Int) = i := ⟨i.toNat, by omega⟩
    have hj : j < s.data.length := by omega
    obtain ⟨s1, h2, h3⟩ := delOne_ok hq (Py.normIndex_nat hj)
    obtain ⟨s2, h4, h5⟩ := ih hd.2 (s := s1) (by
      intro x hx
      have := hd.1 x hx
      have := hb x (by simp [hx])
      rw [h3, List.length_eraseIdx_of_lt hj]
      omega)
    refine ⟨s2, ?_, ?_⟩
    · show M.bind _ _ s = _
      rw [M.bind_ok h2]
      exact h4
    · rw [h5, h3, Py.dropAt_cons hj hd.1]

theorem dropAt_perm {idx idx' : List Int} (h : idx.Perm idx') (l : List α) :
    Py.dropAt idx l = Py.dropAt idx' l := by
  simp only [Py.dropAt]
  congr 1
  refine List.filter_congr fun p _ => ?_
  simp only [List.contains_eq_mem, h.mem_iff]

theorem insertDesc_perm (x : Int) (l : List Int) : (insertDesc x l).Perm (x :: l) := by
  induction l with
  | nil => exact .refl _
  | cons y ys ih =>
    simp only [insertDesc]
    split
    · exact .refl _
    · exact (ih.cons y).trans (.swap ..)

theorem sortDesc_perm (l : List Int) : (sortDesc l).Perm l := by
  induction l with
  | nil => exact .refl _
  | cons x xs ih => exact (insertDesc_perm ..).trans (ih.cons x)

theorem insertDesc_sorted {x : Int} {l : List Int} (h : l.Pairwise (fun a b => b ≤ a)) :
    (insertDesc x l).Pairwise (fun a b => b ≤ a) := by
  induction l with
  | nil => simp [insertDesc]
  | cons y ys ih =>
    simp only [insertDesc]
    rw [List.pairwise_cons] at h
    split
    · rename_i hxy
      rw [List.pairwise_cons, List.pairwise_cons]
      refine ⟨?_, h⟩
      intro z hz
      simp at hz
      rcases hz with rfl | hz
      · exact hxy
      · have := h.1 z hz; omega
    · rename_i hxy
      rw [List.pairwise_cons]
      refine ⟨?_, ih h.2⟩
      intro z hz
      have := (insertDesc_perm x ys).mem_iff.1 hz
      simp at this
      rcases this with rfl | hz
      · omega
      · exact h.1 z hz

theorem sortDesc_sorted (l : List Int) : (sortDesc l).Pairwise (fun a b => b ≤ a) := by
  induction l with
  | nil => exact .nil
  | cons x xs ih => exact insertDesc_sorted ih

/-- Deleting with a slice. -/
theorem delItem_slice (hq : c.Quiet) (k : Slice) (s : St α) :
    ∃ s', delItem c (.slice k) s = ((Py.delSlice s.data k).map (fun _ => ()), s') ∧
      s'.data = match Py.delSlice s.data k with
        | .ok l => l
        | .error _ => s.data := by
  simp only [delItem, M.bind_eq, M.bind_app, M.get_app, delIndices, M.ofExcept_app]
  rcases hi : Py.sliceIdx k s.data.length with e | idx
  · exact ⟨s, by simp [Py.delSlice, hi, Except.map], by simp [Py.delSlice, hi]⟩
  · have hp := sortDesc_perm idx
    have hs : (sortDesc idx).Pairwise (fun a b => b < a) := by
      refine (sortDesc_sorted idx).imp₂ ?_ (hp.nodup_iff.2 (Py.sliceIdx_nodup hi))
      intro a b h3 h4
      omega
    obtain ⟨s', h1, h2⟩ := delMany_ok hq hs (s := s) (fun i h => Py.sliceIdx_mem hi (hp.mem_iff.1 h))
    refine ⟨s', ?_, ?_⟩
    · simp only [h1, Py.delSlice, hi, Except.map]
    · rw [h2, dropAt_perm hp]
      simp only [Py.delSlice, hi, Py.dropAt]

end Psygnal.EL

/-! ## The remaining list operations -/

namespace Psygnal.EL
open Psygnal.Py (M Err Key Slice)

variable {α : Type} {c : Cfg α} [c.Passive]

theorem setItem_ok [DecidableEq α] (hq : c.Quiet) {i : Int} {s : St α} {j : Nat}
    (h : Py.normIndex s.data.length i = some j) (x : α) :
    ∃ s', setItem c i x s = (.ok (), s') ∧ s'.data = s.data.set j x := by
  have hj := Py.normIndex_lt h
  simp only [setItem, M.bind_eq, M.bind_app, M.get_app, M.ofExcept_app, Py.getItem_ok h]
  split
  · rename_i hx
    subst hx
    exact ⟨s, rfl, by simp⟩
  · simp only [M.bind_app, M.ofExcept_app, Py.setItem_ok h, setData, M.modify_app, emit_quiet hq]
    exact ⟨_, rfl, rfl⟩

omit [c.Passive] in
theorem setItem_err [DecidableEq α] {i : Int} {s : St α}
    (h : Py.normIndex s.data.length i = none) (x : α) : setItem c i x s = (.error .index, s) := by
  simp only [setItem, M.bind_eq, M.bind_app, M.get_app, M.ofExcept_app, Py.getItem_err h]

/-- Half-way through a reversal: the outer `k` items at either end have been exchanged. -/
def HalfReversed (l d : List α) (k : Nat) : Prop :=
  d.length = l.length ∧ ∀ j, j < l.length →
    d[j]? = if j < k ∨ l.length - k ≤ j then l[l.length - 1 - j]? else l[j]?

theorem swap_ok [DecidableEq α] (hq : c.Quiet) {l : List α} (hf : ∀ x ∈ l, c.isList x = false) {k : Nat}
    (hk : k < l.length / 2) {s : St α} (h : HalfReversed l s.data k) :
    ∃ s', swap c l.length k s = (.ok (), s') ∧ HalfReversed l s'.data (k + 1) := by
  obtain ⟨hl, hg⟩ := h
  have h1 : k < s.data.length := by omega
  have h2 : l.length - k - 1 < s.data.length := by omega
  have e : ((l.length : Int) - k - 1) = ((l.length - k - 1 : Nat) : Int) := by omega
  have g1 := hg k (by omega)
  have g2 := hg (l.length - k - 1) (by omega)
  rw [if_neg (by omega)] at g1 g2
  rw [List.getElem?_eq_getElem h1, List.getElem?_eq_getElem (by omega)] at g1
  rw [List.getElem?_eq_getElem h2, List.getElem?_eq_getElem (by omega)] at g2
  injection g1 with g1
  injection g2 with g2
  obtain ⟨s1, h3, h4⟩ := setItem_ok (c := c) hq (Py.normIndex_nat h1) (l[l.length - k - 1]'(by omega))
  obtain ⟨s2, h5, h6⟩ := setItem_ok (c := c) hq (s := s1) (i := ((l.length - k - 1 : Nat) : Int))
    (Py.normIndex_nat (n := s1.data.length) (j := l.length - k - 1) (by rw [h4]; simpa using h2))
    (l[k]'(by omega))
  refine ⟨s2, ?_, ?_, ?_⟩
  · simp only [swap, e, M.bind_eq]
    rw [M.bind_ok (by rw [getItem_app, Py.getItem_ok (Py.normIndex_nat h2), g2, Except.map,
      out_flat (hf _ (List.getElem_mem _))])]
    rw [M.bind_ok (by rw [getItem_app, Py.getItem_ok (Py.normIndex_nat h1), g1, Except.map,
      out_flat (hf _ (List.getElem_mem _))])]
    rw [M.bind_ok h3, h5]
  · simp [h6, h4, hl]
  · intro j hj
    rw [h6, h4, List.getElem?_set, List.getElem?_set]
    simp only [List.length_set]
    by_cases c1 : l.length - k - 1 = j
    · subst c1
      rw [if_pos rfl, if_pos h2, if_pos (by omega)]
      rw [show l.length - 1 - (l.length - k - 1) = k by omega, List.getElem?_eq_getElem (by omega)]
    · rw [if_neg c1]
      by_cases c2 : k = j
      · subst c2
        rw [if_pos rfl, if_pos h1, if_pos (by omega)]
        rw [show l.length - 1 - k = l.length - k - 1 by omega, List.getElem?_eq_getElem (by omega)]
      · rw [if_neg c2, hg j hj]
        grind

theorem swaps_ok [DecidableEq α] (hq : c.Quiet) {l : List α} (hf : ∀ x ∈ l, c.isList x = false) (m a : Nat)
    (hm : a + m ≤ l.length / 2) {s : St α} (h : HalfReversed l s.data a) :
    ∃ s', M.forEach (List.range' a m) (swap c l.length) s = (.ok (), s') ∧ HalfReversed l s'.data (a + m) := by
  induction m generalizing a s with
  | zero => exact ⟨s, rfl, h⟩
  | succ m ih =>
    obtain ⟨s1, h1, h2⟩ := swap_ok hq hf (by omega) h
    obtain ⟨s2, h3, h4⟩ := ih (a + 1) (by omega) h2
    refine ⟨s2, ?_, by rw [show a + (m + 1) = a + 1 + m by omega]; exact h4⟩
    rw [List.range'_succ]
    show M.bind _ _ s = _
    rw [M.bind_ok h1]
    exact h3

theorem reverse_quiet [DecidableEq α] (hq : c.Quiet) {s : St α} (hf : ∀ x ∈ s.data, c.isList x = false)
    (b : Bool) : ∃ s', reverse c b s = (.ok (), s') ∧ s'.data = s.data.reverse := by
  cases b
  · simp only [reverse, M.bind_eq, M.bind_app, M.get_app, Bool.false_eq_true, if_false, setData, M.modify_app]
    obtain ⟨s', h1, h2, -⟩ := emitReordered_quiet hq { s with data := s.data.reverse }
    exact ⟨s', h1, h2⟩
  · obtain ⟨s1, h1, h2, h3⟩ := swaps_ok hq hf (s.data.length / 2) 0 (by omega) (s := s)
      ⟨rfl, by intro j hj; rw [if_neg (by omega)]⟩
    obtain ⟨s2, h4, h5, -⟩ := emitReordered_quiet hq s1
    refine ⟨s2, ?_, ?_⟩
    · simp only [reverse, M.bind_eq, M.bind_app, M.get_app, if_true, List.range_eq_range', h1, h4]
    · rw [h5]
      refine List.ext_getElem? fun j => ?_
      by_cases hj : j < s.data.length
      · rw [h3 j hj, List.getElem?_reverse hj]
        split
        · rfl
        · congr 1
          omega
      · rw [List.getElem?_eq_none (by omega), List.getElem?_eq_none (by simp; omega)]

theorem pop_int (hq : c.Quiet) {s : St α} (hf : ∀ x ∈ s.data, c.isList x = false) (i : Int) :
    ∃ s', pop c (.int i) s = ((Py.pop s.data i).map (fun p => (true, [p.1])), s') ∧
      s'.data = match Py.pop s.data i with
        | .ok p => p.2
        | .error _ => s.data := by
  rcases hj : Py.normIndex s.data.length i with _ | j
  · refine ⟨s, ?_, by rw [Py.pop_err hj]⟩
    simp only [pop, getKey, M.bind_eq, M.bind_app, M.get_app, getItem_app, Py.getItem_err hj, Except.map, Py.pop_err hj]
  · have : -(s.data.length : Int) ≤ i := by
      simp only [Py.normIndex] at hj
      grind
    obtain ⟨s', h1, h2⟩ := delItem_int hq (s := s) (.inl this)
    refine ⟨s', ?_, h2⟩
    simp only [pop, getKey, M.bind_eq, M.bind_app, M.get_app, getItem_app, Py.getItem_ok hj, Except.map, Py.pop_ok hj,
      M.pure_eq, M.pure_app, out_flat (hf _ (List.getElem_mem _))]
    rw [h1, Py.pop_ok hj]
    rfl

theorem clearLoop_ok (hq : c.Quiet) (n : Nat) {s : St α} (hf : ∀ x ∈ s.data, c.isList x = false)
    (hn : s.data.length < n) : ∃ s', clearLoop c n s = (.ok (), s') ∧ s'.data = [] := by
  induction n generalizing s with
  | zero => omega
  | succ n ih =>
    obtain ⟨s1, h1, h2⟩ := pop_int hq hf (-1)
    simp only [clearLoop, h1]
    rcases hj : Py.normIndex s.data.length (-1) with _ | j
    · rw [Py.pop_err hj] at h2 ⊢
      refine ⟨s1, rfl, ?_⟩
      rw [h2]
      simp only [Py.normIndex] at hj
      have : s.data.length = 0 := by grind
      exact List.length_eq_zero_iff.1 this
    · rw [Py.pop_ok hj] at h2 ⊢
      simp only [Except.map]
      have := Py.normIndex_lt hj
      refine ih ?_ ?_
      · intro x hx
        rw [h2] at hx
        exact hf x (List.mem_of_mem_eraseIdx hx)
      · rw [h2, List.length_eraseIdx_of_lt this]
        omega

theorem clear_quiet (hq : c.Quiet) {s : St α} (hf : ∀ x ∈ s.data, c.isList x = false) :
    ∃ s', clear c s = (.ok (), s') ∧ s'.data = [] := by
  simp only [clear, M.bind_eq, M.bind_app, M.get_app]
  exact clearLoop_ok hq _ hf (by omega)

omit [c.Passive] in
theorem indexLoop_eq [DecidableEq α] {x : α} {stop : Option Int} {l : List α} (hf : ∀ x ∈ l, c.isList x = false)
    (i : Nat) : indexLoop c x stop (l.drop i) i =
      match (List.range' i (l.length - i)).find? (fun (j : Nat) => stop.all ((j : Int) < ·) && l[j]?.any (same c · x)) with
      | some j => .ok (j : Int)
      | none => .error .value := by
  generalize hk : l.length - i = k
  induction k generalizing i with
  | zero => rw [List.drop_eq_nil_of_le (by omega)]; rfl
  | succ k ih =>
    rw [List.drop_eq_getElem_cons (by omega), List.range'_succ, List.find?_cons]
    simp only [indexLoop]
    have e : l[i]?.any (same c · x) = same c l[i] x := by
      rw [List.getElem?_eq_getElem (by omega)]; rfl
    rw [out_flat (hf _ (List.getElem_mem _)), e]
    by_cases hs : stop.all ((i : Int) < ·) = true
    · rw [if_pos hs, hs, Bool.true_and]
      by_cases hx : same c l[i] x = true
      · rw [if_pos hx, hx]
      · rw [if_neg hx, eq_false_of_ne_true hx]
        exact ih (i + 1) (by omega)
    · rw [if_neg hs, eq_false_of_ne_true hs, Bool.false_and]
      have : (List.range' (i + 1) k).find? (fun (j : Nat) => stop.all ((j : Int) < ·) && l[j]?.any (same c · x)) = none := by
        rw [List.find?_eq_none]
        intro j hj
        rw [List.mem_range'_1] at hj
        cases stop with
        | none => simp at hs
        | some b =>
          simp at hs ⊢
          intro h
          omega
      simp only [this]

omit [c.Passive] in
theorem index_quiet [DecidableEq α] {s : St α} (hf : ∀ x ∈ s.data, c.isList x = false) (x : α) (a : Int)
    (b : Option Int) : step c (.index x a b) s = ((pyStep (same c) (.index x a b) s.data).1, s) := by
  obtain ⟨k, hk⟩ : ∃ k : Nat, (k : Int) = if a < 0 then max (s.data.length + a) 0 else a :=
    ⟨(if a < 0 then max (s.data.length + a) 0 else a).toNat, by split <;> omega⟩
  have hk' : (if a < 0 then max (a + s.data.length) 0 else a) = (k : Int) := by
    rw [hk, Int.add_comm]
  simp only [step, index, M.bind_eq, M.bind_app, M.get_app, M.ofExcept_app, ← hk, Int.toNat_natCast,
    indexLoop_eq hf k, pyStep, hk']
  have e : (List.range s.data.length).find? (fun i : Nat => decide ((k : Int) ≤ i) &&
        b.all (fun b => decide ((i : Int) < if b < 0 then max (b + (s.data.length : Int)) 0 else b)) &&
        s.data[i]?.any (fun v => same c v x)) =
      (List.range' k (s.data.length - k)).find? (fun (j : Nat) =>
        (b.map fun b => if b < 0 then b + (s.data.length : Int) else b).all ((j : Int) < ·) &&
        s.data[j]?.any (same c · x)) := by
    have key : ∀ (P Q : Nat → Bool) (l : List Nat), (∀ j ∈ l, P j = Q j) → l.find? P = l.find? Q := by
      intro P Q l h
      induction l with
      | nil => rfl
      | cons y ys ih => rw [List.find?_cons, List.find?_cons, h y (by simp), ih fun j hj => h j (by simp [hj])]
    by_cases hkn : k ≤ s.data.length
    · rw [List.range_eq_range', show s.data.length = k + (s.data.length - k) by omega, ← List.range'_append_1,
        List.find?_append, List.find?_eq_none.2, Option.none_or, ← show s.data.length = k + (s.data.length - k) by omega,
        Nat.zero_add]
      · refine key _ _ _ fun j hj => ?_
        rw [List.mem_range'_1] at hj
        have : decide ((k : Int) ≤ j) = true := by simp; omega
        rw [this, Bool.true_and]
        congr 1
        cases b with
        | none => rfl
        | some b =>
          simp only [Option.all_some, Option.map_some]
          by_cases hb : b < 0
          · rw [if_pos hb, if_pos hb]
            congr 1
            exact propext (by omega)
          · rw [if_neg hb, if_neg hb]
      · intro j hj
        rw [List.mem_range'_1] at hj
        have : decide ((k : Int) ≤ j) = false := by simp; omega
        rw [this, Bool.false_and, Bool.false_and]
        exact Bool.false_ne_true
    · rw [show s.data.length - k = 0 by omega]
      rw [List.find?_eq_none.2]
      · rfl
      · intro j hj
        rw [List.mem_range] at hj
        have : decide ((k : Int) ≤ j) = false := by simp; omega
        rw [this, Bool.false_and, Bool.false_and]
        exact Bool.false_ne_true
  rw [e]
  generalize List.find? _ _ = r
  cases r <;> rfl

omit [c.Passive] in
theorem indexLoop_findIdx [DecidableEq α] {x : α} {l : List α} (hf : ∀ x ∈ l, c.isList x = false) (i : Int) :
    indexLoop c x none l i = match l.findIdx? (same c · x) with
      | some j => .ok (i + j)
      | none => .error .value := by
  induction l generalizing i with
  | nil => rfl
  | cons v vs ih =>
    rw [indexLoop, out_flat (hf v (by simp)), List.findIdx?_cons, ih (fun x hx => hf x (by simp [hx]))]
    simp only [Option.all_none, if_true]
    by_cases h : same c v x = true
    · simp [h]
    · rw [if_neg h, if_neg h]
      rcases vs.findIdx? (same c · x) with _ | j
      · rfl
      · simp only [Option.map_some]
        congr 1
        omega

theorem remove_quiet [DecidableEq α] (hq : c.Quiet) {s : St α} (hf : ∀ x ∈ s.data, c.isList x = false) (x : α) :
    ∃ s', remove c x s = ((pyStep (same c) (.remove x) s.data).1.map (fun _ => ()), s') ∧
      s'.data = (pyStep (same c) (.remove x) s.data).2 := by
  have h0 : index c x 0 none s = (match s.data.findIdx? (same c · x) with
      | some j => .ok (0 + (j : Int))
      | none => .error .value, s) := by
    simp only [index, M.bind_eq, M.bind_app, M.get_app, M.ofExcept_app]
    rw [← indexLoop_findIdx hf 0]
    rfl
  simp only [remove, M.bind_eq, M.bind_app, h0, pyStep]
  rcases hj : s.data.findIdx? (same c · x) with _ | j
  · exact ⟨s, rfl, rfl⟩
  · have hlt : j < s.data.length := (List.findIdx?_eq_some_iff_getElem.1 hj).1
    obtain ⟨s', h1, h2⟩ := delItem_int hq (s := s) (i := 0 + (j : Int)) (.inl (by omega))
    have hn : Py.normIndex s.data.length (0 + (j : Int)) = some j := by
      rw [Int.zero_add]; exact Py.normIndex_nat hlt
    rw [Py.pop_ok hn] at h1 h2
    exact ⟨s', h1, h2⟩

/-- One operation. -/
theorem step_quiet [DecidableEq α] (hq : c.Quiet) {s : St α} (hf : ∀ x ∈ s.data, c.isList x = false)
    (op : Op α) (hp : op.Plain s.data.length) :
    (step c op s).1 = (pyStep (same c) op s.data).1 ∧ (step c op s).2.data = (pyStep (same c) op s.data).2 := by
  cases op with
  | getItem k =>
    cases k with
    | int i | indexable i =>
      simp only [step, getKey, M.bind_eq, M.bind_app, M.get_app, getItem_app, pyStep]
      rcases hj : Py.normIndex s.data.length i with _ | j
      · simp [Py.getItem_err hj, Except.map]
      · simp [Py.getItem_ok hj, Except.map, keyRes, out_flat (hf _ (List.getElem_mem _))]
    | slice k =>
      simp only [step, getKey, M.bind_eq, M.bind_app, M.get_app, M.ofExcept_app, pyStep]
      rcases Py.getSlice s.data k with e | xs <;> simp [keyRes]
    | other => exact ⟨rfl, rfl⟩
  | setItem i x =>
    simp only [step, M.bind_eq, pyStep]
    rcases hj : Py.normIndex s.data.length i with _ | j
    · rw [M.bind_err (setItem_err hj x), Py.setItem_err hj]
      exact ⟨rfl, rfl⟩
    · obtain ⟨s', h1, h2⟩ := setItem_ok hq hj x
      rw [M.bind_ok h1, Py.setItem_ok hj]
      exact ⟨rfl, h2⟩
  | setSlice k vs =>
    have hg : Py.getSlice s.data k = (Py.sliceIndices k s.data.length).map fun t =>
        (Py.range t.1 t.2.1 t.2.2).filterMap fun i => s.data[i.toNat]? := by
      simp only [Py.getSlice, Py.sliceIdx]
      rcases Py.sliceIndices k s.data.length with e | t <;> rfl
    rcases hi : Py.sliceIndices k s.data.length with e | t
    · rw [hi] at hg
      cases vs <;>
        simp [step, setSlice, M.bind_app, hg, Except.map, pyStep, hi, Py.setSlice]
    · rw [hi] at hg
      cases vs with
      | none => simp [step, setSlice, M.bind_app, hg, Except.map, pyStep, hi]
      | some vs =>
        simp only [step, setSlice, M.bind_eq, M.bind_app, M.get_app, M.ofExcept_app, hg, Except.map, pyStep]
        rcases Py.setSlice s.data k vs with e | d
        · exact ⟨rfl, rfl⟩
        · simp only [setData, M.modify_app, emit_quiet hq]
          exact ⟨rfl, rfl⟩
  | setOther => exact ⟨rfl, rfl⟩
  | delItem k =>
    cases k with
    | int i =>
      obtain ⟨s', h1, h2⟩ := delItem_int hq (s := s) hp
      simp only [step, M.bind_eq, M.bind_app, h1, pyStep]
      rcases hpop : Py.pop s.data i with e | p <;> rw [hpop] at h2 <;> exact ⟨rfl, h2⟩
    | slice k =>
      obtain ⟨s', h1, h2⟩ := delItem_slice hq k s
      simp only [step, M.bind_eq, M.bind_app, h1, pyStep]
      rcases hpop : Py.delSlice s.data k with e | p <;> rw [hpop] at h2 <;> exact ⟨rfl, h2⟩
    | indexable i => exact hp.elim
    | other => exact ⟨rfl, rfl⟩
  | insert i x =>
    obtain ⟨s', h1, h2⟩ := insert_quiet hq i x s
    simp only [step, M.bind_eq, M.bind_ok h1]
    exact ⟨rfl, h2⟩
  | append x =>
    obtain ⟨s', h1, h2⟩ := append_quiet hq x s
    simp only [step, M.bind_eq, M.bind_ok h1]
    exact ⟨rfl, h2⟩
  | extend xs =>
    obtain ⟨s', h1, h2⟩ := extend_quiet hq xs s
    simp only [step, M.bind_eq, M.bind_ok h1]
    exact ⟨rfl, h2⟩
  | extendSelf =>
    have hm : s.data.map (out c) = s.data := (List.map_congr_left fun x hx => out_flat (hf x hx)).trans (List.map_id'' (fun _ => rfl) _)
    obtain ⟨s', h1, h2⟩ := extend_quiet hq s.data s
    have h3 : extendSelf c s = (.ok (), s') := by
      simp only [extendSelf, M.bind_eq, M.bind_app, M.get_app, hm, h1]
    simp only [step, M.bind_eq, M.bind_ok h3]
    exact ⟨rfl, h2⟩
  | pop k =>
    cases k with
    | int i =>
      obtain ⟨s', h1, h2⟩ := pop_int hq hf i
      simp only [step, M.bind_eq, M.bind_app, h1, pyStep]
      rcases hpop : Py.pop s.data i with e | p <;> rw [hpop] at h2 <;> exact ⟨rfl, h2⟩
    | slice k => exact hp.elim
    | indexable i => exact hp.elim
    | other => exact ⟨rfl, rfl⟩
  | remove x =>
    obtain ⟨s', h1, h2⟩ := remove_quiet hq hf x
    simp only [step, M.bind_eq, M.bind_app, h1]
    simp only [pyStep] at h2 ⊢
    rcases hj : s.data.findIdx? (same c · x) with _ | j <;> rw [hj] at h2 <;> exact ⟨rfl, h2⟩
  | clear =>
    obtain ⟨s', h1, h2⟩ := clear_quiet hq hf
    simp only [step, M.bind_eq, M.bind_ok h1]
    exact ⟨rfl, h2⟩
  | reverse b =>
    obtain ⟨s', h1, h2⟩ := reverse_quiet hq hf b
    simp only [step, M.bind_eq, M.bind_ok h1]
    exact ⟨rfl, h2⟩
  | len => exact ⟨rfl, rfl⟩
  | contents =>
    have hm : s.data.map (out c) = s.data := (List.map_congr_left fun x hx => out_flat (hf x hx)).trans (List.map_id'' (fun _ => rfl) _)
    simp [step, M.bind_app, hm, pyStep]
  | add xs =>
    have hm : s.data.map (out c) = s.data := (List.map_congr_left fun x hx => out_flat (hf x hx)).trans (List.map_id'' (fun _ => rfl) _)
    simp [step, M.bind_app, hm, pyStep]
  | radd xs =>
    have hm : s.data.map (out c) = s.data := (List.map_congr_left fun x hx => out_flat (hf x hx)).trans (List.map_id'' (fun _ => rfl) _)
    simp [step, M.bind_app, hm, pyStep]
  | index x a b =>
    rw [index_quiet hf]
    refine ⟨rfl, ?_⟩
    simp only [pyStep]
    split <;> rfl
  | contains x =>
    simp only [step, M.bind_eq, M.bind_app, M.get_app, M.pure_eq, M.pure_app, pyStep, and_true]
    congr 2
    rw [Bool.eq_iff_iff]
    simp only [List.any_eq_true]
    exact ⟨fun ⟨v, h1, h2⟩ => ⟨v, h1, by rwa [out_flat (hf v h1)] at h2⟩,
      fun ⟨v, h1, h2⟩ => ⟨v, h1, by rwa [out_flat (hf v h1)]⟩⟩
  | count x =>
    simp only [step, M.bind_eq, M.bind_app, M.get_app, M.pure_eq, M.pure_app, pyStep, and_true]
    congr 3
    refine List.countP_congr fun v hv => ?_
    rw [out_flat (hf v hv)]
  | move a b => exact hp.elim
  | moveMultiple ks d => exact hp.elim
  | childEmit g x m => exact hp.elim

theorem foldl_set_mem {ps : List (Int × α)} {l : List α} {y : α}
    (h : y ∈ ps.foldl (fun l p => l.set p.1.toNat p.2) l) : y ∈ l ∨ y ∈ ps.map (·.2) := by
  induction ps generalizing l with
  | nil => exact .inl h
  | cons p ps ih =>
    rcases ih h with h | h
    · rcases List.mem_or_eq_of_mem_set h with h | rfl
      · exact .inl h
      · exact .inr (by simp)
    · exact .inr (by simp at h ⊢; exact .inr h)

/-- Operations only put in elements they are given. -/
theorem pyStep_mem {eqv : α → α → Bool} {op : Op α} {l : List α} {y : α} (h : y ∈ (pyStep eqv op l).2) :
    y ∈ l ∨ y ∈ op.news := by
  have hpop : ∀ {i : Int} {p : α × List α}, Py.pop l i = .ok p → y ∈ p.2 → y ∈ l := by
    intro i p h1 h2
    rcases hj : Py.normIndex l.length i with _ | j
    · rw [Py.pop_err hj] at h1; cases h1
    · rw [Py.pop_ok hj] at h1; cases h1; exact List.mem_of_mem_eraseIdx h2
  cases op with
  | getItem k => cases k <;> simp only [pyStep] at h <;> (try split at h) <;> exact .inl h
  | setItem i x =>
    simp only [pyStep, Py.setItem] at h
    generalize Py.normIndex l.length i = r at h
    rcases r with _ | j
    · exact .inl h
    · rcases List.mem_or_eq_of_mem_set h with h | rfl
      · exact .inl h
      · exact .inr (by simp [Op.news])
  | setSlice k vs =>
    cases vs with
    | none =>
      simp only [pyStep] at h
      split at h <;> exact .inl h
    | some vs =>
      simp only [pyStep, Py.setSlice] at h
      generalize Py.sliceIndices k l.length = r at h
      rcases r with e | ⟨a, b, st⟩
      · exact .inl h
      · simp only at h
        by_cases h1 : st = 1
        · rw [if_pos h1] at h
          simp only [List.mem_append] at h
          rcases h with (h | h) | h
          · exact .inl (List.mem_of_mem_take h)
          · exact .inr h
          · exact .inl (List.mem_of_mem_drop h)
        · rw [if_neg h1] at h
          split at h
          · rename_i heq
            split at heq
            · cases heq
              rcases foldl_set_mem h with h | h
              · exact .inl h
              · refine .inr ?_
                simp only [List.mem_map] at h
                obtain ⟨p, hp, rfl⟩ := h
                exact (List.of_mem_zip hp).2
            · cases heq
          · exact .inl h
  | delItem k =>
    cases k with
    | int i | indexable i =>
      simp only [pyStep] at h
      split at h
      · rename_i p hp; exact .inl (hpop hp h)
      · exact .inl h
    | slice k =>
      simp only [pyStep, Py.delSlice] at h
      generalize Py.sliceIdx k l.length = r at h
      rcases r with e | idx
      · exact .inl h
      · simp only [List.mem_map, List.mem_filter] at h
        obtain ⟨p, ⟨hp, -⟩, rfl⟩ := h
        exact .inl (List.fst_mem_of_mem_zipIdx hp)
    | other => exact .inl h
  | insert i x =>
    simp only [pyStep, Py.insert, List.mem_append, List.mem_cons] at h
    rcases h with h | rfl | h
    · exact .inl (List.mem_of_mem_take h)
    · exact .inr (by simp [Op.news])
    · exact .inl (List.mem_of_mem_drop h)
  | append x | extend xs => simpa [pyStep, Op.news] using h
  | extendSelf => simpa [pyStep, Op.news] using h
  | pop k =>
    cases k with
    | int i | indexable i =>
      simp only [pyStep] at h
      split at h
      · rename_i p hp; exact .inl (hpop hp h)
      · exact .inl h
    | slice k => exact .inl h
    | other => exact .inl h
  | remove x =>
    simp only [pyStep] at h
    split at h
    · exact .inl (List.mem_of_mem_eraseIdx h)
    · exact .inl h
  | clear => simp [pyStep] at h
  | reverse b => simpa [pyStep, Op.news] using h
  | index x a b =>
    simp only [pyStep] at h
    split at h <;> exact .inl h
  | _ => exact .inl h

end Psygnal.EL
