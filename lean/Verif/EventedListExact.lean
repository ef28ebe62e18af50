import Verif.EventedListEvents

/-!
# The events of each operation of `EventedList`: specification and lemmas for C66
-/

namespace Psygnal.EL
open Psygnal.Py (M Err Key Slice)

variable {α : Type}

/-- The positions that a key stands for in a list of length `n`, from the end
(what `_delitem_indices` is to enumerate, `/repo/src/psygnal/containers/_evented_list.py:189-197`). -/
def positions (n : Nat) : Key → List Nat
  | .int i => if 0 ≤ i ∧ i < n then [i.toNat] else if -(n : Int) ≤ i ∧ i < 0 then [(i + n).toNat] else []
  | .slice k => match Py.sliceIdx k n with
    | .ok idx => (List.range n).reverse.filter fun (j : Nat) => idx.contains (j : Int)
    | .error _ => []
  | _ => []

/-- The events of removals from `d`: each item is announced and reported, with the position and value it had in `d`
(events declared in `/repo/src/psygnal/containers/_evented_list.py:79-87`). -/
def removals (d : List α) (ps : List Nat) : List (Ev α) :=
  ps.flatMap fun (j : Nat) => match d[j]? with
    | some v => [.removing j, .removed j v]
    | none => []

/-- The events of appending `xs` to a list of length `n`
(events declared in `/repo/src/psygnal/containers/_evented_list.py:79-87`). -/
def insertions (n : Nat) (xs : List α) : List (Ev α) :=
  xs.zipIdx n |>.flatMap fun p => [.inserting p.2, .inserted p.2 p.1]

/-- The event for an emission of signal `g` of the item `obj` at position `i`
(`/repo/src/psygnal/containers/_evented_list.py:407-425`). -/
def childEv (i : Nat) (obj : α) (g : Nat) : ChildMsg → Ev α
  | .plain args => .childEvent i obj g args
  | .info g' args => .childEvent i obj g' args

/-- The events that an operation (other than `move_multiple`) emits if it succeeds on a list with contents `d`; `conns` tells how many
times the list is connected to each signal of children
(specification of `/repo/src/psygnal/containers/_evented_list.py:91-425`). -/
def expected [DecidableEq α] (same : α → α → Bool) (d : List α) (conns : Nat → Nat) : Op α → List (Ev α)
  | .setItem i x => (positions d.length (.int i)).flatMap fun (j : Nat) => match d[j]? with
    | some old => if x = old then [] else [.changed i old x]
    | none => []
  | .setSlice k (some vs) => match Py.getSlice d k with
    | .ok old => [.changedSlice k old vs]
    | .error _ => []
  | .delItem k | .pop k => removals d (positions d.length k)
  | .insert i x => [.inserting i, .inserted i x]
  | .append x => insertions d.length [x]
  | .extend xs => insertions d.length xs
  | .extendSelf => insertions d.length d
  | .remove x => removals d (d.findIdx? (same · x)).toList
  | .clear => removals d (List.range d.length).reverse
  | .reverse false => [.reordered]
  | .reverse true => ((List.range (d.length / 2)).flatMap fun (i : Nat) => match d[i]?, d[d.length - 1 - i]? with
    | some a, some b => if a = b then [] else [.changed i a b, .changed (d.length - 1 - i : Nat) b a]
    | _, _ => []) ++ [.reordered]
  | .move src dest =>
    if (if dest < 0 then dest + d.length + 1 else dest) = src ∨ (if dest < 0 then dest + d.length + 1 else dest) = src + 1 then []
    else match Py.getItem d src with
      | .ok v => [.moving src (if dest < 0 then dest + d.length + 1 else dest),
          .moved src (if (if dest < 0 then dest + d.length + 1 else dest) > src
            then (if dest < 0 then dest + d.length + 1 else dest) - 1
            else (if dest < 0 then dest + d.length + 1 else dest)) v, .reordered]
      | .error _ => []
  | .childEmit g obj m => match d.findIdx? (same · obj) with
    | some i => List.replicate (conns g) (childEv i obj g m)
    | none => []
  | _ => []

variable {c : Cfg α} [c.Passive]

/-- The events so far, without the contents. -/
def St.evs (s : St α) : List (Ev α) := s.log.map Prod.fst

theorem emit_says (hq : c.Quiet) (e : Ev α) (s : St α) : ∃ s', emit c e s = (.ok (), s') ∧ s'.data = s.data ∧
    s'.evs = s.evs ++ [e] ∧ s'.blocked = s.blocked :=
  ⟨_, emit_quiet hq e s, rfl, by simp [St.evs], rfl⟩

theorem insert_says (hq : c.Quiet) (i : Int) (x : α) (s : St α) : ∃ s', insert c i x s = (.ok (), s') ∧
    s'.data = Py.insert s.data i x ∧ s'.evs = s.evs ++ [.inserting i, .inserted i x] ∧ s'.blocked = s.blocked := by
  simp only [insert, M.bind_eq, M.bind_app, emit_quiet hq, M.get_app, setData, M.modify_app, postInsert]
  split <;> exact ⟨_, rfl, rfl, by simp [St.evs], rfl⟩

theorem append_says (hq : c.Quiet) (x : α) (s : St α) : ∃ s', append c x s = (.ok (), s') ∧ s'.data = s.data ++ [x] ∧
    s'.evs = s.evs ++ insertions s.data.length [x] ∧ s'.blocked = s.blocked := by
  obtain ⟨s', h1, h2, h3, h4⟩ := insert_says hq s.data.length x s
  exact ⟨s', h1, by rw [h2, Py.insert_length], by rw [h3]; rfl, h4⟩

theorem extend_says (hq : c.Quiet) (xs : List α) (s : St α) : ∃ s', extend c xs s = (.ok (), s') ∧
    s'.data = s.data ++ xs ∧ s'.evs = s.evs ++ insertions s.data.length xs ∧ s'.blocked = s.blocked := by
  induction xs generalizing s with
  | nil => exact ⟨s, rfl, by simp, by simp [insertions], rfl⟩
  | cons x xs ih =>
    obtain ⟨s1, h1, h2, h3, h4⟩ := append_says hq x s
    obtain ⟨s2, h5, h6, h7, h8⟩ := ih s1
    refine ⟨s2, ?_, ?_, ?_, h8.trans h4⟩
    · rw [extend, M.forEach, M.bind_ok h1]
      exact h5
    · rw [h6, h2, List.append_assoc]
      rfl
    · rw [h7, h3, h2, List.append_assoc]
      simp [insertions]

theorem delOne_says (hq : c.Quiet) {i : Int} {s : St α} {j : Nat} (h : Py.normIndex s.data.length i = some j) :
    ∃ s', delOne c i s = (.ok (), s') ∧ s'.data = s.data.eraseIdx j ∧
      s'.evs = s.evs ++ [.removing i, .removed i (s.data[j]'(Py.normIndex_lt h))] ∧ s'.blocked = s.blocked := by
  obtain ⟨s1, h1, h2, h4, h5⟩ := preRemove_ok (c := c) (i := i)
    (s := { s with log := s.log ++ [(.removing i, s.data)] }) (j := j) h
  simp only [delOne, M.bind_eq, M.bind_app, emit_quiet hq, h1, M.get_app, M.ofExcept_app, setData, M.modify_app]
  have h3 : Py.normIndex s1.data.length i = some j := by rw [h2]; exact h
  rw [Py.pop_ok h3]
  exact ⟨_, rfl, by simp [h2], by simp [St.evs, h4, h2], h5⟩

omit [c.Passive] in
theorem removals_congr {d d' : List α} {ps : List Nat} (h : ∀ j ∈ ps, d[j]? = d'[j]?) : removals d ps = removals d' ps := by
  induction ps with
  | nil => rfl
  | cons j ps ih =>
    simp only [removals, List.flatMap_cons]
    rw [h j (by simp)]
    congr 1
    exact ih fun k hk => h k (by simp [hk])

theorem delMany_says (hq : c.Quiet) {ps : List Nat} (hd : ps.Pairwise (fun a b => b < a)) {s : St α}
    (hb : ∀ j ∈ ps, j < s.data.length) : ∃ s', M.forEach (ps.map fun (j : Nat) => (j : Int)) (delOne c) s = (.ok (), s') ∧
      s'.evs = s.evs ++ removals s.data ps ∧ s'.blocked = s.blocked := by
  induction ps generalizing s with
  | nil => exact ⟨s, rfl, by simp [removals], rfl⟩
  | cons j ps ih =>
    rw [List.pairwise_cons] at hd
    have hj := hb j (by simp)
    obtain ⟨s1, h1, h2, h3, h4⟩ := delOne_says hq (Py.normIndex_nat hj)
    obtain ⟨s2, h5, h6, h7⟩ := ih hd.2 (s := s1) (fun k hk => by
      rw [h2, List.length_eraseIdx_of_lt hj]
      have := hd.1 k hk
      omega)
    refine ⟨s2, ?_, ?_, h7.trans h4⟩
    · rw [List.map_cons, M.forEach, M.bind_ok h1]
      exact h5
    · rw [h6, h3, List.append_assoc]
      congr 1
      simp only [removals, List.flatMap_cons, List.getElem?_eq_getElem hj]
      congr 1
      refine removals_congr fun k hk => ?_
      rw [h2, List.getElem?_eraseIdx]
      simp [hd.1 k hk]

omit [c.Passive] in
theorem sortDesc_eq {n : Nat} {idx : List Int} (hn : idx.Nodup) (hb : ∀ i ∈ idx, 0 ≤ i ∧ i < n) :
    sortDesc idx = (((List.range n).reverse.filter fun (j : Nat) => idx.contains (j : Int)).map fun (j : Nat) => (j : Int)) := by
  have hp := sortDesc_perm idx
  have hm : ((List.range n).reverse.filter fun (j : Nat) => idx.contains (j : Int)).Pairwise (fun a b => b < a) := by
    refine List.Pairwise.filter _ ?_
    rw [List.pairwise_reverse]
    exact List.pairwise_lt_range
  have hm' : (((List.range n).reverse.filter fun (j : Nat) => idx.contains (j : Int)).map fun (j : Nat) => (j : Int)).Pairwise
      (fun a b => b ≤ a) := by
    rw [List.pairwise_map]
    exact hm.imp fun h => by omega
  refine List.Perm.eq_of_pairwise (le := fun a b => b ≤ a) (fun a b _ _ h1 h2 => by omega) (sortDesc_sorted idx) hm' ?_
  rw [List.perm_ext_iff_of_nodup (hp.nodup_iff.2 hn)]
  · intro x
    rw [hp.mem_iff, List.mem_map]
    constructor
    · intro hx
      obtain ⟨h1, h2⟩ := hb x hx
      refine ⟨x.toNat, ?_, by omega⟩
      simp only [List.mem_filter, List.mem_reverse, List.mem_range, List.contains_iff_mem]
      refine ⟨by omega, ?_⟩
      rwa [Int.toNat_of_nonneg h1]
    · rintro ⟨j, hj, rfl⟩
      simp only [List.mem_filter, List.contains_iff_mem] at hj
      exact hj.2
  · rw [List.nodup_iff_pairwise_ne, List.pairwise_map]
    exact hm.imp fun h e => by omega

omit [c.Passive] in
theorem positions_int {n : Nat} {i : Int} {j : Nat} (h : Py.normIndex n i = some j) : positions n (.int i) = [j] := by
  simp only [Py.normIndex] at h
  simp only [positions]
  grind

theorem delInt_says (hq : c.Quiet) {i : Int} {s : St α} {j : Nat} (h : Py.normIndex s.data.length i = some j) :
    ∃ s', delItem c (.int i) s = (.ok (), s') ∧ s'.data = s.data.eraseIdx j ∧
      s'.evs = s.evs ++ removals s.data [j] ∧ s'.blocked = s.blocked := by
  have hj := Py.normIndex_lt h
  have e : (if i ≥ 0 then i else i + s.data.length) = (j : Int) := by
    simp only [Py.normIndex] at h
    grind
  obtain ⟨s', h1, h2, h3, h4⟩ := delOne_says hq (Py.normIndex_nat hj)
  refine ⟨s', ?_, h2, ?_, h4⟩
  · simp only [delItem, M.bind_eq, M.bind_app, M.get_app, delIndices, M.ofExcept_app, e]
    rw [forEach_single]
    exact h1
  · rw [h3]
    simp [removals, hj]

theorem delSlice_says (hq : c.Quiet) {k : Slice} {s : St α} {idx : List Int} (h : Py.sliceIdx k s.data.length = .ok idx) :
    ∃ s', delItem c (.slice k) s = (.ok (), s') ∧ s'.evs = s.evs ++ removals s.data (positions s.data.length (.slice k)) ∧
      s'.blocked = s.blocked := by
  simp only [delItem, M.bind_eq, M.bind_app, M.get_app, delIndices, M.ofExcept_app, h, positions]
  rw [sortDesc_eq (n := s.data.length) (Py.sliceIdx_nodup h) (fun i hi => Py.sliceIdx_mem h hi)]
  refine delMany_says hq ?_ ?_
  · refine List.Pairwise.filter _ ?_
    rw [List.pairwise_reverse]
    exact List.pairwise_lt_range
  · intro j hj
    simp only [List.mem_filter, List.mem_reverse, List.mem_range] at hj
    exact hj.1

theorem setItem_says [DecidableEq α] (hq : c.Quiet) {i : Int} {s : St α} {j : Nat}
    (h : Py.normIndex s.data.length i = some j) (x : α) : ∃ s', setItem c i x s = (.ok (), s') ∧ s'.data = s.data.set j x ∧
      s'.evs = s.evs ++ (if x = s.data[j]'(Py.normIndex_lt h) then [] else [.changed i (s.data[j]'(Py.normIndex_lt h)) x]) ∧
      s'.blocked = s.blocked := by
  have hj := Py.normIndex_lt h
  simp only [setItem, M.bind_eq, M.bind_app, M.get_app, M.ofExcept_app, Py.getItem_ok h]
  split
  · rename_i hx
    subst hx
    exact ⟨s, rfl, by simp, by simp, rfl⟩
  · simp only [M.bind_app, M.ofExcept_app, Py.setItem_ok h, setData, M.modify_app, emit_quiet hq]
    exact ⟨_, rfl, rfl, by simp [St.evs], rfl⟩

theorem swap_says [DecidableEq α] (hq : c.Quiet) {l : List α} (hf : ∀ x ∈ l, c.isList x = false) {k : Nat}
    (hk : k < l.length / 2) {s : St α} (h : HalfReversed l s.data k) :
    ∃ s', swap c l.length k s = (.ok (), s') ∧ HalfReversed l s'.data (k + 1) ∧
      s'.evs = s.evs ++ (match l[k]?, l[l.length - 1 - k]? with
        | some a, some b => if a = b then [] else [.changed k a b, .changed (l.length - 1 - k : Nat) b a]
        | _, _ => []) ∧ s'.blocked = s.blocked := by
  obtain ⟨s0, h0, h0'⟩ := swap_ok hq hf hk h
  obtain ⟨hl, hg⟩ := h
  have h1 : k < s.data.length := by omega
  have h2 : l.length - 1 - k < s.data.length := by omega
  have e : ((l.length : Int) - k - 1) = ((l.length - 1 - k : Nat) : Int) := by omega
  have hk1 : k < l.length := by omega
  have hk2 : l.length - 1 - k < l.length := by omega
  have g1 : s.data[k] = l[k] := by
    have := hg k (by omega)
    rw [if_neg (by omega)] at this
    rw [List.getElem?_eq_getElem h1, List.getElem?_eq_getElem (by omega)] at this
    exact Option.some.inj this
  have g2 : s.data[l.length - 1 - k] = l[l.length - 1 - k] := by
    have := hg (l.length - 1 - k) (by omega)
    rw [if_neg (by omega)] at this
    rw [List.getElem?_eq_getElem h2, List.getElem?_eq_getElem (by omega)] at this
    exact Option.some.inj this
  have n1 := Py.normIndex_nat h1
  have n2 := Py.normIndex_nat h2
  obtain ⟨s1, a1, a2, a3, a4⟩ := setItem_says hq n1 s.data[l.length - 1 - k]
  have n3 : Py.normIndex s1.data.length ((l.length - 1 - k : Nat) : Int) = some (l.length - 1 - k) := by
    rw [a2, List.length_set]
    exact n2
  obtain ⟨s2, b1, b2, b3, b4⟩ := setItem_says hq n3 s.data[k]
  have hrun : swap c l.length k s = (.ok (), s2) := by
    simp only [swap, M.bind_eq, M.bind_app, getItem_app, e, Py.getItem_ok n1, Py.getItem_ok n2, Except.map]
    rw [out_flat (by rw [g2]; exact hf _ (List.getElem_mem _)), a1]
    simp only
    rw [out_flat (by rw [g1]; exact hf _ (List.getElem_mem _)), b1]
  rw [hrun] at h0
  injection h0 with _ h0
  subst h0
  refine ⟨s2, hrun, h0', ?_, b4.trans a4⟩
  have n4 : k ≠ l.length - 1 - k := by omega
  have hb : s1.data[l.length - 1 - k]'(Py.normIndex_lt n3) = l[l.length - 1 - k] := by
    simp only [a2]
    rw [List.getElem_set_ne n4, g2]
  rw [b3, a3]
  simp only [hb, g1, g2, List.getElem?_eq_getElem hk1, List.getElem?_eq_getElem hk2, List.append_assoc]
  congr 1
  by_cases hx : l[k] = l[l.length - 1 - k]
  · simp [hx]
  · have hx' : ¬ l[l.length - 1 - k] = l[k] := fun e => hx e.symm
    simp [hx, hx']

theorem swaps_says [DecidableEq α] (hq : c.Quiet) {l : List α} (hf : ∀ x ∈ l, c.isList x = false) (m a : Nat)
    (hm : a + m ≤ l.length / 2) {s : St α} (h : HalfReversed l s.data a) :
    ∃ s', M.forEach (List.range' a m) (swap c l.length) s = (.ok (), s') ∧
      s'.evs = s.evs ++ (List.range' a m).flatMap (fun k => match l[k]?, l[l.length - 1 - k]? with
        | some a, some b => if a = b then [] else [Ev.changed k a b, .changed (l.length - 1 - k : Nat) b a]
        | _, _ => []) ∧ s'.blocked = s.blocked := by
  induction m generalizing a s with
  | zero => exact ⟨s, rfl, by simp, rfl⟩
  | succ m ih =>
    obtain ⟨s1, h1, h2, h3, h4⟩ := swap_says hq hf (by omega) h
    obtain ⟨s2, h5, h6, h7⟩ := ih (a + 1) (by omega) h2
    refine ⟨s2, ?_, ?_, h7.trans h4⟩
    · rw [List.range'_succ, M.forEach, M.bind_ok h1]
      exact h5
    · rw [h6, h3, List.append_assoc, List.range'_succ, List.flatMap_cons]

theorem clearLoop_says (hq : c.Quiet) (n : Nat) {s : St α} (hn : s.data.length < n) :
    ∃ s', clearLoop c n s = (.ok (), s') ∧ s'.evs = s.evs ++ removals s.data (List.range s.data.length).reverse ∧
      s'.blocked = s.blocked := by
  induction n generalizing s with
  | zero => omega
  | succ n ih =>
    rcases hj : Py.normIndex s.data.length (-1) with _ | j
    · have hz : s.data.length = 0 := by
        simp only [Py.normIndex] at hj
        grind
      refine ⟨s, ?_, by simp [hz, removals], rfl⟩
      simp only [clearLoop, pop, getKey, M.bind_eq, M.bind_app, M.get_app, getItem_app, Py.getItem_err hj, Except.map]
    · obtain ⟨s1, h1, h2, h3, h4⟩ := delInt_says hq hj
      have hjl := Py.normIndex_lt hj
      have hj' : j = s.data.length - 1 := by
        simp only [Py.normIndex] at hj
        grind
      obtain ⟨s2, h5, h6, h7⟩ := ih (s := s1) (by
        rw [h2, List.length_eraseIdx_of_lt hjl]
        omega)
      refine ⟨s2, ?_, ?_, h7.trans h4⟩
      · have : pop c (.int (-1)) s = (.ok (true, [out c (s.data[j]'hjl)]), s1) := by
          simp only [pop, getKey, M.bind_eq, M.bind_app, M.get_app, getItem_app, Py.getItem_ok hj, Except.map,
            M.pure_eq, M.pure_app, h1]
        simp only [clearLoop, this]
        exact h5
      · rw [h6, h3, List.append_assoc]
        congr 1
        obtain ⟨m, hm⟩ : ∃ m, s.data.length = m + 1 := ⟨j, by omega⟩
        have hjm : j = m := by omega
        subst hjm
        rw [h2, List.length_eraseIdx_of_lt hjl, hm, List.range_succ, List.reverse_append]
        simp only [Nat.add_sub_cancel, List.reverse_cons, List.reverse_nil, List.nil_append, List.singleton_append,
          removals, List.flatMap_cons, List.flatMap_nil, List.append_nil]
        congr 1
        refine removals_congr fun k hk => ?_
        rw [List.getElem?_eraseIdx]
        have : k < j := by simpa using hk
        simp [this]

omit [c.Passive] in
theorem index_says [DecidableEq α] {s : St α} (hf : ∀ x ∈ s.data, c.isList x = false) (x : α) :
    index c x 0 none s = (match s.data.findIdx? (same c · x) with
      | some j => .ok (j : Int)
      | none => .error .value, s) := by
  have h := indexLoop_findIdx (c := c) hf 0 (x := x)
  simp only [Int.zero_add] at h
  simp only [index, M.bind_eq, M.bind_app, M.get_app, M.ofExcept_app]
  exact congrArg (·, s) h

theorem move_says (hq : c.Quiet) {src dest : Int} {s : St α} {j : Nat} (h : Py.normIndex s.data.length src = some j) :
    ∃ r s', move c src dest s = (.ok r, s') ∧ s'.blocked = s.blocked ∧ s'.evs = s.evs ++
      (if (if dest < 0 then dest + s.data.length + 1 else dest) = src ∨
        (if dest < 0 then dest + s.data.length + 1 else dest) = src + 1 then [] else
        [.moving src (if dest < 0 then dest + s.data.length + 1 else dest),
          .moved src (if (if dest < 0 then dest + s.data.length + 1 else dest) > src
            then (if dest < 0 then dest + s.data.length + 1 else dest) - 1
            else (if dest < 0 then dest + s.data.length + 1 else dest)) (s.data[j]'(Py.normIndex_lt h))] ++
        if s.blocked then [] else [.reordered]) := by
  simp only [move, M.bind_eq, M.bind_app, M.get_app, ← Int.add_assoc]
  generalize (if dest < 0 then dest + (s.data.length : Int) + 1 else dest) = e
  split
  · exact ⟨false, s, rfl, rfl, by simp⟩
  · simp only [M.bind_app, emit_quiet hq, M.get_app, M.ofExcept_app, Py.pop_ok h, setData, M.modify_app, emitReordered]
    cases hb : s.blocked
    · simp only [Bool.false_eq_true, if_false]
      exact ⟨true, _, rfl, rfl, by simp [St.evs]⟩
    · simp only [if_true]
      exact ⟨true, _, rfl, rfl, by simp [St.evs]⟩

theorem move_err (hq : c.Quiet) {src dest : Int} {s : St α} (h : Py.normIndex s.data.length src = none) :
    move c src dest s = (.ok false, s) ∨ ∃ e s1, move c src dest s = (.error e, s1) := by
  simp only [move, M.bind_eq, M.bind_app, M.get_app]
  generalize (if dest < 0 then dest + ((s.data.length : Int) + 1) else dest) = e
  split
  · exact .inl rfl
  · simp only [M.bind_app, emit_quiet hq, M.get_app, M.ofExcept_app, Py.pop_err h]
    exact .inr ⟨_, _, rfl⟩

/-- Operations whose positions exist, other than `move_multiple`. -/
def Op.Here (n : Nat) : Op α → Prop
  | .delItem (.int i) | .move i _ => -(n : Int) ≤ i ∧ i < n
  | .moveMultiple _ _ => False
  | _ => True

/-- What a step did: the right events, or none if it raised. -/
def Right (evs : List (Ev α)) (s : St α) (r : Except Err (Res α) × St α) : Prop :=
  (∃ x s', r = (.ok x, s') ∧ s'.evs = s.evs ++ evs) ∨ ∃ e s', r = (.error e, s') ∧ s'.log = s.log

omit [c.Passive] in
theorem normIndex_some {n : Nat} {i : Int} (h1 : -(n : Int) ≤ i) (h2 : i < n) : ∃ j, Py.normIndex n i = some j := by
  simp only [Py.normIndex]
  have : 0 ≤ (if i < 0 then i + n else i) ∧ (if i < 0 then i + (n : Int) else i) < n := by split <;> omega
  exact ⟨_, if_pos this⟩

theorem step_says [DecidableEq α] (hq : c.Quiet) {s : St α} (hb : s.blocked = false) (hf : ∀ x ∈ s.data, c.isList x = false)
    (op : Op α) (ho : op.Here s.data.length) : Right (expected (same c) s.data s.conns op) s (step c op s) := by
  have quiet : ∀ {r : Except Err (Res α) × St α}, r.2 = s → Right [] s r := by
    rintro ⟨_ | x, s'⟩ (rfl : s' = s)
    · exact .inr ⟨_, _, rfl, rfl⟩
    · exact .inl ⟨_, _, rfl, by simp⟩
  cases op with
  | getItem k =>
    refine quiet ?_
    simp only [step, getKey, M.bind_eq, M.bind_app, M.get_app]
    cases k with
    | int i | indexable i =>
      simp only [M.bind_app, getItem_app]
      rcases Py.getItem s.data i with _ | _ <;> rfl
    | slice k =>
      simp only [M.bind_app, M.ofExcept_app]
      rcases Py.getSlice s.data k with _ | _ <;> rfl
    | other => rfl
  | setItem i x =>
    rcases h : Py.normIndex s.data.length i with _ | j
    · refine .inr ⟨.index, s, ?_, rfl⟩
      simp only [step, M.bind_eq, M.bind_app, setItem_err h]
    · obtain ⟨s', h1, -, h3, -⟩ := setItem_says hq h x
      refine .inl ⟨.unit, s', ?_, ?_⟩
      · simp only [step, M.bind_eq, M.bind_app, h1, M.pure_eq, M.pure_app]
      · rw [h3]
        simp [expected, positions_int h, Py.normIndex_lt h]
  | setSlice k vs =>
    simp only [step, setSlice, M.bind_eq, M.bind_app, M.get_app, M.ofExcept_app]
    rcases h1 : Py.getSlice s.data k with e | old
    · exact .inr ⟨e, s, rfl, rfl⟩
    · cases vs with
      | none => exact .inr ⟨.type, s, rfl, rfl⟩
      | some vs =>
        rcases h2 : Py.setSlice s.data k vs with e | d
        · exact .inr ⟨e, s, by simp [M.bind_app, h2], rfl⟩
        · simp only [M.bind_app, M.ofExcept_app, h2, setData, M.modify_app, emit_quiet hq, M.pure_eq, M.pure_app]
          exact .inl ⟨.unit, _, rfl, by simp [St.evs, expected, h1]⟩
  | setOther => exact .inr ⟨.type, s, rfl, rfl⟩
  | delItem k =>
    cases k with
    | int i =>
      obtain ⟨j, h⟩ := normIndex_some ho.1 ho.2
      obtain ⟨s', h1, -, h3, -⟩ := delInt_says hq h
      refine .inl ⟨.unit, s', ?_, ?_⟩
      · simp only [step, M.bind_eq, M.bind_app, h1, M.pure_eq, M.pure_app]
      · rw [h3, expected, positions_int h]
    | slice k =>
      rcases h : Py.sliceIdx k s.data.length with e | idx
      · refine .inr ⟨e, s, ?_, rfl⟩
        simp only [step, delItem, M.bind_eq, M.bind_app, M.get_app, delIndices, M.ofExcept_app, h]
      · obtain ⟨s', h1, h2, -⟩ := delSlice_says hq h
        refine .inl ⟨.unit, s', ?_, h2⟩
        simp only [step, M.bind_eq, M.bind_app, h1, M.pure_eq, M.pure_app]
    | indexable i | other => exact .inr ⟨.type, s, rfl, rfl⟩
  | insert i x =>
    obtain ⟨s', h1, -, h2, -⟩ := insert_says hq i x s
    exact .inl ⟨.unit, s', by simp only [step, M.bind_eq, M.bind_app, h1, M.pure_eq, M.pure_app], h2⟩
  | append x =>
    obtain ⟨s', h1, -, h2, -⟩ := append_says hq x s
    exact .inl ⟨.unit, s', by simp only [step, M.bind_eq, M.bind_app, h1, M.pure_eq, M.pure_app], h2⟩
  | extend xs =>
    obtain ⟨s', h1, -, h2, -⟩ := extend_says hq xs s
    exact .inl ⟨.unit, s', by simp only [step, M.bind_eq, M.bind_app, h1, M.pure_eq, M.pure_app], h2⟩
  | extendSelf =>
    have e : s.data.map (out c) = s.data := by
      exact (List.map_congr_left fun x hx => (out_flat (hf x hx) : out c x = id x)).trans (List.map_id _)
    obtain ⟨s', h1, -, h2, -⟩ := extend_says hq s.data s
    refine .inl ⟨.unit, s', ?_, h2⟩
    simp only [step, extendSelf, M.bind_eq, M.bind_app, M.get_app, e, h1, M.pure_eq, M.pure_app]
  | pop k =>
    cases k with
    | int i =>
      rcases h : Py.normIndex s.data.length i with _ | j
      · refine .inr ⟨.index, s, ?_, rfl⟩
        simp only [step, pop, getKey, M.bind_eq, M.bind_app, M.get_app, getItem_app, Py.getItem_err h, Except.map]
      · obtain ⟨s', h1, -, h3, -⟩ := delInt_says hq h
        refine .inl ⟨.item (out c (s.data[j]'(Py.normIndex_lt h))), s', ?_, ?_⟩
        · simp only [step, pop, getKey, M.bind_eq, M.bind_app, M.get_app, getItem_app, Py.getItem_ok h, Except.map,
            M.pure_eq, M.pure_app, h1]
          rfl
        · rw [h3, expected, positions_int h]
    | slice k =>
      simp only [step, pop, getKey, M.bind_eq, M.bind_app, M.get_app, M.ofExcept_app, Py.getSlice]
      rcases h : Py.sliceIdx k s.data.length with e | idx
      · exact .inr ⟨e, s, rfl, rfl⟩
      · obtain ⟨s', h1, h2, -⟩ := delSlice_says hq h
        exact .inl ⟨_, s', by simp only [M.pure_eq, M.pure_app, h1]; rfl, h2⟩
    | indexable i =>
      simp only [step, pop, getKey, M.bind_eq, M.bind_app, M.get_app, getItem_app]
      rcases Py.getItem s.data i with e | x
      · exact .inr ⟨e, s, rfl, rfl⟩
      · exact .inr ⟨.type, s, rfl, rfl⟩
    | other => exact .inr ⟨.type, s, rfl, rfl⟩
  | remove x =>
    simp only [step, remove, M.bind_eq, M.bind_app, index_says hf]
    rcases h : s.data.findIdx? (same c · x) with _ | j
    · exact .inr ⟨.value, s, rfl, rfl⟩
    · have hlt : j < s.data.length := (List.findIdx?_eq_some_iff_getElem.1 h).1
      obtain ⟨s', h1, -, h3, -⟩ := delInt_says hq (Py.normIndex_nat hlt)
      refine .inl ⟨.unit, s', by simp only [h1, M.pure_eq, M.pure_app], ?_⟩
      simp [h3, expected, h]
  | clear =>
    obtain ⟨s', h1, h2, -⟩ := clearLoop_says hq (s.data.length + 1 + c.rounds) (s := s) (by omega)
    refine .inl ⟨.unit, s', ?_, h2⟩
    simp only [step, clear, M.bind_eq, M.bind_app, M.get_app, h1, M.pure_eq, M.pure_app]
  | reverse b =>
    cases b with
    | false =>
      simp only [step, reverse, M.bind_eq, M.bind_app, M.get_app, Bool.false_eq_true, if_false, setData, M.modify_app,
        emitReordered, hb, emit_quiet hq, M.pure_eq, M.pure_app]
      exact .inl ⟨.unit, _, rfl, by simp [St.evs, expected]⟩
    | true =>
      obtain ⟨s', h1, h2, h3⟩ := swaps_says hq hf (s.data.length / 2) 0 (by omega) (s := s)
        ⟨rfl, fun j hj => by simp; omega⟩
      rw [← List.range_eq_range'] at h1 h2
      refine .inl ⟨.unit, { s' with log := s'.log ++ [(.reordered, s'.data)] }, ?_, ?_⟩
      · simp only [step, reverse, M.bind_eq, M.bind_app, M.get_app, if_true, h1, emitReordered, h3, hb,
          Bool.false_eq_true, if_false, emit_quiet hq, M.pure_eq, M.pure_app]
      · have : ({ s' with log := s'.log ++ [(.reordered, s'.data)] } : St α).evs = s'.evs ++ [.reordered] := by
          simp [St.evs]
        rw [this, h2, expected, List.append_assoc]
  | move src dest =>
    obtain ⟨j, h⟩ := normIndex_some ho.1 ho.2
    obtain ⟨r, s', h1, -, h2⟩ := move_says hq h (dest := dest)
    refine .inl ⟨.bool r, s', by simp only [step, M.bind_eq, M.bind_app, h1, M.pure_eq, M.pure_app], ?_⟩
    rw [h2, expected, Py.getItem_ok h, hb]
    rfl
  | moveMultiple ks d => exact ho.elim
  | index x a b =>
    refine quiet ?_
    simp only [step, M.bind_eq, M.bind_app]
    have := index_state (c := c) x a b s
    rcases hr : index c x a b s with ⟨_ | _, s'⟩ <;> rw [hr] at this <;> exact this
  | childEmit g obj m =>
    rcases h : s.data.findIdx? (same c · obj) with _ | i
    · refine .inl ⟨.unit, s, ?_, by simp [expected, h]⟩
      have : ∀ n, M.forEach (List.replicate n ()) (fun _ => reemit c g obj m) s = (.ok (), s) := by
        intro n
        induction n with
        | zero => rfl
        | succ n ih =>
          rw [List.replicate_succ, M.forEach, M.bind_ok (a := ()) (s' := s) (by simp only [reemit, index_says hf, h]), ih]
      simp only [step, childEmit, M.bind_eq, M.bind_app, M.get_app, this, M.pure_eq, M.pure_app]
    · have : ∀ n (t : St α), t.data = s.data → ∃ s', M.forEach (List.replicate n ()) (fun _ => reemit c g obj m) t = (.ok (), s') ∧
          s'.evs = t.evs ++ List.replicate n (childEv i obj g m) := by
        intro n
        induction n with
        | zero => exact fun t _ => ⟨t, rfl, by simp⟩
        | succ n ih =>
          intro t ht
          have hi := index_says (c := c) (s := t) (by rw [ht]; exact hf) obj
          rw [ht, h] at hi
          have h1 : reemit c g obj m t = (.ok (), { t with log := t.log ++ [(childEv i obj g m, t.data)] }) := by
            cases m <;> simp only [reemit, hi, emit_quiet hq, childEv]
          obtain ⟨s', h2, h3⟩ := ih { t with log := t.log ++ [(childEv i obj g m, t.data)] } ht
          refine ⟨s', by rw [List.replicate_succ, M.forEach, M.bind_ok h1]; exact h2, ?_⟩
          rw [h3, List.replicate_succ]
          simp [St.evs]
      obtain ⟨s', h1, h2⟩ := this (s.conns g) s rfl
      refine .inl ⟨.unit, s', ?_, by rw [h2]; simp only [expected, h]⟩
      simp only [step, childEmit, M.bind_eq, M.bind_app, M.get_app, h1, M.pure_eq, M.pure_app]
  | len | contents | add _ | radd _ | contains _ | count _ => exact quiet rfl

/-- The loop of `move_multiple`. -/
theorem moves_says (hq : c.Quiet) (plan : List (Int × Int)) {s s' : St α} (hb : s.blocked = true)
    (h : M.forEach plan (fun p => do
      let _ ← move c p.1 p.2
      pure ()) s = (.ok (), s')) :
    s'.blocked = true ∧ ∃ ms : List (Int × Int × Int × α), ms.length ≤ plan.length ∧
      s'.evs = s.evs ++ ms.flatMap fun m => [.moving m.1 m.2.1, .moved m.1 m.2.2.1 m.2.2.2] := by
  induction plan generalizing s with
  | nil =>
    cases h
    exact ⟨hb, [], by simp, by simp⟩
  | cons p plan ih =>
    rcases hj : Py.normIndex s.data.length p.1 with _ | j
    · simp only [M.forEach, M.bind_eq, M.pure_eq] at h
      rcases move_err hq hj (dest := p.2) with he | ⟨e, s1, he⟩
      · have he' : (M.bind (move c p.1 p.2) fun _ => M.pure ()) s = (.ok (), s) := by rw [M.bind_ok he]; rfl
        rw [M.bind_ok he'] at h
        obtain ⟨h1, ms, h2, h3⟩ := ih hb h
        exact ⟨h1, ms, by simp; omega, h3⟩
      · have he' : (M.bind (move c p.1 p.2) fun _ => M.pure ()) s = (.error e, s1) := by rw [M.bind_err he]
        rw [M.bind_err he'] at h
        cases h
    · obtain ⟨r, s1, h1, h2, h3⟩ := move_says hq hj (dest := p.2)
      have he : (M.bind (move c p.1 p.2) fun _ => M.pure ()) s = (.ok (), s1) := by
        rw [M.bind_ok h1]
        rfl
      simp only [M.forEach, M.bind_eq, M.pure_eq] at h
      rw [M.bind_ok he] at h
      obtain ⟨h4, ms, h5, h6⟩ := ih (h2.trans hb) h
      rw [hb] at h3
      simp only [if_true, List.append_nil] at h3
      generalize (if p.2 < 0 then p.2 + (s.data.length : Int) + 1 else p.2) = e at h3
      split at h3
      · exact ⟨h4, ms, by simp; omega, by rw [h6, h3]; simp⟩
      · refine ⟨h4, (p.1, e, if e > p.1 then e - 1 else e, s.data[j]'(Py.normIndex_lt hj)) :: ms, by simpa using h5, ?_⟩
        rw [h6, h3, List.append_assoc]
        rfl

end Psygnal.EL
