import Verif.SelectionMove
import Verif.Props.Selection

/-!
# C78: the commands of `SelectableEventedList`

The theorems are about the list after any history of operations on it and on its selection, with listeners that do not
raise, without assignments to items of the list (which break C34) and without the failed assignment that breaks C33.
-/

namespace Psygnal.Sel
open Psygnal.Py (M Err Key Slice)

variable {α : Type} [DecidableEq α] {c : Cfg α}

theorem lrun_any (hd : 0 < c.depth) (hq : c.Quiet) {ops : List (LOp α)} (hf : LFine c ops lnew) :
    RL False (lnew : St α) (lrun c ops lnew) :=
  lrun_rl hd hq ops _ ⟨lnew_rl.rest.untracked, lnew_rl.list⟩ False.elim hf

/-- C78.  `select_next(step)` goes from the current item to the one `step` places further, stopping at the ends of the list or,
with `wraparound`, going round; that item becomes current, and is the only one selected unless `expand_selection` is given, when
it joins the ones selected before.  The list stays as it is. -/
theorem C78_next_partial (hd : 0 < c.depth) (hq : c.Quiet) (ops : List (LOp α)) (hf : LFine c ops lnew) {x : α}
    (hc : (lrun c ops lnew).current = some x) (hx : x ∈ (lrun c ops lnew).list) (hn : (lrun c ops lnew).data ≠ [])
    {stp : Int} {expand wrap : Bool} {j : Nat} (hj : j < (lrun c ops lnew).list.length)
    (ht : let l := (lrun c ops lnew).list
      if wrap then (j : Int) = (l.idxOf x + stp) % l.length
      else if (l.idxOf x : Int) + stp < 0 then j = 0
      else if (l.length : Int) ≤ l.idxOf x + stp then j = l.length - 1
      else (j : Int) = l.idxOf x + stp) :
    let s := lrun c ops lnew
    let r := lstep c (.selectNext stp expand wrap) s
    r.1 = .ok () ∧ r.2.list = s.list ∧ r.2.current = some s.list[j] ∧
      (expand = false → r.2.data = [s.list[j]] ∧ r.2.active = some s.list[j]) ∧
      (expand = true → r.2.data = if s.list[j] ∈ s.data then s.data else s.data ++ [s.list[j]]) := by
  have h := lrun_any hd hq hf
  obtain ⟨s', h1, h2, h3, h4, h5⟩ := selectNext_from hd hq h hc hx hn (e := expand) hj ht
  simp only [lstep, h1]
  refine ⟨trivial, by simp [St.list, h3], h4, fun he => ?_, fun he => ?_⟩
  · subst he
    exact ⟨h5, (h2.rest.consistent.active _).2 h5⟩
  · subst he
    exact h5

/-- C78: with nothing selected, `select_next` selects the last item for a positive step and the first otherwise. -/
theorem C78_next_none (hd : 0 < c.depth) (hq : c.Quiet) (ops : List (LOp α)) (hf : LFine c ops lnew)
    (hn : (lrun c ops lnew).data = []) {stp : Int} {expand wrap : Bool} {j : Nat} (hj : j < (lrun c ops lnew).list.length)
    (ht : if stp > 0 then j = (lrun c ops lnew).list.length - 1 else j = 0) :
    let s := lrun c ops lnew
    let r := lstep c (.selectNext stp expand wrap) s
    r.1 = .ok () ∧ r.2.list = s.list ∧ r.2.data = [s.list[j]] ∧ r.2.active = some s.list[j] ∧ r.2.current = some s.list[j] := by
  have h := lrun_any hd hq hf
  obtain ⟨s', h1, h2, h3, h4, h5⟩ := selectNext_none hd hq h (fun q => by rw [q] at hj; simp at hj) hn (e := expand) (w := wrap) hj ht
  simp only [lstep, h1]
  exact ⟨trivial, by simp [St.list, h3], h5, (h2.rest.consistent.active _).2 h5, h4⟩

/-- C78: on an empty list `select_next` does nothing. -/
theorem C78_next_empty (s : St α) (hl : s.list = []) (stp : Int) (expand wrap : Bool) :
    lstep c (.selectNext stp expand wrap) s = (.ok (), s) := by
  simp [lstep, selectNext, M.bind_app, M.get_app, hl]

/-- C78: when the current item has left the list while others are selected, `select_next` raises `ValueError` and changes
nothing. -/
theorem C78_next_stale (hd : 0 < c.depth) (hq : c.Quiet) (ops : List (LOp α)) (hf : LFine c ops lnew)
    (hx : ∀ x, (lrun c ops lnew).current = some x → x ∉ (lrun c ops lnew).list) (hn : (lrun c ops lnew).data ≠ [])
    (stp : Int) (expand wrap : Bool) :
    lstep c (.selectNext stp expand wrap) (lrun c ops lnew) = (.error .value, lrun c ops lnew) := by
  have h := lrun_any hd hq hf
  have hne : ¬ (lrun c ops lnew).list = [] := by
    intro q
    obtain ⟨y, hy⟩ := List.exists_mem_of_ne_nil _ hn
    have := h.mem y hy
    rw [q] at this
    simp at this
  obtain ⟨l, hl⟩ := h.list
  simp only [lstep, selectNext, M.bind_eq]
  rw [M.bind_app, M.get_app]
  simp only [hne, hn, if_false]
  cases hc : (lrun c ops lnew).current with
  | none => rfl
  | some x =>
    simp only
    have hx' : x ∉ l := list_eq hl ▸ hx x hc
    rw [M.bind_app, lindex_eq hl, if_neg hx']

/-- C78: `select_next` with `wraparound`, again and again, goes round a list without repeated items. -/
theorem C78_cycle (hd : 0 < c.depth) (hq : c.Quiet) (ops : List (LOp α)) (hf : LFine c ops lnew)
    (hu : (lrun c ops lnew).list.Nodup) {i : Nat} (hi : i < (lrun c ops lnew).list.length)
    (ha : (lrun c ops lnew).active = some (lrun c ops lnew).list[i]) (stp : Int) (k : Nat) {j : Nat}
    (hj : j < (lrun c ops lnew).list.length) (ht : (j : Int) = (i + k * stp) % (lrun c ops lnew).list.length) :
    let s := lrun c ops lnew
    let s' := lrun c (List.replicate k (.selectNext stp false true)) s
    s'.list = s.list ∧ s'.data = [s.list[j]] ∧ s'.active = some s.list[j] := by
  have h0 := lrun_any hd hq hf
  generalize lrun c ops lnew = s at *
  have key : ∀ (k : Nat) (t : St α), RL False (lnew : St α) t → t.list = s.list → ∀ (i j : Nat) (hi : i < s.list.length) (hj : j < s.list.length),
      t.active = some s.list[i] → (j : Int) = (i + k * stp) % s.list.length →
      let t' := lrun c (List.replicate k (.selectNext stp false true)) t
      t'.list = s.list ∧ t'.data = [s.list[j]] ∧ t'.active = some s.list[j] := by
    intro k
    induction k with
    | zero =>
      intro t ht hl i j hi hj hact hm
      have : (j : Int) = i := by
        rw [hm]
        simp only [Int.natCast_zero, Int.zero_mul, Int.add_zero]
        exact Int.emod_eq_of_lt (by omega) (by omega)
      have : j = i := by omega
      subst this
      exact ⟨hl, (ht.rest.consistent.active _).1 hact, hact⟩
    | succ k ih =>
      intro t ht hl i j hi hj hact hm
      have hpos : (0 : Int) < s.list.length := by omega
      let m := ((i + stp) % s.list.length).toNat
      have hmc : (m : Int) = (i + stp) % s.list.length := Int.toNat_of_nonneg (Int.emod_nonneg _ (by omega))
      have hml : m < s.list.length := by
        have := Int.emod_lt_of_pos ((i : Int) + stp) hpos
        omega
      have hd1 := (ht.rest.consistent.active _).1 hact
      have hid : s.list.idxOf s.list[i] = i := hu.idxOf_getElem i hi
      obtain ⟨t1, g1, g2, g3, g4, g5⟩ := selectNext_from hd hq ht (ht.rest.consistent.current _ hact)
        (by rw [hl]; exact List.getElem_mem hi) (by rw [hd1]; simp) (stp := stp) (e := false) (w := true) (j := m)
        (by rw [hl]; exact hml) (by simp only [if_true, hl, hid]; exact hmc)
      have hl1 : t1.list = s.list := by rw [← hl]; simp [St.list, g3]
      have ha1 : t1.active = some s.list[m] := by
        refine (g2.rest.consistent.active _).2 ?_
        simpa [hl] using g5
      have := ih t1 g2 hl1 m j hml hj ha1 (by
        rw [hm, hmc, Int.emod_add_emod]
        congr 1
        have : ((k + 1 : Nat) : Int) * stp = k * stp + stp := by
          rw [Int.natCast_add, Int.add_mul]; simp
        rw [this]
        omega)
      simpa only [List.replicate_succ, lrun, lstep, g1] using this
  exact key k s h0 rfl i j hi hj ha ht

/-- C78: `select_all` selects all items of the list, the ones already selected first. -/
theorem C78_all (hd : 0 < c.depth) (hq : c.Quiet) (ops : List (LOp α)) (hf : LFine c ops lnew) :
    let s := lrun c ops lnew
    let r := lstep c .selectAll s
    r.1 = .ok () ∧ r.2.list = s.list ∧ (∀ y, y ∈ r.2.data ↔ y ∈ s.list) ∧ r.2.data.Nodup ∧ s.data <+: r.2.data := by
  obtain ⟨s', h1, h2, h3, h4, h5⟩ := selectAll_rl hd hq (lrun_any hd hq hf)
  simp only [lstep, M.bind_eq]
  rw [M.bind_app, M.get_app]
  simp only [h1]
  exact ⟨trivial, by simp [St.list, h3], h4, h2.rest.k.w.nodup, h5⟩

/-- C78: `deselect_all` leaves nothing selected, active or current. -/
theorem C78_deselect (hd : 0 < c.depth) (hq : c.Quiet) (ops : List (LOp α)) (hf : LFine c ops lnew) :
    let s := lrun c ops lnew
    let r := lstep c .deselectAll s
    r.1 = .ok () ∧ r.2.list = s.list ∧ r.2.data = [] ∧ r.2.active = none ∧ r.2.current = none := by
  obtain ⟨s', h1, h2, h3, h4, h5⟩ := deselect_rl hd hq (lrun_any hd hq hf)
  simp only [lstep, h1]
  refine ⟨trivial, by simp [St.list, h3], h4, ?_, h5⟩
  cases ha : s'.active with
  | none => rfl
  | some x =>
    have := (h2.rest.consistent.active x).1 ha
    rw [h4] at this
    cases this

/-- C78: `remove_selected` takes each selected item out of the list, at its first position, and returns them; then the item
before the last one removed is selected (the first item, if there is none before it), unless the list is empty. -/
theorem C78_remove_selected (hd : 0 < c.depth) (hq : c.Quiet) (ops : List (LOp α)) (hf : LFine c ops lnew) :
    let s := lrun c ops lnew
    let r := removeSelected c s
    r.1 = .ok s.data ∧ r.2.list = s.data.foldl List.erase s.list ∧ (r.2.list = [] → r.2.data = [] ∧ r.2.active = none) ∧
      ∃ i : Nat, (s.data = [] → i = 0) ∧ (∀ ds z, s.data = ds ++ [z] → i = (ds.foldl List.erase s.list).idxOf z) ∧
        (r.2.list ≠ [] → ∃ _ : i - 1 < r.2.list.length, r.2.data = [r.2.list[i - 1]] ∧ r.2.active = some r.2.list[i - 1]) := by
  obtain ⟨s', h1, h2, h3, h4, i, h5, h6, h7⟩ := removeSelected_rl' hd hq (lrun_any hd hq hf)
  simp only [h1]
  refine ⟨trivial, h3, fun q => ⟨h4 q, ?_⟩, i, h6, h7, fun q => ?_⟩
  · cases ha : s'.active with
    | none => rfl
    | some x =>
      have := (h2.rest.consistent.active x).1 ha
      rw [h4 q] at this
      cases this
  · obtain ⟨hi, hd'⟩ := h5 q
    exact ⟨hi, hd', (h2.rest.consistent.active _).2 hd'⟩

/-- C78: a new item is put in its place (clamped to the list) and is the only one selected. -/
theorem C78_insert (hd : 0 < c.depth) (hq : c.Quiet) (ops : List (LOp α)) (hf : LFine c ops lnew) (i : Int) (x : α) {k : Nat}
    (hk : (k : Int) = let n : Int := (lrun c ops lnew).list.length
      if i < -n then 0 else if i < 0 then n + i else if i ≤ n then i else n) :
    let s := lrun c ops lnew
    let r := lstep c (.insert i x) s
    r.1 = .ok () ∧ r.2.list = s.list.take k ++ x :: s.list.drop k ∧ r.2.data = [x] ∧ r.2.active = some x ∧ r.2.current = some x := by
  have h := lrun_any hd hq hf
  obtain ⟨s', h1, h2, h3, h4⟩ := linsert_rl' hd hq h i x
  have hp : Py.insertPos (lrun c ops lnew).list.length i = k := by
    simp only at hk
    simp only [Py.insertPos]
    split <;> (repeat' split at hk) <;> omega
  have ha := (h2.rest.consistent.active x).2 h4
  simp only [lstep, h1]
  refine ⟨trivial, ?_, h4, ha, h2.rest.consistent.current x ha⟩
  rw [list_eq h3, Py.insert, hp]

/-- C78: `clear` empties the list, and nothing stays selected. -/
theorem C78_clear (hd : 0 < c.depth) (hq : c.Quiet) (ops : List (LOp α)) (hf : LFine c ops lnew) :
    let r := lstep c .clear (lrun c ops lnew)
    r.1 = .ok () ∧ r.2.list = [] ∧ r.2.data = [] ∧ r.2.active = none := by
  have h := lrun_any hd hq hf
  obtain ⟨s', h1, h2, h3⟩ := lclearLoop_rl' hd hq _ h (Nat.lt_succ_self _)
  have h4 : s'.data = [] := by
    cases hd' : s'.data with
    | nil => rfl
    | cons x xs =>
      have := h2.mem x (by simp [hd'])
      rw [h3] at this
      simp at this
  simp only [lstep, M.bind_eq]
  rw [M.bind_app, M.get_app]
  simp only [h1]
  refine ⟨trivial, h3, h4, ?_⟩
  cases ha : s'.active with
  | none => rfl
  | some x =>
    have := (h2.rest.consistent.active x).1 ha
    rw [h4] at this
    cases this

/-- Four items, the second one active. -/
abbrev moveOps : List (LOp Nat) := [.extend [5, 6, 7, 8], .sel (.setActive (some 6))]

/-- The theorems apply to this history. -/
theorem C78_example_fine : LFine quietCfg moveOps lnew := by
  simp only [LFine]
  refine ⟨?_, id, ?_, id, trivial⟩
  · rintro ⟨o, h, _⟩
    cases h
  · rintro ⟨o, h, x, h', hp, _⟩
    cases h
    cases h'
    revert hp
    decide +kernel

theorem C78_example_next :
    let s := lrun quietCfg moveOps lnew
    s.list = [5, 6, 7, 8] ∧ s.data = [6] ∧ s.current = some 6 ∧ s.active = some 6 ∧
      (lstep quietCfg (.selectNext 2 false false) s).2.active = some 8 ∧
      (lstep quietCfg (.selectNext 9 false false) s).2.active = some 8 ∧
      (lstep quietCfg (.selectNext (-9) false false) s).2.active = some 5 ∧
      (lstep quietCfg (.selectNext 9 false true) s).2.active = some 7 ∧
      (lstep quietCfg (.selectNext 0 true false) s).2.data = [6] ∧
      (lstep quietCfg (.selectNext 1 true false) s).2.data = [6, 7] ∧
      (lrun quietCfg (List.replicate 5 (.selectNext 1 false true)) s).active = some 7 := by
  decide +kernel

theorem C78_example_commands :
    let s := lrun quietCfg moveOps lnew
    (lstep quietCfg .selectAll s).2.data = [6, 5, 7, 8] ∧
      (lstep quietCfg .removeSelected s).2.list = [5, 7, 8] ∧ (lstep quietCfg .removeSelected s).2.data = [5] ∧
      (lstep quietCfg (.insert (-1) 9) s).2.list = [5, 6, 7, 9, 8] ∧ (lstep quietCfg .clear s).2.list = [] := by
  decide +kernel

/-- C78 fails for a list with an item twice: `index` finds the first of the two, so that going on from the second one leads back,
and the last item is never reached. -/
theorem C78_twice_refuted :
    let s := lrun quietCfg [.extend [5, 6, 5, 7], .sel (.setActive (some 5))] lnew
    let s' := lrun quietCfg [.selectNext 1 false false, .selectNext 1 false false] s
    s.list = [5, 6, 5, 7] ∧ s.data = [5] ∧ s.active = some 5 ∧
      (lrun quietCfg [.selectNext 1 false false] s).active = some 6 ∧
      s'.list = s.list ∧ s'.data = s.data ∧ s'.active = s.active ∧ s'.current = s.current := by
  decide +kernel

/-- Nothing is selected: `select_next` selects the last item, and `remove_selected` selects the first one. -/
theorem C78_none_selected :
    let s := lrun quietCfg [.extend [5, 6, 7], .deselectAll] lnew
    s.data = [] ∧ (lstep quietCfg (.selectNext 1 false false) s).2.active = some 7 ∧
      (lstep quietCfg (.selectNext (-1) false false) s).2.active = some 5 ∧
      (lstep quietCfg .removeSelected s).2.list = [5, 6, 7] ∧ (lstep quietCfg .removeSelected s).2.data = [5] := by
  decide +kernel

end Psygnal.Sel
