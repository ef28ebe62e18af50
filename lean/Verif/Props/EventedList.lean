import Verif.EventedListLemmas
import Verif.EventedListEvents
import Verif.EventedListMove
import Verif.EventedListChildren

/-!
# `EventedList`: C27, C28, C29, C35
-/
namespace Psygnal.EL
open Psygnal.Py (M Err Key Slice)

variable {α : Type} {c : Cfg α} [c.Passive]

/-! ## C27: `EventedList` behaves like `list` -/

/-- **C27** (partial). For every list, every sequence of operations and all indices, slices and values: with
listeners that do not raise, an `EventedList` gives the same results and raises the same errors as a built-in
`list`, operation by operation, and holds the same elements at the end.  What is missing (and false, see
below): elements that are themselves built-in lists, `del l[i]` with `-2n ≤ i < -n`, `del` and `pop` with
integer-like objects that are no `int`s, `pop` with a slice. -/
theorem C27_run_partial [DecidableEq α] (hq : c.Quiet) (ops : List (Op α)) (s : St α)
    (hf : ∀ x ∈ s.data, c.isList x = false) (hn : ∀ op ∈ ops, ∀ x ∈ op.news, c.isList x = false)
    (hp : AllPlain (fun v x => decide (v = x) || c.eq v x) ops s.data) :
    (run c ops s).1 = (pyRun (fun v x => decide (v = x) || c.eq v x) ops s.data).1 ∧
    (run c ops s).2.data = (pyRun (fun v x => decide (v = x) || c.eq v x) ops s.data).2 := by
  induction ops generalizing s with
  | nil => exact ⟨rfl, rfl⟩
  | cons op ops ih =>
    obtain ⟨h1, h2⟩ := step_quiet hq hf op hp.1
    have hp2 := hp.2
    have e : (fun v x => decide (v = x) || c.eq v x) = same c := rfl
    rw [e] at hp2 ih ⊢
    rw [← h2] at hp2
    obtain ⟨h3, h4⟩ := ih (step c op s).2 (by
      intro x hx
      rw [h2] at hx
      rcases pyStep_mem hx with h | h
      · exact hf x h
      · exact hn op (by simp) x h) (fun o ho => hn o (by simp [ho])) hp2
    simp [run, pyRun, h1, h3, h4, h2]

/-- A configuration for the examples: elements are numbers, those from 100 on are built-in lists, of which
`self[i]` makes the new object `x + 1000`; the signals of an element `x < 100` are `2 * x` and `2 * x + 1`. -/
def exCfg (childEvents : Bool := false) : Cfg Nat where
  eq a b := a == b
  isList x := decide (100 ≤ x) && decide (x < 1000)
  wrap x := x + 1000
  sigs x := if x < 100 then [2 * x, 2 * x + 1] else []
  childEvents := childEvents
  fails _ := false

instance (b : Bool) : (exCfg b).Passive := ⟨rfl, rfl⟩

/-- The hypotheses of `C27_run_partial` are met by a run with negative indices, an extended slice with negative
step, an error, a deletion of a slice and a reversal with individual events. -/
example : (exCfg).Quiet ∧
    AllPlain (fun v x => decide (v = x) || (exCfg).eq v x)
      [.insert (-1) 7, .setSlice ⟨none, none, some (-2)⟩ (some [4, 5]), .delItem (.int 9), .pop (.int (-2)),
       .extend [8, 9], .delItem (.slice ⟨some 1, none, some 2⟩), .reverse true] [1, 2, 3] ∧
    pyRun (fun v x => decide (v = x) || (exCfg).eq v x)
      [.insert (-1) 7, .setSlice ⟨none, none, some (-2)⟩ (some [4, 5]), .delItem (.int 9), .pop (.int (-2)),
       .extend [8, 9], .delItem (.slice ⟨some 1, none, some 2⟩), .reverse true] [1, 2, 3] =
      ([.ok .unit, .ok .unit, .error .index, .ok (.item 7), .ok .unit, .ok .unit, .ok .unit], [9, 4, 1]) := by
  refine ⟨fun _ => rfl, ?_, rfl⟩
  simp [AllPlain, Op.Plain]

/-- **C27 is false** for `del l[i]` with `-2n ≤ i < -n`: on a built-in list this is an `IndexError`, an
`EventedList` deletes an element.  (`del EventedList([1, 2])[-3]` removes the `2`.) -/
theorem C27_del_refuted :
    (run (exCfg) [.delItem (.int (-3))] { data := [1, 2] }).1 = [.ok .unit] ∧
    (run (exCfg) [.delItem (.int (-3))] { data := [1, 2] }).2.data = [1] ∧
    pyRun (fun v x => decide (v = x) || (exCfg).eq v x) [.delItem (.int (-3))] [1, 2] = ([.error .index], [1, 2]) :=
  ⟨rfl, rfl, rfl⟩

/-- **C27 is false** for elements that are built-in lists: `self[i]` (and iteration, `pop`, …) hands out a new
`EventedList` instead of the element. -/
theorem C27_nested_refuted :
    (run (exCfg) [.append 100, .getItem (.int 0), .pop (.int 0)] { data := [] }).1 =
      [.ok .unit, .ok (.item 1100), .ok (.item 1100)] ∧
    (pyRun (fun v x => decide (v = x) || (exCfg).eq v x) [.append 100, .getItem (.int 0), .pop (.int 0)] []).1 =
      [.ok .unit, .ok (.item 100), .ok (.item 100)] :=
  ⟨rfl, rfl⟩

/-- **C27 is false** for integer-like index objects that are not `int`s (e.g. numpy integers): reading with them
works, deleting is a `TypeError`; and `pop` accepts slices. -/
theorem C27_key_refuted :
    (run (exCfg) [.getItem (.indexable 0), .delItem (.indexable 0), .pop (.slice {})] { data := [1, 2] }).1 =
      [.ok (.item 1), .error .type, .ok (.items [1, 2])] ∧
    (pyRun (fun v x => decide (v = x) || (exCfg).eq v x)
      [.getItem (.indexable 0), .delItem (.indexable 0), .pop (.slice {})] [1, 2]).1 =
      [.ok (.item 1), .ok .unit, .error .type] :=
  ⟨rfl, rfl⟩

/-! ## C28: events tell the whole story -/

/-- **C28**, first half. For every initial contents, every sequence of operations (successful or not) and all
listeners (which may raise at any event): an observer that performs each reported insertion, removal, change and
move on its own copy, and re-reads the list on `reordered`, has exactly the contents of the list, after the whole
sequence and right after each single event. -/
theorem C28_observer [DecidableEq α] (ops : List (Op α)) (d : List α) :
    replay d (run c ops { data := d }).2.log = (run c ops { data := d }).2.data ∧
    ∀ pre e post, (run c ops { data := d }).2.log = pre ++ e :: post → replay d (pre ++ [e]) = e.2 :=
  (run_told ops ⟨Eff.refl, rfl⟩ : Told d false _).1.story

/-- **C28**, second half, for insertions: the event right before an `inserted(i, v)` is `inserting(i)`, emitted
when the list was as before the insertion. -/
theorem C28_inserted [DecidableEq α] (ops : List (Op α)) (d : List α) {pre post : List (Ev α × List α)} {i : Int} {v : α}
    {after : List α} (h : (run c ops { data := d }).2.log = pre ++ (.inserted i v, after) :: post) :
    ∃ pre' before, pre = pre' ++ [(.inserting i, before)] ∧ replay d pre' = before ∧ after = Py.insert before i v := by
  have ht := (run_told ops ⟨Eff.refl, rfl⟩ : Told d false (run c ops { data := d }).2).1
  obtain ⟨pre', d0, rfl, h2⟩ := ht.announced _ _ _ _ h
  refine ⟨pre', d0, rfl, ?_, h2⟩
  have := ht.story.2 pre' (.inserting i, d0) ((.inserted i v, after) :: post) (by simp [h])
  rwa [replay_snoc] at this

/-- **C28**, second half, for removals. -/
theorem C28_removed [DecidableEq α] (ops : List (Op α)) (d : List α) {pre post : List (Ev α × List α)} {i : Int} {v : α}
    {after : List α} (h : (run c ops { data := d }).2.log = pre ++ (.removed i v, after) :: post) :
    ∃ pre' before, pre = pre' ++ [(.removing i, before)] ∧ replay d pre' = before ∧
      Py.getItem before i = .ok v ∧ Py.pop before i = .ok (v, after) := by
  have ht := (run_told ops ⟨Eff.refl, rfl⟩ : Told d false (run c ops { data := d }).2).1
  obtain ⟨pre', d0, rfl, h2⟩ := ht.announced _ _ _ _ h
  refine ⟨pre', d0, rfl, ?_, ?_, h2⟩
  · have := ht.story.2 pre' (.removing i, d0) ((.removed i v, after) :: post) (by simp [h])
    rwa [replay_snoc] at this
  · rcases hj : Py.normIndex d0.length i with _ | j
    · simp [Py.pop, hj] at h2
    · rw [Py.pop_ok hj] at h2
      rw [Py.getItem_ok hj]
      simp only [Except.ok.injEq, Prod.mk.injEq] at h2 ⊢
      exact h2.1

/-- **C28** for moves: the event right before a `moved` is the matching `moving`, emitted when the list was as
before the move. -/
theorem C28_moved [DecidableEq α] (ops : List (Op α)) (d : List α) {pre post : List (Ev α × List α)} {a b : Int} {v : α}
    {after : List α} (h : (run c ops { data := d }).2.log = pre ++ (.moved a b v, after) :: post) :
    ∃ pre' b0 before rest, pre = pre' ++ [(.moving a b0, before)] ∧ replay d pre' = before ∧
      b = (if b0 > a then b0 - 1 else b0) ∧ Py.pop before a = .ok (v, rest) ∧ after = Py.insert rest b v := by
  have ht := (run_told ops ⟨Eff.refl, rfl⟩ : Told d false (run c ops { data := d }).2).1
  obtain ⟨pre', b0, d0, d1, rfl, h2, h3, h4⟩ := ht.announced _ _ _ _ h
  refine ⟨pre', b0, d0, d1, rfl, ?_, h2, h3, h4⟩
  have := ht.story.2 pre' (.moving a b0, d0) ((.moved a b v, after) :: post) (by simp [h])
  rwa [replay_snoc] at this

/-- Logs that the C28 theorems speak of: an insertion, a failing removal (listener raises at `removing`), a
removal, a change, and a move. -/
example :
    (run { exCfg with fails := fun l => l.length == 3 }
      [.insert 1 7, .pop (.int 0), .pop (.int (-1)), .setItem 0 5, .move 1 0] { data := [1, 2] }).2.log =
      [(.inserting 1, [1, 2]), (.inserted 1 7, [1, 7, 2]), (.removing 0, [1, 7, 2]), (.removing 2, [1, 7, 2]),
       (.removed 2 2, [1, 7]), (.changed 0 1 5, [5, 7]), (.moving 1 0, [5, 7]), (.moved 1 0 7, [7, 5]),
       (.reordered, [7, 5])] :=
  rfl

/-! ## C29: `move` and `move_multiple` -/

/-- **C29**, permutation part: whatever the indices (in range or not) and listeners, after `move` and
`move_multiple` (also when they raise) the list has the same elements. -/
theorem C29_perm (s : St α) (src dest : Int) (ks : List Key) :
    (move c src dest s).2.data.Perm s.data ∧ (moveMultiple c ks dest s).2.data.Perm s.data :=
  ⟨move_perm src dest s (.refl _), moveMultiple_perm ks dest s (.refl _)⟩

/-- **C29** for `move` (partial: `src` counted from the front): for every list, every `src` with `0 ≤ src < n` and
every destination, given from the front (`d`) or from the end (`d - (n + 1)`): the item goes before position `d`
of the list before the move, the other items keep their order, and the result says whether anything was to do.
Missing, and false: `src` counted from the end, see `C29_move_refuted`. -/
theorem C29_move_partial (hq : c.Quiet) (s : St α) {src d : Nat} {dest : Int} (hs : src < s.data.length)
    (hd : d ≤ s.data.length) (hdest : dest = d ∨ dest = (d : Int) - (s.data.length + 1)) :
    (move c src dest s).2.data = place s.data [src] d ∧
    (move c src dest s).1 = .ok (decide (¬ (d = src ∨ d = src + 1))) := by
  have e : move c src dest s = move c src d s := by
    have h0 : (if (d : Int) < 0 then (d : Int) + (s.data.length + 1) else d) = d := if_neg (by omega)
    have h1 : (if dest < 0 then dest + ((s.data.length : Int) + 1) else dest) = d := by
      rcases hdest with rfl | rfl
      · exact h0
      · rw [if_pos (by omega)]
        omega
    simp only [move, M.bind_eq, M.bind_app, M.get_app, h0, h1]
  obtain ⟨s', h1, h2, -⟩ := move_nat hq hs hd
  rw [e, h1]
  exact ⟨h2.trans (mv_place hs hd), rfl⟩

/-- The items that `place` takes first, in the middle and last, spelled out for a list of five. -/
example : place [10, 11, 12, 13, 14] [1] 4 = [10, 12, 13, 11, 14] ∧ place [10, 11, 12, 13, 14] [4] 0 = [14, 10, 11, 12, 13] ∧
    place [10, 11, 12, 13, 14] [3, 0] 2 = [11, 13, 10, 12, 14] := by decide

/-- `C29_move_partial` on a list of five, with a destination counted from the end. -/
example : (exCfg).Quiet ∧ (1 < [10, 11, 12, 13, 14].length) ∧ ((-2 : Int) = (4 : Nat) - ([10, 11, 12, 13, 14].length + 1)) ∧
    (move exCfg 1 (-2) { data := [10, 11, 12, 13, 14] }).2.data = [10, 12, 13, 11, 14] :=
  ⟨fun _ => rfl, by decide, by decide, rfl⟩

/-- **C29 is false** for `src` counted from the end: `EventedList([1, 2, 3]).move(-1, 0)` does nothing and returns
`False`, and `move(-1, 1)` puts the last item first. -/
theorem C29_move_refuted :
    (move exCfg (-1) 0 { data := [1, 2, 3] }).1 = .ok false ∧ (move exCfg (-1) 0 { data := [1, 2, 3] }).2.data = [1, 2, 3] ∧
    place [1, 2, 3] [2] 0 = [3, 1, 2] ∧
    (move exCfg (-1) 1 { data := [1, 2, 3] }).2.data = [3, 1, 2] ∧ place [1, 2, 3] [2] 1 = [1, 3, 2] :=
  ⟨rfl, rfl, rfl, rfl, rfl⟩

/-- **C29** for `move_multiple` with descending sources (partial, see `C29_move_multiple_partial`): for every
destination. -/
theorem C29_move_multiple_descending_partial (hq : c.Quiet) (s : St α) {S : List Nat} {d : Nat} {dest : Int}
    (hS : S.Pairwise (· > ·)) (hr : ∀ j ∈ S, j < s.data.length) (hd : d ≤ s.data.length)
    (hdest : dest = d ∨ dest = (d : Int) - (s.data.length + 1)) :
    (moveMultiple c (S.map fun (j : Nat) => Key.int j) dest s).2.data = place s.data S d ∧
    ∃ n, (moveMultiple c (S.map fun (j : Nat) => Key.int j) dest s).1 = .ok n := by
  obtain ⟨n, s', h1, h2⟩ := moveMultiple_ok hq (expand_ints s.data.length S) (hS.imp (fun h => Nat.ne_of_gt h)) hr hd hdest
    (planOk_desc S [] [] (by simpa using hS) (by simp))
  rw [h1]
  exact ⟨h2, n, rfl⟩

/-- **C29** for `move_multiple` with ascending sources (partial): correct whenever for each source behind the
destination there are at most as many sources before it as its distance from the destination; in particular when
all sources are before the destination, or all at or behind it.  Missing, and false in general: ascending sources
on both sides of the destination, and unordered sources, see `C29_move_multiple_refuted`. -/
theorem C29_move_multiple_partial (hq : c.Quiet) (s : St α) {S : List Nat} {d : Nat} {dest : Int}
    (hS : S.Pairwise (· < ·)) (hside : ∀ j ∈ S, d < j → S.countP (· < j) ≤ j - d) (hr : ∀ j ∈ S, j < s.data.length)
    (hd : d ≤ s.data.length) (hdest : dest = d ∨ dest = (d : Int) - (s.data.length + 1)) :
    (moveMultiple c (S.map fun (j : Nat) => Key.int j) dest s).2.data = place s.data S d ∧
    ∃ n, (moveMultiple c (S.map fun (j : Nat) => Key.int j) dest s).1 = .ok n := by
  obtain ⟨n, s', h1, h2⟩ := moveMultiple_ok hq (expand_ints s.data.length S) (hS.imp (fun h => Nat.ne_of_lt h)) hr hd hdest
    (planOk_asc S [] [] (by simpa using hS) rfl (by simpa using hside) (by simp))
  rw [h1]
  exact ⟨h2, n, rfl⟩

/-- The side condition of `C29_move_multiple_partial` for ascending sources that all lie behind the destination. -/
theorem C29_side {S : List Nat} {d : Nat} (hS : S.Pairwise (· < ·)) (h : ∀ j ∈ S, d ≤ j) :
    ∀ j ∈ S, d < j → S.countP (· < j) ≤ j - d := by
  intro j _ _
  have hn : (S.filter (· < j)).Nodup := (hS.imp (fun h => Nat.ne_of_lt h)).filter _
  have hsub : (S.filter (· < j)) ⊆ List.range' d (j - d) := by
    intro k hk
    simp only [List.mem_filter, decide_eq_true_eq] at hk
    rw [List.mem_range'_1]
    have := h k hk.1
    omega
  have := List.Nodup.length_le_of_subset hn hsub
  rwa [← List.countP_eq_length_filter, List.length_range'] at this

/-- **C29** for `move_multiple` with a slice as source (partial): all positions of an ascending slice that lie before, or
all at or behind the destination, and every descending slice. -/
theorem C29_move_multiple_slice_partial (hq : c.Quiet) (s : St α) {k : Slice} {S : List Nat} {d : Nat} {dest : Int}
    (hk : Py.sliceIdx k s.data.length = .ok (S.map (fun (j : Nat) => (j : Int))))
    (hS : S.Pairwise (· > ·) ∨ (S.Pairwise (· < ·) ∧ ((∀ j ∈ S, j < d) ∨ ∀ j ∈ S, d ≤ j)))
    (hr : ∀ j ∈ S, j < s.data.length) (hd : d ≤ s.data.length)
    (hdest : dest = d ∨ dest = (d : Int) - (s.data.length + 1)) :
    (moveMultiple c [.slice k] dest s).2.data = place s.data S d ∧
    ∃ n, (moveMultiple c [.slice k] dest s).1 = .ok n := by
  have he : expand s.data.length [.slice k] = .ok (S.map (fun (j : Nat) => (j : Int))) := by
    simp [expand, hk]
  have hnd : S.Nodup := by
    rcases hS with h | ⟨h, -⟩
    · exact h.imp (fun h => Nat.ne_of_gt h)
    · exact h.imp (fun h => Nat.ne_of_lt h)
  have ok : PlanOk d [] [] S := by
    rcases hS with h | ⟨h, h' | h'⟩
    · exact planOk_desc S [] [] (by simpa using h) (by simp)
    · refine planOk_asc S [] [] (by simpa using h) rfl ?_ (by simp)
      intro j hj hlt
      have := h' j hj
      omega
    · exact planOk_asc S [] [] (by simpa using h) rfl (by simpa using C29_side h h') (by simp)
  obtain ⟨n, s', h1, h2⟩ := moveMultiple_ok hq he hnd hr hd hdest ok
  rw [h1]
  exact ⟨h2, n, rfl⟩

/-- The three `move_multiple` theorems applied to lists of six items: descending sources on both sides of the
destination, ascending ones on both sides that meet the condition, and a slice. -/
example :
    (moveMultiple exCfg ([5, 3, 0].map fun (j : Nat) => Key.int j) 2 { data := [10, 11, 12, 13, 14, 15] }).2.data =
      [11, 15, 13, 10, 12, 14] :=
  (C29_move_multiple_descending_partial (c := exCfg) (s := { data := [10, 11, 12, 13, 14, 15] }) (S := [5, 3, 0]) (d := 2) (dest := 2)
    (fun _ => rfl) (by decide) (by decide) (by decide)
    (Or.inl rfl)).1.trans (by decide)

example :
    (moveMultiple exCfg ([1, 4].map fun (j : Nat) => Key.int j) (-5) { data := [10, 11, 12, 13, 14, 15] }).2.data =
      [10, 11, 14, 12, 13, 15] :=
  (C29_move_multiple_partial (c := exCfg) (s := { data := [10, 11, 12, 13, 14, 15] }) (S := [1, 4]) (d := 2) (dest := -5)
    (fun _ => rfl) (by decide) (by decide) (by decide) (by decide)
    (Or.inr rfl)).1.trans (by decide)

example :
    (moveMultiple exCfg [.slice ⟨none, some 3, none⟩] (-1) { data := [10, 11, 12, 13, 14, 15] }).2.data =
      [13, 14, 15, 10, 11, 12] :=
  (C29_move_multiple_slice_partial (c := exCfg) (s := { data := [10, 11, 12, 13, 14, 15] }) (S := [0, 1, 2]) (d := 6) (dest := -1) (k := ⟨none, some 3, none⟩)
    (fun _ => rfl) rfl (Or.inr (by decide)) (by decide)
    (by decide) (Or.inr rfl)).1.trans (by decide)

/-- **C29 is false** for ascending sources on both sides of the destination
(`move_multiple([0, 1, 3], 2)` on four items changes nothing), for unordered sources
(`move_multiple([0, 1, 2], 1)` on three items), and some calls with sources in range raise `IndexError`
(`move_multiple([4, 3, 1, 2], 0)` on five items). -/
theorem C29_move_multiple_refuted :
    ((moveMultiple exCfg [.int 0, .int 1, .int 3] 2 { data := [0, 1, 2, 3] }).2.data = [0, 1, 2, 3] ∧
      place [0, 1, 2, 3] [0, 1, 3] 2 = [0, 1, 3, 2]) ∧
    ((moveMultiple exCfg [.int 0, .int 1, .int 2] 1 { data := [0, 1, 2] }).2.data = [1, 0, 2] ∧
      place [0, 1, 2] [0, 1, 2] 1 = [0, 1, 2]) ∧
    (moveMultiple exCfg [.int 4, .int 3, .int 1, .int 2] 0 { data := [0, 1, 2, 3, 4] }).1 = .error .index :=
  by decide +kernel

/-! ## C35: child events -/

/-- **C35** (partial). With `child_events=True`, for every sequence of operations other than item and slice
assignment, successful or not, with listeners that do not raise: each signal is connected to the re-emitter exactly
once per occurrence of it in a child that is in the list; so not at all if no child in the list has it.  Missing, and
false: item assignment and listeners that raise, see below. -/
theorem C35_attached_partial [DecidableEq α] (hq : c.Quiet) (hc : c.childEvents = true) (ops : List (Op α))
    (h1 : ∀ i x, .setItem i x ∉ ops) (h2 : ∀ k vs, .setSlice k vs ∉ ops)
    (hn : ∀ op ∈ ops, ∀ x ∈ op.news, c.isList x = false) (g : Nat) :
    (run c ops { data := [] }).2.conns g = ((run c ops { data := [] }).2.data.flatMap c.sigs).count g := by
  suffices ∀ (ops : List (Op α)) (s : St α), Attached c s → (∀ i x, .setItem i x ∉ ops) → (∀ k vs, .setSlice k vs ∉ ops) →
      (∀ op ∈ ops, ∀ x ∈ op.news, c.isList x = false) → Attached c (run c ops s).2 from
    (this ops { data := [] } ⟨by simp, by simp⟩ h1 h2 hn).2 g
  intro ops
  induction ops with
  | nil => exact fun s h _ _ _ => h
  | cons op ops ih =>
    intro s h h1 h2 hn
    refine ih _ (step_attached hq hc op ?_ ?_ (hn op (by simp)) s h) ?_ ?_ (fun o ho => hn o (by simp [ho]))
    · rintro i x rfl
      exact h1 i x (by simp)
    · rintro k vs rfl
      exact h2 k vs (by simp)
    · exact fun i x hm => h1 i x (by simp [hm])
    · exact fun k vs hm => h2 k vs (by simp [hm])

/-- A removed child is not listened to any more (unless it shares the signal with a child in the list). -/
theorem C35_removed_partial [DecidableEq α] (hq : c.Quiet) (hc : c.childEvents = true) (ops : List (Op α))
    (h1 : ∀ i x, .setItem i x ∉ ops) (h2 : ∀ k vs, .setSlice k vs ∉ ops)
    (hn : ∀ op ∈ ops, ∀ x ∈ op.news, c.isList x = false) {g : Nat}
    (hg : ∀ x ∈ (run c ops { data := [] }).2.data, g ∉ c.sigs x) (x : α) (m : ChildMsg) :
    (step c (.childEmit g x m) (run c ops { data := [] }).2) = (.ok .unit, (run c ops { data := [] }).2) := by
  have h0 := C35_attached_partial hq hc ops h1 h2 hn g
  rw [List.count_eq_zero.2 (by simpa [List.mem_flatMap] using hg)] at h0
  simp only [step, childEmit, M.bind_eq, M.bind_app, M.get_app, h0]
  rfl

/-- An emission of a signal of a child in the list is re-emitted, once per occurrence, with the (first) index of the
child. -/
theorem C35_reemitted_partial [DecidableEq α] (hq : c.Quiet) (hc : c.childEvents = true) (ops : List (Op α))
    (h1 : ∀ i x, .setItem i x ∉ ops) (h2 : ∀ k vs, .setSlice k vs ∉ ops)
    (hn : ∀ op ∈ ops, ∀ x ∈ op.news, c.isList x = false)
    (hf : ∀ x ∈ (run c ops { data := [] }).2.data, c.isList x = false) (g : Nat) (x : α) {i : Nat}
    (hi : (run c ops { data := [] }).2.data.findIdx? (fun v => decide (v = x) || c.eq v x) = some i) (args : List Nat) :
    (step c (.childEmit g x (.plain args)) (run c ops { data := [] }).2).2.log =
      (run c ops { data := [] }).2.log ++ List.replicate (((run c ops { data := [] }).2.data.flatMap c.sigs).count g)
        (.childEvent i x g args, (run c ops { data := [] }).2.data) := by
  have h0 := C35_attached_partial hq hc ops h1 h2 hn g
  simp only [step, childEmit, M.bind_eq, M.bind_app, M.get_app, h0, childEmit_log hq hf g x hi args]
  rfl

/-- The hypotheses are met by a run with an insertion, a duplicate, a deletion of a slice and a reversal; afterwards
child `3` is in the list twice, child `5` is not. -/
example : (exCfg true).Quiet ∧ (exCfg true).childEvents = true ∧
    (run (exCfg true) [.extend [3, 5, 4], .append 3, .delItem (.slice ⟨some 1, some 2, none⟩), .reverse true]
      { data := [] }).2.data = [3, 4, 3] ∧
    (run (exCfg true) [.extend [3, 5, 4], .append 3, .delItem (.slice ⟨some 1, some 2, none⟩), .reverse true]
      { data := [] }).2.conns 7 = 2 ∧
    (run (exCfg true) [.extend [3, 5, 4], .append 3, .delItem (.slice ⟨some 1, some 2, none⟩), .reverse true]
      { data := [] }).2.conns 10 = 0 := by
  refine ⟨fun _ => rfl, rfl, rfl, rfl, rfl⟩

/-- **C35 is false** for item assignment: `l[0] = new` leaves the old child connected and does not connect the new
one. -/
theorem C35_setitem_refuted :
    (run (exCfg true) [.append 3, .setItem 0 4] { data := [] }).2.data = [4] ∧
    (run (exCfg true) [.append 3, .setItem 0 4] { data := [] }).2.conns 6 = 1 ∧
    (run (exCfg true) [.append 3, .setItem 0 4] { data := [] }).2.conns 8 = 0 :=
  ⟨rfl, rfl, rfl⟩

/-- **C35 is false** when a listener of `inserted` raises: the child is in the list, but not connected. -/
theorem C35_raise_refuted :
    (run { exCfg true with fails := fun l => l.length == 2 } [.append 3] { data := [] }).2.data = [3] ∧
    (run { exCfg true with fails := fun l => l.length == 2 } [.append 3] { data := [] }).2.conns 6 = 0 :=
  ⟨rfl, rfl⟩

end Psygnal.EL
