import Verif.CopiesLemmas

/-!
# C80: copies of evented containers

`copy()`, `copy.copy`, slices, `+`, set operations and `copy.deepcopy` make a new container
(`/repo/src/psygnal/containers/_evented_list.py:213-260`, `/repo/src/psygnal/containers/_evented_dict.py:80-92`,
`/repo/src/psygnal/containers/_evented_set.py:113-117`).  The programs here make any containers, copy them and copies of them, change
them and connect callbacks, in any order.
-/

namespace Psygnal.CC

variable {α : Type} [DecidableEq α] {item dup : α → α}

/-! ## What a copy is -/

/-- **C80**.  Whatever the program has done, `copy()` of a container makes one more object, of the same class and with the contents that
the original has (a list: as it gives them out, `self[i]`), nothing connected to its events, and - in a `SelectableEventedList`, whatever is
selected in the original - the last item selected.  No callback is called, and every object that there was stays as it was, with its
contents and connections. -/
theorem C80_copy (ops : List (Op α)) {o : Nat} {ob : Obj α} (hb : (run item dup ops {}).objs[o]? = some ob) :
    let h := run item dup ops {}
    let h' := run item dup (ops ++ [.copy o]) {}
    let n := h.objs.length
    h'.objs.length = n + 1 ∧ (h'.objs[n]?.map Obj.cls) = some ob.cls ∧
      h'.contents n = (if ob.cls = .list ∨ ob.cls = .selectable then (h.contents o).map item else h.contents o) ∧
      (∀ cb, .cb cb ∉ h'.slots n) ∧
      (h'.objs[n]?.map Obj.sel) = some (if ob.cls = .selectable then (h'.contents n).getLast?.toList else []) ∧ h'.calls = h.calls ∧
      ∀ i, i < n → h'.objs[i]? = h.objs[i]? ∧ h'.contents i = h.contents i ∧ h'.slots i = h.slots i := by
  intro h h' n
  have ho : Own h := run_own ops Own.init
  have e : h' = step item dup h (.copy o) := run_snoc ..
  have es : step item dup h (.copy o) = h.create ob.cls (ob.opts.newlike ob.cls) (items item ob.cls (h.contents o)) := by
    have hb' : h.objs[o]? = some ob := hb
    simp only [step, hb', Heap.newlike]
  obtain ⟨h1, m⟩ := create_spec ho ob.cls (ob.opts.newlike ob.cls) (items item ob.cls (h.contents o))
  obtain ⟨a1, ⟨ob', a2, a3, -, a3'⟩, a4, a5, a6⟩ := m.obj ho h1
  rw [e, es]
  refine ⟨a1, by rw [a2]; simp [a3], ?_, ?_, by rw [a2, a4]; simp [a3'], m.calls, a6⟩
  · rw [a4]
    cases ob.cls <;> simp [items]
  · intro cb
    rw [a5]
    split <;> simp

/-- **C80**.  The same for slices, `+`, `union` and the like, which make a container with other contents. -/
theorem C80_derive (ops : List (Op α)) {o : Nat} {ob : Obj α} (hb : (run item dup ops {}).objs[o]? = some ob) (f : List α → List α) :
    let h := run item dup ops {}
    let h' := run item dup (ops ++ [.derive o f]) {}
    let n := h.objs.length
    h'.objs.length = n + 1 ∧ (h'.objs[n]?.map Obj.cls) = some ob.cls ∧ h'.contents n = f (h.contents o) ∧
      (∀ cb, .cb cb ∉ h'.slots n) ∧
      (h'.objs[n]?.map Obj.sel) = some (if ob.cls = .selectable then (h'.contents n).getLast?.toList else []) ∧ h'.calls = h.calls ∧
      ∀ i, i < n → h'.objs[i]? = h.objs[i]? ∧ h'.contents i = h.contents i ∧ h'.slots i = h.slots i := by
  intro h h' n
  have ho : Own h := run_own ops Own.init
  have e : h' = step item dup h (.derive o f) := run_snoc ..
  have es : step item dup h (.derive o f) = h.create ob.cls (ob.opts.newlike ob.cls) (f (h.contents o)) := by
    have hb' : h.objs[o]? = some ob := hb
    simp only [step, hb', Heap.newlike]
  obtain ⟨h1, m⟩ := create_spec ho ob.cls (ob.opts.newlike ob.cls) (f (h.contents o))
  obtain ⟨a1, ⟨ob', a2, a3, -, a3'⟩, a4, a5, a6⟩ := m.obj ho h1
  rw [e, es]
  refine ⟨a1, by rw [a2]; simp [a3], a4, ?_, by rw [a2, a4]; simp [a3'], m.calls, a6⟩
  intro cb
  rw [a5]
  split <;> simp

/-- **C80**.  `copy.deepcopy` of a container: an object of the same class with the same options, copies of the contents, copies of what is
selected, and nothing connected to its events; everything else stays. -/
theorem C80_deepcopy (ops : List (Op α)) {o : Nat} {ob : Obj α} (hb : (run item dup ops {}).objs[o]? = some ob) :
    let h := run item dup ops {}
    let h' := run item dup (ops ++ [.deepcopy o]) {}
    let n := h.objs.length
    h'.objs.length = n + 1 ∧ (h'.objs[n]?.map fun ob' => (ob'.cls, ob'.opts, ob'.sel)) = some (ob.cls, ob.opts, ob.sel.map dup) ∧
      h'.contents n = (h.contents o).map dup ∧ h'.slots n = [] ∧ h'.calls = h.calls ∧
      ∀ i, i < n → h'.objs[i]? = h.objs[i]? ∧ h'.contents i = h.contents i ∧ h'.slots i = h.slots i := by
  intro h h' n
  have ho : Own h := run_own ops Own.init
  have e : h' = step item dup h (.deepcopy o) := run_snoc ..
  have es : step item dup h (.deepcopy o) = h.alloc ob.cls ob.opts ((h.contents o).map dup) [] (ob.sel.map dup) := by
    have hb' : h.objs[o]? = some ob := hb
    simp only [step, hb']
  have h1 : Own (h.alloc ob.cls ob.opts ((h.contents o).map dup) [] (ob.sel.map dup)) := ho.alloc _ _ _ _ _ (by simp)
  obtain ⟨a1, ⟨ob', a2, a3, a3', a3''⟩, a4, a5, a6⟩ := (made_alloc ..).obj ho h1
  rw [e, es]
  exact ⟨a1, by rw [a2]; simp [a3, a3', a3''], a4, a5, rfl, a6⟩

/-! ## What happens to one does not happen to the other -/

/-- **C80**.  Two containers, copies of one another or not, share nothing: after any program, no operation on one of them changes another
one, its contents, what is selected in it, or what is connected to it. -/
theorem C80_independent (ops : List (Op α)) {o i : Nat} (hi : i ≠ o) (f : List α → List α) (m cb : Nat) (x : α) (xs : List α) (op : Op α)
    (hop : op ∈ ([.change o f m, .append o x, .remove o x, .select o xs, .connect o cb] : List (Op α))) :
    let h := run item dup ops {}
    let h' := run item dup (ops ++ [op]) {}
    h'.objs[i]? = h.objs[i]? ∧ h'.contents i = h.contents i ∧ h'.slots i = h.slots i := by
  intro h h'
  have ho : Own h := run_own ops Own.init
  have e : h' = step item dup h op := run_snoc ..
  rw [e]
  have ho' := step_own (item := item) (dup := dup) ho op
  rcases step_cases (item := item) (dup := dup) ho op with ⟨_, _, _, _, _, -, -, h3⟩ | ⟨o', b, f', g, more, hb, a, -, h3⟩ | ⟨h1, h2, h3, -⟩
  · exfalso
    rcases h3 with ⟨_, _, rfl, -⟩ | ⟨-, -, -, ⟨_, rfl, -⟩ | ⟨_, _, -, -, -, ⟨rfl, -⟩ | ⟨_, rfl, -⟩⟩⟩ <;> simp at hop
  · have : o' = o := by
      rcases h3 with ⟨_, rfl, -⟩ | ⟨_, rfl, -⟩ | ⟨_, rfl, -⟩ | ⟨_, rfl, -⟩ | ⟨_, rfl, -⟩ <;> simp at hop <;> simp [hop]
    subst this
    exact a.others ho ho' hi
  · rw [h1]
    exact ⟨rfl, view_congr h1 h2 h3 i⟩

/-- **C80**.  Who hears of changes of a container: when `mk` makes object `n` - by a constructor or as a copy - and the program continues
with `post`, a change of `n` calls exactly the callbacks that `post` has connected to `n`, in that order, and nothing that was
connected to the original. -/
theorem C80_calls (pre post : List (Op α)) (mk : Op α)
    (hmk : (run item dup (pre ++ [mk]) {}).objs.length = (run item dup pre {}).objs.length + 1) (f : List α → List α) (m : Nat) :
    let n := (run item dup pre {}).objs.length
    let h := run item dup (pre ++ mk :: post) {}
    (run item dup (pre ++ mk :: post ++ [.change n f m]) {}).calls = h.calls ++ (post.filterMap fun
      | .connect o cb => if o = n then some cb else none
      | _ => none).map fun cb => (cb, .other m) := by
  intro n h
  have ho : Own (run item dup pre {}) := run_own pre Own.init
  rw [run_snoc] at hmk
  have ho1 := step_own (item := item) (dup := dup) ho mk
  obtain ⟨ob, hob, hs⟩ : ∃ ob, (step item dup (run item dup pre {}) mk).objs[n]? = some ob ∧
      cbs ((step item dup (run item dup pre {}) mk).slots n) = [] := by
    rcases step_cases (item := item) (dup := dup) ho mk with ⟨_, _, _, ss, _, mm, -, h3⟩ | ⟨o', b, f', g, more, hb, a, -⟩ | ⟨h1, -⟩
    · obtain ⟨-, ⟨ob, a2, -⟩, -, a5, -⟩ := mm.obj ho ho1
      refine ⟨ob, a2, ?_⟩
      rw [a5]
      rcases h3 with ⟨_, _, -, -, -, -, -, rfl, -⟩ | ⟨-, rfl, -⟩
      · rfl
      · split <;> rfl
    · rw [a.objs] at hmk
      simp at hmk
    · rw [h1] at hmk
      omega
  have e : h = run item dup post (step item dup (run item dup pre {}) mk) := by simp [h, run]
  have hoh : Own h := by rw [e]; exact run_own post ho1
  obtain ⟨ob', hob', -⟩ := run_keeps (item := item) (dup := dup) post ho1 hob
  have hc := run_cbs (item := item) (dup := dup) post ho1 hob
  rw [← e] at hob' hc
  rw [run_snoc, (step_change (item := item) (dup := dup) hoh hob' f m).2, cbs_calls, hc, hs]
  simp only [List.nil_append]
  congr 2

/-- A list, two listeners, a copy, listeners of the copy, a copy of that: each change is heard by those connected to the changed one. -/
example :
    let ops : List (Op Nat) := [.new .list {} [1, 2], .connect 0 7, .copy 0, .connect 1 8, .deepcopy 1, .connect 0 9, .connect 2 5,
      .append 1 3, .change 0 List.reverse 4, .remove 2 1]
    let h := run id id ops {}
    h.contents 0 = [2, 1] ∧ h.contents 1 = [1, 2, 3] ∧ h.contents 2 = [2] ∧
      h.calls = [(8, .inserted 3), (7, .other 4), (9, .other 4), (5, .removed 1)] := by decide

/-! ## Equality, hash and options -/

/-- **C80**.  The class, the options and the hash of a container never change, whatever is done to it, to others, or to its copies. -/
theorem C80_stable (ops more : List (Op α)) {o : Nat} {ob : Obj α} (hb : (run item dup ops {}).objs[o]? = some ob) :
    (∃ ob', (run item dup (ops ++ more) {}).objs[o]? = some ob' ∧ ob'.cls = ob.cls ∧ ob'.opts = ob.opts) ∧
      (run item dup (ops ++ more) {}).hash o = (run item dup ops {}).hash o := by
  have e : run item dup (ops ++ more) ({} : Heap α) = run item dup more (run item dup ops {}) := by simp [run]
  obtain ⟨ob', h1, h2, h3⟩ := run_keeps (item := item) (dup := dup) more (run_own (item := item) (dup := dup) ops Own.init) hb
  rw [e]
  refine ⟨⟨ob', h1, h2, h3⟩, ?_⟩
  simp only [Heap.hash, h1, hb, h2, h3]

/-- **C80**.  A copy of a list is equal to it as long as neither is changed, if `==` of items is such that an item is equal to what the list
gives out for it: the item itself, or, for a built-in list, an `EventedList` of its items. -/
theorem C80_equal (ops : List (Op α)) {o : Nat} {ob : Obj α} (hb : (run item dup ops {}).objs[o]? = some ob)
    (hc : ob.cls = .list ∨ ob.cls = .selectable) (same : α → α → Bool) (hi : ∀ x ∈ (run item dup ops {}).contents o, same x (item x) = true) :
    (run item dup (ops ++ [.copy o]) {}).eq same o (run item dup ops {}).objs.length = true := by
  obtain ⟨-, -, h1, -, -, -, h2⟩ := C80_copy (item := item) (dup := dup) ops hb
  simp only [Heap.eq]
  rw [(h2 o (List.getElem?_eq_some_iff.1 hb).1).2.1, h1, if_pos hc]
  generalize (run item dup ops {}).contents o = l at hi
  induction l with
  | nil => rfl
  | cons x l ih =>
    have := ih fun y hy => hi y (by simp [hy])
    simp only [List.length_map, decide_true, Bool.true_and, List.all_eq_true] at this
    simp only [List.map_cons, List.length_cons, List.length_map, decide_true, Bool.true_and, List.zip_cons_cons, List.all_cons,
      hi x (by simp), List.all_eq_true]
    exact this

/-- **C80** (partial).  What is made like a dict (`copy`, `|`) has its `basetype`, and what is made like a container with the default options has
these options.  Missing, and false: the options of lists and the parent of a selection (below). -/
theorem C80_options_partial (ops : List (Op α)) {o : Nat} {ob : Obj α} (hb : (run item dup ops {}).objs[o]? = some ob)
    (op : Op α) (hop : op = .copy o ∨ ∃ f, op = .derive o f) :
    ∃ ob', (run item dup (ops ++ [op]) {}).objs[(run item dup ops {}).objs.length]? = some ob' ∧
      (ob.cls = .dict → ob'.opts.base = ob.opts.base) ∧ (ob.opts = {} → ob'.opts = ob.opts) := by
  have ho : Own (run item dup ops {}) := run_own ops Own.init
  have key : ∃ xs, step item dup (run item dup ops {}) op = (run item dup ops {}).create ob.cls (ob.opts.newlike ob.cls) xs := by
    rcases hop with rfl | ⟨f, rfl⟩
    · exact ⟨items item ob.cls ((run item dup ops {}).contents o), by simp only [step, hb, Heap.newlike]⟩
    · exact ⟨f ((run item dup ops {}).contents o), by simp only [step, hb, Heap.newlike]⟩
  obtain ⟨xs, e⟩ := key
  obtain ⟨h1, m⟩ := create_spec ho ob.cls (ob.opts.newlike ob.cls) xs
  obtain ⟨-, ⟨ob', a2, a3, a4, -⟩, -⟩ := m.obj ho h1
  rw [run_snoc, e]
  refine ⟨ob', a2, ?_, ?_⟩
  · intro hc
    rw [a4, hc]
    rfl
  · intro hd
    rw [a4, hd]
    cases ob.cls <;> rfl

/-- Dicts with another `basetype`, a default list. -/
example :
    let h := run id id [.new .dict { base := 3 } [1], .copy 0, .derive 1 (· ++ [2]), .new .list {} [5], .copy 3] ({} : Heap Nat)
    (h.objs.map fun ob => ob.opts.base) = [3, 3, 3, 0, 0] ∧ h.eq (· == ·) 3 4 = true ∧ h.hash 3 = some 3 ∧ h.hash 4 = some 4 := by decide

/-! ## Selected items of copies -/

/-- **C80** (partial).  In a `SelectableEventedList` and its copies, copies of copies, slices and so on, only items of the list are selected,
after any program of `append`, `remove`, selections and copies.  Missing, and false: `deepcopy` (below); missing: other changes of the
list (C34). -/
theorem C80_selected_partial (ops : List (Op α)) (h1 : ∀ o, .deepcopy o ∉ ops) (h2 : ∀ o f n, .change o f n ∉ ops) {o : Nat}
    {ob : Obj α} (hb : (run item dup ops {}).objs[o]? = some ob) (hc : ob.cls = .selectable) :
    ∀ y ∈ ob.sel, y ∈ (run item dup ops {}).contents o :=
  (run_sel ops Own.init (by intro i ob hi; simp at hi) h1 h2 o ob hb hc).2

/-- **C80**.  An item that is appended to a `SelectableEventedList`, original or copy, becomes the selected one. -/
theorem C80_append_selects (ops : List (Op α)) {o : Nat} {ob : Obj α} (hb : (run item dup ops {}).objs[o]? = some ob)
    (hc : ob.cls = .selectable) (x : α) :
    (run item dup (ops ++ [.append o x]) {}).contents o = (run item dup ops {}).contents o ++ [x] ∧
      (run item dup (ops ++ [.append o x]) {}).objs[o]?.map Obj.sel = some [x] := by
  have ho : Own (run item dup ops {}) := run_own ops Own.init
  obtain ⟨⟨g, a, -⟩, -⟩ := step_append (item := item) (dup := dup) ho hb x
  obtain ⟨-, t, -⟩ := a.this ho (step_own ho _) hb
  rw [run_snoc]
  refine ⟨t, ?_⟩
  have ha := a.objs
  simp only [step, hb, hc, if_true] at ha ⊢
  obtain ⟨g', f1, -⟩ := fire_objs (.inserted x) o ((run item dup ops {}).slots o)
    { run item dup ops {} with datas := (run item dup ops {}).datas.modify ob.data (· ++ [x]) } (ho.only o)
  rw [List.getElem?_modify_eq]
  split <;> (simp only [f1]; rw [List.getElem?_modify_eq, hb]; rfl)

/-- Something is selected, and stays selected in the copy when it is removed from the original. -/
example :
    let h := run id id [.new .selectable {} [1, 2, 3], .copy 0, .select 1 [1, 3, 9], .select 0 [1, 2], .remove 0 1] ({} : Heap Nat)
    (h.objs.map fun ob => ob.sel) = [[2], [1, 3]] := by decide

/-! ## What copies lose -/

/-- A copy of an unhashable list is hashable: `__newlike__` does not pass the option on. -/
theorem C80_hashable_refuted :
    let h := run id id [.new .list { hashable := false } [1], .copy 0] ({} : Heap Nat)
    h.hash 0 = none ∧ h.hash 1 = some 1 := by decide

/-- **C80**.  The events of children are told only to the callbacks of lists that hold the child and are connected to it, once for each
connection; telling them changes no container. -/
theorem C80_child (h : Heap α) (x : α) (n : Nat) :
    (step item dup h (.childEmit x n)).calls = h.calls ++
      (h.kids.filter fun k => k.1 = x ∧ x ∈ h.contents k.2).flatMap (fun k => (h.slots k.2).filterMap fun
        | .cb cb => some (cb, .child x n)
        | .desel _ => none) ∧
    ∀ o, (step item dup h (.childEmit x n)).contents o = h.contents o ∧ (step item dup h (.childEmit x n)).slots o = h.slots o := by
  obtain ⟨a1, a2, a3⟩ := report_same x n h.kids h
  refine ⟨?_, fun o => view_congr a1 a2 a3 o⟩
  show (h.report x n h.kids).calls = _
  rw [report_calls]
  have : (fun k : α × Nat => (cbs (h.slots k.2)).map fun cb => (cb, Ev.child x n)) = fun k => (h.slots k.2).filterMap fun
      | .cb cb => some (cb, .child x n)
      | .desel _ => none := funext fun k => (cbs_calls ..).symm
  rw [this]

/-- A child in three lists, one of them without `child_events`, and once taken out of the second: only the first tells. -/
example :
    let h := run id id [.new .list { childEvents := true } [1, 2], .new .list { childEvents := true } [2, 1], .new .list {} [1],
      .connect 0 7, .connect 1 8, .connect 2 9, .remove 1 1] ({} : Heap Nat)
    (step id id h (.childEmit 1 5)).calls = [(8, .removed 1), (7, .child 1 5)] ∧
    (step id id h (.childEmit 2 6)).calls = [(8, .removed 1), (7, .child 2 6), (8, .child 2 6)] := by decide

/-- A copy of a list with `child_events=True` does not report the events of the children; the original does. -/
theorem C80_child_events_refuted :
    let h := run id id [.new .list { childEvents := true } [1], .copy 0, .connect 0 7, .connect 1 8, .childEmit 1 5] ({} : Heap Nat)
    h.calls = [(7, .child 1 5)] := by decide

/-- Neither does a deep copy, although the option is copied: nothing has been connected to the copied children (here 11 is the copy
of 1) - only those that are added later are reported. -/
theorem C80_deep_child_events_refuted :
    let h := run id (· + 10) [.new .list { childEvents := true } [1], .deepcopy 0, .connect 1 8, .childEmit 11 5, .append 1 2,
      .childEmit 2 6] ({} : Heap Nat)
    h.contents 1 = [11, 2] ∧ (h.objs.map fun ob => ob.opts.childEvents) = [true, true] ∧
      h.calls = [(8, .inserted 2), (8, .child 2 6)] := by decide

/-- A copy of a selection has no parent. -/
theorem C80_parent_refuted :
    let h := run id id [.new .list {} [1, 2], .new .selection { parent := some 0 } [1], .copy 1] ({} : Heap Nat)
    (h.objs.map fun ob => ob.opts.parent) = [none, some 0, none] := by decide

/-- Equal lists with different hashes: hashable lists are compared by their items but hashed by identity. -/
theorem C80_equal_hash_refuted :
    let h := run id id [.new .list {} [1], .copy 0] ({} : Heap Nat)
    h.eq (· == ·) 0 1 = true ∧ h.hash 0 ≠ h.hash 1 := by decide

/-- A copy of a list with built-in lists in it does not have the same items: they become containers (here 1 becomes 101), so a change of
one of them is not seen through the other. -/
theorem C80_nested_refuted :
    let h := run (fun x => if x < 100 then x + 100 else x) id [.new .list {} [1, 100], .copy 0] ({} : Heap Nat)
    h.contents 0 = [1, 100] ∧ h.contents 1 = [101, 100] ∧ h.eq (fun x y => x % 100 == y % 100) 0 1 = true := by decide

/-- In a deep copy of a `SelectableEventedList` an item stays selected after it has been removed. -/
theorem C80_deep_selected_refuted :
    let h := run id id [.new .selectable {} [1, 2], .deepcopy 0, .remove 0 2, .remove 1 2] ({} : Heap Nat)
    h.contents 0 = [1] ∧ h.contents 1 = [1] ∧ (h.objs.map fun ob => ob.sel) = [[], [2]] := by decide

end Psygnal.CC
