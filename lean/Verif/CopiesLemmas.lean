import Verif.Copies

/-! # Copies of containers: lemmas for C80 -/

namespace Psygnal.CC

set_option linter.unusedSectionVars false

variable {α : Type} [DecidableEq α]

/-! ## Emissions -/

theorem call_mem (ev : Ev α) (sl : Slot) (h : Heap α) : (h.call ev sl).datas = h.datas ∧ (h.call ev sl).groups = h.groups ∧
    (h.call ev sl).kids = h.kids ∧ (h.call ev sl).calls = h.calls ++ [sl].filterMap fun
      | .cb n => some (n, ev)
      | .desel _ => none := by
  cases sl with
  | cb n => simp [Heap.call]
  | desel o => cases ev <;> simp [Heap.call]

theorem fire_mem (ev : Ev α) : ∀ (ss : List Slot) (h : Heap α), (h.fire ev ss).datas = h.datas ∧ (h.fire ev ss).groups = h.groups ∧
    (h.fire ev ss).kids = h.kids ∧ (h.fire ev ss).calls = h.calls ++ ss.filterMap fun
      | .cb n => some (n, ev)
      | .desel _ => none
  | [], h => by simp [Heap.fire]
  | sl :: ss, h => by
    obtain ⟨a1, a2, a3, a4⟩ := call_mem ev sl h
    obtain ⟨b1, b2, b3, b4⟩ := fire_mem ev ss (h.call ev sl)
    refine ⟨b1.trans a1, b2.trans a2, b3.trans a3, b4.trans ?_⟩
    rw [a4, List.append_assoc, ← List.filterMap_append]
    rfl

theorem modify_id' {β : Type} {f : β → β} (hf : ∀ x, f x = x) (l : List β) (o : Nat) : l.modify o f = l := by
  have : f = id := funext hf
  rw [this, List.modify_id]

/-- Only the selection of the object may change. -/
theorem call_objs (ev : Ev α) (o : Nat) (sl : Slot) (h : Heap α) (hs : ∀ o', sl = .desel o' → o' = o) :
    ∃ g : List α → List α, (h.call ev sl).objs = h.objs.modify o (fun ob => { ob with sel := g ob.sel }) ∧ (∀ l, ∀ x ∈ g l, x ∈ l) ∧
      ∀ x, ev = .removed x → sl = .desel o → ∀ l, x ∉ g l := by
  cases sl with
  | cb n => exact ⟨id, (modify_id' (fun _ => rfl) _ _).symm, fun _ _ h => h, fun _ _ h => by cases h⟩
  | desel o' =>
    have ho : o' = o := hs o' rfl
    subst ho
    cases ev with
    | removed x =>
      refine ⟨fun l => l.filter (· ≠ x), rfl, fun l y hy => (List.mem_filter.1 hy).1, ?_⟩
      rintro y hy - l hm
      cases hy
      simp at hm
    | inserted x | child x n | other n =>
      exact ⟨id, (modify_id' (fun _ => rfl) _ _).symm, fun _ _ h => h, fun _ h => by cases h⟩

theorem fire_objs (ev : Ev α) (o : Nat) : ∀ (ss : List Slot) (h : Heap α), (∀ o', .desel o' ∈ ss → o' = o) →
    ∃ g : List α → List α, (h.fire ev ss).objs = h.objs.modify o (fun ob => { ob with sel := g ob.sel }) ∧ (∀ l, ∀ x ∈ g l, x ∈ l) ∧
      ∀ x, ev = .removed x → .desel o ∈ ss → ∀ l, x ∉ g l
  | [], h, _ => ⟨id, (modify_id' (fun _ => rfl) _ _).symm, fun _ _ h => h, by simp⟩
  | sl :: ss, h, hs => by
    obtain ⟨g1, a1, a2, a3⟩ := call_objs ev o sl h fun o' ho => hs o' (by simp [ho])
    obtain ⟨g2, b1, b2, b3⟩ := fire_objs ev o ss (h.call ev sl) fun o' ho => hs o' (by simp [ho])
    refine ⟨fun l => g2 (g1 l), ?_, fun l x hx => a2 l x (b2 _ x hx), ?_⟩
    · refine b1.trans ?_
      rw [a1, List.modify_modify_eq]
      rfl
    · intro x hx hm l hm'
      rcases List.mem_cons.1 hm with hm | hm
      · exact a3 x hx hm.symm l (b2 _ x hm')
      · exact b3 x hx hm _ hm'

/-! ## The invariant: nothing is shared -/

/-- Every object has its own cells, and its group has `_on_item_removed` of no other object. -/
structure Own (h : Heap α) : Prop where
  datas : h.datas.length = h.objs.length
  groups : h.groups.length = h.objs.length
  cells : ∀ (i : Nat) (ob : Obj α), h.objs[i]? = some ob → ob.data = i ∧ ob.group = i
  desel : ∀ (i : Nat) (ss : List Slot), h.groups[i]? = some ss → ∀ o, .desel o ∈ ss → o = i

theorem Own.init : Own ({} : Heap α) := ⟨rfl, rfl, by simp, by simp⟩

theorem Own.contents {h : Heap α} (ho : Own h) {i : Nat} {ob : Obj α} (hi : h.objs[i]? = some ob) : h.contents i = h.datas.getD i [] := by
  rw [Heap.contents, hi]
  simp only [(ho.cells i ob hi).1]

theorem Own.slots {h : Heap α} (ho : Own h) {i : Nat} {ob : Obj α} (hi : h.objs[i]? = some ob) : h.slots i = h.groups.getD i [] := by
  rw [Heap.slots, hi]
  simp only [(ho.cells i ob hi).2]

/-- Also for indices that are no objects. -/
theorem Own.contents' {h : Heap α} (ho : Own h) (i : Nat) : h.contents i = h.datas.getD i [] := by
  cases hi : h.objs[i]? with
  | some ob => exact ho.contents hi
  | none =>
    rw [Heap.contents, hi, List.getD_eq_getElem?_getD, List.getElem?_eq_none (by rw [ho.datas]; simpa using hi)]
    rfl

theorem Own.slots' {h : Heap α} (ho : Own h) (i : Nat) : h.slots i = h.groups.getD i [] := by
  cases hi : h.objs[i]? with
  | some ob => exact ho.slots hi
  | none =>
    rw [Heap.slots, hi, List.getD_eq_getElem?_getD, List.getElem?_eq_none (by rw [ho.groups]; simpa using hi)]
    rfl

theorem Own.only {h : Heap α} (ho : Own h) (i : Nat) : ∀ o, .desel o ∈ h.slots i → o = i := by
  intro o hm
  rw [ho.slots', List.getD_eq_getElem?_getD] at hm
  cases hg : h.groups[i]? with
  | none => rw [hg] at hm; simp at hm
  | some ss => rw [hg] at hm; exact ho.desel i ss hg o hm

theorem Own.alloc {h : Heap α} (ho : Own h) (cls : Cls) (opts : Opts) (xs : List α) (ss : List Slot) (sel : List α)
    (hs : ∀ o, .desel o ∈ ss → o = h.objs.length) : Own (h.alloc cls opts xs ss sel) := by
  refine ⟨by simp [Heap.alloc, ho.datas], by simp [Heap.alloc, ho.groups], ?_, ?_⟩
  · intro i ob hi
    simp only [Heap.alloc, List.getElem?_append] at hi
    split at hi
    · exact ho.cells i ob hi
    · cases hk : i - h.objs.length with
      | zero =>
        rw [hk] at hi
        simp only [List.getElem?_cons_zero, Option.some.injEq] at hi
        subst hi
        exact ⟨by simp only [ho.datas]; omega, by simp only [ho.groups]; omega⟩
      | succ k => rw [hk] at hi; simp at hi
  · intro i ss' hi o hm
    simp only [Heap.alloc, List.getElem?_append] at hi
    split at hi
    · exact ho.desel i ss' hi o hm
    · cases hk : i - h.groups.length with
      | zero =>
        rw [hk] at hi
        simp only [List.getElem?_cons_zero, Option.some.injEq] at hi
        subst hi
        have := hs o hm
        have := ho.groups
        omega
      | succ k => rw [hk] at hi; simp at hi

/-- What a new object is like; the others stay. -/
structure Made (h h' : Heap α) (cls : Cls) (opts : Opts) (xs : List α) (ss : List Slot) (sel : List α) : Prop where
  objs : ∃ d g, h'.objs = h.objs ++ [⟨cls, d, g, opts, sel⟩]
  datas : h'.datas = h.datas ++ [xs]
  groups : h'.groups = h.groups ++ [ss]
  calls : h'.calls = h.calls

theorem made_alloc (h : Heap α) (cls : Cls) (opts : Opts) (xs : List α) (ss : List Slot) (sel : List α) :
    Made h (h.alloc cls opts xs ss sel) cls opts xs ss sel := ⟨⟨_, _, rfl⟩, rfl, rfl, rfl⟩

theorem create_spec {h : Heap α} (ho : Own h) (cls : Cls) (opts : Opts) (xs : List α) : Own (h.create cls opts xs) ∧
    Made h (h.create cls opts xs) cls opts xs (if cls = .selectable then [.desel h.objs.length] else [])
      (if cls = .selectable then xs.getLast?.toList else []) := by
  have key : ∀ (h' : Heap α) (ks : List (α × Nat)), Own h' → Own { h' with kids := ks } := fun h' ks o => ⟨o.1, o.2, o.3, o.4⟩
  have h1 : Own (h.alloc cls opts xs (if cls = .selectable then [.desel h.objs.length] else [])
      (if cls = .selectable then xs.getLast?.toList else [])) := ho.alloc _ _ _ _ _ (by split <;> simp)
  simp only [Heap.create]
  split
  · exact ⟨key _ _ h1, ⟨⟨_, _, rfl⟩, rfl, rfl, rfl⟩⟩
  · exact ⟨h1, made_alloc ..⟩

theorem Made.obj {h h' : Heap α} {cls : Cls} {opts : Opts} {xs : List α} {ss : List Slot} {sel : List α}
    (m : Made h h' cls opts xs ss sel) (ho : Own h) (ho' : Own h') : h'.objs.length = h.objs.length + 1 ∧
      (∃ ob', h'.objs[h.objs.length]? = some ob' ∧ ob'.cls = cls ∧ ob'.opts = opts ∧ ob'.sel = sel) ∧
      h'.contents h.objs.length = xs ∧ h'.slots h.objs.length = ss ∧
      ∀ i, i < h.objs.length → h'.objs[i]? = h.objs[i]? ∧ h'.contents i = h.contents i ∧ h'.slots i = h.slots i := by
  obtain ⟨d, g, e⟩ := m.objs
  refine ⟨by simp [e], ⟨⟨cls, d, g, opts, sel⟩, by rw [e, List.getElem?_append_right (Nat.le_refl _)]; simp, rfl, rfl, rfl⟩, ?_, ?_, fun i hi => ⟨?_, ?_, ?_⟩⟩
  · rw [ho'.contents', m.datas, List.getD_eq_getElem?_getD, ← ho.datas, List.getElem?_append_right (Nat.le_refl _)]
    simp
  · rw [ho'.slots', m.groups, List.getD_eq_getElem?_getD, ← ho.groups, List.getElem?_append_right (Nat.le_refl _)]
    simp
  · rw [e, List.getElem?_append_left hi]
  · rw [ho'.contents', ho.contents', m.datas, List.getD_eq_getElem?_getD, List.getD_eq_getElem?_getD,
      List.getElem?_append_left (by rw [ho.datas]; exact hi)]
  · rw [ho'.slots', ho.slots', m.groups, List.getD_eq_getElem?_getD, List.getD_eq_getElem?_getD,
      List.getElem?_append_left (by rw [ho.groups]; exact hi)]

/-- What an operation on object `o` can do. -/
structure Acts (o : Nat) (h h' : Heap α) (f : List α → List α) (g : List α → List α) (more : List Slot) : Prop where
  objs : h'.objs = h.objs.modify o fun ob => { ob with sel := g ob.sel }
  datas : h'.datas = h.datas.modify o f
  groups : h'.groups = h.groups.modify o (· ++ more)

theorem Acts.own {o : Nat} {h h' : Heap α} {f g : List α → List α} {more : List Slot} (a : Acts o h h' f g more) (ho : Own h)
    (hm : ∀ o', .desel o' ∉ more) : Own h' := by
  refine ⟨by simp [a.datas, a.objs, ho.datas], by simp [a.groups, a.objs, ho.groups], ?_, ?_⟩
  · intro i ob hi
    rw [a.objs, List.getElem?_modify] at hi
    cases hb : h.objs[i]? with
    | none => rw [hb] at hi; cases hi
    | some b =>
      rw [hb] at hi
      have := ho.cells i b hb
      by_cases hio : o = i
      · simp only [hio, if_true, Option.map_eq_map, Option.map_some, Option.some.injEq] at hi
        subst hi; exact this
      · simp only [if_neg hio, Option.map_eq_map, Option.map_some, Option.some.injEq] at hi
        subst hi; exact this
  · intro i ss hi o' h'
    rw [a.groups, List.getElem?_modify] at hi
    cases hb : h.groups[i]? with
    | none => rw [hb] at hi; cases hi
    | some b =>
      rw [hb] at hi
      have := ho.desel i b hb o'
      by_cases hio : o = i
      · simp only [hio, if_true, Option.map_eq_map, Option.map_some, Option.some.injEq] at hi
        subst hi
        rcases List.mem_append.1 h' with h' | h'
        · exact this h'
        · exact absurd h' (hm o')
      · simp only [if_neg hio, Option.map_eq_map, Option.map_some, Option.some.injEq] at hi
        subst hi; exact this h'

theorem Acts.others {o : Nat} {h h' : Heap α} {f g : List α → List α} {more : List Slot} (a : Acts o h h' f g more) (ho : Own h)
    (ho' : Own h') {i : Nat} (hi : i ≠ o) : h'.objs[i]? = h.objs[i]? ∧ h'.contents i = h.contents i ∧ h'.slots i = h.slots i := by
  refine ⟨?_, ?_, ?_⟩
  · rw [a.objs, List.getElem?_modify_ne _ _ hi.symm]
  · rw [ho'.contents', ho.contents', a.datas, List.getD_eq_getElem?_getD, List.getD_eq_getElem?_getD, List.getElem?_modify_ne _ _ hi.symm]
  · rw [ho'.slots', ho.slots', a.groups, List.getD_eq_getElem?_getD, List.getD_eq_getElem?_getD, List.getElem?_modify_ne _ _ hi.symm]

theorem Acts.this {o : Nat} {h h' : Heap α} {f g : List α → List α} {more : List Slot} (a : Acts o h h' f g more) (ho : Own h)
    (ho' : Own h') {ob : Obj α} (hb : h.objs[o]? = some ob) : h'.objs[o]? = some { ob with sel := g ob.sel } ∧
      h'.contents o = f (h.contents o) ∧ h'.slots o = h.slots o ++ more := by
  have hlt : o < h.objs.length := (List.getElem?_eq_some_iff.1 hb).1
  refine ⟨?_, ?_, ?_⟩
  · rw [a.objs, List.getElem?_modify_eq, hb]
    rfl
  · rw [ho'.contents', ho.contents', a.datas, List.getD_eq_getElem?_getD, List.getD_eq_getElem?_getD, List.getElem?_modify_eq,
      List.getElem?_eq_getElem (by rw [ho.datas]; exact hlt)]
    rfl
  · rw [ho'.slots', ho.slots', a.groups, List.getD_eq_getElem?_getD, List.getD_eq_getElem?_getD, List.getElem?_modify_eq,
      List.getElem?_eq_getElem (by rw [ho.groups]; exact hlt)]
    rfl

theorem modify_none {β : Type} {l : List β} {o : Nat} (h : l[o]? = none) (f : β → β) : l.modify o f = l := by
  apply List.ext_getElem?
  intro i
  by_cases hi : o = i
  · subst hi; rw [List.getElem?_modify_eq, h]; rfl
  · rw [List.getElem?_modify_ne _ _ hi]

theorem modify_same {β : Type} {l : List β} {o : Nat} {x : β} (h : l[o]? = some x) {f : β → β} (hf : f x = x) : l.modify o f = l := by
  apply List.ext_getElem?
  intro i
  by_cases hi : o = i
  · subst hi; rw [List.getElem?_modify_eq, h]; simp [hf]
  · rw [List.getElem?_modify_ne _ _ hi]

theorem acts_refl (o : Nat) (h : Heap α) : Acts o h h id id [] :=
  ⟨(modify_id' (fun _ => rfl) _ _).symm, (modify_id' (fun _ => rfl) _ _).symm, (modify_id' (by simp) _ _).symm⟩

/-! ## The operations on one object -/

variable {item dup : α → α}

/-- Changing the contents and telling the listeners. -/
theorem acts_fire {h : Heap α} (ho : Own h) {o : Nat} {ob : Obj α} (hb : h.objs[o]? = some ob) (ks : List (α × Nat))
    (f : List α → List α) (ev : Ev α) :
    ∃ g, Acts o h (Heap.fire { h with kids := ks, datas := h.datas.modify ob.data f } ev (h.slots o)) f g [] ∧ (∀ l, ∀ x ∈ g l, x ∈ l) ∧
      ∀ x, ev = .removed x → .desel o ∈ h.slots o → ∀ l, x ∉ g l := by
  obtain ⟨g, h1, h2, h3⟩ := fire_objs ev o (h.slots o) { h with kids := ks, datas := h.datas.modify ob.data f } (ho.only o)
  obtain ⟨m1, m2, -⟩ := fire_mem ev (h.slots o) { h with kids := ks, datas := h.datas.modify ob.data f }
  refine ⟨g, ⟨h1, ?_, ?_⟩, h2, h3⟩
  · rw [m1, (ho.cells o ob hb).1]
  · rw [m2]
    exact (modify_id' (by simp) _ _).symm

theorem step_change {h : Heap α} (ho : Own h) {o : Nat} {ob : Obj α} (hb : h.objs[o]? = some ob) (f : List α → List α) (n : Nat) :
    (∃ g, Acts o h (step item dup h (.change o f n)) f g []) ∧ (step item dup h (.change o f n)).calls = h.calls ++
      (h.slots o).filterMap fun
        | .cb k => some (k, .other n)
        | .desel _ => none := by
  obtain ⟨g, h1, -⟩ := acts_fire ho hb h.kids f (.other n)
  simp only [step, hb]
  exact ⟨⟨g, h1⟩, (fire_mem (.other n) (h.slots o) _).2.2.2⟩

theorem step_append {h : Heap α} (ho : Own h) {o : Nat} {ob : Obj α} (hb : h.objs[o]? = some ob) (x : α) :
    (∃ g, Acts o h (step item dup h (.append o x)) (· ++ [x]) g [] ∧ ∀ y ∈ g ob.sel, y = x ∨ y ∈ ob.sel) ∧
      (step item dup h (.append o x)).calls = h.calls ++ (h.slots o).filterMap fun
        | .cb k => some (k, .inserted x)
        | .desel _ => none := by
  obtain ⟨g, h1, h2, -⟩ := acts_fire ho hb h.kids (· ++ [x]) (.inserted x)
  have hc := (fire_mem (.inserted x) (h.slots o) { h with kids := h.kids, datas := h.datas.modify ob.data (· ++ [x]) }).2.2.2
  simp only [step, hb]
  generalize Heap.fire { h with kids := h.kids, datas := h.datas.modify ob.data (· ++ [x]) } (.inserted x) (h.slots o) = h1' at h1 hc ⊢
  have key : ∀ h2' : Heap α, h2'.objs = h1'.objs → h2'.datas = h1'.datas → h2'.groups = h1'.groups → h2'.calls = h1'.calls →
      (∃ g, Acts o h (if ob.cls = .selectable then { h2' with objs := h2'.objs.modify o fun ob => { ob with sel := [x] } } else h2')
        (· ++ [x]) g [] ∧ ∀ y ∈ g ob.sel, y = x ∨ y ∈ ob.sel) ∧
      (if ob.cls = .selectable then { h2' with objs := h2'.objs.modify o fun ob => { ob with sel := [x] } } else h2').calls = h1'.calls := by
    intro h2' e1 e2 e3 e4
    split
    · refine ⟨⟨fun _ => [x], ⟨?_, e2.trans h1.datas, e3.trans h1.groups⟩, fun y hy => .inl (by simpa using hy)⟩, e4⟩
      simp only [e1, h1.objs, List.modify_modify_eq]
      rfl
    · exact ⟨⟨g, ⟨e1.trans h1.objs, e2.trans h1.datas, e3.trans h1.groups⟩, fun y hy => .inr (h2 _ y hy)⟩, e4⟩
  by_cases hce : ob.opts.childEvents = true
  · rw [if_pos hce]
    obtain ⟨k1, k2⟩ := key { h1' with kids := h1'.kids ++ [(x, o)] } rfl rfl rfl rfl
    exact ⟨k1, k2.trans hc⟩
  · rw [if_neg hce]
    obtain ⟨k1, k2⟩ := key h1' rfl rfl rfl rfl
    exact ⟨k1, k2.trans hc⟩

theorem step_remove {h : Heap α} (ho : Own h) {o : Nat} {ob : Obj α} (hb : h.objs[o]? = some ob) {x : α} (hx : x ∈ h.contents o) :
    (∃ g, Acts o h (step item dup h (.remove o x)) (·.erase x) g [] ∧ (∀ y ∈ g ob.sel, y ∈ ob.sel) ∧
      (.desel o ∈ h.slots o → x ∉ g ob.sel)) ∧
      (step item dup h (.remove o x)).calls = h.calls ++ (h.slots o).filterMap fun
        | .cb k => some (k, .removed x)
        | .desel _ => none := by
  simp only [step, hb, if_pos hx]
  by_cases hce : ob.opts.childEvents = true
  · rw [if_pos hce]
    obtain ⟨g, h1, h2, h3⟩ := acts_fire ho hb (h.kids.erase (x, o)) (·.erase x) (.removed x)
    exact ⟨⟨g, h1, h2 _, fun hd => h3 x rfl hd _⟩, (fire_mem (.removed x) (h.slots o) _).2.2.2⟩
  · rw [if_neg hce]
    obtain ⟨g, h1, h2, h3⟩ := acts_fire ho hb h.kids (·.erase x) (.removed x)
    exact ⟨⟨g, h1, h2 _, fun hd => h3 x rfl hd _⟩, (fire_mem (.removed x) (h.slots o) _).2.2.2⟩

theorem step_select {h : Heap α} {o : Nat} {ob : Obj α} (hb : h.objs[o]? = some ob) (xs : List α) :
    (∃ g, Acts o h (step item dup h (.select o xs)) id g [] ∧ ∀ y ∈ g ob.sel, y ∈ h.contents o ∨ y ∈ ob.sel) ∧
      (step item dup h (.select o xs)).calls = h.calls := by
  refine ⟨?_, rfl⟩
  by_cases hc : ob.cls = .selectable
  · refine ⟨fun _ => xs.filter (· ∈ h.contents o), ⟨?_, (modify_id' (fun _ => rfl) _ _).symm, (modify_id' (by simp) _ _).symm⟩, ?_⟩
    · simp only [step]
      apply List.ext_getElem?
      intro i
      by_cases hi : o = i
      · subst hi
        rw [List.getElem?_modify_eq, List.getElem?_modify_eq, hb]
        simp [hc]
      · rw [List.getElem?_modify_ne _ _ hi, List.getElem?_modify_ne _ _ hi]
    · intro y hy
      simp only [List.mem_filter, decide_eq_true_eq] at hy
      exact .inl hy.2
  · refine ⟨id, ⟨?_, (modify_id' (fun _ => rfl) _ _).symm, (modify_id' (by simp) _ _).symm⟩, fun y hy => .inr hy⟩
    simp only [step]
    rw [modify_same hb (by simp [hc])]
    exact (modify_id' (fun _ => rfl) _ _).symm

theorem step_connect {h : Heap α} (ho : Own h) {o : Nat} {ob : Obj α} (hb : h.objs[o]? = some ob) (cb : Nat) :
    Acts o h (step item dup h (.connect o cb)) id id [.cb cb] ∧ (step item dup h (.connect o cb)).calls = h.calls := by
  simp only [step, hb]
  refine ⟨⟨(modify_id' (fun _ => rfl) _ _).symm, (modify_id' (fun _ => rfl) _ _).symm, ?_⟩, trivial⟩
  simp only [(ho.cells o ob hb).2]

theorem fire_child (x : α) (n : Nat) : ∀ (ss : List Slot) (h : Heap α), (h.fire (.child x n) ss).objs = h.objs
  | [], _ => rfl
  | sl :: ss, h => by
    refine (fire_child x n ss (h.call (.child x n) sl)).trans ?_
    cases sl <;> rfl

theorem report_same (x : α) (n : Nat) : ∀ (ks : List (α × Nat)) (h : Heap α), (h.report x n ks).objs = h.objs ∧
    (h.report x n ks).datas = h.datas ∧ (h.report x n ks).groups = h.groups
  | [], _ => ⟨rfl, rfl, rfl⟩
  | (y, o) :: ks, h => by
    rw [Heap.report]
    split
    · obtain ⟨a1, a2, a3⟩ := report_same x n ks (h.fire (.child x n) (h.slots o))
      obtain ⟨b1, b2, -⟩ := fire_mem (.child x n) (h.slots o) h
      exact ⟨a1.trans (fire_child ..), a2.trans b1, a3.trans b2⟩
    · exact report_same x n ks h

theorem Own.congr {h h' : Heap α} (ho : Own h) (h1 : h'.objs = h.objs) (h2 : h'.datas = h.datas) (h3 : h'.groups = h.groups) : Own h' :=
  ⟨by rw [h1, h2]; exact ho.datas, by rw [h1, h3]; exact ho.groups, by rw [h1]; exact ho.cells, by rw [h3]; exact ho.desel⟩

theorem view_congr {h h' : Heap α} (h1 : h'.objs = h.objs) (h2 : h'.datas = h.datas) (h3 : h'.groups = h.groups) (i : Nat) :
    h'.contents i = h.contents i ∧ h'.slots i = h.slots i := by
  simp only [Heap.contents, Heap.slots, h1, h2, h3, and_self]

/-- What an operation does: it makes an object, acts on one, or only calls callbacks. -/
theorem step_cases {h : Heap α} (ho : Own h) (op : Op α) :
    (∃ cls opts xs ss sel, Made h (step item dup h op) cls opts xs ss sel ∧ Own (step item dup h op) ∧
      ((∃ o ob, op = .deepcopy o ∧ h.objs[o]? = some ob ∧ cls = ob.cls ∧ opts = ob.opts ∧ xs = (h.contents o).map dup ∧ ss = [] ∧
          sel = ob.sel.map dup) ∨
        ((∀ o, op ≠ .deepcopy o) ∧ ss = (if cls = .selectable then [.desel h.objs.length] else []) ∧
          sel = (if cls = .selectable then xs.getLast?.toList else []) ∧ ((∃ ys, op = .new cls opts ys ∧ xs = ys) ∨
          ∃ o ob, h.objs[o]? = some ob ∧ cls = ob.cls ∧ opts = ob.opts.newlike ob.cls ∧
            ((op = .copy o ∧ xs = items item ob.cls (h.contents o)) ∨ ∃ f, op = .derive o f ∧ xs = f (h.contents o)))))) ∨
    (∃ o ob f g more, h.objs[o]? = some ob ∧ Acts o h (step item dup h op) f g more ∧ (∀ o', .desel o' ∉ more) ∧
      ((∃ n, op = .change o f n ∧ more = []) ∨ (∃ x, op = .append o x ∧ f = (· ++ [x]) ∧ more = [] ∧ ∀ y ∈ g ob.sel, y = x ∨ y ∈ ob.sel) ∨
        (∃ x, op = .remove o x ∧ x ∈ h.contents o ∧ f = (·.erase x) ∧ more = [] ∧ (∀ y ∈ g ob.sel, y ∈ ob.sel) ∧
          (.desel o ∈ h.slots o → x ∉ g ob.sel)) ∨
        (∃ xs, op = .select o xs ∧ f = id ∧ more = [] ∧ ∀ y ∈ g ob.sel, y ∈ h.contents o ∨ y ∈ ob.sel) ∨
        ∃ cb, op = .connect o cb ∧ f = id ∧ g = id ∧ more = [.cb cb])) ∨
    ((step item dup h op).objs = h.objs ∧ (step item dup h op).datas = h.datas ∧ (step item dup h op).groups = h.groups ∧
      (∀ cls opts xs, op ≠ .new cls opts xs) ∧
      ∀ o ob, h.objs[o]? = some ob → (∀ cb, op ≠ .connect o cb)) := by
  cases op with
  | new cls opts xs =>
    obtain ⟨h1, h2⟩ := create_spec ho cls opts xs
    exact .inl ⟨cls, opts, xs, _, _, h2, h1, .inr ⟨by simp, rfl, rfl, .inl ⟨xs, rfl, rfl⟩⟩⟩
  | copy o =>
    cases hb : h.objs[o]? with
    | none => exact .inr (.inr ⟨by simp [step, hb], by simp [step, hb], by simp [step, hb], by simp, by simp⟩)
    | some ob =>
      obtain ⟨h1, h2⟩ := create_spec ho ob.cls (ob.opts.newlike ob.cls) (items item ob.cls (h.contents o))
      refine .inl ⟨ob.cls, ob.opts.newlike ob.cls, items item ob.cls (h.contents o), _, _, ?_, ?_,
        .inr ⟨by simp, rfl, rfl, .inr ⟨o, ob, hb, rfl, rfl, .inl ⟨rfl, rfl⟩⟩⟩⟩
      · simp only [step, hb]; exact h2
      · simp only [step, hb]; exact h1
  | derive o f =>
    cases hb : h.objs[o]? with
    | none => exact .inr (.inr ⟨by simp [step, hb], by simp [step, hb], by simp [step, hb], by simp, by simp⟩)
    | some ob =>
      obtain ⟨h1, h2⟩ := create_spec ho ob.cls (ob.opts.newlike ob.cls) (f (h.contents o))
      refine .inl ⟨ob.cls, ob.opts.newlike ob.cls, f (h.contents o), _, _, ?_, ?_,
        .inr ⟨by simp, rfl, rfl, .inr ⟨o, ob, hb, rfl, rfl, .inr ⟨f, rfl, rfl⟩⟩⟩⟩
      · simp only [step, hb]; exact h2
      · simp only [step, hb]; exact h1
  | deepcopy o =>
    cases hb : h.objs[o]? with
    | none => exact .inr (.inr ⟨by simp [step, hb], by simp [step, hb], by simp [step, hb], by simp, by simp⟩)
    | some ob =>
      refine .inl ⟨ob.cls, ob.opts, (h.contents o).map dup, [], ob.sel.map dup, ?_, ?_,
        .inl ⟨o, ob, rfl, hb, rfl, rfl, rfl, rfl, rfl⟩⟩
      · simp only [step, hb]; exact made_alloc ..
      · simp only [step, hb]; exact ho.alloc _ _ _ _ _ (by simp)
  | change o f n =>
    cases hb : h.objs[o]? with
    | none => exact .inr (.inr ⟨by simp [step, hb], by simp [step, hb], by simp [step, hb], by simp, by simp⟩)
    | some ob =>
      obtain ⟨⟨g, h1⟩, -⟩ := step_change (item := item) (dup := dup) ho hb f n
      exact .inr (.inl ⟨o, ob, f, g, [], hb, h1, by simp, .inl ⟨n, rfl, rfl⟩⟩)
  | append o x =>
    cases hb : h.objs[o]? with
    | none => exact .inr (.inr ⟨by simp [step, hb], by simp [step, hb], by simp [step, hb], by simp, by simp⟩)
    | some ob =>
      obtain ⟨⟨g, h1, h2⟩, -⟩ := step_append (item := item) (dup := dup) ho hb x
      exact .inr (.inl ⟨o, ob, _, g, [], hb, h1, by simp, .inr (.inl ⟨x, rfl, rfl, rfl, h2⟩)⟩)
  | remove o x =>
    cases hb : h.objs[o]? with
    | none => exact .inr (.inr ⟨by simp [step, hb], by simp [step, hb], by simp [step, hb], by simp, by simp⟩)
    | some ob =>
      by_cases hx : x ∈ h.contents o
      · obtain ⟨⟨g, h1, h2, h3⟩, -⟩ := step_remove (item := item) (dup := dup) ho hb hx
        exact .inr (.inl ⟨o, ob, _, g, [], hb, h1, by simp, .inr (.inr (.inl ⟨x, rfl, hx, rfl, rfl, h2, h3⟩))⟩)
      · exact .inr (.inr ⟨by simp [step, hb, hx], by simp [step, hb, hx], by simp [step, hb, hx], by simp, by simp⟩)
  | select o xs =>
    cases hb : h.objs[o]? with
    | none => exact .inr (.inr ⟨by simp only [step]; exact modify_none hb _, rfl, rfl, by simp, by simp⟩)
    | some ob =>
      obtain ⟨⟨g, h1, h2⟩, -⟩ := step_select (item := item) (dup := dup) hb xs
      exact .inr (.inl ⟨o, ob, _, g, [], hb, h1, by simp, .inr (.inr (.inr (.inl ⟨xs, rfl, rfl, rfl, h2⟩)))⟩)
  | connect o cb =>
    cases hb : h.objs[o]? with
    | none =>
      refine .inr (.inr ⟨by simp [step, hb], by simp [step, hb], by simp [step, hb], by simp, ?_⟩)
      rintro o' ob' hb' cb' e
      cases e
      rw [hb] at hb'
      cases hb'
    | some ob =>
      exact .inr (.inl ⟨o, ob, id, id, [.cb cb], hb, (step_connect (item := item) (dup := dup) ho hb cb).1, by simp,
        .inr (.inr (.inr (.inr ⟨cb, rfl, rfl, rfl, rfl⟩)))⟩)
  | childEmit x n =>
    obtain ⟨a1, a2, a3⟩ := report_same x n h.kids h
    exact .inr (.inr ⟨a1, a2, a3, by simp, by simp⟩)

theorem step_own {h : Heap α} (ho : Own h) (op : Op α) : Own (step item dup h op) := by
  rcases step_cases (item := item) (dup := dup) ho op with ⟨_, _, _, _, _, -, h1, -⟩ | ⟨o, ob, f, g, more, -, h1, h2, -⟩ | ⟨h1, h2, h3, -⟩
  · exact h1
  · exact h1.own ho h2
  · exact ho.congr h1 h2 h3

theorem run_own : ∀ (ops : List (Op α)) {h : Heap α}, Own h → Own (run item dup ops h)
  | [], _, ho => ho
  | op :: ops, _, ho => run_own ops (step_own ho op)

theorem run_snoc (ops : List (Op α)) (op : Op α) (h : Heap α) : run item dup (ops ++ [op]) h = step item dup (run item dup ops h) op := by
  simp [run]

/-- Objects stay, with their class and options. -/
theorem step_keeps {h : Heap α} (ho : Own h) (op : Op α) {i : Nat} {ob : Obj α} (hi : h.objs[i]? = some ob) :
    ∃ ob', (step item dup h op).objs[i]? = some ob' ∧ ob'.cls = ob.cls ∧ ob'.opts = ob.opts := by
  have ho' := step_own (item := item) (dup := dup) ho op
  rcases step_cases (item := item) (dup := dup) ho op with ⟨_, _, _, _, _, m, -⟩ | ⟨o, b, f, g, more, hb, h1, -⟩ | ⟨h1, -⟩
  · obtain ⟨-, -, -, -, m5⟩ := m.obj ho ho'
    exact ⟨ob, by rw [(m5 i (List.getElem?_eq_some_iff.1 hi).1).1, hi], rfl, rfl⟩
  · by_cases hio : i = o
    · subst hio
      exact ⟨_, (h1.this ho ho' hi).1, rfl, rfl⟩
    · exact ⟨ob, by rw [(h1.others ho ho' hio).1, hi], rfl, rfl⟩
  · exact ⟨ob, by rw [h1, hi], rfl, rfl⟩

theorem run_keeps : ∀ (ops : List (Op α)) {h : Heap α}, Own h → ∀ {i : Nat} {ob : Obj α}, h.objs[i]? = some ob →
    ∃ ob', (run item dup ops h).objs[i]? = some ob' ∧ ob'.cls = ob.cls ∧ ob'.opts = ob.opts
  | [], _, _, _, ob, hi => ⟨ob, hi, rfl, rfl⟩
  | op :: ops, _, ho, _, _, hi => by
    obtain ⟨b, h1, h2, h3⟩ := step_keeps (item := item) (dup := dup) ho op hi
    obtain ⟨b', h4, h5, h6⟩ := run_keeps ops (step_own (item := item) (dup := dup) ho op) h1
    exact ⟨b', h4, h5.trans h2, h6.trans h3⟩

/-- The program's callbacks among slots. -/
def cbs (ss : List Slot) : List Nat := ss.filterMap fun
  | .cb n => some n
  | .desel _ => none

/-- The callback that an operation connects to object `i`. -/
def conn (i : Nat) : Op α → Option Nat
  | .connect o cb => if o = i then some cb else none
  | _ => none

theorem step_cbs {h : Heap α} (ho : Own h) (op : Op α) {i : Nat} {ob : Obj α} (hi : h.objs[i]? = some ob) :
    cbs ((step item dup h op).slots i) = cbs (h.slots i) ++ (conn i op).toList := by
  have ho' := step_own (item := item) (dup := dup) ho op
  have hlt := (List.getElem?_eq_some_iff.1 hi).1
  rcases step_cases (item := item) (dup := dup) ho op with ⟨_, _, _, _, _, m, -, hop⟩ | ⟨o, b, f, g, more, hb, h1, -, hop⟩ | ⟨h1, h2, h3, -, h4⟩
  · obtain ⟨-, -, -, -, m5⟩ := m.obj ho ho'
    rw [(m5 i hlt).2.2]
    have : conn i op = none := by
      rcases hop with ⟨_, _, rfl, -⟩ | ⟨-, -, -, ⟨_, rfl, -⟩ | ⟨_, _, -, -, -, ⟨rfl, -⟩ | ⟨_, rfl, -⟩⟩⟩ <;> rfl
    simp [this]
  · by_cases hio : i = o
    · subst hio
      rw [(h1.this ho ho' hi).2.2]
      rcases hop with ⟨_, rfl, rfl⟩ | ⟨_, rfl, -, rfl, -⟩ | ⟨_, rfl, -, -, rfl, -⟩ | ⟨_, rfl, -, rfl, -⟩ | ⟨_, rfl, -, -, rfl⟩ <;>
        simp [cbs, conn]
    · rw [(h1.others ho ho' hio).2.2]
      have : conn i op = none := by
        rcases hop with ⟨_, rfl, rfl⟩ | ⟨_, rfl, -, rfl, -⟩ | ⟨_, rfl, -, -, rfl, -⟩ | ⟨_, rfl, -, rfl, -⟩ | ⟨_, rfl, -, -, rfl⟩ <;>
          simp [conn, Ne.symm hio]
      simp [this]
  · rw [(view_congr h1 h2 h3 i).2]
    have : conn i op = none := by
      cases op with
      | connect o cb =>
        simp only [conn]
        split
        · rename_i e
          subst e
          exact absurd rfl (h4 o ob hi cb)
        · rfl
      | _ => rfl
    simp [this]

theorem run_cbs : ∀ (ops : List (Op α)) {h : Heap α}, Own h → ∀ {i : Nat} {ob : Obj α}, h.objs[i]? = some ob →
    cbs ((run item dup ops h).slots i) = cbs (h.slots i) ++ ops.filterMap (conn i)
  | [], _, _, _, _, _ => by simp [run]
  | op :: ops, h, ho, i, _, hi => by
    obtain ⟨b, h1, -⟩ := step_keeps (item := item) (dup := dup) ho op hi
    have := run_cbs ops (step_own (item := item) (dup := dup) ho op) h1
    rw [step_cbs ho op hi] at this
    refine this.trans ?_
    cases hcn : conn i op <;> simp [hcn]

theorem cbs_calls (ss : List Slot) (ev : Ev α) : (ss.filterMap fun
      | .cb k => some (k, ev)
      | .desel _ => none) = (cbs ss).map fun k => (k, ev) := by
  induction ss with
  | nil => rfl
  | cons sl ss ih => cases sl <;> simp_all [cbs]

/-- What is selected is in the list, and the list hears of removals. -/
def Sel (h : Heap α) : Prop := ∀ (i : Nat) (ob : Obj α), h.objs[i]? = some ob → ob.cls = .selectable →
  .desel i ∈ h.slots i ∧ ∀ y ∈ ob.sel, y ∈ h.contents i

theorem step_sel {h : Heap α} (ho : Own h) (hs : Sel h) (op : Op α) (h1 : ∀ o, op ≠ .deepcopy o) (h2 : ∀ o f n, op ≠ .change o f n) :
    Sel (step item dup h op) := by
  have ho' := step_own (item := item) (dup := dup) ho op
  intro i ob' hi hc
  rcases step_cases (item := item) (dup := dup) ho op with ⟨_, _, _, _, _, m, -, hop⟩ | ⟨o, b, f, g, more, hb, a, -, hop⟩ | ⟨h1, h2, h3, -, h4⟩
  · obtain ⟨m1, ⟨b, m2, m3, -, m4⟩, m5, m6, m7⟩ := m.obj ho ho'
    have hlt := (List.getElem?_eq_some_iff.1 hi).1
    rw [m1] at hlt
    rcases Nat.lt_or_ge i h.objs.length with hl | hl
    · rw [(m7 i hl).1] at hi
      rw [(m7 i hl).2.1, (m7 i hl).2.2]
      exact hs i ob' hi hc
    · have : i = h.objs.length := by omega
      subst this
      rw [m2] at hi
      cases hi
      rcases hop with ⟨o, _, e, -⟩ | ⟨-, e1, e2, -⟩
      · exact absurd e (h1 o)
      · rw [m3] at hc
        rw [m5, m6, m4, e1, e2, if_pos hc, if_pos hc]
        refine ⟨by simp, fun y hy => ?_⟩
        simp only [Option.mem_toList] at hy
        exact List.mem_of_getLast? hy
  · by_cases hio : i = o
    · subst hio
      obtain ⟨t1, t2, t3⟩ := a.this ho ho' hb
      rw [t1] at hi
      cases hi
      obtain ⟨s1, s2⟩ := hs i b hb hc
      rw [t2, t3]
      refine ⟨by simp [s1], fun y hy => ?_⟩
      rcases hop with ⟨_, rfl, rfl⟩ | ⟨x, rfl, rfl, rfl, k⟩ | ⟨x, rfl, -, rfl, rfl, k, k'⟩ | ⟨_, rfl, rfl, rfl, k⟩ | ⟨_, rfl, rfl, rfl, rfl⟩
      · exact absurd rfl (h2 _ _ _)
      · rcases k y hy with rfl | hy
        · simp
        · simp [s2 y hy]
      · have hne : y ≠ x := fun e => k' s1 (e ▸ hy)
        exact (List.mem_erase_of_ne hne).2 (s2 y (k y hy))
      · rcases k y hy with hy | hy
        · exact hy
        · exact s2 y hy
      · exact s2 y hy
    · obtain ⟨t1, t2, t3⟩ := a.others ho ho' hio
      rw [t1] at hi
      rw [t2, t3]
      exact hs i ob' hi hc
  · rw [h1] at hi
    rw [(view_congr h1 h2 h3 i).1, (view_congr h1 h2 h3 i).2]
    exact hs i ob' hi hc

theorem run_sel : ∀ (ops : List (Op α)) {h : Heap α}, Own h → Sel h → (∀ o, .deepcopy o ∉ ops) → (∀ o f n, .change o f n ∉ ops) →
    Sel (run item dup ops h)
  | [], _, _, hs, _, _ => hs
  | op :: ops, _, ho, hs, h1, h2 => run_sel ops (step_own ho op)
      (step_sel ho hs op (fun o e => h1 o (by simp [e])) (fun o f n e => h2 o f n (by simp [e])))
      (fun o h => h1 o (by simp [h])) (fun o f n h => h2 o f n (by simp [h]))

theorem report_calls (x : α) (n : Nat) : ∀ (ks : List (α × Nat)) (h : Heap α), (h.report x n ks).calls = h.calls ++
    (ks.filter fun k => k.1 = x ∧ x ∈ h.contents k.2).flatMap fun k => (cbs (h.slots k.2)).map fun cb => (cb, .child x n)
  | [], h => by simp [Heap.report]
  | (y, o) :: ks, h => by
    rw [Heap.report]
    split
    · rename_i hy
      obtain ⟨b1, b2, -, b4⟩ := fire_mem (.child x n) (h.slots o) h
      have hv := view_congr (fire_child x n (h.slots o) h) b1 b2
      rw [report_calls x n ks, b4, cbs_calls, List.filter_cons_of_pos (by simpa using hy)]
      simp only [List.flatMap_cons, List.append_assoc, (hv _).1, (hv _).2]
    · rename_i hy
      rw [report_calls x n ks, List.filter_cons_of_neg (by simpa using hy)]

end Psygnal.CC
