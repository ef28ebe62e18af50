import Verif.EventedSetSteps

/-!
# Ordered sets: iteration order (lemmas for C32)
-/

namespace Psygnal.ES
open Psygnal.Py (M Err)

variable {α : Type} [DecidableEq α] {c : Cfg α}

omit [DecidableEq α] in
theorem getElem?_snoc {β : Type} (l : List β) (p : β) (n : Nat) :
    (l ++ [p])[n]? = if n = l.length then some p else l[n]? := by
  rcases Nat.lt_trichotomy n l.length with h | h | h
  · rw [List.getElem?_append_left h, if_neg (by omega)]
  · subst h
    simp
  · rw [if_neg (by omega), List.getElem?_eq_none (by simp; omega), List.getElem?_eq_none (by omega)]

omit [DecidableEq α] in
theorem Born.lt {h : List (Prim α)} {x : α} {n : Nat} (hb : Born h x n) : n < h.length :=
  (List.getElem?_eq_some_iff.1 hb.ins).1

omit [DecidableEq α] in
/-- Without a valid insertion, every insertion was undone. -/
theorem undone {h : List (Prim α)} {x : α} (hn : ¬ ∃ n, Born h x n) (m : Nat) (hm : h[m]? = some (.ins x)) :
    ∃ k p, m < k ∧ h[k]? = some p ∧ p.Removes x := by
  refine Classical.byContradiction fun hk => ?_
  -- the least insertion that is not undone is the valid one
  have key : ∀ n m : Nat, m ≤ n → h[m]? = some (.ins x) → (¬ ∃ k p, m < k ∧ h[k]? = some p ∧ p.Removes x) → False := by
    intro n
    induction n with
    | zero =>
      intro m h0 h1 h2
      refine hn ⟨m, h1, fun k p h3 h4 h5 => h2 ⟨k, p, h3, h4, h5⟩, fun k h3 => ?_⟩
      omega
    | succ n ih =>
      intro m h0 h1 h2
      refine hn ⟨m, h1, fun k p h3 h4 h5 => h2 ⟨k, p, h3, h4, h5⟩, fun k h3 h4 => ?_⟩
      refine Classical.byContradiction fun h5 => ?_
      refine ih k (by omega) h4 ?_
      rintro ⟨j, p, h6, h7, h8⟩
      rcases Nat.lt_trichotomy j m with h9 | h9 | h9
      · exact h5 ⟨j, p, h6, h9, h7, h8⟩
      · subst h9
        rw [h1] at h7
        cases h7
        rcases h8 with h8 | h8 <;> exact absurd h8 (by simp)
      · exact h2 ⟨j, p, h9, h7, h8⟩
  exact key m m (Nat.le_refl m) hm hk

omit [DecidableEq α] in
theorem Born.unique {h : List (Prim α)} {x : α} {m n : Nat} (hm : Born h x m) (hn : Born h x n) : m = n := by
  have : ∀ {a b : Nat}, Born h x a → Born h x b → a < b → False := by
    intro a b ha hb hlt
    obtain ⟨k, p, h1, h2, h3, h4⟩ := hb.first a hlt ha.ins
    exact ha.kept k p h1 h3 h4
  rcases Nat.lt_trichotomy m n with h | h | h
  · exact (this hm hn h).elim
  · exact h
  · exact (this hn hm h).elim

omit [DecidableEq α] in
/-- The valid insertions after one more primitive call. -/
theorem born_snoc {h : List (Prim α)} {p : Prim α} {x : α} {n : Nat} :
    Born (h ++ [p]) x n ↔ (Born h x n ∧ ¬ p.Removes x) ∨ (n = h.length ∧ p = .ins x ∧ ¬ ∃ m, Born h x m) := by
  constructor
  · intro hb
    have hlt := hb.lt
    simp only [List.length_append, List.length_cons, List.length_nil] at hlt
    by_cases e : n = h.length
    · refine .inr ⟨e, ?_, ?_⟩
      · have := hb.ins
        rw [getElem?_snoc, if_pos e] at this
        exact Option.some.inj this
      · rintro ⟨m, hm⟩
        have hml := hm.lt
        obtain ⟨k, q, h1, h2, h3, h4⟩ := hb.first m (by omega) (by rw [getElem?_snoc, if_neg (by omega)]; exact hm.ins)
        rw [getElem?_snoc, if_neg (by omega)] at h3
        exact hm.kept k q h1 h3 h4
    · refine .inl ⟨⟨?_, ?_, ?_⟩, ?_⟩
      · have := hb.ins
        rwa [getElem?_snoc, if_neg e] at this
      · intro m q h1 h2
        refine hb.kept m q h1 ?_
        rw [getElem?_snoc, if_neg ?_]
        · exact h2
        · have := (List.getElem?_eq_some_iff.1 h2).1
          omega
      · intro m h1 h2
        obtain ⟨k, q, h3, h4, h5, h6⟩ := hb.first m h1 (by rw [getElem?_snoc, if_neg (by omega)]; exact h2)
        refine ⟨k, q, h3, h4, ?_, h6⟩
        rwa [getElem?_snoc, if_neg (by omega)] at h5
      · exact hb.kept h.length p (by omega) (by rw [getElem?_snoc, if_pos rfl])
  · rintro (⟨hb, hr⟩ | ⟨rfl, rfl, hn⟩)
    · have hlt := hb.lt
      refine ⟨?_, ?_, ?_⟩
      · rw [getElem?_snoc, if_neg (by omega)]
        exact hb.ins
      · intro m q h1 h2
        rw [getElem?_snoc] at h2
        split at h2
        · cases h2
          exact hr
        · exact hb.kept m q h1 h2
      · intro m h1 h2
        rw [getElem?_snoc, if_neg (by omega)] at h2
        obtain ⟨k, q, h3, h4, h5, h6⟩ := hb.first m h1 h2
        exact ⟨k, q, h3, h4, by rw [getElem?_snoc, if_neg (by omega)]; exact h5, h6⟩
    · refine ⟨?_, ?_, ?_⟩
      · rw [getElem?_snoc, if_pos rfl]
      · intro m q h1 h2
        rw [getElem?_snoc, if_neg (by omega), List.getElem?_eq_none (by omega)] at h2
        cases h2
      · intro m h1 h2
        rw [getElem?_snoc, if_neg (by omega)] at h2
        obtain ⟨k, q, h3, h4, h5⟩ := undone hn m h2
        have := (List.getElem?_eq_some_iff.1 h4).1
        exact ⟨k, q, h3, this, by rw [getElem?_snoc, if_neg (by omega)]; exact h4, h5⟩

/-- The members are the elements inserted and not removed since, in the order of their first insertion since the last
removal. -/
structure InOrder (h : List (Prim α)) (d : List α) : Prop where
  mem : ∀ x, x ∈ d ↔ ∃ n, Born h x n
  order : d.Pairwise fun x y => ∃ m n, Born h x m ∧ Born h y n ∧ m < n

omit [DecidableEq α] in
theorem InOrder.nodup {h : List (Prim α)} {d : List α} (hd : InOrder h d) : d.Nodup := by
  refine hd.order.imp ?_
  rintro x y ⟨m, n, h1, h2, h3⟩ rfl
  exact absurd (h1.unique h2) (by omega)

omit [DecidableEq α] in
theorem InOrder.again {h : List (Prim α)} {d : List α} (hd : InOrder h d) {x : α} (hx : x ∈ d) :
    InOrder (h ++ [.ins x]) d := by
  have e : ∀ y n, Born (h ++ [.ins x]) y n ↔ Born h y n := by
    intro y n
    rw [born_snoc]
    have := (hd.mem x).1 hx
    simp only [Prim.Removes, reduceCtorEq, or_self, not_false_eq_true, and_true, Prim.ins.injEq]
    constructor
    · rintro (h1 | ⟨rfl, rfl, h2⟩)
      · exact h1
      · exact absurd this h2
    · exact .inl
  exact ⟨fun y => by simp only [e]; exact hd.mem y, by simpa only [e] using hd.order⟩

omit [DecidableEq α] in
theorem InOrder.add {h : List (Prim α)} {d : List α} (hd : InOrder h d) {x : α} (hx : x ∉ d) :
    InOrder (h ++ [.ins x]) (d ++ [x]) := by
  have hn : ¬ ∃ m, Born h x m := fun hm => hx ((hd.mem x).2 hm)
  have e : ∀ y n, Born (h ++ [.ins x]) y n ↔ Born h y n ∨ (n = h.length ∧ y = x) := by
    intro y n
    rw [born_snoc]
    simp only [Prim.Removes, reduceCtorEq, or_self, not_false_eq_true, and_true, Prim.ins.injEq]
    constructor
    · rintro (h1 | ⟨rfl, rfl, h2⟩)
      · exact .inl h1
      · exact .inr ⟨rfl, rfl⟩
    · rintro (h1 | ⟨rfl, rfl⟩)
      · exact .inl h1
      · exact .inr ⟨rfl, rfl, hn⟩
  refine ⟨?_, ?_⟩
  · intro y
    rw [List.mem_append, List.mem_singleton, hd.mem y]
    simp only [e]
    constructor
    · rintro (⟨n, h1⟩ | rfl)
      · exact ⟨n, .inl h1⟩
      · exact ⟨_, .inr ⟨rfl, rfl⟩⟩
    · rintro ⟨n, h1 | ⟨rfl, rfl⟩⟩
      · exact .inl ⟨n, h1⟩
      · exact .inr rfl
  · rw [List.pairwise_append]
    refine ⟨hd.order.imp ?_, by simp, ?_⟩
    · rintro a b ⟨m, n, h1, h2, h3⟩
      exact ⟨m, n, (e _ _).2 (.inl h1), (e _ _).2 (.inl h2), h3⟩
    · intro a ha b hb
      rw [List.mem_singleton] at hb
      subst hb
      obtain ⟨m, hm⟩ := (hd.mem a).1 ha
      exact ⟨m, h.length, (e _ _).2 (.inl hm), (e _ _).2 (.inr ⟨rfl, rfl⟩), hm.lt⟩

theorem InOrder.discard {h : List (Prim α)} {d : List α} (hd : InOrder h d) (x : α) :
    InOrder (h ++ [.del x]) (d.erase x) := by
  have e : ∀ y n, Born (h ++ [.del x]) y n ↔ Born h y n ∧ y ≠ x := by
    intro y n
    rw [born_snoc]
    simp only [Prim.Removes, reduceCtorEq, or_false, Prim.del.injEq, false_and, and_false]
    constructor
    · rintro ⟨h1, h2⟩
      exact ⟨h1, fun h => h2 h.symm⟩
    · rintro ⟨h1, h2⟩
      exact ⟨h1, fun h => h2 h.symm⟩
  refine ⟨?_, ?_⟩
  · intro y
    rw [hd.nodup.mem_erase_iff, hd.mem y]
    simp only [e]
    constructor
    · rintro ⟨h1, n, h2⟩
      exact ⟨n, h2, h1⟩
    · rintro ⟨n, h2, h1⟩
      exact ⟨h1, n, h2⟩
  · refine List.Pairwise.imp_of_mem ?_ (hd.order.sublist List.erase_sublist)
    rintro a b ha hb ⟨m, n, h1, h2, h3⟩
    rw [hd.nodup.mem_erase_iff] at ha hb
    exact ⟨m, n, (e _ _).2 ⟨h1, ha.1⟩, (e _ _).2 ⟨h2, hb.1⟩, h3⟩

omit [DecidableEq α] in
theorem InOrder.clear (h : List (Prim α)) : InOrder (h ++ [.clr]) ([] : List α) := by
  refine ⟨?_, List.Pairwise.nil⟩
  intro y
  simp [born_snoc, Prim.Removes]

omit [DecidableEq α] in
theorem InOrder.start : InOrder [] ([] : List α) := by
  refine ⟨?_, List.Pairwise.nil⟩
  intro y
  constructor
  · simp
  · rintro ⟨n, hn⟩
    exact absurd hn.lt (by simp)

/-! ## Every operation keeps the order -/

variable [c.Passive]

/-- The invariant of C32. -/
def Ordered (s : St α) : Prop := InOrder s.hist s.data

omit [DecidableEq α] in
theorem deliver_ordered (a : List α × List α) : M.Keeps Ordered (deliver c a) := by
  intro s h
  obtain ⟨h1, -, h2⟩ := deliver_keeps (c := c) a s
  simp only [Ordered, h1, h2]
  exact h

omit [DecidableEq α] in
theorem emitChange_ordered (a b : List α) : M.Keeps Ordered (emitChange c a b) := by
  intro s h
  simp only [emitChange]
  split
  · split
    · exact h
    · exact deliver_ordered _ s h
  · exact h

omit [DecidableEq α] in
theorem withPaused_ordered {m : M (St α) Unit} (hm : M.Keeps Ordered m) : M.Keeps Ordered (withPaused c m) := by
  intro s h
  simp only [withPaused]
  cases c.evented
  · exact hm s h
  · have h1 := hm { s with paused := true } h
    rcases hr : m { s with paused := true } with ⟨r, s1⟩
    rw [hr] at h1
    simp only [if_true]
    cases s.paused
    · simp only [Bool.false_eq_true, if_false, resume]
      by_cases hq : s1.queue = []
      · simp only [hq, if_true]
        exact h1
      · simp only [hq, if_false]
        have h2 := deliver_ordered (c := c) (reduceEvents s1.queue) { s1 with paused := false } h1
        rcases hd : deliver c (reduceEvents s1.queue) { s1 with paused := false } with ⟨_ | _, s2⟩ <;>
          (rw [hd] at h2; exact h2)
    · exact h1

/-- New elements go to the end. -/
def Cfg.Dict (c : Cfg α) : Prop := c.place = fun l x => l ++ [x]

theorem add_ordered (hd : c.Dict) (x : α) : M.Keeps Ordered (add c x) := by
  intro s h
  simp only [add, M.bind_eq, M.bind_app, M.get_app, M.modify_app]
  by_cases hx : x ∈ s.data
  · simp only [hx, if_true]
    exact h.again hx
  · simp only [hx, if_false, M.bind_app, M.modify_app]
    refine emitChange_ordered [x] [] _ ?_
    simp only [Ordered]
    rw [show c.place = _ from hd]
    exact h.add hx

theorem discard_ordered (x : α) : M.Keeps Ordered (discard c x) := by
  intro s h
  simp only [discard, M.bind_eq, M.bind_app, M.get_app, M.modify_app]
  by_cases hx : x ∈ s.data
  · simp only [hx, if_true, M.bind_app, M.modify_app]
    exact emitChange_ordered [] [x] _ (h.discard x)
  · simp only [hx, if_false]
    have := h.discard x
    rw [List.erase_of_not_mem hx] at this
    exact this

omit [DecidableEq α] in
theorem clear_ordered : M.Keeps Ordered (clear c) := by
  refine withPaused_ordered ?_
  intro s h
  simp only [M.bind_eq, M.bind_app, M.get_app, M.modify_app]
  by_cases hx : s.data = []
  · simp only [hx, if_true]
    exact InOrder.clear s.hist
  · simp only [hx, if_false, M.bind_app, M.modify_app]
    exact emitChange_ordered [] _ _ (InOrder.clear s.hist)

theorem toggle_ordered (hd : c.Dict) (x : α) : M.Keeps Ordered (toggle c x) := by
  intro s h
  simp only [toggle, M.bind_eq, M.bind_app, M.get_app]
  by_cases hx : x ∈ s.data
  · simp only [hx, if_true]
    exact discard_ordered x s h
  · simp only [hx, if_false]
    exact add_ordered hd x s h

theorem differenceUpdateSelf_ordered : M.Keeps Ordered (differenceUpdateSelf c) := by
  refine withPaused_ordered ?_
  intro s h
  simp only [M.bind_eq, M.bind_app, M.get_app]
  rcases s.data with _ | ⟨x, d⟩
  · exact h
  · exact M.Keeps.seq (discard_ordered x) (fun _ => M.Keeps.raise _) s h

theorem intersectionUpdate_ordered (o : List (List α)) : M.Keeps Ordered (intersectionUpdate c o) := by
  refine withPaused_ordered ?_
  intro s h
  by_cases ho : o = []
  · simp only [ho, if_true]
    exact h
  · simp only [ho, if_false, M.bind_eq, M.bind_app, M.get_app]
    exact M.Keeps.forEach _ (fun x => discard_ordered x) s h

theorem step_ordered (hd : c.Dict) (op : Op α) : M.Keeps Ordered (step c op) := by
  cases op with
  | add x => exact M.Keeps.seq (add_ordered hd x) fun _ => M.Keeps.pure' _
  | discard x => exact M.Keeps.seq (discard_ordered x) fun _ => M.Keeps.pure' _
  | remove x =>
    refine M.Keeps.seq ?_ fun _ => M.Keeps.pure' _
    intro s h
    simp only [remove, M.bind_eq, M.bind_app, M.get_app]
    by_cases hx : x ∈ s.data
    · simp only [hx, if_true]
      exact discard_ordered x s h
    · simp only [hx, if_false]
      exact h
  | pop =>
    refine M.Keeps.seq ?_ fun _ => M.Keeps.pure' _
    intro s h
    simp only [pop, M.bind_eq, M.bind_app, M.get_app]
    rcases s.data with _ | ⟨x, d⟩
    · exact h
    · exact M.Keeps.seq (discard_ordered x) (fun _ => M.Keeps.pure' _) s h
  | clear | isubSelf | ixorSelf => exact M.Keeps.seq clear_ordered fun _ => M.Keeps.pure' _
  | update o =>
    exact M.Keeps.seq (withPaused_ordered (M.Keeps.forEach _ fun x => add_ordered hd x)) fun _ => M.Keeps.pure' _
  | differenceUpdate o =>
    exact M.Keeps.seq (withPaused_ordered (M.Keeps.forEach _ fun x => discard_ordered x)) fun _ => M.Keeps.pure' _
  | differenceUpdateSelf | symmetricDifferenceUpdateSelf =>
    exact M.Keeps.seq differenceUpdateSelf_ordered fun _ => M.Keeps.pure' _
  | intersectionUpdate o => exact M.Keeps.seq (intersectionUpdate_ordered o) fun _ => M.Keeps.pure' _
  | symmetricDifferenceUpdate xs =>
    exact M.Keeps.seq (withPaused_ordered (M.Keeps.forEach _ fun x => toggle_ordered hd x)) fun _ => M.Keeps.pure' _
  | ior xs => exact M.Keeps.seq (M.Keeps.forEach _ fun x => add_ordered hd x) fun _ => M.Keeps.pure' _
  | isub xs => exact M.Keeps.seq (M.Keeps.forEach _ fun x => discard_ordered x) fun _ => M.Keeps.pure' _
  | ixor xs => exact M.Keeps.seq (M.Keeps.forEach _ fun x => toggle_ordered hd x) fun _ => M.Keeps.pure' _
  | iand xs =>
    refine M.Keeps.seq ?_ fun _ => M.Keeps.pure' _
    intro s h
    simp only [iand, M.bind_eq, M.bind_app, M.get_app]
    exact M.Keeps.forEach _ (fun x => discard_ordered x) s h
  | intersection o =>
    intro s h
    by_cases ho : o = []
    · simp only [step, ho, if_true]
      exact h
    · simp only [step, ho, if_false]
      exact h
  | _ => exact fun s h => h

theorem run_ordered (hd : c.Dict) (ops : List (Op α)) {s : St α} (hs : Ordered s) : Ordered (run c ops s).2 := by
  induction ops generalizing s with
  | nil => exact hs
  | cons op ops ih => exact ih (step_ordered hd op s hs)

/-! ## The constructor -/

omit [DecidableEq α] in
omit [c.Passive] in
theorem Cfg.Dict.fair (hd : c.Dict) : c.Fair := by
  intro l x
  rw [show c.place = _ from hd]
  exact List.perm_append_singleton x l

omit [c.Passive] in
theorem new_ordered_aux (hd : c.Dict) (xs : List α) {h : List (Prim α)} {d : List α} (ho : InOrder h d) :
    InOrder (h ++ xs.map .ins) (xs.foldl (fun d x => insData c x d) d) := by
  induction xs generalizing h d with
  | nil => simpa using ho
  | cons x xs ih =>
    have : InOrder (h ++ [.ins x]) (insData c x d) := by
      simp only [insData]
      split
      · rename_i hx
        exact ho.again hx
      · rename_i hx
        rw [show c.place = _ from hd]
        exact ho.add hx
    simpa using ih this

omit [c.Passive] in
theorem new_ordered (hd : c.Dict) (xs : List α) : Ordered (new c xs) := by
  have := new_ordered_aux hd xs InOrder.start
  simpa [Ordered, new, mk] using this

end Psygnal.ES
