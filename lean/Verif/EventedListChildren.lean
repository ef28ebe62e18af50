import Verif.EventedListMove

/-!
# Child events of `EventedList`: lemmas for C35
-/

namespace Psygnal.EL
open Psygnal.Py (M Err Key Slice)

variable {α : Type} {c : Cfg α} [c.Passive]

/-- Every signal is connected to the re-emitter once per occurrence in a child of the list. -/
def Attached (c : Cfg α) (s : St α) : Prop :=
  (∀ x ∈ s.data, c.isList x = false) ∧ ∀ g, s.conns g = (s.data.flatMap c.sigs).count g

theorem flatMap_count_perm {l l' : List α} (h : l.Perm l') (f : α → List Nat) (g : Nat) :
    (l.flatMap f).count g = (l'.flatMap f).count g :=
  (List.Perm.flatMap_right f h).count_eq g

omit [c.Passive] in
theorem attached_perm {s s' : St α} (h : Attached c s) (hp : s'.data.Perm s.data) (hc : s'.conns = s.conns) :
    Attached c s' :=
  ⟨fun x hx => h.1 x (hp.mem_iff.1 hx), fun g => by rw [hc, h.2 g, flatMap_count_perm hp]⟩

theorem insert_perm (l : List α) (i : Int) (x : α) : (Py.insert l i x).Perm (x :: l) := by
  simp only [Py.insert]
  refine List.perm_middle.trans ?_
  rw [List.take_append_drop]

theorem eraseIdx_perm {l : List α} {j : Nat} (h : j < l.length) : l.Perm (l[j] :: l.eraseIdx j) := by
  have e : l = l.take j ++ l[j] :: l.drop (j + 1) := by
    rw [← List.drop_eq_getElem_cons h, List.take_append_drop]
  rw [List.eraseIdx_eq_take_drop_succ]
  exact (List.Perm.of_eq e).trans List.perm_middle

theorem insert_attached (hq : c.Quiet) (hc : c.childEvents = true) (i : Int) {x : α} (hx : c.isList x = false) :
    M.Keeps (Attached c) (insert c i x) := by
  intro s hs
  simp only [insert, M.bind_eq, M.bind_app, emit_quiet hq, M.get_app, setData, M.modify_app, postInsert, hc, if_true,
    connectChild]
  refine ⟨?_, ?_⟩
  · intro y hy
    have := (insert_perm s.data i x).mem_iff.1 hy
    rcases List.mem_cons.1 this with rfl | h
    · exact hx
    · exact hs.1 y h
  · intro g
    show s.conns g + _ = _
    rw [hs.2 g, flatMap_count_perm (insert_perm s.data i x), List.flatMap_cons, List.count_append, Nat.add_comm]

theorem delOne_attached (hq : c.Quiet) (hc : c.childEvents = true) (i : Int) : M.Keeps (Attached c) (delOne c i) := by
  intro s hs
  rcases hj : Py.normIndex s.data.length i with _ | j
  · simp only [delOne, M.bind_eq, M.bind_app, emit_quiet hq, preRemove, hc, if_true, getItem_app, Py.getItem_err hj,
      Except.map]
    exact hs
  · have hlt := Py.normIndex_lt hj
    simp only [delOne, M.bind_eq, M.bind_app, emit_quiet hq, preRemove, hc, if_true, getItem_app, Py.getItem_ok hj,
      Except.map, disconnectChild, M.modify_app, M.get_app, M.ofExcept_app, Py.pop_ok hj, setData,
      out_flat (hs.1 _ (List.getElem_mem hlt))]
    refine ⟨fun y hy => hs.1 y (List.mem_of_mem_eraseIdx hy), fun g => ?_⟩
    show s.conns g - _ = _
    rw [hs.2 g, flatMap_count_perm (eraseIdx_perm hlt), List.flatMap_cons, List.count_append, Nat.add_sub_cancel_left]

theorem delItem_attached (hq : c.Quiet) (hc : c.childEvents = true) (k : Key) : M.Keeps (Attached c) (delItem c k) :=
  M.Keeps.get.seq fun _ => (M.Keeps.ofExcept _).seq fun _ => M.Keeps.forEach _ fun _ => delOne_attached hq hc _

theorem append_attached (hq : c.Quiet) (hc : c.childEvents = true) {x : α} (hx : c.isList x = false) :
    M.Keeps (Attached c) (append c x) :=
  M.Keeps.get.seq fun _ => insert_attached hq hc _ hx

theorem extend_attached (hq : c.Quiet) (hc : c.childEvents = true) (xs : List α) (hx : ∀ x ∈ xs, c.isList x = false) :
    M.Keeps (Attached c) (extend c xs) := by
  induction xs with
  | nil => exact M.Keeps.pure _
  | cons x xs ih =>
    exact (append_attached hq hc (hx x (by simp))).bind fun _ => ih fun y hy => hx y (by simp [hy])

omit [c.Passive] in
theorem getKey_state (k : Key) (s : St α) : (getKey c k s).2 = s := by
  cases k with
  | int i | indexable i =>
    simp only [getKey, M.bind_eq, M.bind_app, M.get_app, getItem_app]
    rcases Py.getItem s.data i with e | x <;> rfl
  | slice k =>
    simp only [getKey, M.bind_eq, M.bind_app, M.get_app, M.ofExcept_app]
    rcases Py.getSlice s.data k with e | x <;> rfl
  | other => rfl

theorem pop_attached (hq : c.Quiet) (hc : c.childEvents = true) (k : Key) : M.Keeps (Attached c) (pop c k) :=
  M.Keeps.seq (fun s hs => by rw [getKey_state]; exact hs) fun _ =>
    (delItem_attached hq hc k).seq fun _ => M.Keeps.pure' _

theorem clearLoop_attached (hq : c.Quiet) (hc : c.childEvents = true) (n : Nat) :
    M.Keeps (Attached c) (clearLoop c n) := by
  induction n with
  | zero => exact M.Keeps.pure _
  | succ n ih =>
    intro s hs
    have := pop_attached hq hc (.int (-1)) s hs
    simp only [clearLoop]
    rcases hp : pop c (.int (-1)) s with ⟨e | r, s'⟩
    · rw [hp] at this
      cases e <;> exact this
    · rw [hp] at this
      exact ih s' this

/-! Operations that do not touch connections. -/

theorem emit_conns {k : Nat → Nat} (e : Ev α) : M.Keeps (fun s : St α => s.conns = k) (emit c e) :=
  fun _ h => by rw [emit_state]; exact h

theorem emitReordered_conns {k : Nat → Nat} : M.Keeps (fun s : St α => s.conns = k) (emitReordered c) := by
  intro s hs
  simp only [emitReordered]
  split
  · exact hs
  · rw [emit_state]; exact hs

theorem setData_conns {k : Nat → Nat} (d : List α) : M.Keeps (fun s : St α => s.conns = k) (setData d) := fun _ h => h

omit [c.Passive] in
theorem getItem_conns {k : Nat → Nat} (i : Int) : M.Keeps (fun s : St α => s.conns = k) (getItem c i) :=
  M.Keeps.get.seq fun _ => (M.Keeps.ofExcept _).seq fun _ => M.Keeps.pure' _

theorem setItem_conns [DecidableEq α] {k : Nat → Nat} (i : Int) (x : α) :
    M.Keeps (fun s : St α => s.conns = k) (setItem c i x) := by
  refine M.Keeps.get.seq fun _ => (M.Keeps.ofExcept _).seq fun _ => ?_
  split
  · exact M.Keeps.pure' _
  · exact (M.Keeps.ofExcept _).seq fun _ => (setData_conns _).seq fun _ => emit_conns _

theorem reverse_conns [DecidableEq α] {k : Nat → Nat} (b : Bool) :
    M.Keeps (fun s : St α => s.conns = k) (reverse c b) := by
  cases b
  · simp only [reverse, Bool.false_eq_true, if_false]
    exact M.Keeps.get.seq fun _ => (setData_conns _).seq fun _ => emitReordered_conns
  · simp only [reverse, if_true]
    exact M.Keeps.get.seq fun _ => (M.Keeps.forEach _ fun _ => (getItem_conns _).seq fun _ => (getItem_conns _).seq fun _ =>
      (setItem_conns _ _).seq fun _ => setItem_conns _ _).seq fun _ => emitReordered_conns

theorem move_conns {k : Nat → Nat} (a b : Int) : M.Keeps (fun s : St α => s.conns = k) (move c a b) := by
  refine M.Keeps.get.seq fun _ => ?_
  simp only
  generalize (if b < 0 then _ else b) = b'
  split
  · exact M.Keeps.pure' _
  · exact (emit_conns _).seq fun _ => M.Keeps.get.seq fun _ => (M.Keeps.ofExcept _).seq fun _ => (setData_conns _).seq fun _ =>
      (emit_conns _).seq fun _ => emitReordered_conns.seq fun _ => M.Keeps.pure' _

theorem withBlocked_conns {k : Nat → Nat} {m : M (St α) Unit} (h : M.Keeps (fun s : St α => s.conns = k) m) :
    M.Keeps (fun s : St α => s.conns = k) (withBlocked m) :=
  fun s hs => h { s with blocked := true } hs

theorem moveMultiple_conns {k : Nat → Nat} (ks : List Key) (d : Int) :
    M.Keeps (fun s : St α => s.conns = k) (moveMultiple c ks d) :=
  M.Keeps.get.seq fun _ => (M.Keeps.ofExcept _).seq fun _ =>
    (withBlocked_conns (M.Keeps.forEach _ fun _ => (move_conns _ _).seq fun _ => M.Keeps.pure' _)).seq fun _ =>
      emitReordered_conns.seq fun _ => M.Keeps.pure' _

theorem reemit_same [DecidableEq α] (g : Nat) (x : α) (m : ChildMsg) (s : St α) :
    (reemit c g x m s).2.data = s.data ∧ (reemit c g x m s).2.conns = s.conns := by
  simp only [reemit]
  have h0 := index_state (c := c) x 0 none s
  rcases hi : index c x 0 none s with ⟨e | i, s'⟩
  · rw [hi] at h0
    subst h0
    exact ⟨rfl, rfl⟩
  · rw [hi] at h0
    subst h0
    cases m <;> simp [emit_state]

theorem step_attached [DecidableEq α] (hq : c.Quiet) (hc : c.childEvents = true) (op : Op α)
    (h1 : ∀ i x, op ≠ .setItem i x) (h2 : ∀ k vs, op ≠ .setSlice k vs) (hn : ∀ x ∈ op.news, c.isList x = false) :
    M.Keeps (Attached c) (step c op) := by
  cases op with
  | getItem k => exact M.Keeps.seq (fun s hs => by rw [getKey_state]; exact hs) fun _ => M.Keeps.pure' _
  | setItem i x => exact absurd rfl (h1 i x)
  | setSlice k vs => exact absurd rfl (h2 k vs)
  | setOther => exact M.Keeps.raise _
  | delItem k => exact (delItem_attached hq hc k).seq fun _ => M.Keeps.pure' _
  | insert i x => exact (insert_attached hq hc i (hn x (by simp [Op.news]))).seq fun _ => M.Keeps.pure' _
  | append x => exact (append_attached hq hc (hn x (by simp [Op.news]))).seq fun _ => M.Keeps.pure' _
  | extend xs => exact (extend_attached hq hc xs hn).seq fun _ => M.Keeps.pure' _
  | extendSelf =>
    refine M.Keeps.seq (fun s hs => ?_) fun _ => M.Keeps.pure' _
    simp only [extendSelf, M.bind_eq, M.bind_app, M.get_app]
    refine extend_attached hq hc _ ?_ s hs
    intro y hy
    obtain ⟨z, hz, rfl⟩ := List.mem_map.1 hy
    rw [out_flat (hs.1 z hz)]
    exact hs.1 z hz
  | pop k => exact (pop_attached hq hc k).seq fun _ => M.Keeps.pure' _
  | remove x =>
    exact (M.Keeps.seq (fun _ h => h) fun i => delItem_attached hq hc _ : M.Keeps _ (remove c x)).seq fun _ => M.Keeps.pure' _
  | clear => exact (M.Keeps.get.seq fun _ => clearLoop_attached hq hc _).seq fun _ => M.Keeps.pure' _
  | reverse b =>
    refine M.Keeps.seq (fun s hs => ?_) fun _ => M.Keeps.pure' _
    obtain ⟨s', e1, e2⟩ := reverse_quiet hq hs.1 b
    have e3 := reverse_conns (c := c) (k := s.conns) b s rfl
    rw [e1] at e3 ⊢
    refine attached_perm hs ?_ e3
    rw [e2]
    exact List.reverse_perm _
  | len | contents | add xs | radd xs | contains x | count x => exact fun _ h => h
  | index x a b => exact M.Keeps.seq (fun _ h => h) fun _ => M.Keeps.pure' _
  | move a b =>
    refine M.Keeps.seq (fun s hs => ?_) fun _ => M.Keeps.pure' _
    exact attached_perm hs (move_perm (c := c) a b s (.refl _)) (move_conns (c := c) (k := s.conns) a b s rfl)
  | moveMultiple ks d =>
    refine M.Keeps.seq (fun s hs => ?_) fun _ => M.Keeps.pure' _
    exact attached_perm hs (moveMultiple_perm (c := c) ks d s (.refl _))
      (moveMultiple_conns (c := c) (k := s.conns) ks d s rfl)
  | childEmit g x m =>
    refine (M.Keeps.get.seq fun _ => M.Keeps.forEach _ fun _ => fun s hs => ?_).seq fun _ => M.Keeps.pure' _
    obtain ⟨e1, e2⟩ := reemit_same (c := c) g x m s
    exact attached_perm hs (.of_eq e1) e2

/-- What one emission of a child does when listeners do not raise. -/
theorem reemit_plain [DecidableEq α] (hq : c.Quiet) {s : St α} (hf : ∀ x ∈ s.data, c.isList x = false) (g : Nat) (x : α)
    {i : Nat} (hi : s.data.findIdx? (fun v => decide (v = x) || c.eq v x) = some i) (m : ChildMsg) :
    reemit c g x m s = (.ok (), { s with log := s.log ++ [(match m with
      | .plain args => .childEvent i x g args
      | .info g' args => .childEvent i x g' args, s.data)] }) := by
  have h0 : index c x 0 none s = (.ok (i : Int), s) := by
    simp only [index, M.bind_eq, M.bind_app, M.get_app, M.ofExcept_app]
    have := indexLoop_findIdx (c := c) (x := x) hf 0
    rw [show s.data.findIdx? (same c · x) = some i from hi] at this
    simp only [Int.zero_add] at this
    exact Prod.ext this rfl
  simp only [reemit, h0]
  cases m <;> exact emit_quiet hq _ s

theorem childEmit_log [DecidableEq α] (hq : c.Quiet) {s : St α} (hf : ∀ x ∈ s.data, c.isList x = false) (g : Nat) (x : α)
    {i : Nat} (hi : s.data.findIdx? (fun v => decide (v = x) || c.eq v x) = some i) (args : List Nat) (n : Nat) :
    M.forEach (List.replicate n ()) (fun _ => reemit c g x (.plain args)) s =
      (.ok (), { s with log := s.log ++ List.replicate n (.childEvent i x g args, s.data) }) := by
  induction n generalizing s with
  | zero => simp [M.forEach]
  | succ n ih =>
    rw [List.replicate_succ, M.forEach, M.bind_ok (reemit_plain hq hf g x hi (.plain args))]
    refine (ih (s := { s with log := s.log ++ [(.childEvent i x g args, s.data)] }) hf hi).trans ?_
    simp [List.replicate_succ]

end Psygnal.EL
