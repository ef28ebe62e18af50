import Verif.EventedListEvents

/-!
# Listeners that operate on the list: lemmas for C64
-/

namespace Psygnal.EL
open Psygnal.Py (M Err Key Slice)

variable {α : Type} {c : Cfg α}

/-- An observer of the log that started with `d` knows the contents, and `events.reordered` is blocked iff `b`. -/
def Seen (d : List α) (b : Bool) (s : St α) : Prop := Story d s.log s.data ∧ s.blocked = b

/-- The listeners are called after the observer, and what they do keeps the observer informed. -/
def Tells (c : Cfg α) (d : List α) (b : Bool) : Prop := c.early = true ∧ ∀ log, M.Keeps (Seen d b) (c.react log)

theorem emit_seen' {d d1 : List α} {b : Bool} (ht : Tells c d b) {e : Ev α} {s : St α} (h : Story d s.log d1)
    (he : observe d1 (e, s.data) = s.data) (hb : s.blocked = b) : Seen d b (emit c e s).2 := by
  have hs : Seen d b { s with log := s.log ++ [(e, s.data)] } := ⟨h.snoc he, hb⟩
  have h2 := ht.2 (s.log ++ [(e, s.data)]) _ hs
  simp only [emit, ht.1, if_true]
  rcases hr : c.react (s.log ++ [(e, s.data)]) { s with log := s.log ++ [(e, s.data)] } with ⟨_ | _, s'⟩ <;>
    (rw [hr] at h2; exact h2)

/-- Events that do not change the observer's copy. -/
theorem emit_seen {d : List α} {b : Bool} (ht : Tells c d b) {e : Ev α} (he : ∀ l, observe l (e, l) = l) :
    M.Keeps (Seen d b) (emit c e) :=
  fun _ hs => emit_seen' ht hs.1 (he _) hs.2

theorem seen_of {d : List α} {b : Bool} {s s' : St α} (h : Seen d b s)
    (e : s'.data = s.data ∧ s'.log = s.log ∧ s'.blocked = s.blocked) : Seen d b s' := by
  obtain ⟨h1, h2⟩ := h
  exact ⟨by rw [e.1, e.2.1]; exact h1, by rw [e.2.2]; exact h2⟩

theorem insert_seen {d : List α} {b : Bool} (ht : Tells c d b) (i : Int) (x : α) :
    M.Keeps (Seen d b) (insert c i x) := by
  refine (emit_seen ht (fun _ => rfl)).seq fun _ => ?_
  intro s hs
  simp only [M.bind_eq, M.bind_app, M.get_app, setData, M.modify_app]
  have h2 := emit_seen' (e := .inserted i x) (s := { s with data := Py.insert s.data i x }) ht hs.1 rfl hs.2
  rcases hr : emit c (.inserted i x) { s with data := Py.insert s.data i x } with ⟨_ | _, s'⟩
  · rw [hr] at h2; exact h2
  · rw [hr] at h2; exact seen_of h2 (postInsert_state x _)

theorem delOne_seen {d : List α} {b : Bool} (ht : Tells c d b) (i : Int) : M.Keeps (Seen d b) (delOne c i) := by
  refine (emit_seen ht (fun _ => rfl)).seq fun _ => ?_
  refine M.Keeps.seq (fun s hs => seen_of hs (preRemove_state i s)) fun _ => ?_
  intro s hs
  simp only [M.bind_eq, M.bind_app, M.get_app, M.ofExcept_app]
  rcases hpop : Py.pop s.data i with e | ⟨v, d2⟩
  · exact hs
  · simp only [setData, M.modify_app]
    exact emit_seen' ht hs.1 (by simp [observe, hpop]) hs.2

theorem delItem_seen {d : List α} {b : Bool} (ht : Tells c d b) (k : Key) : M.Keeps (Seen d b) (delItem c k) :=
  M.Keeps.get.seq fun _ => (M.Keeps.ofExcept _).seq fun _ => M.Keeps.forEach _ fun _ => delOne_seen ht _

theorem append_seen {d : List α} {b : Bool} (ht : Tells c d b) (x : α) : M.Keeps (Seen d b) (append c x) :=
  M.Keeps.get.seq fun _ => insert_seen ht _ _

theorem extend_seen {d : List α} {b : Bool} (ht : Tells c d b) (xs : List α) : M.Keeps (Seen d b) (extend c xs) :=
  M.Keeps.forEach _ fun _ => append_seen ht _

theorem getItem_seen {d : List α} {b : Bool} (i : Int) : M.Keeps (Seen d b) (getItem c i) :=
  M.Keeps.get.seq fun _ => (M.Keeps.ofExcept _).seq fun _ => M.Keeps.pure' _

theorem getKey_seen {d : List α} {b : Bool} (k : Key) : M.Keeps (Seen d b) (getKey c k) := by
  refine M.Keeps.get.seq fun _ => ?_
  cases k with
  | int i | indexable i => exact (getItem_seen i).seq fun _ => M.Keeps.pure' _
  | slice k => exact (M.Keeps.ofExcept _).seq fun _ => M.Keeps.pure' _
  | other => exact M.Keeps.raise _

theorem pop_seen {d : List α} {b : Bool} (ht : Tells c d b) (k : Key) : M.Keeps (Seen d b) (pop c k) :=
  (getKey_seen k).seq fun _ => (delItem_seen ht k).seq fun _ => M.Keeps.pure' _

theorem clearLoop_seen {d : List α} {b : Bool} (ht : Tells c d b) (n : Nat) :
    M.Keeps (Seen d b) (clearLoop c n) := by
  induction n with
  | zero => exact M.Keeps.pure' _
  | succ n ih =>
    intro s hs
    have := pop_seen ht (.int (-1)) s hs
    simp only [clearLoop]
    rcases hp : pop c (.int (-1)) s with ⟨e | r, s'⟩
    · rw [hp] at this
      cases e <;> exact this
    · rw [hp] at this
      exact ih s' this

theorem setItem_seen [DecidableEq α] {d : List α} {b : Bool} (ht : Tells c d b) (i : Int) (x : α) :
    M.Keeps (Seen d b) (setItem c i x) := by
  intro s hs
  simp only [setItem, M.bind_eq, M.bind_app, M.get_app, M.ofExcept_app]
  rcases ho : Py.getItem s.data i with e | old
  · exact hs
  · simp only
    split
    · exact hs
    · rcases hd : Py.setItem s.data i x with e | d2
      · simp only [M.bind_app, M.ofExcept_app]
        exact hs
      · simp only [M.bind_app, M.ofExcept_app, setData, M.modify_app]
        exact emit_seen' ht hs.1 (by simp [observe, hd]) hs.2

theorem setSlice_seen {d : List α} {b : Bool} (ht : Tells c d b) (k : Slice) (vs : Option (List α)) :
    M.Keeps (Seen d b) (setSlice c k vs) := by
  intro s hs
  simp only [setSlice, M.bind_eq, M.bind_app, M.get_app, M.ofExcept_app]
  rcases ho : Py.getSlice s.data k with e | old
  · exact hs
  · cases vs with
    | none => exact hs
    | some vs =>
      rcases hd : Py.setSlice s.data k vs with e | d2
      · simp only [M.bind_app, M.ofExcept_app, hd]
        exact hs
      · simp only [M.bind_app, M.ofExcept_app, hd, setData, M.modify_app]
        exact emit_seen' ht hs.1 (by simp [observe, hd]) hs.2

theorem emitReordered_seen {d : List α} {b : Bool} (ht : Tells c d b) : M.Keeps (Seen d b) (emitReordered c) := by
  intro s hs
  simp only [emitReordered]
  split
  · exact hs
  · exact emit_seen ht (fun _ => rfl) s hs

theorem swap_seen [DecidableEq α] {d : List α} {b : Bool} (ht : Tells c d b) (n i : Nat) :
    M.Keeps (Seen d b) (swap c n i) :=
  (getItem_seen _).seq fun _ => (getItem_seen _).seq fun _ => (setItem_seen ht _ _).seq fun _ => setItem_seen ht _ _

theorem reverse_seen [DecidableEq α] {d : List α} {b : Bool} (ht : Tells c d b) (ind : Bool)
    (hi : ind = false → b = false) : M.Keeps (Seen d b) (reverse c ind) := by
  cases ind
  · intro s hs
    have hb : s.blocked = false := hs.2.trans (hi rfl)
    simp only [reverse, M.bind_eq, M.bind_app, M.get_app, Bool.false_eq_true, if_false, setData, M.modify_app,
      emitReordered, hb]
    exact emit_seen' ht hs.1 rfl (hi rfl).symm
  · simp only [reverse, if_true]
    exact M.Keeps.get.seq fun _ => (M.Keeps.forEach _ fun _ => swap_seen ht _ _).seq fun _ => emitReordered_seen ht

theorem move_seen {d : List α} {b : Bool} (ht : Tells c d b) (src dest : Int) :
    M.Keeps (Seen d b) (move c src dest) := by
  refine M.Keeps.get.seq fun s0 => ?_
  generalize hd : (if dest < 0 then dest + ((s0.data.length : Int) + 1) else dest) = e
  simp only
  split
  · exact M.Keeps.pure' _
  · refine (emit_seen ht (fun _ => rfl)).seq fun _ => ?_
    have key : M.Keeps (Seen d b) (do
        let s ← M.get
        let p ← M.ofExcept (Py.pop s.data src)
        setData (Py.insert p.2 (if e > src then e - 1 else e) p.1)
        emit c (.moved src (if e > src then e - 1 else e) p.1)) := by
      intro s hs
      simp only [M.bind_eq, M.bind_app, M.get_app, M.ofExcept_app]
      rcases hpop : Py.pop s.data src with e1 | ⟨v, d2⟩
      · exact hs
      · simp only [setData, M.modify_app]
        exact emit_seen' ht hs.1 (by simp [observe, hpop]) hs.2
    have := key.seq fun _ => (emitReordered_seen ht).seq fun _ => M.Keeps.pure' true
    intro s hs
    have h2 := this s hs
    simp only [M.bind_eq, M.bind_app, M.get_app, M.ofExcept_app] at h2 ⊢
    rcases hpop : Py.pop s.data src with e1 | ⟨v, d2⟩ <;> simp only [hpop, setData, M.modify_app] at h2 ⊢ <;> exact h2

theorem withBlocked_seen {d : List α} {b : Bool} {m : M (St α) Unit} (h : M.Keeps (Seen d true) m) :
    M.Keeps (Seen d b) (withBlocked m) := by
  intro s hs
  exact ⟨(h { s with blocked := true } ⟨hs.1, rfl⟩).1, hs.2⟩

theorem moveMultiple_seen {d : List α} {b : Bool} (ht : Tells c d b) (hm : Tells c d true) (ks : List Key) (dest : Int) :
    M.Keeps (Seen d b) (moveMultiple c ks dest) :=
  M.Keeps.get.seq fun _ => (M.Keeps.ofExcept _).seq fun _ =>
    (withBlocked_seen (M.Keeps.forEach _ fun _ => (move_seen hm _ _).seq fun _ => M.Keeps.pure' _)).seq fun _ =>
      (emitReordered_seen ht).seq fun _ => M.Keeps.pure' _

theorem reemit_seen [DecidableEq α] {d : List α} {b : Bool} (ht : Tells c d b) (g : Nat) (x : α) (m : ChildMsg) :
    M.Keeps (Seen d b) (reemit c g x m) := by
  intro s hs
  have h0 := index_state (c := c) x 0 none s
  simp only [reemit]
  rcases hi : index c x 0 none s with ⟨e | i, s'⟩
  · rw [hi] at h0
    subst h0
    exact hs
  · rw [hi] at h0
    subst h0
    cases m <;> exact emit_seen ht (fun _ => rfl) _ hs

theorem step_seen [DecidableEq α] {d : List α} {b : Bool} (ht : Tells c d b) (op : Op α)
    (hr : op = .reverse false → b = false) (hm : ∀ ks i, op = .moveMultiple ks i → Tells c d true) :
    M.Keeps (Seen d b) (step c op) := by
  cases op with
  | getItem k => exact (getKey_seen k).seq fun _ => M.Keeps.pure' _
  | setItem i x => exact (setItem_seen ht i x).seq fun _ => M.Keeps.pure' _
  | setSlice k vs => exact (setSlice_seen ht k vs).seq fun _ => M.Keeps.pure' _
  | setOther => exact M.Keeps.raise _
  | delItem k => exact (delItem_seen ht k).seq fun _ => M.Keeps.pure' _
  | insert i x => exact (insert_seen ht i x).seq fun _ => M.Keeps.pure' _
  | append x => exact (append_seen ht x).seq fun _ => M.Keeps.pure' _
  | extend xs => exact (extend_seen ht xs).seq fun _ => M.Keeps.pure' _
  | extendSelf => exact (M.Keeps.get.seq fun _ => extend_seen ht _).seq fun _ => M.Keeps.pure' _
  | pop k => exact (pop_seen ht k).seq fun _ => M.Keeps.pure' _
  | remove x =>
    exact (M.Keeps.seq (fun _ h => h) fun i => delItem_seen ht _ : M.Keeps _ (remove c x)).seq fun _ => M.Keeps.pure' _
  | clear => exact (M.Keeps.get.seq fun _ => clearLoop_seen ht _).seq fun _ => M.Keeps.pure' _
  | reverse i => exact (reverse_seen ht i (by rintro rfl; exact hr rfl)).seq fun _ => M.Keeps.pure' _
  | len | contents | add xs | radd xs | contains x | count x => exact fun _ h => h
  | index x a b => exact M.Keeps.seq (fun _ h => h) fun _ => M.Keeps.pure' _
  | move a b => exact (move_seen ht a b).seq fun _ => M.Keeps.pure' _
  | moveMultiple ks i => exact (moveMultiple_seen ht (hm ks i rfl) ks i).seq fun _ => M.Keeps.pure' _
  | childEmit g x m =>
    exact (M.Keeps.get.seq fun _ => M.Keeps.forEach _ fun _ => reemit_seen ht g x m).seq fun _ => M.Keeps.pure' _

theorem exec_seen [DecidableEq α] {d : List α} {b : Bool} {P : Op α → Prop} (ht : Tells c d b)
    (hr : P (.reverse false) → b = false) (hm : ∀ ks i, P (.moveMultiple ks i) → Tells c d true) :
    ∀ p : Prog α, p.All P → M.Keeps (Seen d b) (exec c p)
  | .done, _ => M.Keeps.pure' _
  | .raise, _ => M.Keeps.raise _
  | .op o k, hp => fun s hs =>
    exec_seen ht hr hm (k (step c o s).1) (hp.2 _) _
      (step_seen ht o (fun h => hr (h ▸ hp.1)) (fun ks i h => hm ks i (h ▸ hp.1)) s hs)

theorem listening_early [DecidableEq α] (p : List (Ev α × List α) → Prog α) (n : Nat) :
    (listening c p n).early = c.early := by
  cases n <;> rfl

/-- Listeners that do not call `reverse()`, which is silent while `move_multiple` runs. -/
theorem listening_tells [DecidableEq α] {d : List α} {p : List (Ev α × List α) → Prog α} (he : c.early = true)
    (hp : ∀ log, (p log).All (· ≠ .reverse false)) (n : Nat) : ∀ b, Tells (listening c p n) d b := by
  induction n with
  | zero => exact fun b => ⟨he, fun _ => M.Keeps.raise _⟩
  | succ n ih =>
    exact fun b => ⟨(listening_early p (n + 1)).trans he,
      fun log => exec_seen (ih b) (fun h => absurd rfl h) (fun _ _ _ => ih true) _ (hp log)⟩

/-- Listeners that do not call `move_multiple`, while `reordered` is not blocked. -/
theorem listening_tells' [DecidableEq α] {d : List α} {p : List (Ev α × List α) → Prog α} (he : c.early = true)
    (hp : ∀ log, (p log).All (∀ ks i, · ≠ .moveMultiple ks i)) (n : Nat) : Tells (listening c p n) d false := by
  induction n with
  | zero => exact ⟨he, fun _ => M.Keeps.raise _⟩
  | succ n ih =>
    exact ⟨(listening_early p (n + 1)).trans he,
      fun log => exec_seen ih (fun _ => rfl) (fun ks i h => absurd rfl (h ks i)) _ (hp log)⟩

theorem run_seen [DecidableEq α] {d : List α} (ht : Tells c d false) :
    ∀ {ops : List (Op α)} (_ : ∀ ks i, .moveMultiple ks i ∈ ops → Tells c d true) {s : St α}, Seen d false s →
      Seen d false (run c ops s).2
  | [], _, _, h => h
  | op :: ops, hm, s, h =>
    run_seen ht (ops := ops) (fun ks i h => hm ks i (List.mem_cons_of_mem _ h))
      (step_seen ht op (fun _ => rfl) (fun ks i h => hm ks i (h ▸ List.mem_cons_self)) s h)

end Psygnal.EL
