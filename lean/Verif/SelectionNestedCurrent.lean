import Verif.SelectionNestedLemmas

/-!
# The current item with listeners that operate on the selection: lemmas for C70
-/

namespace Psygnal.SelN
open Psygnal.Py (M Err)
open Psygnal.Sel (Ev)

variable {α : Type} [DecidableEq α] {c : Cfg α}

/-- An active item is the current one; nothing that was collected is left when the signal is neither paused nor being
emitted. -/
structure Inv (s : St α) : Prop where
  held : Held s
  cur : ∀ x, s.active = some x → s.current = some x
  queue : s.paused = false → s.pending = none → s.queue = []

/-- How this carries over from one state to a later one. -/
structure Cur (s s' : St α) : Prop where
  failed : s.failed = true → s'.failed = true
  keep : Inv s → s'.failed = false →
    Inv s' ∧ s'.paused = s.paused ∧ s'.pending.isSome = s.pending.isSome ∧ (s.paused = false → s'.queue = s.queue ∨ s'.queue = [])

theorem Cur.refl (s : St α) : Cur s s := ⟨id, fun h _ => ⟨h, rfl, rfl, fun _ => .inl rfl⟩⟩

theorem Cur.trans {a b d : St α} (h : Cur a b) (h' : Cur b d) : Cur a d := by
  refine ⟨h'.failed ∘ h.failed, fun hi hf => ?_⟩
  obtain ⟨h1, h2, h3, h4⟩ := h.keep hi (Weak.back h'.failed hf)
  obtain ⟨g1, g2, g3, g4⟩ := h'.keep h1 hf
  refine ⟨g1, g2.trans h2, g3.trans h3, fun hp => ?_⟩
  rcases g4 (h2.trans hp) with g | g
  · rw [g]
    exact h4 hp
  · exact .inr g

/-- A step from `s` that ends in `s'` fails. -/
theorem Cur.fail {s s' : St α} (h : s'.failed = true) : Cur s s' := ⟨fun _ => h, fun _ hf => by rw [h] at hf; cases hf⟩

/-- The relation holds for all executions. -/
def Safe {β : Type} (m : M (St α) β) : Prop := ∀ s, Cur s (m s).2

theorem Safe.bind {β γ : Type} {m : M (St α) β} {f : β → M (St α) γ} (hm : Safe m) (hf : ∀ x, Safe (f x)) : Safe (M.bind m f) := by
  intro s
  have h1 := hm s
  rw [M.bind_app]
  rcases h : m s with ⟨e | a, s'⟩
  · rw [h] at h1
    exact h1
  · rw [h] at h1
    exact h1.trans (hf a s')

theorem Safe.pure {β : Type} (x : β) : Safe (M.pure x : M (St α) β) := fun s => .refl s

theorem Safe.raise {β : Type} (e : Err) : Safe (M.raise e : M (St α) β) := fun s => .refl s

theorem Safe.forEach {β : Type} {f : β → M (St α) Unit} (hf : ∀ x, Safe (f x)) : ∀ l, Safe (M.forEach l f)
  | [] => .pure ()
  | x :: l => (hf x).bind fun _ => Safe.forEach hf l

theorem tell_safe (hr : ∀ log, Safe (c.react log)) (e : Ev α) : Safe (tell c e) := by
  intro s
  have h := hr (s.log ++ [(e, s.data)]) { s with log := s.log ++ [(e, s.data)] }
  have h0 : Cur s { s with log := s.log ++ [(e, s.data)] } :=
    ⟨id, fun hi _ => ⟨⟨hi.held, hi.cur, hi.queue⟩, rfl, rfl, fun _ => .inl rfl⟩⟩
  simp only [tell]
  rcases hq : c.react (s.log ++ [(e, s.data)]) { s with log := s.log ++ [(e, s.data)] } with ⟨r | r, s'⟩
  · exact .fail rfl
  · rw [hq] at h
    exact h0.trans h

theorem drain_safe (hr : ∀ log, Safe (c.react log)) : ∀ n, Safe (drain c n)
  | 0 => fun s => .fail rfl
  | n + 1 => by
    intro s
    simp only [drain]
    split
    · rename_i a rest hp
      have h := tell_safe hr (.items a.1 a.2) { s with pending := some rest }
      have h0 : Cur s { s with pending := some rest } :=
        ⟨id, fun hi _ => ⟨⟨hi.held, hi.cur, (fun _ h => by cases h)⟩, rfl, by rw [hp]; rfl, fun _ => .inl rfl⟩⟩
      split
      · rename_i s' hq
        rw [hq] at h
        exact (h0.trans h).trans (drain_safe hr n s')
      · rename_i e s' hq
        rw [hq] at h
        exact h0.trans h
    · exact .refl s

theorem deliver_safe (hr : ∀ log, Safe (c.react log)) (a : List α × List α) : Safe (deliver c a) := by
  intro s
  simp only [deliver]
  split
  · rename_i q hp
    exact ⟨id, fun hi _ => ⟨⟨hi.held, hi.cur, (fun _ h => by cases h)⟩, rfl, by rw [hp]; rfl, fun _ => .inl rfl⟩⟩
  · rename_i hp
    have h := drain_safe hr (c.limit + 2) { s with pending := some [a] }
    refine ⟨h.failed, fun hi hf => ?_⟩
    obtain ⟨h1, h2, h3, h4⟩ := h.keep ⟨hi.held, hi.cur, (fun _ h => by cases h)⟩ hf
    refine ⟨⟨h1.held, h1.cur, fun hs _ => ?_⟩, h2, by rw [hp], h4⟩
    rcases h4 (h2.symm.trans hs) with h5 | h5
    · exact h5.trans (hi.queue (h2.symm.trans hs) hp)
    · exact h5

theorem emitItems_safe (hr : ∀ log, Safe (c.react log)) (a r : List α) : Safe (emitItems c a r) := by
  intro s
  simp only [emitItems]
  split
  · rename_i hp
    refine ⟨id, fun hi _ => ⟨⟨hi.held, hi.cur, fun h => ?_⟩, rfl, rfl, fun h => ?_⟩⟩ <;> rw [hp] at h <;> cases h
  · exact deliver_safe hr _ s

/-- `resume` at the end of a paused block. -/
theorem resume_inv (hr : ∀ log, Safe (c.react log)) {s : St α} (hi : Inv s) (hf : (resume c s).2.failed = false) :
    Inv (resume c s).2 ∧ (resume c s).2.paused = false ∧ (resume c s).2.pending.isSome = s.pending.isSome ∧ (resume c s).2.queue = [] := by
  simp only [resume] at hf ⊢
  split at hf
  · rename_i hq
    rw [if_pos hq]
    exact ⟨⟨hi.held, hi.cur, fun _ _ => hq⟩, rfl, rfl, hq⟩
  · rename_i hq
    rw [if_neg hq]
    have key : (deliver c (s.queue.flatMap (·.1), s.queue.flatMap (·.2)) { s with paused := false }).2.failed = false →
        Held (deliver c (s.queue.flatMap (·.1), s.queue.flatMap (·.2)) { s with paused := false }).2 ∧
        (∀ x, (deliver c (s.queue.flatMap (·.1), s.queue.flatMap (·.2)) { s with paused := false }).2.active = some x →
          (deliver c (s.queue.flatMap (·.1), s.queue.flatMap (·.2)) { s with paused := false }).2.current = some x) ∧
        (deliver c (s.queue.flatMap (·.1), s.queue.flatMap (·.2)) { s with paused := false }).2.paused = false ∧
        (deliver c (s.queue.flatMap (·.1), s.queue.flatMap (·.2)) { s with paused := false }).2.pending.isSome = s.pending.isSome := by
      intro hf
      simp only [deliver] at hf ⊢
      split
      · rename_i q hp
        exact ⟨hi.held, hi.cur, rfl, by rw [hp]; rfl⟩
      · rename_i hp
        simp only [hp] at hf
        have h := drain_safe hr (c.limit + 2)
          { s with paused := false, pending := some [(s.queue.flatMap (·.1), s.queue.flatMap (·.2))] }
        obtain ⟨h1, h2, h3, h4⟩ := h.keep ⟨hi.held, hi.cur, (fun _ h => by cases h)⟩ hf
        exact ⟨h1.held, h1.cur, h2, by rw [hp]⟩
    split at hf
    · rename_i s' hd
      rw [hd] at key
      obtain ⟨k1, k2, k3, k4⟩ := key hf
      exact ⟨⟨k1, k2, fun _ _ => rfl⟩, k3, k4, rfl⟩
    · rename_i e s' hd
      have := deliver_error (c := c) (a := (s.queue.flatMap (·.1), s.queue.flatMap (·.2))) (s := { s with paused := false }) (x := e) (by rw [hd])
      rw [hd] at this
      rw [this] at hf
      cases hf

theorem resume_failed (hr : ∀ log, Safe (c.react log)) {s : St α} (h : s.failed = true) : (resume c s).2.failed = true := by
  simp only [resume]
  split
  · exact h
  · have h1 := (deliver_safe hr (s.queue.flatMap (·.1), s.queue.flatMap (·.2)) { s with paused := false }).failed h
    split <;> rename_i hq <;> rw [hq] at h1 <;> exact h1

theorem withPaused_safe (hr : ∀ log, Safe (c.react log)) {m : M (St α) Unit} (hm : Safe m) : Safe (withPaused c m) := by
  intro s
  have h := hm { s with paused := true }
  simp only [withPaused]
  rcases hq : m { s with paused := true } with ⟨r, s'⟩
  rw [hq] at h
  simp only
  split
  · rename_i hp
    have e : { s with paused := true } = s := by cases s; cases hp; rfl
    rw [e] at h
    exact h
  · rename_i hp
    have hp : s.paused = false := by simpa using hp
    have key : Cur s (resume c s').2 := by
      refine ⟨fun hf => resume_failed hr (h.failed hf), fun hi hf => ?_⟩
      have hf' : s'.failed = false := Weak.back (fun h => resume_failed hr h) hf
      obtain ⟨h1, h2, h3, h4⟩ := h.keep ⟨hi.held, hi.cur, (fun h => by cases h)⟩ hf'
      obtain ⟨g1, g2, g3, g4⟩ := resume_inv hr h1 hf
      exact ⟨g1, g2.trans hp.symm, g3.trans h3, fun _ => .inr g4⟩
    rcases hq2 : resume c s' with ⟨r2 | r2, s''⟩ <;> rw [hq2] at key <;> exact key

section
variable {upd : M (St α) Unit}

theorem emitChange_safe (hr : ∀ log, Safe (c.react log)) (hu : Safe upd) (a r : List α) : Safe (emitChange c upd a r) :=
  (emitItems_safe hr a r).bind fun _ => hu

theorem add_safe (hr : ∀ log, Safe (c.react log)) (hu : Safe upd) (x : α) : Safe (add c upd x) := by
  intro s
  by_cases hp : s.parent.all (x ∈ ·) = true
  · by_cases hx : x ∈ s.data
    · simp only [add, M.bind_eq, M.bind_app, M.get_app, hp, if_true, hx]
      exact .refl s
    · simp only [add, M.bind_eq, M.bind_app, M.get_app, hp, if_true, hx, if_false, M.modify_app]
      refine Cur.trans (b := { s with data := s.data ++ [x] }) ⟨id, fun hi _ => ⟨⟨fun y hy => ?_, hi.cur, hi.queue⟩, rfl, rfl, fun _ => .inl rfl⟩⟩
        (emitChange_safe hr hu [x] [] _)
      rcases List.mem_append.1 hy with hy | hy
      · exact hi.held y hy
      · rw [List.mem_singleton.1 hy]
        exact hp
  · simp only [add, M.bind_eq, M.bind_app, M.get_app, hp]
    exact .refl s

theorem discard_safe (hr : ∀ log, Safe (c.react log)) (hu : Safe upd) (x : α) : Safe (discard c upd x) := by
  intro s
  by_cases hx : x ∈ s.data
  · simp only [discard, M.bind_eq, M.bind_app, M.get_app, hx, if_true, M.modify_app]
    exact Cur.trans (b := { s with data := s.data.erase x })
      ⟨id, fun hi _ => ⟨⟨fun y hy => hi.held y (List.mem_of_mem_erase hy), hi.cur, hi.queue⟩, rfl, rfl, fun _ => .inl rfl⟩⟩
      (emitChange_safe hr hu [] [x] _)
  · simp only [discard, M.bind_eq, M.bind_app, M.get_app, hx]
    exact .refl s

theorem toggleOne_safe (hr : ∀ log, Safe (c.react log)) (hu : Safe upd) (x : α) : Safe (toggleOne c upd x) := by
  intro s
  simp only [toggleOne, M.bind_eq, M.bind_app, M.get_app]
  split
  · exact discard_safe hr hu x s
  · exact add_safe hr hu x s

theorem baseClear_safe (hr : ∀ log, Safe (c.react log)) (hu : Safe upd) : Safe (baseClear c upd) := by
  refine withPaused_safe hr fun s => ?_
  simp only [M.bind_eq, M.bind_app, M.get_app]
  by_cases hd : s.data = []
  · simp only [hd, if_true]
    exact .refl s
  · simp only [hd, if_false, M.bind_app, M.modify_app]
    exact Cur.trans (b := { s with data := [] })
      ⟨id, fun hi _ => ⟨⟨(fun y hy => by simp at hy), hi.cur, hi.queue⟩, rfl, rfl, fun _ => .inl rfl⟩⟩ (emitChange_safe hr hu [] s.data _)

theorem intersectionUpdate_safe (hr : ∀ log, Safe (c.react log)) (hu : Safe upd) (o : List (List α)) : Safe (intersectionUpdate c upd o) := by
  refine withPaused_safe hr ?_
  split
  · exact .raise _
  · exact fun s => Safe.forEach (fun x => discard_safe hr hu x) _ s

/-- `select_only(x)` when `x` is the only item: nobody is called. -/
theorem selectOnly_only {s : St α} {x : α} (hi : Inv s) (hd : s.data = [x]) (v : Option α) :
    ∃ q pq, selectOnly c upd x { s with active := v } = (.ok (), { s with active := v, queue := q, pending := pq }) ∧
      pq.isSome = s.pending.isSome ∧ (s.paused = false → q = s.queue ∨ q = []) ∧ (s.paused = false → pq = none → q = []) := by
  have hx : s.parent.all (x ∈ ·) = true := hi.held x (by rw [hd]; simp)
  have e : intersectionUpdate c upd [[x]] { s with active := v } = withPaused c (M.pure ()) { s with active := v } := by
    have hl : List.filter (fun y => !([[x]] : List (List α)).all (y ∈ ·)) [x] = [] := by simp
    simp only [intersectionUpdate, withPaused, M.bind_eq, M.bind_app, M.get_app, hd, List.cons_ne_nil, if_false, hl, M.forEach, M.pure_app]
  have ha : ∀ q pq, add c upd x { s with active := v, queue := q, pending := pq } = (.ok (), { s with active := v, queue := q, pending := pq }) := by
    intro q pq
    simp only [add, M.bind_eq, M.bind_app, M.get_app, hx, if_true, hd, List.mem_singleton]
    rfl
  simp only [selectOnly, M.bind_eq, M.bind_app, e, withPaused, M.pure_app]
  cases hp : s.paused
  · simp only [Bool.false_eq_true, if_false, resume]
    by_cases hq : s.queue = []
    · refine ⟨s.queue, s.pending, ?_, rfl, fun _ => .inl rfl, fun _ _ => hq⟩
      simp only [hq, if_true]
      have := ha s.queue s.pending
      simpa [hp, hq] using this
    · simp only [hq, if_false, deliver]
      cases hpd : s.pending with
      | none => exact absurd (hi.queue hp hpd) hq
      | some l =>
        refine ⟨[], some (l ++ [(s.queue.flatMap (·.1), s.queue.flatMap (·.2))]), ?_, rfl, fun _ => .inr rfl, fun _ _ => rfl⟩
        have := ha [] (some (l ++ [(s.queue.flatMap (·.1), s.queue.flatMap (·.2))]))
        simpa [hp] using this
  · refine ⟨s.queue, s.pending, ?_, rfl, (fun h => by cases h), (fun h => by cases h)⟩
    simp only [if_true]
    have := ha s.queue s.pending
    simpa [hp] using this

/-- The setter of `active` for the only item. -/
theorem setActive_only (hr : ∀ log, Safe (c.react log)) {s : St α} {x : α} (hd : s.data = [x])
    (hm : s.failed = true → (setActive c upd (some x) s).2.failed = true) : Cur s (setActive c upd (some x) s).2 := by
  refine ⟨hm, fun hi hf => ?_⟩
  by_cases he : some x = s.active
  · have e : setActive c upd (some x) s = (.ok (), s) := by
      simp only [setActive, M.bind_eq, M.bind_app, M.get_app, he, if_true]
      rfl
    rw [e] at hf ⊢
    exact (Cur.refl s).keep hi hf
  · obtain ⟨q, pq, e, h1, h2, h3⟩ := selectOnly_only (c := c) (upd := upd) hi hd (some x)
    have hC : Cur s { s with active := some x, queue := q, pending := pq, current := some x } :=
      ⟨id, fun hi _ => ⟨⟨hi.held, fun _ h => h, h3⟩, rfl, h1, h2⟩⟩
    have hE : (setActive c upd (some x) s).2 = (tell c (.active (some x)) { s with active := some x, queue := q, pending := pq, current := some x }).2 ∧ s.current = some x ∨
        (setActive c upd (some x) s).2 = (M.bind (tell c (.current (some x))) (fun _ => tell c (.active (some x)))
          { s with active := some x, queue := q, pending := pq, current := some x }).2 := by
      simp only [setActive, M.bind_eq, M.bind_app, M.get_app, he, if_false, M.modify_app, e, setCurrent]
      by_cases hc : some x = s.current
      · left
        simp only [← hc, if_true]
        exact ⟨rfl, trivial⟩
      · right
        simp only [hc, if_false, M.bind_app, M.modify_app]
    have hS : Cur s (setActive c upd (some x) s).2 := by
      rcases hE with ⟨h, _⟩ | h <;> rw [h]
      · exact hC.trans (tell_safe hr _ _)
      · exact hC.trans ((tell_safe hr _).bind (fun _ => tell_safe hr _) _)
    exact hS.keep hi hf

end

theorem updateActive_safe (hk : ∀ p log, Keeps False p (c.react log)) (hr : ∀ log, Safe (c.react log)) : ∀ n, Safe (updateActive c n)
  | 0 => fun s => .fail rfl
  | n + 1 => by
    intro s
    by_cases hd : ∃ x, s.data = [x]
    · obtain ⟨x, hd⟩ := hd
      rw [updateActive_one hd]
      exact setActive_only hr hd (setActive_step (p := s.parent) (hk _) (updateActive_settles (hk _) n) (some x) rfl False.elim).1.failed
    · rw [updateActive_other fun x h => hd ⟨x, h⟩]
      split
      · exact .refl s
      · exact Cur.trans (b := { s with active := none })
          ⟨id, fun hi _ => ⟨⟨hi.held, (fun x h => by cases h), hi.queue⟩, rfl, rfl, fun _ => .inl rfl⟩⟩ (tell_safe hr _ _)

/-- Operations other than assignments to `active` and `clear()` (which set the current item themselves). -/
def Op.Light : Op α → Prop
  | .setActive _ => False
  | .clear k => k = true
  | _ => True

theorem step_safe (hk : ∀ p log, Keeps False p (c.react log)) (hr : ∀ log, Safe (c.react log)) (o : Op α) (ho : o.Light) : Safe (step c o) := by
  have hu := updateActive_safe (c := c) hk hr c.depth
  have hd := fun x => discard_safe hr hu x
  have ha := fun x => add_safe hr hu x
  cases o <;> simp only [step, M.bind_eq, M.pure_eq]
  case add x => exact (ha x).bind fun _ => .pure _
  case discard x => exact (hd x).bind fun _ => .pure _
  case remove x =>
    intro s
    simp only [M.bind_app, M.get_app]
    by_cases hx : x ∈ s.data
    · rw [if_pos hx]
      exact ((hd x).bind fun _ => .pure _) s
    · rw [if_neg hx]
      exact .refl s
  case pop =>
    intro s
    simp only [M.bind_app, M.get_app]
    cases s.data
    · exact .refl s
    · exact ((hd _).bind fun _ => .pure _) s
  case clear k =>
    cases (show k = true from ho)
    exact ((Safe.pure ()).bind fun _ => baseClear_safe hr hu).bind fun _ => .pure _
  case update o => exact (withPaused_safe hr (.forEach ha _)).bind fun _ => .pure _
  case differenceUpdate o => exact (withPaused_safe hr (.forEach hd _)).bind fun _ => .pure _
  case intersectionUpdate o => exact (intersectionUpdate_safe hr hu o).bind fun _ => .pure _
  case symmetricDifferenceUpdate xs => exact (withPaused_safe hr (.forEach (fun x => toggleOne_safe hr hu x) _)).bind fun _ => .pure _
  case ior xs => exact (Safe.forEach ha xs).bind fun _ => .pure _
  case iand xs => exact fun s => ((Safe.forEach hd _).bind fun _ => .pure _) s
  case isub xs => exact (Safe.forEach hd xs).bind fun _ => .pure _
  case ixor xs => exact (Safe.forEach (fun x => toggleOne_safe hr hu x) xs).bind fun _ => .pure _
  case setActive v => exact ho.elim
  case toggle x => exact (withPaused_safe hr (.forEach (fun x => toggleOne_safe hr hu x) _)).bind fun _ => .pure _
  case selectOnly x => exact ((intersectionUpdate_safe hr hu _).bind fun _ => ha x).bind fun _ => .pure _
  all_goals exact fun s => .refl s

theorem run_safe (hk : ∀ p log, Keeps False p (c.react log)) (hr : ∀ log, Safe (c.react log)) (ops : List (Op α)) (ho : ∀ o ∈ ops, o.Light) :
    ∀ s, Cur s (run c ops s).2 := by
  induction ops with
  | nil => exact fun s => .refl s
  | cons o ops ih =>
    exact fun s => (step_safe hk hr o (ho o (by simp)) s).trans (ih (fun o' ho' => ho o' (by simp [ho'])) _)

theorem exec_safe (hk : ∀ p log, Keeps False p (c.react log)) (hr : ∀ log, Safe (c.react log)) : ∀ q : Prog α, q.All Op.Light → Safe (exec c q)
  | .done, _ => .pure ()
  | .raise, _ => .raise _
  | .op o k, h => fun s => (step_safe hk hr o h.1 s).trans (exec_safe hk hr (k (step c o s).1) (h.2 _) _)

theorem listening_safe {q : List (Ev α × List α) → Prog α} (hq : ∀ log, (q log).All Op.Light) (limit depth : Nat) :
    ∀ n log, Safe ((listening q limit depth n).react log)
  | 0, _ => .raise _
  | n + 1, log => exec_safe (fun _ log => listening_keeps False.elim limit depth n log)
      (fun log => listening_safe hq limit depth n log) (q log) (hq log)

end Psygnal.SelN
