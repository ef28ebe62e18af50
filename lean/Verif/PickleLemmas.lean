import Verif.Pickle

/-! # A copied signal is simulated by the original -/
namespace Psygnal.Pickle
open Py

/-- The same slot, except that the copy may lack its priority. -/
def SimSlot (a b : Slot) : Prop := b = a ∨ b = { a with priority := none }

/-- Lists of slots that are the same position by position. -/
inductive SimSlots : List Slot → List Slot → Prop
  | nil : SimSlots [] []
  | cons {a b l l'} : SimSlot a b → SimSlots l l' → SimSlots (a :: l) (b :: l')

/-- The copy differs from the original in description, owner and missing priorities. -/
structure Sim (s t : Sig) : Prop where
  name : t.name = s.name
  blocked : t.blocked = s.blocked
  paused : t.paused = s.paused
  argsQueue : t.argsQueue = s.argsQueue
  emitQueue : t.emitQueue = s.emitQueue
  prio : s.prioInUse = false
  prio' : t.prioInUse = false
  depth : t.depth = s.depth
  maxDepth : t.maxDepth = s.maxDepth
  loop : t.loop = s.loop
  slots : SimSlots s.slots t.slots
  trace : t.trace = s.trace

/-- `m` does the same on simulated states. -/
def Agree {α : Type} (m : M Sig α) : Prop :=
  ∀ s t, Sim s t → (m t).1 = (m s).1 ∧ Sim (m s).2 (m t).2

theorem Agree.pure {α : Type} (a : α) : Agree (M.pure a : M Sig α) := fun _ _ h => ⟨rfl, h⟩
theorem Agree.raise {α : Type} (e : Err) : Agree (M.raise e : M Sig α) := fun _ _ h => ⟨rfl, h⟩

theorem Agree.bind {α β : Type} {m : M Sig α} {f : α → M Sig β} (h : Agree m)
    (hf : ∀ a, Agree (f a)) : Agree (M.bind m f) := by
  intro s t hs
  obtain ⟨h1, h2⟩ := h s t hs
  rcases hm : m s with ⟨_ | a, s'⟩ <;> rcases hn : m t with ⟨_ | b, t'⟩ <;>
    simp only [hm, hn] at h1 h2 <;> simp only [M.bind, hm, hn]
  · exact ⟨by cases h1; rfl, h2⟩
  · cases h1
  · cases h1
  · cases h1
    exact hf _ _ _ h2

theorem Agree.modify {f : Sig → Sig} (h : ∀ s t, Sim s t → Sim (f s) (f t)) :
    Agree (M.modify f) := fun s t hs => ⟨rfl, h s t hs⟩

theorem Agree.forEach {β : Type} {f : β → M Sig Unit} (l : List β) (h : ∀ b, Agree (f b)) :
    Agree (M.forEach l f) := by
  induction l with
  | nil => exact .pure ()
  | cons x l ih => exact (h x).bind fun _ => ih

theorem callSlot_sim (rs : Raises) {a b : Slot} (h : SimSlot a b) (x : List Nat) (s t : Sig)
    (hs : Sim s t) : (callSlot rs b x t).1 = (callSlot rs a x s).1 ∧
      Sim (callSlot rs a x s).2 (callSlot rs b x t).2 := by
  have e : callSlot rs b x = callSlot rs a x := by rcases h with rfl | rfl <;> rfl
  rw [e]
  simp only [callSlot, M.bind_eq, M.bind_app, M.modify_app]
  split
  · exact ⟨rfl, { hs with trace := by simp [hs.trace] }⟩
  · exact ⟨rfl, { hs with trace := by simp [hs.trace] }⟩

theorem forSlots_sim (rs : Raises) (x : List Nat) {l l' : List Slot} (h : SimSlots l l') :
    ∀ s t, Sim s t →
      (M.forEach l' (fun sl => callSlot rs sl x) t).1 = (M.forEach l (fun sl => callSlot rs sl x) s).1 ∧
      Sim (M.forEach l (fun sl => callSlot rs sl x) s).2 (M.forEach l' (fun sl => callSlot rs sl x) t).2 := by
  induction h with
  | nil => exact fun s t hs => ⟨rfl, hs⟩
  | @cons a b l l' hab _ ih =>
    intro s t hs
    obtain ⟨h1, h2⟩ := callSlot_sim rs hab x s t hs
    simp only [M.forEach, M.bind]
    rcases hm : callSlot rs a x s with ⟨_ | a', s'⟩ <;>
      rcases hn : callSlot rs b x t with ⟨_ | b', t'⟩ <;>
      simp only [hm, hn] at h1 h2
    · exact ⟨by cases h1; rfl, h2⟩
    · cases h1
    · cases h1
    · exact ih _ _ h2

theorem inner_agree (rs : Raises) : Agree (inner rs) := by
  intro s t hs
  simp only [inner, M.bind_eq, M.bind_app, M.get_app, hs.loop, hs.emitQueue]
  rcases hq : s.emitQueue with _ | ⟨a, q⟩
  · cases hl : s.loop <;> exact ⟨rfl, hs⟩
  · cases hl : s.loop
    · exact forSlots_sim rs _ hs.slots _ _ { hs with emitQueue := rfl }
    · exact forSlots_sim rs _ hs.slots _ _ hs
    · simp only [M.bind_app, M.modify_app, hs.depth, hs.maxDepth]
      split
      · exact ⟨rfl, { hs with emitQueue := rfl, depth := rfl, maxDepth := rfl }⟩
      · exact forSlots_sim rs _ hs.slots _ _ { hs with emitQueue := rfl, depth := rfl, maxDepth := rfl }

theorem leave_sim {s t : Sig} (h : Sim s t) : Sim (leave s) (leave t) := by
  unfold leave
  rw [h.depth]
  split
  · exact { h with depth := rfl, maxDepth := rfl, emitQueue := rfl }
  · exact { h with depth := rfl, emitQueue := rfl }

theorem runLoop_agree (rs : Raises) (a : List Nat) : Agree (runLoop rs a) := by
  intro s t hs
  simp only [runLoop, hs.depth, hs.emitQueue, hs.maxDepth]
  split
  · exact ⟨rfl, hs⟩
  · split
    · exact ⟨rfl, { hs with emitQueue := rfl, depth := rfl, maxDepth := rfl }⟩
    · have := inner_agree rs
        { s with emitQueue := s.emitQueue ++ [a], depth := s.depth + 1, maxDepth := max s.maxDepth (s.depth + 1) }
        { t with emitQueue := s.emitQueue ++ [a], depth := s.depth + 1, maxDepth := max s.maxDepth (s.depth + 1) }
        { hs with emitQueue := rfl, depth := rfl, maxDepth := rfl }
      exact ⟨this.1, leave_sim this.2⟩

theorem emit_agree (rs : Raises) (a : List Nat) : Agree (emit rs a) := by
  intro s t hs
  simp only [emit, hs.blocked, hs.paused]
  split
  · exact ⟨rfl, hs⟩
  · split
    · exact ⟨rfl, { hs with argsQueue := by simp [hs.argsQueue], blocked := rfl, paused := rfl }⟩
    · exact runLoop_agree rs a s t hs

theorem simSlots_nil {l l' : List Slot} (h : SimSlots l l') : l' = [] ↔ l = [] := by
  cases h <;> simp

theorem simSlots_append {l l' : List Slot} (x : Slot) (h : SimSlots l l') :
    SimSlots (l ++ [x]) (l' ++ [x]) := by
  induction h with
  | nil => exact .cons (.inl rfl) .nil
  | cons h _ ih => exact .cons h ih

theorem simSlot_key {a b : Slot} (h : SimSlot a b) : b.key = a.key := by
  rcases h with rfl | rfl <;> rfl

theorem simSlots_erase {l l' : List Slot} (k : Nat) (h : SimSlots l l') :
    SimSlots (l.eraseP (·.key = k)) (l'.eraseP (·.key = k)) := by
  induction h with
  | nil => exact .nil
  | @cons a b l l' h hl ih =>
    rw [List.eraseP_cons, List.eraseP_cons, simSlot_key h]
    cases decide (a.key = k)
    · exact .cons h ih
    · exact hl

theorem simSlots_length {l l' : List Slot} (h : SimSlots l l') : l'.length = l.length := by
  induction h with
  | nil => rfl
  | cons _ _ ih => simp [ih]

theorem simSlots_any {l l' : List Slot} (k : Nat) (h : SimSlots l l') :
    l'.any (·.key = k) = l.any (·.key = k) := by
  induction h with
  | nil => rfl
  | cons h _ ih => simp [ih, simSlot_key h]

theorem simSlots_forget (l : List Slot) (h : ∀ x ∈ l, x.hold = .strong) :
    SimSlots l ((l.map (·.getstate)).map (·.setstate)) := by
  induction l with
  | nil => exact .nil
  | cons x l ih =>
    refine .cons (.inr ?_) (ih fun y hy => h y (by simp [hy]))
    have := h x (by simp)
    simp [Slot.getstate, SlotState.setstate, this]

theorem resume_agree (rs : Raises) : Agree (resume rs) := by
  refine Agree.bind (Agree.modify fun s t hs => { hs with paused := rfl }) fun _ => ?_
  intro s t hs
  simp only [M.bind_eq, M.bind_app, M.get_app, hs.argsQueue, simSlots_nil hs.slots]
  split
  · exact ⟨rfl, hs⟩
  · split
    · exact ⟨rfl, { hs with argsQueue := rfl }⟩
    · refine Agree.bind (Agree.forEach s.argsQueue fun a => runLoop_agree rs a)
        (fun _ => Agree.modify ?_) s t hs
      exact fun s t hs => { hs with argsQueue := rfl }

/-- The operations whose result does not need the missing attributes. -/
def Op.Plain : Op → Prop
  | .connect _ _ _ _ _ p => p = 0
  | .description => False
  | _ => True

theorem step_agree (rs : Raises) (o : Op) (ho : o.Plain) : Agree (step rs o) := by
  cases o with
  | emit a => exact (emit_agree rs a).bind fun _ => .pure _
  | connect k f a m st p =>
    refine Agree.bind ?_ fun _ => .pure _
    intro s t hs
    have hp : p = 0 := ho
    rw [append, append, if_pos ⟨hs.prio', hp⟩, if_pos ⟨hs.prio, hp⟩]
    exact ⟨rfl, { hs with slots := simSlots_append _ hs.slots }⟩
  | disconnect k =>
    refine Agree.bind (Agree.modify ?_) fun _ => .pure _
    exact fun s t hs => { hs with slots := simSlots_erase k hs.slots }
  | disconnectAll =>
    refine Agree.bind (Agree.modify ?_) fun _ => .pure _
    exact fun s t hs => { hs with slots := .nil }
  | block =>
    refine Agree.bind (Agree.modify ?_) fun _ => .pure _
    exact fun s t hs => { hs with blocked := rfl }
  | unblock =>
    refine Agree.bind (Agree.modify ?_) fun _ => .pure _
    exact fun s t hs => { hs with blocked := rfl }
  | pause =>
    refine Agree.bind (Agree.modify ?_) fun _ => .pure _
    exact fun s t hs => { hs with paused := rfl }
  | resume => exact (resume_agree rs).bind fun _ => .pure _
  | len =>
    intro s t hs
    exact ⟨by simp [step, M.bind_app, simSlots_length hs.slots], hs⟩
  | contains k =>
    intro s t hs
    exact ⟨by simp only [step, M.bind_eq, M.bind_app, M.get_app, M.pure_eq, M.pure_app,
      simSlots_any k hs.slots], hs⟩
  | name =>
    intro s t hs
    exact ⟨by simp [step, M.bind_app, hs.name], hs⟩
  | description => exact ho.elim

theorem run_agree (rs : Raises) (os : List Op) : ∀ s t, (∀ o ∈ os, o.Plain) → Sim s t →
    (run rs os t).1 = (run rs os s).1 ∧ Sim (run rs os s).2 (run rs os t).2 := by
  induction os with
  | nil => exact fun s t _ hs => ⟨rfl, hs⟩
  | cons o os ih =>
    intro s t ho hs
    have h1 := step_agree rs o (ho o (by simp)) s t hs
    have h2 := ih _ _ (fun x hx => ho x (by simp [hx])) h1.2
    exact ⟨by simp only [run, h1.1, h2.1], h2.2⟩

theorem place_missing (new : Slot) (p : Int) (x : Slot) (l : List Slot) (h : x.priority = none) :
    place new p (x :: l) = none := by simp [place, h]

theorem runLoop_busy (rs : Raises) (a : List Nat) (s : Sig) (h : s.emitQueue ≠ []) :
    (runLoop rs a s).2.trace = s.trace ∧ (runLoop rs a s).2.emitQueue ≠ [] := by
  unfold runLoop
  split
  · exact ⟨rfl, h⟩
  · have : (s.emitQueue ++ [a]).length > 1 := by
      cases hq : s.emitQueue with
      | nil => exact absurd hq h
      | cons b q => simp
    simp only [this, if_true]
    exact ⟨trivial, by simp⟩

theorem leave_trace (x : Sig) : (leave x).trace = x.trace := by
  unfold leave; split <;> rfl

theorem forEach_calls (a : List Nat) (l : List Slot) : ∀ x : Sig,
    (M.forEach l (fun sl => callSlot (fun _ => false) sl a) x).1 = .ok () ∧
    (M.forEach l (fun sl => callSlot (fun _ => false) sl a) x).2.trace =
      x.trace ++ l.map fun sl => (sl.f, sl.args ++ cut sl.maxArgs a, sl.kw) := by
  induction l with
  | nil => intro x; simp [M.forEach]
  | cons y l ih =>
    intro x
    have := ih { x with trace := x.trace ++ [(y.f, y.args ++ cut y.maxArgs a, y.kw)] }
    refine ⟨this.1, this.2.trans ?_⟩
    simp

theorem inner_calls (a : List Nat) (x : Sig) (hx : x.emitQueue = [a])
    (hn : ¬ x.depth < x.maxDepth) :
    (inner (fun _ => false) x).1 = .ok () ∧ (inner (fun _ => false) x).2.trace =
      x.trace ++ x.slots.map fun sl => (sl.f, sl.args ++ cut sl.maxArgs a, sl.kw) := by
  simp only [inner, M.bind_eq, M.bind_app, M.get_app, hx]
  cases x.loop
  · exact forEach_calls a _ _
  · exact forEach_calls a _ _
  · simp only [M.bind_app, M.modify_app, hn, if_false]
    exact forEach_calls a _ _

theorem emit_idle (a : List Nat) (t : Sig) (hb : t.blocked = false) (hp : t.paused = false)
    (hq : t.emitQueue = []) (hd : t.depth = 0) (hm : t.maxDepth = 0) :
    (emit (fun _ => false) a t).1 = .ok () ∧ (emit (fun _ => false) a t).2.trace =
      t.trace ++ t.slots.map fun sl => (sl.f, sl.args ++ cut sl.maxArgs a, sl.kw) := by
  unfold emit runLoop
  rw [if_neg (by simp [hb]), if_neg (by simp [hp]), if_neg (by rw [hd]; decide)]
  simp only []
  rw [if_neg (by simp [hq])]
  have := inner_calls a { t with emitQueue := t.emitQueue ++ [a], depth := t.depth + 1, maxDepth := max t.maxDepth (t.depth + 1) }
    (by simp [hq]) (by simp [hd, hm]; decide)
  exact ⟨this.1, (leave_trace _).trans this.2⟩

/-- The slots that are called: up to the first one that raises. -/
def callsUntil (rs : Raises) : List Slot → List Slot
  | [] => []
  | x :: l => if rs x.f then [x] else x :: callsUntil rs l

theorem forEach_until (rs : Raises) (a : List Nat) (l : List Slot) : ∀ x : Sig,
    (M.forEach l (fun sl => callSlot rs sl a) x).2 =
      { x with trace := x.trace ++ (callsUntil rs l).map fun sl => (sl.f, sl.args ++ cut sl.maxArgs a, sl.kw) } := by
  induction l with
  | nil => intro x; simp [M.forEach, M.pure, callsUntil]
  | cons y l ih =>
    intro x
    have h1 : callSlot rs y a x = (if rs y.f then .error .emitLoop else .ok (),
        { x with trace := x.trace ++ [(y.f, y.args ++ cut y.maxArgs a, y.kw)] }) := by
      simp only [callSlot, M.bind_eq, M.bind_app, M.modify]
      split <;> rfl
    simp only [M.forEach, M.bind_app, h1]
    by_cases hr : rs y.f = true
    · simp [hr, callsUntil]
    · simp only [hr, callsUntil, if_false, Bool.false_eq_true, ih, List.map_cons, List.append_assoc, List.singleton_append]

theorem emit_until (rs : Raises) (a : List Nat) (t : Sig) (hb : t.blocked = false) (hp : t.paused = false)
    (hq : t.emitQueue = []) (hd : t.depth = 0) (hm : t.maxDepth = 0) :
    (emit rs a t).2 = { t with trace := t.trace ++ (callsUntil rs t.slots).map fun sl => (sl.f, sl.args ++ cut sl.maxArgs a, sl.kw) } := by
  obtain ⟨_, _, _, _, blocked, paused, _, _, _, emitQueue, _, _, depth, maxDepth, loop, slots, trace⟩ := t
  cases hb; cases hp; cases hq; cases hd; cases hm
  simp only [emit, runLoop, Bool.false_eq_true, if_false]
  rw [if_neg (by decide), if_neg (by simp)]
  cases loop
  · simp only [inner, M.bind_eq, M.bind_app, M.get, M.modify, List.nil_append]
    rw [forEach_until]
    rfl
  · simp only [inner, M.bind_eq, M.bind_app, M.get, List.nil_append]
    rw [forEach_until]
    rfl
  · simp only [inner, M.bind_eq, M.bind_app, M.get, M.modify, List.nil_append]
    rw [if_neg (by decide), forEach_until]
    rfl

end Psygnal.Pickle
