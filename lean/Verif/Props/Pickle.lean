import Verif.PickleLemmas

/-! # C25: copying a signal -/
namespace Psygnal.Pickle
open Py

/-- What a call of a slot depends on, and its identity. -/
def Slot.view (s : Slot) : Nat × Nat × List Nat × List (String × Nat) × Option Nat :=
  (s.key, s.f, s.args, s.kw, s.maxArgs)

/-- The signal without its weakly referenced slots, and with an empty ghost trace. -/
def dropWeak (s : Sig) : Sig := { s with slots := s.slots.filter (·.hold = .strong), trace := [] }

/-- **C25**: the copy has the name, signature, block and pause state, waiting arguments,
re-emission mode and loop of the original, and is owned by the copy of the owner. -/
theorem C25_fields (cp : Nat → Nat) (s : Sig) (h : s.loop = s.reemission) :
    let t := copy cp s
    t.name = s.name ∧ t.signature = s.signature ∧ t.blocked = s.blocked ∧ t.paused = s.paused ∧
    t.argsQueue = s.argsQueue ∧ t.emitQueue = s.emitQueue ∧ t.reemission = s.reemission ∧
    t.loop = s.loop ∧ t.checkNargs = s.checkNargs ∧ t.checkTypes = s.checkTypes ∧
    t.inst = s.inst.map cp := by
  refine ⟨rfl, rfl, rfl, rfl, rfl, rfl, rfl, ?_, rfl, rfl, rfl⟩
  simp only [copy, State.setstate, Sig.getstate]
  rw [h]
  have : ∀ m : Mode, (if m = .queued then Mode.queued else if m = .latest then .latest
      else .immediate) = m := by
    intro m; cases m <;> rfl
  exact this _

/-- **C25**: the strongly referenced callbacks are kept in order, with function, bound
arguments, `max_args` and identity; weak ones are dropped.  Missing: the priorities, which
are lost (`C25_priority_refuted`). -/
theorem C25_callbacks_partial (cp : Nat → Nat) (s : Sig) :
    (copy cp s).slots.map Slot.view = (s.slots.filter (·.hold = .strong)).map Slot.view := by
  simp only [copy, State.setstate, Sig.getstate, List.map_map]
  rfl

/-- **C25**: whatever is done with the copy (emitting, connecting, disconnecting, blocking,
pausing, resuming, asking for name, length or membership), every result and every call of
a callback is as on the original without its weak slots.  Missing: priorities and the
description (refuted below). -/
theorem C25_use_partial (rs : Raises) (cp : Nat → Nat) (s : Sig) (h : s.loop = s.reemission)
    (hp : s.prioInUse = false) (os : List Op) (ho : ∀ o ∈ os, o.Plain) :
    (run rs os (copy cp s)).1 = (run rs os (dropWeak s)).1 ∧
    (run rs os (copy cp s)).2.trace = (run rs os (dropWeak s)).2.trace := by
  have hs : Sim (dropWeak s) (copy cp s) := by
    refine ⟨rfl, rfl, rfl, rfl, rfl, hp, hp, rfl, rfl, (C25_fields cp s h).2.2.2.2.2.2.2.1, ?_, rfl⟩
    exact simSlots_forget _ (fun x hx => by simpa using (List.mem_filter.mp hx).2)
  have := run_agree rs os _ _ ho hs
  exact ⟨this.1, this.2.trace⟩

/-- Each call of a `StrongFunction` on the copy is the call on the original: emitting once on
an idle copy with callbacks that do not raise calls each kept callback once, in order. -/
theorem C25_emit_calls (cp : Nat → Nat) (s : Sig) (a : List Nat)
    (hb : s.blocked = false) (hp : s.paused = false) (hq : s.emitQueue = [])
    (hd : s.depth = 0) (hm : s.maxDepth = 0) :
    (emit (fun _ => false) a (copy cp s)).1 = .ok () ∧
    (emit (fun _ => false) a (copy cp s)).2.trace =
      (s.slots.filter (·.hold = .strong)).map fun sl => (sl.f, sl.args ++ cut sl.maxArgs a, sl.kw) := by
  have := emit_idle a (copy cp s) hb hp hq hd hm
  refine ⟨this.1, this.2.trans ?_⟩
  rw [show (copy cp s).trace = [] from rfl, List.nil_append]
  simp only [copy, State.setstate, Sig.getstate, List.map_map]
  rfl

/-- The slots that an emission calls: in order, up to and including the first one that raises. -/
def called (rs : Raises) : List Slot → List Slot
  | [] => []
  | x :: l => if rs x.f then [x] else x :: called rs l

/-- **C25**: an idle copy can be emitted again and again, in every re-emission mode: each emission calls the kept callbacks in order, up
to the first one that raises, and the copy is idle again afterwards, whether it raised or not. -/
theorem C25_emit_again (rs : Raises) (cp : Nat → Nat) (s : Sig) (l : List (List Nat))
    (hb : s.blocked = false) (hp : s.paused = false) (hq : s.emitQueue = [])
    (hd : s.depth = 0) (hm : s.maxDepth = 0) :
    let t := (run rs (l.map .emit) (copy cp s)).2
    t.trace = l.flatMap (fun a => (called rs (s.slots.filter (·.hold = .strong))).map
      fun sl => (sl.f, sl.args ++ cut sl.maxArgs a, sl.kw)) ∧
    t.depth = 0 ∧ t.maxDepth = 0 ∧ t.emitQueue = [] := by
  have hc : ∀ l, callsUntil rs l = called rs l := by
    intro l
    induction l with
    | nil => rfl
    | cons x l ih => simp only [callsUntil, called, ih]
  have hs : ∀ (l : List Slot), (callsUntil rs ((l.map (·.getstate)).map (·.setstate))) =
      ((called rs l).map (·.getstate)).map (·.setstate) := by
    intro l
    induction l with
    | nil => rfl
    | cons x l ih =>
      simp only [List.map_cons, callsUntil, called, SlotState.setstate, Slot.getstate] at ih ⊢
      split
      · rfl
      · rw [ih]; rfl
  have key : ∀ (l : List (List Nat)) (t : Sig), t.blocked = false → t.paused = false → t.emitQueue = [] → t.depth = 0 →
      t.maxDepth = 0 → (run rs (l.map .emit) t).2 = { t with trace := t.trace ++ l.flatMap (fun a =>
        (callsUntil rs t.slots).map fun sl => (sl.f, sl.args ++ cut sl.maxArgs a, sl.kw)) } := by
    intro l
    induction l with
    | nil => intro t _ _ _ _ _; simp [run]
    | cons a l ih =>
      intro t h1 h2 h3 h4 h5
      have e : (step rs (.emit a) t).2 = (emit rs a t).2 := by
        simp only [step, M.bind_eq, M.bind_app]
        rcases emit rs a t with ⟨_ | _, _⟩ <;> rfl
      simp only [List.map_cons, run, e]
      rw [emit_until rs a t h1 h2 h3 h4 h5, ih _ (by exact h1) (by exact h2) (by exact h3) (by exact h4) (by exact h5)]
      simp only [List.flatMap_cons, List.append_assoc]
  intro t
  have ht : t = _ := key l (copy cp s) hb hp hq hd hm
  refine ⟨?_, by rw [ht]; exact hd, by rw [ht]; exact hm, by rw [ht]; exact hq⟩
  rw [ht]
  have e : (copy cp s).slots = ((s.slots.filter (·.hold = .strong)).map (·.getstate)).map (·.setstate) := rfl
  show [] ++ _ = _
  rw [List.nil_append, e, hs]
  simp only [List.map_map]
  rfl

/-! ## Examples -/
namespace Ex

/-- A paused signal with one strong slot, one weak slot, one slot for another thread and a waiting emission. -/
def sig : Sig :=
  { signature := 1, name := some "changed", description := some "what changed", inst := some 5,
    blocked := false, paused := true, argsQueue := [[7]], checkNargs := true, checkTypes := false,
    emitQueue := [], prioInUse := false, reemission := .queued, depth := 0, maxDepth := 0,
    loop := .queued, trace := [],
    slots := [⟨10, 100, [1], [], some 1, .strong, some 0⟩, ⟨11, 101, [], [], none, .weak, some 0⟩,
      ⟨13, 103, [], [], none, .queued, some 0⟩] }

/-- Resume, emit, connect another function, emit. -/
def ops : List Op := [.resume, .emit [8, 9], .connect 12 102 [] none .strong 0, .emit [9], .len]

end Ex

/-- The hypotheses of `C25_use_partial` and a concrete run: the waiting emission is delivered
by the copy, to the strong slot only. -/
theorem C25_example : Ex.sig.loop = Ex.sig.reemission ∧ Ex.sig.prioInUse = false ∧
    (∀ o ∈ Ex.ops, o.Plain) ∧
    (run (fun _ => false) Ex.ops (copy (· + 1) Ex.sig)).2.trace =
      [(100, [1, 7], []), (100, [1, 8], []), (100, [1, 9], []), (102, [9], [])] ∧
    (run (fun _ => false) Ex.ops (copy (· + 1) Ex.sig)).1 =
      [.ok .unit, .ok .unit, .ok .unit, .ok .unit, .ok (.nat 2)] := by
  refine ⟨rfl, rfl, ?_, by decide, by decide⟩
  intro o ho
  simp only [Ex.ops, List.mem_cons, List.not_mem_nil, or_false] at ho
  rcases ho with rfl | rfl | rfl | rfl | rfl <;> first | trivial | rfl

/-- Concrete case for `C25_emit_again`: a signal with two kept callbacks, the second of which raises, and a third after it. -/
theorem C25_emit_again_example : ∃ s : Sig, s.blocked = false ∧ s.paused = false ∧ s.emitQueue = [] ∧ s.depth = 0 ∧ s.maxDepth = 0 ∧
    (run (fun f => f == 101) [.emit [7, 8], .emit [9]] (copy id s)).2.trace =
      [(100, [1, 7], []), (101, [7, 8], []), (100, [1, 9], []), (101, [9], [])] ∧
    (run (fun f => f == 101) [.emit [7, 8], .emit [9]] (copy id s)).1.map Except.toOption = [none, none] := by
  refine ⟨{ Ex.sig with
    paused := false, argsQueue := [], loop := .latest, reemission := .latest
    slots := [⟨10, 100, [1], [], some 1, .strong, some 0⟩, ⟨12, 105, [], [], none, .weak, some 0⟩, ⟨11, 101, [], [], none, .strong, some 0⟩,
      ⟨13, 103, [], [], none, .strong, some 0⟩] }, rfl, rfl, rfl, rfl, rfl, by decide, by decide⟩

/-! ## Disagreements -/

/-- The priority of a copied callback is gone (`_weak_callback.py:366`).  Connecting with a
priority to a copy that has a callback raises `AttributeError`, for every signal, and so does
every connection if the original had used priorities. -/
theorem C25_priority_refuted (rs : Raises) (cp : Nat → Nat) (s : Sig) (x : Slot)
    (hx : x ∈ s.slots) (hs : x.hold = .strong) (k f : Nat) (a : List Nat) (m : Option Nat)
    (st : Hold) (p : Int) (hp : s.prioInUse = true ∨ p ≠ 0) :
    (step rs (.connect k f a m st p) (copy cp s)).1 = .error .attribute := by
  have hne : (s.slots.filter (·.hold = .strong)) ≠ [] :=
    fun h => by
      have : x ∈ s.slots.filter (·.hold = .strong) := by simp [hx, hs]
      rw [h] at this
      exact (List.not_mem_nil this)
  obtain ⟨y, l, hl⟩ := List.exists_cons_of_ne_nil hne
  have hcopy : (copy cp s).slots = y.getstate.setstate :: (l.map (·.getstate)).map (·.setstate) := by
    simp only [copy, State.setstate, Sig.getstate, hl, List.map_cons]
  have hpl := place_missing ⟨k, f, a, [], m, st, some p⟩ p y.getstate.setstate
    ((l.map (·.getstate)).map (·.setstate)) rfl
  simp only [step, M.bind_eq, M.bind_app, append]
  rw [if_neg (by
    show ¬ (s.prioInUse = false ∧ p = 0)
    rcases hp with h | h <;> simp [h])]
  rw [hcopy, hpl]

theorem place_some (new : Slot) (p : Int) : ∀ l : List Slot, (∀ x ∈ l, x.priority ≠ none) → ∃ l1 l2, l = l1 ++ l2 ∧ place new p l = some (l1 ++ new :: l2) ∧
    (∀ x ∈ l1, ∀ q, x.priority = some q → p ≤ q) ∧ ∀ x ∈ l2.head?, ∀ q, x.priority = some q → q < p
  | [], _ => ⟨[], [], rfl, rfl, (fun _ h => nomatch h), (fun _ h => nomatch h)⟩
  | s :: l, h => by
    unfold place
    cases hq : s.priority with
    | none => exact absurd hq (h s List.mem_cons_self)
    | some q =>
      dsimp only
      split
      · rename_i hlt
        refine ⟨[], s :: l, rfl, rfl, (fun _ h => nomatch h), fun x hx r hr => ?_⟩
        obtain rfl : s = x := Option.some.inj hx
        rw [hq] at hr
        rw [← Option.some.inj hr]; exact hlt
      · rename_i hge
        obtain ⟨l1, l2, h1, h2, h3, h4⟩ := place_some new p l (fun x hx => h x (List.mem_cons_of_mem s hx))
        refine ⟨s :: l1, l2, by rw [h1]; rfl, by rw [h2]; rfl, fun x hx r hr => ?_, h4⟩
        rcases List.mem_cons.1 hx with rfl | hx
        · rw [hq] at hr
          rw [← Option.some.inj hr]; exact Int.not_lt.1 hge
        · exact h3 x hx r hr

/-- A signal whose callbacks all have a priority, as those of an original do, accepts that connection: the callback comes after those of at least its priority. -/
theorem C25_priority_original (rs : Raises) (s : Sig) (hs : ∀ x ∈ s.slots, x.priority ≠ none) (k f : Nat) (a : List Nat) (m : Option Nat) (st : Hold) (p : Int) :
    (step rs (.connect k f a m st p) s).1 = .ok .unit ∧ ∃ l1 l2, s.slots = l1 ++ l2 ∧
      (step rs (.connect k f a m st p) s).2.slots = l1 ++ ⟨k, f, a, [], m, st, some p⟩ :: l2 ∧
      (s.prioInUse = false ∧ p = 0 → l2 = []) ∧
      (s.prioInUse = true ∨ p ≠ 0 → (∀ x ∈ l1, ∀ q, x.priority = some q → p ≤ q) ∧ ∀ x ∈ l2.head?, ∀ q, x.priority = some q → q < p) := by
  simp only [step, M.bind_eq, M.bind_app, append]
  by_cases hp : s.prioInUse = false ∧ p = 0
  · rw [if_pos hp]
    refine ⟨rfl, s.slots, [], (List.append_nil _).symm, rfl, fun _ => rfl, fun h => ?_⟩
    rcases h with h | h
    · rw [hp.1] at h; cases h
    · exact absurd hp.2 h
  · rw [if_neg hp]
    obtain ⟨l1, l2, h1, h2, h3⟩ := place_some ⟨k, f, a, [], m, st, some p⟩ p s.slots hs
    rw [h2]
    exact ⟨rfl, l1, l2, h1, rfl, fun h => absurd h hp, fun _ => h3⟩

example : (∀ x ∈ Ex.sig.slots, x.priority ≠ none) ∧ (step (fun _ => false) (.connect 12 102 [] none .strong 1) Ex.sig).1 = .ok .unit ∧
    (step (fun _ => false) (.connect 12 102 [] none .strong 1) Ex.sig).2.slots.map Slot.key = [12, 10, 11, 13] :=
  have h : ∀ x ∈ Ex.sig.slots, x.priority ≠ none := by decide
  ⟨h, (C25_priority_original _ Ex.sig h _ _ _ _ _ _).1, by decide⟩

/-- A copy without callbacks accepts it too. -/
theorem C25_priority_empty (rs : Raises) (cp : Nat → Nat) (s : Sig) (h0 : ∀ x ∈ s.slots, x.hold ≠ .strong) (k f : Nat) (a : List Nat) (m : Option Nat) (st : Hold)
    (p : Int) : (step rs (.connect k f a m st p) (copy cp s)).1 = .ok .unit ∧ (step rs (.connect k f a m st p) (copy cp s)).2.slots = [⟨k, f, a, [], m, st, some p⟩] := by
  have he : (copy cp s).slots = [] := by
    have : s.slots.filter (·.hold = .strong) = [] := List.filter_eq_nil_iff.2 (fun x hx => by simp [h0 x hx])
    simp only [copy, State.setstate, Sig.getstate, this, List.map_nil]
  obtain ⟨h1, l1, l2, h2, h3, _⟩ := C25_priority_original rs (copy cp s) (by rw [he]; exact fun _ h => nomatch h) k f a m st p
  refine ⟨h1, ?_⟩
  rw [he] at h2
  obtain ⟨rfl, rfl⟩ := List.append_eq_nil_iff.1 h2.symm
  exact h3

example : (step (fun _ => false) (.connect 12 102 [] none .strong 1) (copy id { Ex.sig with slots := [⟨11, 101, [], [], none, .weak, some 0⟩] })).1 = .ok .unit :=
  (C25_priority_empty _ id { Ex.sig with slots := [⟨11, 101, [], [], none, .weak, some 0⟩] } (by decide) _ _ _ _ _ _).1

/-- The description of every copy is gone (`_signal.py:1467-1480`). -/
theorem C25_description_refuted (rs : Raises) (cp : Nat → Nat) (s : Sig) :
    (step rs .description (copy cp s)).1 = .error .attribute := rfl

/-- A copy made while the original is being emitted in queued mode, where the queue is not
empty, never calls a callback again, however often it is emitted (`_signal.py:1475,1270-1271`). -/
theorem C25_mid_emission_refuted (rs : Raises) (cp : Nat → Nat) (s : Sig) (hq : s.emitQueue ≠ [])
    (l : List (List Nat)) : (run rs (l.map .emit) (copy cp s)).2.trace = [] := by
  have key : ∀ (l : List (List Nat)) (t : Sig), t.emitQueue ≠ [] →
      (run rs (l.map .emit) t).2.trace = t.trace := by
    intro l
    induction l with
    | nil => exact fun _ _ => rfl
    | cons a l ih =>
      intro t ht
      have e : (step rs (.emit a) t).2 = (emit rs a t).2 := by
        simp only [step, M.bind_eq, M.bind_app]
        rcases emit rs a t with ⟨_ | _, _⟩ <;> rfl
      have h2 : (emit rs a t).2.trace = t.trace ∧ (emit rs a t).2.emitQueue ≠ [] := by
        unfold emit
        split
        · exact ⟨rfl, ht⟩
        · split
          · exact ⟨rfl, ht⟩
          · exact runLoop_busy rs a t ht
      simp only [List.map_cons, run, e]
      rw [ih _ h2.2, h2.1]
  exact key l _ hq

/-- A function connected with `thread=` is strongly referenced, but the copy does not have
it: its slot is not a `StrongFunction` (`_signal.py:1483`, `_queue.py:15`). -/
theorem C25_queued_slot_refuted (cp : Nat → Nat) (s : Sig) (x : Slot)
    (hx : x.hold = .queued) (hk : ∀ y ∈ s.slots, y.key = x.key → y = x) :
    ∀ y ∈ (copy cp s).slots, y.key ≠ x.key := by
  intro y hy he
  simp only [copy, State.setstate, Sig.getstate, List.map_map, List.mem_map, List.mem_filter] at hy
  obtain ⟨z, ⟨hz, hs⟩, rfl⟩ := hy
  have := hk z hz he
  rw [this, hx] at hs
  simp at hs

/-- Such a signal. -/
example : ∃ x ∈ Ex.sig.slots, x.hold = .queued ∧ ∀ y ∈ Ex.sig.slots, y.key = x.key → y = x := by
  decide

end Psygnal.Pickle
