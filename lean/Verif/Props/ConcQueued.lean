import Verif.ConcEmits

/-! # C55: queued signals with several threads -/
namespace Psygnal.Conc

/-- **C55**.  Any number of threads running any code emit a signal whose reemission mode is `queued`, also from its own
callbacks; its callbacks do not change.  Whenever no thread is in an emission of the signal and no exception has ended
one: every emission that has got the lock, of whatever thread and however deeply nested, has called every callback exactly
once, with its own argument, one emission after the other in the order in which they got the lock, the callbacks in
the order of connection. -/
theorem C55 (e : Env) (prog : Nat → Code) (sched : List Nat) {s : Nat} (hm : e.mode s = .queued)
    (hS : ∀ pre, pre <+: sched → (run e pre (init e prog)).slots s = e.slots s)
    (hr : ∀ t, loops s ((run e sched (init e prog)).thr t) = 0) (hl : (run e sched (init e prog)).lost s = false) :
    calls s (run e sched (init e prog)).log
      = ((run e sched (init e prog)).acc s).flatMap fun ta => (e.slots s).map fun x => (x, ta.2) := by
  have hi := qinv_run hm sched _ (qinv_init e prog (e.slots s) s) hS
  have := (hi.idle fun t => (pos_loops _ _).mpr (hr t)).2.2 hl
  simpa [St.data, whole, List.flatMap_map] using this

theorem sub_whole {S : List Nat} {d : Data} {p : Option Pos} (h : Good S d p) : d.calls.Sublist (whole S d.acc) := by
  cases p with
  | none => exact h.2.1
  | some p =>
    cases p with
    | start =>
      obtain ⟨_, A, h1, h2, _⟩ := h
      rw [h1, whole_append]
      exact h2.trans (List.sublist_append_left _ _)
    | over => exact h.2.1
    | mid a j i =>
      obtain ⟨h0, A, h1, h2, _⟩ := h
      refine h2.trans ?_
      have h3 : d.queue = d.queue.take i ++ a :: d.queue.drop (i + 1) := by
        have hi := List.getElem?_eq_some_iff.mp h0
        rw [← hi.2, List.getElem_cons_drop, List.take_append_drop]
      conv => rhs; rw [h1, h3, ← List.append_assoc, whole_append]
      refine List.Sublist.append_left ?_ _
      show List.Sublist _ ((a :: d.queue.drop (i + 1)).flatMap _)
      rw [List.flatMap_cons]
      exact ((List.take_sublist j S).map _).trans (List.sublist_append_left _ _)

theorem prefix_whole {S : List Nat} {d : Data} {p : Option Pos} (h : Good S d p) (hl : d.lost = false) :
    d.calls <+: whole S d.acc := by
  cases p with
  | none => rw [h.2.2 hl]; exact List.prefix_rfl
  | some p =>
    cases p with
    | start =>
      obtain ⟨_, A, h1, _, h2⟩ := h
      rw [h1, whole_append, h2 hl]
      exact List.prefix_append _ _
    | over => rw [h.2.2 hl]; exact List.prefix_rfl
    | mid a j i =>
      obtain ⟨h0, A, h1, _, h2⟩ := h
      rw [h2 hl]
      have h3 : d.queue = d.queue.take i ++ a :: d.queue.drop (i + 1) := by
        have hi := List.getElem?_eq_some_iff.mp h0
        rw [← hi.2, List.getElem_cons_drop, List.take_append_drop]
      conv => rhs; rw [h1, h3, ← List.append_assoc, whole_append]
      rw [List.prefix_append_right_inj]
      show _ <+: (a :: d.queue.drop (i + 1)).flatMap _
      rw [List.flatMap_cons]
      exact ((List.take_prefix j S).map _).trans (List.prefix_append _ _)

theorem good_any {S : List Nat} {s : Nat} {σ : St} (h : QInv S s σ) : ∃ p, Good S (σ.data s) p := by
  by_cases hb : ∃ t p, pos s (σ.thr t) = some p
  · obtain ⟨t, p, hp⟩ := hb; exact ⟨_, h.busy t p hp⟩
  · refine ⟨none, h.idle fun t => ?_⟩
    cases hp : pos s (σ.thr t) with
    | none => rfl
    | some p => exact absurd ⟨t, p, hp⟩ hb

/-- At any time, whatever exceptions: no emission calls a callback more than once, and calls of different emissions
are in the order in which they got the lock, those of the same emission in the order of connection. -/
theorem C55_once (e : Env) (prog : Nat → Code) (sched : List Nat) {s : Nat} (hm : e.mode s = .queued)
    (hS : ∀ pre, pre <+: sched → (run e pre (init e prog)).slots s = e.slots s) :
    (calls s (run e sched (init e prog)).log).Sublist
      (((run e sched (init e prog)).acc s).flatMap fun ta => (e.slots s).map fun x => (x, ta.2)) := by
  obtain ⟨p, hg⟩ := good_any (qinv_run hm sched _ (qinv_init e prog (e.slots s) s) hS)
  simpa [St.data, whole, List.flatMap_map] using sub_whole hg

/-- In the middle of emissions, without exceptions: nothing is left out before what has been called. -/
theorem C55_order (e : Env) (prog : Nat → Code) (sched : List Nat) {s : Nat} (hm : e.mode s = .queued)
    (hS : ∀ pre, pre <+: sched → (run e pre (init e prog)).slots s = e.slots s)
    (hl : (run e sched (init e prog)).lost s = false) :
    calls s (run e sched (init e prog)).log
      <+: ((run e sched (init e prog)).acc s).flatMap fun ta => (e.slots s).map fun x => (x, ta.2) := by
  obtain ⟨p, hg⟩ := good_any (qinv_run hm sched _ (qinv_init e prog (e.slots s) s) hS)
  simpa [St.data, whole, List.flatMap_map] using prefix_whole hg hl

/-- **C55** for threads each of which emits a list of arguments, one after the other.  Callbacks do what they like, except
emitting this signal, changing its connections and raising.  Under any schedule there is an order of
emissions in which each thread's arguments are in its own order (a beginning of them, all of them once it has ended), such
that what has been called so far is a beginning of what these call one after the other, and all of it when no thread
is in an emission of the signal. -/
theorem C55_threads (e : Env) (ls : Nat → List Nat) (sched : List Nat) {s : Nat} (hm : e.mode s = .queued)
    (hb : ∀ s' x a, Quiet s (e.body s' x a)) (hlim : 2 ≤ e.limit) :
    let σ := run e sched (init e fun t => emits s (ls t))
    ∃ order : List (Nat × Nat),
      (∀ t, (order.filter (·.1 = t)).map (·.2) <+: ls t)
      ∧ (∀ t ok, (σ.thr t).ctl = .fin ok → (σ.thr t).stack = [] → (order.filter (·.1 = t)).map (·.2) = ls t)
      ∧ calls s σ.log <+: order.flatMap (fun ta => (e.slots s).map fun x => (x, ta.2))
      ∧ ((∀ t, loops s (σ.thr t) = 0) →
          calls s σ.log = order.flatMap (fun ta => (e.slots s).map fun x => (x, ta.2))) := by
  intro σ
  have hi : EInv e s ls σ := einv_run hm hb hlim sched
  refine ⟨σ.acc s, fun t => ?_, fun t ok hc hst => ?_, ?_, fun hr => ?_⟩
  · obtain ⟨l, _, hl⟩ := hi.pend t
    exact ⟨l, hl⟩
  · obtain ⟨l, hp, hl⟩ := hi.pend t
    rcases hth : σ.thr t with ⟨c, st⟩
    rw [hth] at hp hc hst
    simp only at hc hst
    subst hc hst
    cases hp with
    | ended => simpa [mine] using hl
    | deep h =>
      obtain ⟨⟨b, h⟩, _⟩ := h
      cases h
  · obtain ⟨p, hg⟩ := good_any hi.q
    simpa [St.data, whole, List.flatMap_map] using prefix_whole hg hi.kept
  · have := (hi.q.idle fun t => (pos_loops _ _).mpr (hr t)).2.2 hi.kept
    simpa [St.data, whole, List.flatMap_map] using this

/-! ## Examples -/

/-- Signal 0, queued, with callbacks 1 and 2; callback 1 emits signal 0 again for arguments below 10, signal 1, with callback 3,
otherwise. -/
def demoR : Env where
  slots s := if s = 0 then [1, 2] else if s = 1 then [3] else []
  body s x a := if s = 0 ∧ x = 1 then (if a < 10 then .emit 0 (a + 10) fun _ => .ret else .emit 1 a fun _ => .ret) else .ret
  mode s := if s = 0 then .queued else .immediate
  limit := 100

/-- Threads 0 and 1 emit in turns. -/
def demoRSched : List Nat := (List.replicate 130 [0, 1]).flatten

/-- The emissions of thread 1 wait for those of thread 0 and what is nested in them. -/
example : let σ := run demoR demoRSched (init demoR fun t => if t < 2 then .emit 0 t fun _ => .ret else .ret)
    demoR.mode 0 = .queued ∧ σ.lost 0 = false ∧ loops 0 (σ.thr 0) = 0 ∧ loops 0 (σ.thr 1) = 0
    ∧ σ.acc 0 = [(0, 0), (0, 10), (1, 1), (1, 11)]
    ∧ calls 0 σ.log = [(1, 0), (2, 0), (1, 10), (2, 10), (1, 1), (2, 1), (1, 11), (2, 11)] := by decide +kernel

/-- Does the signal keep these callbacks all the time? -/
def keeps (e : Env) (s : Nat) (S : List Nat) : List Nat → St → Bool
  | [], σ => σ.slots s == S
  | t :: ts, σ => σ.slots s == S && keeps e s S ts ((step e t σ).getD σ)

theorem keeps_prefix {e : Env} {s : Nat} {S : List Nat} : ∀ {sched : List Nat} {σ : St}, keeps e s S sched σ = true →
    ∀ pre, pre <+: sched → (run e pre σ).slots s = S
  | [], σ, h, pre, hp => by
    rw [List.prefix_nil] at hp
    subst hp
    simpa [keeps, run] using h
  | t :: ts, σ, h, [], _ => by
    simp only [keeps, Bool.and_eq_true, beq_iff_eq] at h
    exact h.1
  | t :: ts, σ, h, u :: pre, hp => by
    obtain ⟨rfl, hp'⟩ := List.cons_prefix_cons.mp hp
    simp only [keeps, Bool.and_eq_true, beq_iff_eq] at h
    exact keeps_prefix h.2 pre hp'

/-- The hypothesis on the callbacks is met in this case. -/
example : ∀ pre, pre <+: demoRSched →
    (run demoR pre (init demoR fun t => if t < 2 then .emit 0 t fun _ => .ret else .ret)).slots 0 = demoR.slots 0 :=
  keeps_prefix (by decide +kernel)

/-- As `demoR`, but callback 2 raises when called with 0. -/
def demoX : Env := { demoR with body := fun s x a => if s = 0 ∧ x = 2 ∧ a = 0 then .raise else demoR.body s x a }

/-- `C55_once` in a case with an exception: what was queued is dropped, though the nested `emit` had returned; the other thread
is not affected. -/
example : let σ := run demoX demoRSched (init demoX fun t => if t < 2 then .emit 0 t fun _ => .ret else .ret)
    σ.lost 0 = true ∧ σ.acc 0 = [(0, 0), (0, 10), (1, 1), (1, 11)]
    ∧ calls 0 σ.log = [(1, 0), (2, 0), (1, 1), (2, 1), (1, 11), (2, 11)] := by decide +kernel

/-- As `demoR`, but callbacks of signal 0 do not emit it. -/
def demoT : Env where
  slots s := if s = 0 then [1, 2] else if s = 1 then [3] else []
  body s x a := if s = 0 ∧ x = 1 then .emit 1 a fun _ => .ret else .ret
  mode s := if s = 0 then .queued else .immediate
  limit := 100

theorem demoT_quiet (s' x a : Nat) : Quiet 0 (demoT.body s' x a) := by
  show Quiet 0 (if s' = 0 ∧ x = 1 then .emit 1 a fun _ => .ret else .ret)
  split
  · exact .emit (by decide) fun _ => .ret
  · exact .ret

/-- Two threads, two arguments each. -/
def demoTLs (t : Nat) : List Nat := if t = 0 then [5, 6] else if t = 1 then [7, 8] else []

/-- `C55_threads` applies, and this is what happens. -/
example : demoT.mode 0 = .queued ∧ (∀ s' x a, Quiet 0 (demoT.body s' x a)) ∧ 2 ≤ demoT.limit
    ∧ calls 0 (run demoT (List.replicate 170 [0, 1]).flatten (init demoT fun t => emits 0 (demoTLs t))).log
      = [(1, 5), (2, 5), (1, 7), (2, 7), (1, 6), (2, 6), (1, 8), (2, 8)] :=
  ⟨rfl, demoT_quiet, by decide, by decide +kernel⟩

end Psygnal.Conc
