import Verif.QueueLemmas
import Verif.DeliveryLemmas
import Verif.Examples

/-!
# C17, C18: callbacks bound to a thread
-/
namespace Psygnal

/-! ## C17 -/

/-- **C17**: what one emission does with a slot connected for thread `T`: on thread `T` the callable is
invoked synchronously, on another thread exactly one entry is appended to the queue of `T` and nothing is
invoked. (That an emission treats every slot like this exactly once, in order, is C04.) -/
theorem C17_dispatch {env : Env} {em s x args w w' r T} (hx : x.thread = some T)
    (hd : ∀ o, x.base.owner? = some o → w.dead o = false) (hn : em < w.nextEm)
    (h : Runs env (.cb (some em) (some s) x args) w w' r) :
    (w.thread = T → ∃ d e inner, w'.log = w.log ++ (.call (some em) (some s) d e T x.base
        (x.receives args) :: (inner ++ [.ret (some em) (some s) x.base r]))) ∧
    (w.thread ≠ T → r = .ok () ∧ w'.log = w.log ++ [.put T x.base args (some em)] ∧
      w'.tq T = w.tq T ++ [(x, args)] ∧ ∀ t, t ≠ T → w'.tq t = w.tq t) := by
  have hdead : x.base.isDead w = false := by
    unfold Base.isDead
    split
    · rfl
    · exact hd _ (by assumption)
  obtain ⟨seg, hl, hdel⟩ := cb_log h hn hdead
  rcases hdel with ⟨ht, d, e, inner, rfl, -⟩ | ⟨t, ht, hne, rfl, rfl⟩
  · refine ⟨fun hT => ⟨d, e, inner, by rw [hl, hT]; simp⟩, fun hT => ?_⟩
    rcases ht with ht | ht
    · simp [hx] at ht
    · rw [hx, Option.some.injEq] at ht
      exact absurd ht.symm hT
  · rw [hx, Option.some.injEq] at ht
    subst ht
    refine ⟨fun hT => absurd hT.symm hne, fun hT => ⟨rfl, hl, ?_⟩⟩
    rw [runs_iff] at h
    simp only [body, hx, hT, if_false] at h
    obtain ⟨rfl, -⟩ := h
    simp +contextual

/-- **C17**: queues are first in, first out, and nothing is lost or duplicated: at every moment of every
history, the entries ever put on the queue of `T` are, in order, those taken by `emit_queued` so far
followed by those still waiting. -/
theorem C17_fifo {env : Env} {t w} (T : ThreadId) (h : Live env anyAct t w) :
    putsTo T w.log = getsFrom T w.log ++ (w.tq T).map fun p => (p.1.base, p.2) :=
  hoare_live (fun _ w => Fifo T w) (fun _ _ w' _ => Fifo T w') (fifo_ok env T) (Fifo T) rfl
    (fun _ _ h => h) (fun _ _ _ h => h) (fun _ _ _ _ _ h => h) h

/-- **C17**: … also between programs. -/
theorem C17_fifo_rest {env : Env} {w} (T : ThreadId) (h : Reachable env anyAct w) :
    putsTo T w.log = getsFrom T w.log ++ (w.tq T).map fun p => (p.1.base, p.2) :=
  hoare_reachable (fun _ w => Fifo T w) (fun _ _ w' _ => Fifo T w') (fifo_ok env T) (Fifo T) rfl
    (fun _ _ h => h) (fun _ _ _ h => h) (fun _ _ _ _ _ h => h) h

/-- **C17**: `emit_queued` that returns normally has emptied the queue and invoked every entry it took
exactly once, in order, passing what the connection asks for; the entries waiting when it started come
first (provided callbacks do not call `emit_queued` themselves, which takes entries, too: see C17_fifo). -/
theorem C17_drain {env : Env} {T w w'} (h : Runs env (.drain T) w w' (.ok ())) :
    ∃ xs l, w'.log = w.log ++ l ∧ Served T w.thread xs l ∧ w'.tq T = [] ∧
      (env.Only NoDrain → w.tq T <+: xs) := by
  obtain ⟨xs, l, h1, h2, -⟩ := drain_log h T rfl
  obtain ⟨h3, h4, h5⟩ := h2 rfl
  exact ⟨xs, l, h3, h1, h4, h5⟩

/-- **C17**: a callable that is always connected with `thread=T` is invoked only on thread `T` by
emissions, and otherwise only by `emit_queued` taking it from the queue of `T`, immediately before. -/
theorem C17_only_from_queue {env : Env} {b : Base} {T : ThreadId} (hb : ∀ r, b ≠ .relay r)
    (he : env.Only (BoundTo b T)) {t w} (h : Live env (BoundTo b T) t w) :
    ∀ pre post em s d e th a, w.log = pre ++ .call em s d e th b a :: post →
      (∃ n, em = some n ∧ th = T) ∨ (em = none ∧ ∃ l a', pre = l ++ [.get T b a']) := by
  have := (hoare_conn_live (BoundSlots b T) (by intro s x hx; simp [World.init, SigState.init] at hx)
    (fun w a ha => boundSlots_run hb w a ha)
    (fun w w' hc hs s x hx => hs s x (by rw [← hc.1 s]; exact hx)) he (BoundPre b T False)
    (fun _ _ w' _ => BoundPost b T False w') (boundPre_ok fun a ha => ⟨ha, False.elim⟩)
    (BoundPost b T False)
    ⟨by intro t p hp; simp [World.init] at hp, logOk_nil _, by simp [World.init]⟩ (fun _ _ h => h)
    (fun w p _ h => ⟨h.1, h.2.1, h.2.2, trivial⟩) (fun _ _ _ _ _ h => h) h).1.2.1
  intro pre post em s d e th a hl
  have h1 := this pre _ post hl rfl
  cases em with
  | none => exact .inr ⟨rfl, h1.2 rfl⟩
  | some n => exact .inl ⟨n, rfl, h1.1 (.inr rfl)⟩

/-- **C17**: if moreover every thread calls `emit_queued()` only for itself, the callable is invoked only
on thread `T`, whoever emits. -/
theorem C17_only_on_thread {env : Env} {b : Base} {T : ThreadId} (hb : ∀ r, b ≠ .relay r)
    (he : env.Only (BoundOwn b T)) {t w} (h : Live env (BoundOwn b T) t w) :
    ∀ em s d e th a, .call em s d e th b a ∈ w.log → th = T := by
  have := (hoare_conn_live (BoundSlots b T) (by intro s x hx; simp [World.init, SigState.init] at hx)
    (fun w a ha => boundSlots_run hb w a ha.1)
    (fun w w' hc hs s x hx => hs s x (by rw [← hc.1 s]; exact hx)) he (BoundPre b T True)
    (fun _ _ w' _ => BoundPost b T True w') (boundPre_ok fun a ha => ⟨ha.1, fun _ => ha.2⟩)
    (BoundPost b T True)
    ⟨by intro t p hp; simp [World.init] at hp, logOk_nil _, by simp [World.init]⟩ (fun _ _ h => h)
    (fun w p _ h => ⟨h.1, h.2.1, h.2.2, trivial⟩) (fun _ _ _ _ _ h => h) h).1.2.1
  intro em s d e th a hm
  obtain ⟨pre, post, hl⟩ := List.append_of_mem hm
  exact (this pre _ post hl rfl).1 (.inl trivial)

/-! ## C18 -/

/-- **C18**: if `emit_queued` raises, exactly one entry it took failed: the entries served before it all
returned normally; it was consumed, and (provided callbacks do not call `emit_queued` themselves) all
other entries that were waiting when `emit_queued` started stay in the queue, in order.  The exception is
`EmitLoopError` caused by that of the callback. -/
theorem C18_error_loses_one {env : Env} {T w w' e'} (h : Runs env (.drain T) w w' (.error e')) :
    ∃ xs l x a e tail, w'.log = w.log ++ (l ++ .get T x.base a :: tail) ∧ Served T w.thread xs l ∧
      Failed w.thread w' x a e tail ∧ SurfacesQueued e e' ∧
      (env.Only NoDrain → ∃ new, w.tq T ++ new = xs ++ (x, a) :: w'.tq T) := by
  obtain ⟨xs, l, h1, -, h2⟩ := drain_log h T rfl
  obtain ⟨x, a, e, tail, h3, h4, h5, h6⟩ := h2 e' rfl
  exact ⟨xs, l, x, a, e, tail, h3, h1, h5, h4, h6⟩

/-- **C18**: calling `emit_queued` again, it takes first the entries left in the queue, in order: together
the two calls take all entries that were waiting, in order, each exactly once. -/
theorem C18_again {env : Env} {T w w1 w' e'} (he : env.Only NoDrain)
    (h : Runs env (.drain T) w w1 (.error e')) (h' : Runs env (.drain T) w1 w' (.ok ())) :
    ∃ xs l x a e tail ys l', w1.log = w.log ++ (l ++ .get T x.base a :: tail) ∧
      Served T w.thread xs l ∧ Failed w.thread w1 x a e tail ∧ SurfacesQueued e e' ∧
      w'.log = w1.log ++ l' ∧ Served T w.thread ys l' ∧ w'.tq T = [] ∧
      w.tq T <+: xs ++ (x, a) :: ys := by
  obtain ⟨xs, l, x, a, e, tail, h1, h2, h3, h4, h5⟩ := C18_error_loses_one h
  obtain ⟨new, h5⟩ := h5 he
  obtain ⟨ys, l', h6, h7, h8, h9⟩ := C17_drain h'
  rw [thread_const h] at h7
  refine ⟨xs, l, x, a, e, tail, ys, l', h1, h2, h3, h4, h6, h7, h8, ?_⟩
  refine List.IsPrefix.trans ⟨new, h5⟩ ?_
  simpa using h9 he

/-! ## Examples -/

namespace Ex

/-- Callback 1 raises, the others do nothing. -/
def failing : Env := env fun b _ => match b with
  | .func 1 => .raise (.user 7)
  | _ => .ret

/-- `connect(f, thread=t)`. -/
def connT (s : SigId) (b : Base) (t : ThreadId) : Act := .connect s ⟨b, []⟩ { thread := some (.this t) }

/-- Thread 0 emits signal 0, which has three callbacks bound to thread 1. -/
def queued3 : List Act := [connT 0 (.func 0) 1, connT 0 (.func 1) 1, connT 0 (.func 2) 1, emit 0 5]

theorem failing_only (Q : Act → Prop) : failing.Only Q := by
  intro b a
  simp only [failing, env]
  split <;> trivial

end Ex

/-- `C17_fifo`, `C17_only_from_queue`: after thread 0 has emitted and before thread 1 drains its queue,
three entries wait. -/
example : ∃ t w, Live Ex.failing (BoundTo (.func 1) 1) t w ∧ (w.tq 1).length = 3 ∧
    (putsTo 1 w.log).map (·.1) = [.func 0, .func 1, .func 2] :=
  ⟨_, _, .top (Ex.reach (n := 40) (l := Ex.queued3)
    (by simp [Ex.queued3, Ex.connT, Ex.emit, BoundTo]) rfl) 1 .ret trivial, rfl, rfl⟩

/-- `C17_dispatch` on both threads: signal 0 emits to a callback bound to thread 1. -/
example (th : ThreadId) (hth : th = 0 ∨ th = 1) : ∃ (x : Slot) (w w' : World) (r : Res), w.thread = th ∧
    x.thread = some 1 ∧ (∀ o, x.base.owner? = some o → w.dead o = false) ∧ 0 < w.nextEm ∧
    Runs Ex.quiet (.cb (some 0) (some 0) x [.atom 5]) w w' r := by
  refine ⟨{ relaySlot 0 with base := .func 0, thread := some 1 },
    { World.init with thread := th, nextEm := 1 }, ?_⟩
  rcases hth with rfl | rfl
  all_goals exact ⟨_, _, rfl, rfl, by simp [Base.owner?], Nat.one_pos, 3, rfl⟩

/-- `C17_drain`: thread 1 drains two of three callbacks; the queue is emptied. -/
example : ∃ w w', Reachable Ex.quiet anyAct w ∧ (w.tq 1).length = 2 ∧ Ex.quiet.Only NoDrain ∧
    Runs Ex.quiet (.drain 1) { w with thread := 1 } w' (.ok ()) ∧ (getsFrom 1 w'.log).length = 2 :=
  ⟨_, _, Ex.reach (n := 40) (l := [Ex.connT 0 (.func 0) 1, Ex.connT 0 (.func 2) 1, Ex.emit 0 5])
    (by simp [anyAct]) rfl, rfl, fun _ _ => trivial, ⟨20, rfl⟩, rfl⟩

/-- `C17_only_on_thread`: thread 0 emits, thread 1 drains its queue; later, the callback has been called. -/
example : ∃ t w, Live Ex.quiet (BoundOwn (.func 0) 1) t w ∧
    ∃ em s d e a, .call em s d e 1 (.func 0) a ∈ w.log := by
  refine ⟨_, _, .top (Reachable.step (w' := _) (r := .ok ()) 1 (Ex.seq [.emitQueued none])
    (Ex.Only.seq_mem (by simp [BoundOwn, BoundTo])) (Ex.reach (n := 40)
    (l := [Ex.connT 0 (.func 0) 1, Ex.emit 0 5])
    (by simp [Ex.connT, Ex.emit, BoundOwn, BoundTo]) rfl) ⟨20, rfl⟩) 0 .ret trivial, ?_⟩
  exact ⟨none, none, 0, none, [.atom 5], .tail _ (.tail _ (.tail _ (.head _)))⟩

/-- `C18_error_loses_one`, `C18_again`: the second of three callbacks raises; draining again serves the
third one. -/
example : ∃ w w1 w2, Reachable Ex.failing anyAct w ∧ Ex.failing.Only NoDrain ∧
    Runs Ex.failing (.drain 1) { w with thread := 1 } w1 (.error (.emitLoop none (.user 7))) ∧
    (w1.tq 1).map (·.1.base) = [.func 2] ∧
    Runs Ex.failing (.drain 1) w1 w2 (.ok ()) :=
  ⟨_, _, _, Ex.reach (n := 40) (l := Ex.queued3) (by simp [anyAct]) rfl, Ex.failing_only _,
    ⟨20, rfl⟩, rfl, ⟨20, rfl⟩⟩

end Psygnal
