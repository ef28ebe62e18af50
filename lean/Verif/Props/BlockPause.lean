import Verif.BlockLemmas
import Verif.Examples

/-!
# Blocking and pausing a signal: C12, C13
-/
namespace Psygnal

/-! ## C12: blocking -/

/-- **C12** (`emit` on a blocked signal does nothing): no callback, nothing recorded, no state change,
no error. -/
theorem C12_emit_blocked {env : Env} {s : SigId} {args : Args} {chk : Bool} {w w' : World} {r : Res}
    (hb : (w.sig s).blocked = true) (h : Runs env (.emit s args chk) w w' r) : w' = w ∧ r = .ok () := by
  rw [runs_iff] at h
  simpa [body, hb, Comp.Via] using h

/-- **C12** for `emit_fast`. -/
theorem C12_fast_blocked {env : Env} {s : SigId} {args : Args} {w w' : World} {r : Res}
    (hb : (w.sig s).blocked = true) (h : Runs env (.emitFast s args) w w' r) : w' = w ∧ r = .ok () := by
  rw [runs_iff] at h
  simpa [body, hb, Comp.Via] using h

/-- **C12** (silence). Any program running while `s` (not a group relay) is blocked — with all the
callbacks of other signals it triggers, at any nesting depth, ending normally or with an exception — as
long as user code (un)blocks and pauses `s` only with the context managers: `s` emits nothing (no
emission accepted, no emit loop started, no callback invoked for `s`), nothing is recorded for later,
and `s` is still blocked at the end. -/
theorem C12_silent {env : Env} {s : SigId} (henv : env.Calm s) (hs : (env.decl s).isRelay = false)
    {p : Prog} (hp : p.Calm env s) {w w' : World} {r : Res} (hb : (w.sig s).blocked = true)
    (hq : (w.sig s).argsQueue = []) (h : Runs env (.prog p) w w' r) :
    sigEvents s w'.log = sigEvents s w.log ∧ (w'.sig s).argsQueue = [] ∧ (w'.sig s).blocked = true := by
  obtain ⟨h1, h2, h3⟩ := hoare _ _ (blockedPre_ok henv hs) h ⟨hp, by simp [Task.loopOf?], hb, hq⟩
  exact ⟨h3, h2, h1⟩

/-- **C12** (context managers restore the state). Any program that (un)blocks `s` only with
`s.blocked()` contexts — nested to any depth, in callbacks too, left normally or by exceptions — leaves
`s` blocked iff it was blocked before. -/
theorem C12_contexts_restore {env : Env} {s : SigId} (henv : env.Calm s) {p : Prog} (hp : p.Calm env s)
    {w w' : World} {r : Res} (h : Runs env (.prog p) w w' r) :
    (w'.sig s).blocked = (w.sig s).blocked :=
  (calm_restores henv h hp).1

/-- **C12** (one context, arbitrary body). `with s.blocked(): body`, the body being any code at all
(it may even call `s.unblock()`), ending normally or with an exception `r₁`: the body starts with `s`
blocked; when the code after the `with` (which gets to see `r₁`) starts, `s` is unblocked if it was
unblocked before the `with`, and as the body left it if it was blocked before. -/
theorem C12_context_exit {env : Env} {s : SigId} {ex : List SigId} {b : Prog} {k : Res → Prog}
    {w w' : World} {r : Res} (h : Runs env (.prog (.withBlocked s ex b k)) w w' r) :
    ∃ w₀ w₁ r₁ w₂, Runs env (.prog b) w₀ w₁ r₁ ∧ Runs env (.prog (k r₁)) w₂ w' r ∧
      (w₀.sig s).blocked = true ∧ ((w.sig s).blocked = false → (w₂.sig s).blocked = false) ∧
      ((w.sig s).blocked = true → w₂ = w₁) := by
  rw [runs_iff] at h
  simp only [body] at h
  obtain ⟨w1, r1, h1, w2, r2, h2, rfl, rfl⟩ := h
  refine ⟨_, w1, r1, _, h1, h2, block_self .., fun hb => ?_, fun hb => by simp [hb]⟩
  simp only [hb, Bool.false_eq_true, if_false]
  exact unblock_self ..

/-- Two nested `s0.blocked()` contexts, in each of which `s0` and `s1` are emitted; the callback of `s1`
emits `s0` too, and raises; the inner context is left by an exception. -/
example : ∃ (env : Env) (p : Prog) (w w' : World), env.Calm 0 ∧ p.Calm env 0 ∧
    (env.decl 0).isRelay = false ∧ (w.sig 0).blocked = false ∧ (w.sig 0).slots ≠ [] ∧
    Runs env (.prog (.withBlocked 0 [] p fun _ => .ret)) w w' (.ok ()) ∧
    w.log = [] ∧ w'.log.length = 6 ∧ sigEvents 0 w'.log = [] := by
  refine ⟨Ex.env fun b _ => match b with
      | .func 1 => .api (Ex.emit 0 5) fun _ => .raise (.user 3)
      | _ => .ret,
    .api (Ex.emit 1 0) fun _ => .withBlocked 0 [] (.api (Ex.emit 0 1) fun _ => .api (Ex.emit 1 2) fun r =>
      match r with | .ok _ => .ret | .error e => .raise e) fun _ => .ret,
    (Ex.after (Ex.env fun _ _ => .ret) 30 [Ex.conn 0 (.func 0), Ex.conn 1 (.func 1)]).get rfl, _,
    ?_, ?_, rfl, rfl, ?_, ⟨30, rfl⟩, rfl, rfl, rfl⟩
  · intro b a
    simp only [Ex.env]
    split
    · exact ⟨trivial, fun _ => trivial⟩
    · trivial
  · refine ⟨trivial, fun _ => ⟨by simp [MemberOf, Ex.env, Ex.decl, Ex.plain], ⟨trivial, fun _ =>
      ⟨trivial, fun r => ?_⟩⟩, fun _ => trivial⟩⟩
    cases r <;> trivial
  · simp [Ex.after, Ex.seq, exec, runComp, body, Act.task?, Act.run, Ex.conn, World.connect]
    intro h
    exact absurd (congrArg List.length h) (by decide)

/-! ## C13: pausing -/

/-- **C13** (while paused, `emit` records): nothing is emitted; the arguments are recorded at the end of
the record. -/
theorem C13_emit_paused {env : Env} {s : SigId} {args : Args} {chk : Bool} {w w' : World} {r : Res}
    (hb : (w.sig s).blocked = false) (hp : (w.sig s).paused = true)
    (hc : chk = true → bindsPos (env.decl s).sig args.length = true)
    (h : Runs env (.emit s args chk) w w' r) : r = .ok () ∧ w'.log = w.log ∧
      (w'.sig s).argsQueue = (w.sig s).argsQueue ++ [args] ∧ (w'.sig s).paused = true := by
  have hc' : ¬ (chk = true ∧ bindsPos (env.decl s).sig args.length = false) := by
    intro ⟨h1, h2⟩; simp [hc h1] at h2
  rw [runs_iff] at h
  simp only [body, hb, hp, Bool.false_eq_true, if_false, hc', if_true, Comp.Via] at h
  obtain ⟨rfl, rfl⟩ := h
  simp [hp]

/-- **C13** for `emit_fast`. -/
theorem C13_fast_paused {env : Env} {s : SigId} {args : Args} {w w' : World} {r : Res}
    (hb : (w.sig s).blocked = false) (hp : (w.sig s).paused = true)
    (h : Runs env (.emitFast s args) w w' r) : r = .ok () ∧ w'.log = w.log ∧
      (w'.sig s).argsQueue = (w.sig s).argsQueue ++ [args] ∧ (w'.sig s).paused = true := by
  rw [runs_iff] at h
  simp only [body, hb, hp, Bool.false_eq_true, if_false, if_true, Comp.Via] at h
  obtain ⟨rfl, rfl⟩ := h
  simp [hp]

/-- **C13** (nothing is emitted while paused; nested contexts do not resume early). Any program running
while `s` (not a group relay) is paused — with all the callbacks of other signals it triggers, and with
`s.paused()` and `s.blocked()` contexts nested to any depth, left normally or by exceptions — as long as
user code (un)blocks, pauses and resumes `s` only with the context managers: `s` emits nothing, what was
recorded stays recorded (new emissions come after it), and `s` is still paused at the end. -/
theorem C13_silent {env : Env} {s : SigId} (henv : env.Calm s) (hs : (env.decl s).isRelay = false)
    {p : Prog} (hp : p.Calm env s) {w w' : World} {r : Res} (hpa : (w.sig s).paused = true)
    (h : Runs env (.prog p) w w' r) :
    sigEvents s w'.log = sigEvents s w.log ∧ (w.sig s).argsQueue <+: (w'.sig s).argsQueue ∧
      (w'.sig s).paused = true := by
  obtain ⟨h1, h2, h3⟩ := hoare _ _ (pausedPre_ok henv hs) h
    ⟨hp, by simp [Task.loopOf?], by simp [Task.resumes], hpa⟩
  exact ⟨h3, h2, h1⟩

/-- **C13** (context managers restore the state): as `C12_contexts_restore`, for pausing. -/
theorem C13_contexts_restore {env : Env} {s : SigId} (henv : env.Calm s) {p : Prog} (hp : p.Calm env s)
    {w w' : World} {r : Res} (h : Runs env (.prog p) w w' r) :
    (w'.sig s).paused = (w.sig s).paused :=
  (calm_restores henv h hp).2.1 rfl

/-- **C13** (one context, arbitrary body). `with s.paused(red): body`: when `s` was not paused before,
the end of the context — also when the body raised — is exactly a call of `s.resume(red)`; when it was
paused before, nothing happens at the end of the context. -/
theorem C13_context_exit {env : Env} {s : SigId} {red : Option Reducer} {b : Prog} {k : Res → Prog}
    {w w' : World} {r : Res} (h : Runs env (.prog (.withPaused s red b k)) w w' r) :
    ∃ w₀ w₁ r₁ w₂ r₂, Runs env (.prog b) w₀ w₁ r₁ ∧ Runs env (.prog (k r₂)) w₂ w' r ∧
      (w₀.sig s).paused = true ∧
      ((w.sig s).paused = true → w₂ = w₁ ∧ r₂ = r₁) ∧
      ((w.sig s).paused = false → ∃ r', Runs env (.resume s red) w₁ w₂ r' ∧
        (r' = .ok () → r₂ = r₁) ∧ ∀ e, r' = .error e → r₂ = .error e) := by
  rw [runs_iff] at h
  simp only [body] at h
  obtain ⟨w1, r1, h1, h2⟩ := h
  split at h2
  · rename_i hp
    obtain ⟨w2, r2, h2, rfl, rfl⟩ := h2
    exact ⟨_, w1, r1, _, _, h1, h2, by simp [World.pause], fun _ => ⟨rfl, rfl⟩, fun hb => by simp [hb] at hp⟩
  · rename_i hp
    obtain ⟨w2, r2, h2, w3, r3, h3, rfl, rfl⟩ := h2
    refine ⟨_, w1, r1, _, _, h1, h3, by simp [World.pause], fun hb => absurd hb hp, fun _ => ⟨r2, h2, ?_, ?_⟩⟩
    · rintro rfl; rfl
    · rintro e rfl; rfl

/-- **C13** (resume replays in order, exactly once). `s.resume()` without a reducer on an immediate-mode
signal, returning normally, during which neither the connections nor the record of `s` change (see
`C13_record_kept`, `C04_connections_kept`): the log shows that the recorded values were emitted in order, each exactly
once, each delivered to all callbacks before the next one; afterwards the record is empty. -/
theorem C13_resume_in_order {env : Env} {Q : Act → Prop} {s : SigId} {w w' : World}
    (hl : Live env Q (.resume s none) w) (hm : (env.decl s).mode = .immediate)
    (hs : (w.sig s).slots ≠ [])
    (hk : ∀ t1 w1, Within env (.resume s none) w t1 w1 →
      (w1.sig s).slots = (w.sig s).slots ∧ (w1.sig s).argsQueue = (w.sig s).argsQueue)
    (h : Runs env (.resume s none) w w' (.ok ())) :
    (w'.sig s).argsQueue = [] ∧ ∃ l, w'.log = w.log ++ l ∧
      Emissions s w.thread (w.sig s).slots (w.sig s).argsQueue l := by
  have hs' : (w.sig s).slots.isEmpty = false := by simpa using hs
  have hbody : body env (.resume s none) w = if (w.sig s).argsQueue.isEmpty then
      .done (w.unpause s) (.ok ()) else .call (.replay s 0) (w.unpause s) fun w' r =>
        match r with
        | .error e => .done w' (.error e)
        | .ok _ => .done (w'.clearArgs s) (.ok ()) := by
    simp only [body, hs', Bool.false_eq_true, if_false]
    rfl
  rw [runs_iff, hbody] at h
  split at h
  · rename_i hq
    obtain ⟨rfl, -⟩ := h
    rw [List.isEmpty_iff] at hq
    exact ⟨by simp [hq], [], by simp, by rw [hq]; rfl⟩
  · rename_i hq
    obtain ⟨w1, r1, h1, h2⟩ := h
    have hw : Within env (.resume s none) w (.replay s 0) (w.unpause s) := by
      refine .step .refl ?_
      rw [hbody, if_neg hq]
      exact .inl ⟨rfl, rfl⟩
    match r1, h2 with
    | .error e, h2 => simp [Comp.Via] at h2
    | .ok (), ⟨h2, _⟩ =>
      subst h2
      obtain ⟨-, l, hlog, he⟩ := replay_emissions hm _ 0 _ _ rfl (live_within hl hw) h1
        (fun t2 w2 h => hk t2 w2 (hw.trans h))
      exact ⟨by simp, l, by simpa using hlog, by simpa using he⟩

/-- **C13** (any mode): resuming has exactly the effect of emitting the recorded values one after the
other with `emit`, and then forgetting them — if during the resumption the record does not change, and
`s` is not blocked or paused and no debug hook is installed whenever the next value is emitted. -/
theorem C13_resume_is_emitting {env : Env} {s : SigId} {w w' : World} (hs : (w.sig s).slots ≠ [])
    (hk : ∀ t1 w1, Within env (.resume s none) w t1 w1 → (w1.sig s).argsQueue = (w.sig s).argsQueue)
    (hf : ∀ j w1, Within env (.resume s none) w (.replay s j) w1 → (w1.sig s).blocked = false ∧
      (w1.sig s).paused = false ∧ w1.hook = none)
    (h : Runs env (.resume s none) w w' (.ok ())) :
    ∃ w1, EmitAll env s (w.sig s).argsQueue (w.unpause s) w1 ∧ w' = w1.clearArgs s := by
  have hs' : (w.sig s).slots.isEmpty = false := by simpa using hs
  have hbody : body env (.resume s none) w = if (w.sig s).argsQueue.isEmpty then
      .done (w.unpause s) (.ok ()) else .call (.replay s 0) (w.unpause s) fun w' r =>
        match r with
        | .error e => .done w' (.error e)
        | .ok _ => .done (w'.clearArgs s) (.ok ()) := by
    simp only [body, hs', Bool.false_eq_true, if_false]
    rfl
  rw [runs_iff, hbody] at h
  split at h
  · rename_i hq
    obtain ⟨rfl, -⟩ := h
    rw [List.isEmpty_iff] at hq
    exact ⟨w.unpause s, by rw [hq]; rfl, (clearArgs_eq _ _ (by simpa using hq)).symm⟩
  · rename_i hq
    obtain ⟨w1, r1, h1, h2⟩ := h
    have hw : Within env (.resume s none) w (.replay s 0) (w.unpause s) := by
      refine .step .refl ?_
      rw [hbody, if_neg hq]
      exact .inl ⟨rfl, rfl⟩
    match r1, h2 with
    | .error e, h2 => simp [Comp.Via] at h2
    | .ok (), ⟨h2, _⟩ =>
      obtain ⟨-, he⟩ := replay_emitAll (q := (w.sig s).argsQueue) _ 0 _ _ rfl h1
        (fun t2 w2 h => hk t2 w2 (hw.trans h)) (fun j w2 h => hf j w2 (hw.trans h))
      exact ⟨w1, by simpa using he, h2⟩

/-- **C13** (a sufficient condition on callbacks). If no callback pauses or resumes `s`, the record of
`s` does not change while it is being resumed. -/
theorem C13_record_kept {env : Env} {s : SigId} (he : env.Only (NoPause s)) {red : Option Reducer}
    {w : World} : ∀ t1 w1, Within env (.resume s red) w t1 w1 →
      (w1.sig s).argsQueue = (w.sig s).argsQueue := by
  have key : ∀ t1 w1, Within env (.resume s red) w t1 w1 → (t1 = .resume s red ∧ w1 = w) ∨
      NoPausePre s (w.sig s).argsQueue t1 w1 := by
    intro t1 w1 h
    induction h with
    | refl => exact .inl ⟨rfl, rfl⟩
    | step _ hr ih =>
      rcases ih with ⟨rfl, rfl⟩ | ih
      · right
        simp only [body] at hr
        repeat' split at hr
        all_goals simp only [Comp.Reaches] at hr
        all_goals grind [NoPausePre, Task.Only, Task.resumes, Comp.Reaches]
      · exact .inr (noPause_within he (.step .refl hr) ih)
  intro t1 w1 h
  rcases key t1 w1 h with ⟨-, rfl⟩ | h
  · rfl
  · exact h.2.2.2

/-- **C13** (with a reducer). `s.resume(reducer)` on an immediate-mode signal, returning normally, with
something recorded, and connections not changing meanwhile: the reducer is applied to the whole record
once and gives a value `a`; exactly this one value is emitted — delivered once to every callback —,
and the record is empty afterwards. -/
theorem C13_resume_reduced {env : Env} {Q : Act → Prop} {s : SigId} {rd : Reducer} {w w' : World}
    (hl : Live env Q (.resume s (some rd)) w) (hm : (env.decl s).mode = .immediate)
    (hs : (w.sig s).slots ≠ []) (hq : (w.sig s).argsQueue ≠ [])
    (hk : ∀ t1 w1, Within env (.resume s (some rd)) w t1 w1 → (w1.sig s).slots = (w.sig s).slots)
    (h : Runs env (.resume s (some rd)) w w' (.ok ())) :
    ∃ a l, rd.run (w.sig s).argsQueue = .ok a ∧ w'.log = w.log ++ .req s a :: l ∧
      Deliveries s w.nextEm w.thread a (w.sig s).slots l ∧ (w'.sig s).argsQueue = [] := by
  have hs' : (w.sig s).slots.isEmpty = false := by simpa using hs
  have hq' : (w.sig s).argsQueue.isEmpty = false := by simpa using hq
  cases ha : rd.run (w.sig s).argsQueue with
  | error e =>
    rw [runs_iff] at h
    simp [body, hs', hq', ha, Comp.Via] at h
  | ok a =>
    have hbody : body env (.resume s (some rd)) w = .call (.runLoop s a) (w.unpause s) fun w' r =>
          match r with
          | .error e => .done w' (.error e)
          | .ok _ => .done (w'.clearArgs s) (.ok ()) := by
      simp only [body, hs', hq', Bool.false_eq_true, if_false, ha]
      rfl
    rw [runs_iff, hbody] at h
    obtain ⟨w1, r1, h1, h2⟩ := h
    have hw : Within env (.resume s (some rd)) w (.runLoop s a) (w.unpause s) := by
      refine .step .refl ?_
      rw [hbody]
      exact .inl ⟨rfl, rfl⟩
    match r1, h2 with
    | .error e, h2 => simp [Comp.Via] at h2
    | .ok (), ⟨h2, _⟩ =>
      subst h2
      have hl1 := live_within hl hw
      obtain ⟨l, hlog, hd⟩ := runLoop_slots (t1 := .runLoop s a) (xs := (w.sig s).slots) hm h1 .refl
        ((queuePre_live hl1 s (by simp [hm])).2 (by simp)) rfl (deadInv_live hl1)
        (fun t2 w2 h => hk t2 w2 (hw.trans h))
      exact ⟨a, l, rfl, by simpa using hlog, by simpa using hd, by simp⟩

/-- **C13** (what two-argument reducers compute): a left fold over the record in order, starting with
the initial value if given, else with the first recorded value. -/
theorem C13_reducer_folds (f : Args → Args → Args) (q : List Args) (a : Args) :
    (Reducer.two (fun x y => .ok (f x y)) (some a)).run q = .ok (q.foldl f a) ∧
    (Reducer.two (fun x y => .ok (f x y)) none).run (a :: q) = .ok (q.foldl f a) := by
  have key : ∀ (q : List Args) a, foldE (fun x y => .ok (f x y)) a q = .ok (q.foldl f a) := by
    intro q
    induction q with
    | nil => exact fun _ => rfl
    | cons x q ih => exact fun a => ih (f a x)
  exact ⟨key q a, key q a⟩

/-- **C13** (no callbacks): resuming a signal without callbacks emits nothing and discards the record. -/
theorem C13_no_callbacks {env : Env} {s : SigId} {red : Option Reducer} {w w' : World} {r : Res}
    (hs : (w.sig s).slots = []) (h : Runs env (.resume s red) w w' r) :
    r = .ok () ∧ w'.log = w.log ∧ (w'.sig s).argsQueue = [] ∧ (w'.sig s).paused = false := by
  rw [runs_iff] at h
  simp only [body, hs, List.isEmpty_nil, if_true] at h
  split at h
  · obtain ⟨rfl, rfl⟩ := h
    simp_all
  · obtain ⟨rfl, rfl⟩ := h
    simp

/-- `s0` paused, emitted three times, one callback that re-emits `s1`. -/
example : ∃ (env : Env) (w w' : World), Live env anyAct (.resume 0 none) w ∧
    (env.decl 0).mode = .immediate ∧ (w.sig 0).slots.length = 2 ∧
    (w.sig 0).argsQueue = [[.atom 1], [.atom 2], [.atom 3]] ∧ env.Only (Keeps env 0) ∧
    env.Only (NoPause 0) ∧ Runs env (.resume 0 none) w w' (.ok ()) ∧ w.log = [] ∧
    accepted 0 w'.log = [[.atom 1], [.atom 2], [.atom 3]] := by
  refine ⟨Ex.env fun b _ => match b with
      | .func 0 => Ex.seq [Ex.emit 1 2]
      | _ => .ret, _, _,
    .sub (.top (Ex.reach (n := 30) (l := [Ex.conn 0 (.func 0), Ex.conn 0 (.func 1), .pause 0, Ex.emit 0 1,
        Ex.emit 0 2, Ex.emit 0 3])
      (by simp [anyAct]) rfl) 0 (Ex.seq [.resume 0 none]) (Ex.Only.seq_mem (by simp [anyAct])))
      (.inl ⟨rfl, rfl⟩), rfl, rfl, rfl, ?_, ?_, ⟨30, rfl⟩, rfl, rfl⟩
  all_goals
    intro b a
    simp only [Ex.env]
    split
    · exact Ex.Only.seq_mem (by simp [Keeps, NoPause, Ex.emit])
    · trivial

/-- The same with a reducer (the sum of the recorded values). -/
example : ∃ (env : Env) (rd : Reducer) (w w' : World), Live env anyAct (.resume 0 (some rd)) w ∧
    (env.decl 0).mode = .immediate ∧ (w.sig 0).slots.length = 1 ∧ (w.sig 0).argsQueue.length = 3 ∧
    Runs env (.resume 0 (some rd)) w w' (.ok ()) ∧
    (∀ t1 w1, Within env (.resume 0 (some rd)) w t1 w1 → (w1.sig 0).slots = (w.sig 0).slots) ∧
    accepted 0 w'.log = [[.atom 6]] := by
  refine ⟨Ex.quiet, .two (fun x y => match x, y with
      | [.atom a], [.atom b] => .ok [.atom (a + b)]
      | _, _ => .error .typeError) none, _, _,
    .sub (.top (Ex.reach (n := 30) (l := [Ex.conn 0 (.func 0), .pause 0, Ex.emit 0 1, Ex.emit 0 2,
        Ex.emit 0 3]) (by simp [anyAct]) rfl) 0 (Ex.seq [.resume 0 _]) (Ex.Only.seq_mem (by simp [anyAct])))
      (.inl ⟨rfl, rfl⟩), rfl, rfl, rfl, ⟨30, rfl⟩, fun _ _ h => ?_, rfl⟩
  exact (keeps_within (env := Ex.quiet) (s := 0) (fun _ _ => trivial) (by simp [Task.Only]) h).2

/-- **C13** (errors, partial): when a callback raises during `resume()`, the whole record is kept
(provided callbacks do not pause or resume `s`).  Missing compared to the claim: that the values already
delivered are forgotten — they are not, see `C13_error_refuted`. -/
theorem C13_error_keeps_record_partial {env : Env} {s : SigId} (he : env.Only (NoPause s))
    {red : Option Reducer} {w w' : World} {e : Exc} (h : Runs env (.resume s red) w w' (.error e)) :
    (w'.sig s).argsQueue = (w.sig s).argsQueue := by
  have key : ∀ t w1 w2 r, Runs env t w1 w2 r → NoPausePre s (w.sig s).argsQueue t w1 →
      (w2.sig s).argsQueue = (w.sig s).argsQueue :=
    fun t w1 w2 r h h0 => (hoare _ _ (noPausePre_ok he) h h0).2
  rw [runs_iff] at h
  simp only [body] at h
  repeat' split at h
  all_goals simp only [Comp.Via] at h
  all_goals grind [NoPausePre, Task.Only, Task.resumes, Comp.Via]

/-- **C13 is violated by exceptions**: `s0` is paused and emitted with 1 and 2; its callback raises on 2.
`resume()` delivers 1, then 2, and raises; a second `resume()` delivers 1 again. -/
theorem C13_error_refuted : ∃ (env : Env) (w : World),
    Ex.after env 40 [Ex.conn 0 (.func 0), .pause 0, Ex.emit 0 1, Ex.emit 0 2, .resume 0 none,
      .resume 0 none] = some w ∧
    w.log.filterMap (fun v => match v with | .call _ _ _ _ _ b a => some (b, a) | _ => none) =
      [(.func 0, [.atom 1]), (.func 0, [.atom 2]), (.func 0, [.atom 1]), (.func 0, [.atom 2])] :=
  ⟨Ex.env fun _ a => match a with
    | [.atom 2] => .raise (.user 0)
    | _ => .ret, _, rfl, rfl⟩

/-- **`resume()` on a blocked signal calls callbacks** (C12 only speaks of `emit` and `emit_fast`; this
is why `C12_silent` requires that nothing was recorded before). -/
theorem C12_resume_bypasses_block : ∃ (env : Env) (w w' : World), Reachable env anyAct w ∧
    (w.sig 0).blocked = true ∧ Runs env (.resume 0 none) w w' (.ok ()) ∧
    accepted 0 w'.log = [[.atom 1]] ∧ accepted 0 w.log = [] :=
  ⟨Ex.quiet, _, _, Ex.reach (n := 30) (l := [Ex.conn 0 (.func 0), .pause 0, Ex.emit 0 1, .block 0 []])
    (by simp [anyAct]) rfl, rfl, ⟨30, rfl⟩, rfl, rfl⟩

end Psygnal
