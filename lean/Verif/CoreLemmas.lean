import Verif.Core

/-!
# Induction over executions, fuel, and frame lemmas for the pure API calls
-/
set_option linter.unusedSimpArgs false
set_option linter.unusedVariables false

namespace Psygnal

/-- `c.Via P w' r`: the computation `c` ends in `(w', r)` when nested calls behave as `P`. -/
def Comp.Via (P : Task → World → World → Res → Prop) : Comp → World → Res → Prop
  | .done w r, w', r' => w' = w ∧ r' = r
  | .call t w k, w', r' => ∃ w1 r1, P t w w1 r1 ∧ (k w1 r1).Via P w' r'

theorem Comp.Via.mono {P Q : Task → World → World → Res → Prop}
    (h : ∀ t w w' r, P t w w' r → Q t w w' r) :
    ∀ (c : Comp) (w' : World) (r : Res), c.Via P w' r → c.Via Q w' r
  | .done _ _, _, _, hc => hc
  | .call t w k, w', r, ⟨w1, r1, hp, hk⟩ =>
    ⟨w1, r1, h _ _ _ _ hp, Comp.Via.mono h (k w1 r1) w' r hk⟩

theorem runComp_via (f : Task → World → Option (World × Res)) :
    ∀ (c : Comp) (w' : World) (r : Res), runComp f c = some (w', r) →
      c.Via (fun t w w' r => f t w = some (w', r)) w' r
  | .done w r0, w', r, h => by
    simp only [runComp, Option.some.injEq, Prod.mk.injEq] at h
    exact ⟨h.1.symm, h.2.symm⟩
  | .call t w k, w', r, h => by
    simp only [runComp] at h
    cases hf : f t w with
    | none => simp [hf] at h
    | some p =>
      obtain ⟨w1, r1⟩ := p
      simp only [hf] at h
      exact ⟨w1, r1, hf, runComp_via f (k w1 r1) w' r h⟩

theorem via_runComp (f : Task → World → Option (World × Res)) :
    ∀ (c : Comp) (w' : World) (r : Res), c.Via (fun t w w' r => f t w = some (w', r)) w' r →
      runComp f c = some (w', r)
  | .done w r0, w', r, h => by
    obtain ⟨rfl, rfl⟩ := h; rfl
  | .call t w k, w', r, ⟨w1, r1, hp, hk⟩ => by
    simp only [runComp, hp]
    exact via_runComp f (k w1 r1) w' r hk

/-- More fuel never changes a result. -/
theorem exec_mono (env : Env) : ∀ (n : Nat) (t : Task) (w w' : World) (r : Res),
    exec env n t w = some (w', r) → exec env (n + 1) t w = some (w', r)
  | 0, _, _, _, _, h => by simp [exec] at h
  | n + 1, t, w, w', r, h => by
    rw [exec] at h ⊢
    exact via_runComp _ _ _ _ (Comp.Via.mono (fun t w w' r => exec_mono env n t w w' r) _ _ _
      (runComp_via _ _ _ _ h))

theorem exec_le (env : Env) {n m : Nat} (h : n ≤ m) {t : Task} {w w' : World} {r : Res}
    (hx : exec env n t w = some (w', r)) : exec env m t w = some (w', r) := by
  induction h with
  | refl => exact hx
  | step _ ih => exact exec_mono env _ _ _ _ _ ih

/-- Executions are deterministic. -/
theorem Runs.det {env : Env} {t : Task} {w w1 w2 : World} {r1 r2 : Res}
    (h1 : Runs env t w w1 r1) (h2 : Runs env t w w2 r2) : w1 = w2 ∧ r1 = r2 := by
  obtain ⟨n, hn⟩ := h1
  obtain ⟨m, hm⟩ := h2
  have a := exec_le env (Nat.le_max_left n m) hn
  have b := exec_le env (Nat.le_max_right n m) hm
  rw [a] at b
  simpa using b

theorem runs_via_aux (env : Env) : ∀ (c : Comp) (w' : World) (r : Res),
    c.Via (Runs env) w' r → ∃ n, runComp (exec env n) c = some (w', r)
  | .done w r0, w', r, h => by
    obtain ⟨rfl, rfl⟩ := h; exact ⟨0, rfl⟩
  | .call t w k, w', r, ⟨w1, r1, ⟨n, hn⟩, hk⟩ => by
    obtain ⟨m, hm⟩ := runs_via_aux env (k w1 r1) w' r hk
    refine ⟨max n m, ?_⟩
    simp only [runComp, exec_le env (Nat.le_max_left n m) hn]
    exact via_runComp _ _ _ _ (Comp.Via.mono
      (fun t w w' r h => exec_le env (Nat.le_max_right n m) h) _ _ _ (runComp_via _ _ _ _ hm))

/-- A task's execution is the execution of its body. -/
theorem runs_iff (env : Env) (t : Task) (w w' : World) (r : Res) :
    Runs env t w w' r ↔ (body env t w).Via (Runs env) w' r := by
  constructor
  · rintro ⟨n, hn⟩
    cases n with
    | zero => simp [exec] at hn
    | succ n =>
      rw [exec] at hn
      exact Comp.Via.mono (fun t w w' r h => ⟨n, h⟩) _ _ _ (runComp_via _ _ _ _ hn)
  · intro h
    obtain ⟨n, hn⟩ := runs_via_aux env _ _ _ h
    exact ⟨n + 1, by rw [exec]; exact hn⟩

/-- Induction over executions: to show `P` of every finished execution, show it for a task whose
nested calls all satisfy `P`. -/
theorem Runs.induct {env : Env} (P : Task → World → World → Res → Prop)
    (H : ∀ t w w' r, (body env t w).Via (fun t w w' r => Runs env t w w' r ∧ P t w w' r) w' r →
      P t w w' r) :
    ∀ {t w w' r}, Runs env t w w' r → P t w w' r := by
  rintro t w w' r ⟨n, hn⟩
  induction n generalizing t w w' r with
  | zero => simp [exec] at hn
  | succ n ih =>
    rw [exec] at hn
    exact H _ _ _ _ (Comp.Via.mono (fun t w w' r h => ⟨⟨n, h⟩, ih h⟩) _ _ _
      (runComp_via _ _ _ _ hn))

/-! ## `upd` -/

@[simp] theorem upd_sig_same (w : World) (s : SigId) (f : SigState → SigState) :
    (w.upd s f).sig s = f (w.sig s) := by simp [World.upd]

theorem upd_sig_ne (w : World) {s x : SigId} (f : SigState → SigState) (h : x ≠ s) :
    (w.upd s f).sig x = w.sig x := by simp [World.upd, h]

theorem upd_sig (w : World) (s x : SigId) (f : SigState → SigState) :
    (w.upd s f).sig x = if x = s then f (w.sig x) else w.sig x := rfl

@[simp] theorem upd_emitter (w : World) (s f) : (w.upd s f).emitter = w.emitter := rfl
@[simp] theorem upd_hook (w : World) (s f) : (w.upd s f).hook = w.hook := rfl
@[simp] theorem upd_dead (w : World) (s f) : (w.upd s f).dead = w.dead := rfl
@[simp] theorem upd_thread (w : World) (s f) : (w.upd s f).thread = w.thread := rfl
@[simp] theorem upd_tq (w : World) (s f) : (w.upd s f).tq = w.tq := rfl
@[simp] theorem upd_mem (w : World) (s f) : (w.upd s f).mem = w.mem := rfl
@[simp] theorem upd_log (w : World) (s f) : (w.upd s f).log = w.log := rfl
@[simp] theorem upd_nextEm (w : World) (s f) : (w.upd s f).nextEm = w.nextEm := rfl
@[simp] theorem upd_nextSerial (w : World) (s f) : (w.upd s f).nextSerial = w.nextSerial := rfl
@[simp] theorem ev_nextSerial (w : World) (e) : (w.ev e).nextSerial = w.nextSerial := rfl
@[simp] theorem ev_sig (w : World) (e) : (w.ev e).sig = w.sig := rfl
@[simp] theorem ev_emitter (w : World) (e) : (w.ev e).emitter = w.emitter := rfl
@[simp] theorem ev_hook (w : World) (e) : (w.ev e).hook = w.hook := rfl
@[simp] theorem ev_dead (w : World) (e) : (w.ev e).dead = w.dead := rfl
@[simp] theorem ev_thread (w : World) (e) : (w.ev e).thread = w.thread := rfl
@[simp] theorem ev_tq (w : World) (e) : (w.ev e).tq = w.tq := rfl
@[simp] theorem ev_mem (w : World) (e) : (w.ev e).mem = w.mem := rfl
@[simp] theorem ev_log (w : World) (e) : (w.ev e).log = w.log ++ [e] := rfl
@[simp] theorem ev_nextEm (w : World) (e) : (w.ev e).nextEm = w.nextEm := rfl

/-! ## Frames of the pure API calls -/

/-- The parts of a signal's state that only emission procedures touch. -/
structure SigState.EmitFrame (a b : SigState) : Prop where
  depth : b.depth = a.depth
  maxDepth : b.maxDepth = a.maxDepth
  emitQueue : b.emitQueue = a.emitQueue
  argsQueue : b.argsQueue = a.argsQueue

/-- The parts of the world that pure API calls leave alone. -/
structure World.Frame (w w' : World) : Prop where
  emitter : w'.emitter = w.emitter
  thread : w'.thread = w.thread
  tq : w'.tq = w.tq
  mem : w'.mem = w.mem
  log : w'.log = w.log
  nextEm : w'.nextEm = w.nextEm
  sig : ∀ s, (w.sig s).EmitFrame (w'.sig s)
  hook : w'.hook = w.hook

theorem SigState.EmitFrame.refl (a : SigState) : a.EmitFrame a := ⟨rfl, rfl, rfl, rfl⟩
theorem SigState.EmitFrame.trans {a b c : SigState} (h : a.EmitFrame b) (g : b.EmitFrame c) :
    a.EmitFrame c :=
  ⟨g.1.trans h.1, g.2.trans h.2, g.3.trans h.3, g.4.trans h.4⟩

theorem World.Frame.refl (w : World) : w.Frame w := ⟨rfl, rfl, rfl, rfl, rfl, rfl, fun _ => .refl _, rfl⟩
theorem World.Frame.trans {a b c : World} (h : a.Frame b) (g : b.Frame c) : a.Frame c :=
  ⟨g.1.trans h.1, g.2.trans h.2, g.3.trans h.3, g.4.trans h.4, g.5.trans h.5, g.6.trans h.6,
    fun s => (h.7 s).trans (g.7 s), g.8.trans h.8⟩

theorem World.Frame.upd (w : World) (s : SigId) (f : SigState → SigState)
    (hf : ∀ st : SigState, st.EmitFrame (f st)) : w.Frame (w.upd s f) :=
  ⟨rfl, rfl, rfl, rfl, rfl, rfl, fun x => by
    rw [upd_sig]; split
    · exact hf _
    · exact .refl _, rfl⟩

theorem World.Frame.foldl {α : Type} (g : World → α → World) (hg : ∀ (w : World) a, w.Frame (g w a)) :
    ∀ (l : List α) (w : World), w.Frame (l.foldl g w)
  | [], w => .refl w
  | a :: l, w => (hg w a).trans (World.Frame.foldl g hg l (g w a))

theorem appendSlot_emitFrame (st : SigState) (x : Slot) : st.EmitFrame (st.appendSlot x) := by
  unfold SigState.appendSlot
  repeat' split
  all_goals exact ⟨rfl, rfl, rfl, rfl⟩

theorem frame_plainAppend (w : World) (s : SigId) (x : Slot) : w.Frame (w.plainAppend s x) :=
  have h := World.Frame.upd w s _ (fun st => appendSlot_emitFrame st { x with serial := w.nextSerial })
  ⟨rfl, rfl, rfl, rfl, rfl, rfl, h.7, rfl⟩

theorem frame_connectRelay (env : Env) (w : World) (r : SigId) : w.Frame (w.connectRelay env r) := by
  refine World.Frame.foldl _ (fun w a => ?_) _ _
  unfold World.connectRelay1
  split
  · exact .refl _
  · exact frame_plainAppend _ _ _

theorem frame_disconnectRelay (env : Env) (w : World) (r : SigId) :
    w.Frame (w.disconnectRelay env r) := by
  refine World.Frame.foldl _ (fun w a => ?_) _ _
  unfold World.disconnectRelay1
  exact .upd _ _ _ (fun _ => ⟨rfl, rfl, rfl, rfl⟩)

theorem frame_appendSlot (env : Env) (w : World) (s : SigId) (x : Slot) :
    w.Frame (w.appendSlot env s x) := by
  have h : w.Frame (w.plainAppend s x) := frame_plainAppend _ _ _
  unfold World.appendSlot
  dsimp only
  split
  · exact h.trans (frame_connectRelay _ _ _)
  · exact h

theorem frame_setSlotsRemoved (env : Env) (w : World) (s : SigId) (ss : List Slot) :
    w.Frame (w.setSlotsRemoved env s ss) := by
  have h : w.Frame (w.upd s fun st => { st with slots := ss }) :=
    .upd _ _ _ (fun st => ⟨rfl, rfl, rfl, rfl⟩)
  unfold World.setSlotsRemoved
  dsimp only
  split
  · exact h.trans (frame_disconnectRelay _ _ _)
  · exact h

theorem frame_disconnect1 (env : Env) (w : World) (s : SigId) (c : Option Callable) (m : Bool) :
    w.Frame (w.disconnect1 env s c m).1 := by
  unfold World.disconnect1
  split
  · exact frame_setSlotsRemoved _ _ _ _
  · split
    · exact frame_setSlotsRemoved _ _ _ _
    · split <;> exact .refl _

theorem frame_disconnectMembers (env : Env) (c : Option Callable) (m : Bool) :
    ∀ (l : List SigId) (w : World), w.Frame (World.disconnectMembers env c m l w).1
  | [], w => .refl w
  | s :: ss, w => by
    unfold World.disconnectMembers
    have h := frame_disconnect1 env w s c m
    split
    · rename_i w' _ heq
      rw [heq] at h
      exact h.trans (frame_disconnectMembers env c m ss _)
    · rename_i w' _ heq
      rw [heq] at h
      exact h

theorem frame_disconnect (env : Env) (w : World) (s : SigId) (c : Option Callable) (m : Bool) :
    w.Frame (w.disconnect env s c m).1 := by
  unfold World.disconnect
  split
  · have h := frame_disconnectMembers env c m (env.decl s).children w
    split
    · rename_i w' _ heq
      rw [heq] at h
      exact h.trans (frame_disconnect1 env _ s c m)
    · rename_i w' _ heq
      rw [heq] at h
      exact h
  · exact frame_disconnect1 env w s c m

theorem frame_discard (env : Env) (w : World) (s : SigId) (b : Base) (m : Bool) :
    w.Frame (w.discard env s b m).1 := by
  unfold World.discard
  split
  · exact frame_setSlotsRemoved _ _ _ _
  · split <;> exact .refl _

theorem frame_connect (env : Env) (w : World) (s : SigId) (c : Callable) (o : ConnOpts) :
    w.Frame (w.connect env s c o).1 := by
  unfold World.connect
  split
  · split <;> exact .refl _
  · dsimp only
    split
    · exact .refl _
    · exact frame_appendSlot _ _ _ _

theorem frame_block (env : Env) (w : World) (s : SigId) (ex : List SigId) :
    w.Frame (w.block env s ex) := by
  have h : w.Frame (w.upd s fun st => { st with blocked := true }) :=
    .upd _ _ _ (fun st => ⟨rfl, rfl, rfl, rfl⟩)
  unfold World.block
  dsimp only
  split
  · refine h.trans (World.Frame.foldl _ (fun w a => ?_) _ _)
    split
    · exact .refl _
    · refine World.Frame.trans ?_ (.upd _ _ _ (fun st => ⟨rfl, rfl, rfl, rfl⟩))
      exact .upd _ _ _ (fun st => ⟨rfl, rfl, rfl, rfl⟩)
  · exact h

theorem frame_unblock (env : Env) (w : World) (s : SigId) : w.Frame (w.unblock env s) := by
  have h : w.Frame (w.upd s fun st => { st with blocked := false }) :=
    .upd _ _ _ (fun st => ⟨rfl, rfl, rfl, rfl⟩)
  unfold World.unblock
  dsimp only
  split
  · refine h.trans (World.Frame.foldl _ (fun w a => ?_) _ _)
    split
    · exact (World.Frame.upd w s _ (fun st => ⟨rfl, rfl, rfl, rfl⟩))
    · refine World.Frame.trans ?_ (.upd _ _ _ (fun st => ⟨rfl, rfl, rfl, rfl⟩))
      exact .upd _ _ _ (fun st => ⟨rfl, rfl, rfl, rfl⟩)
  · exact h

theorem frame_kill (env : Env) (w : World) (o : ObjId) : w.Frame (w.kill env o) :=
  ⟨rfl, rfl, rfl, rfl, rfl, rfl, fun _ => ⟨rfl, rfl, rfl, rfl⟩, rfl⟩

theorem frame_pause (w : World) (s : SigId) : w.Frame (w.pause s) :=
  .upd _ _ _ (fun _ => ⟨rfl, rfl, rfl, rfl⟩)

theorem frame_run_noHook (env : Env) (w : World) (a : Act) (h : ∀ k, a ≠ .setHook k) :
    w.Frame (a.run env w).1 := by
  cases a <;> simp only [Act.run]
  case connect =>
    split
    · exact .refl _
    · exact frame_connect _ _ _ _ _
  case connectRaw =>
    split
    · exact .refl _
    · exact frame_appendSlot _ _ _ _
  case disconnect => exact frame_disconnect _ _ _ _ _
  case discard => exact frame_discard _ _ _ _ _
  case block => exact frame_block _ _ _ _
  case unblock => exact frame_unblock _ _ _
  case pause => exact frame_pause _ _
  case kill => exact frame_kill _ _ _
  case setHook k => exact absurd rfl (h k)
  all_goals exact .refl _

/-- Pure API calls touch only connections, block/pause flags, liveness and the hook. -/
theorem frame_run (env : Env) (w : World) (a : Act) :
    World.Frame { w with hook := (a.run env w).1.hook } (a.run env w).1 := by
  by_cases h : ∃ k, a = .setHook k
  · obtain ⟨k, rfl⟩ := h
    exact .refl _
  · have := frame_run_noHook env w a (fun k hk => h ⟨k, hk⟩)
    exact ⟨this.1, this.2, this.3, this.4, this.5, this.6, this.7, rfl⟩

theorem frame_ite_unblock (env : Env) (w : World) (s : SigId) (b : Bool) :
    w.Frame (if b then w else w.unblock env s) := by
  split
  · exact .refl _
  · exact frame_unblock _ _ _

end Psygnal
