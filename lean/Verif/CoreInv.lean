import Verif.CoreFields
import Verif.Spec

/-!
# Invariants of all executions (helper lemmas)
-/
namespace Psygnal

/-- Case analysis on a task, splitting user programs by their first step. -/
@[elab_as_elim] theorem Task.splitProg {motive : Task → Prop} (t : Task)
    (ret : motive (.prog .ret)) (raise : ∀ e, motive (.prog (.raise e)))
    (user : ∀ f k, motive (.prog (.user f k))) (api : ∀ a k, motive (.prog (.api a k)))
    (withBlocked : ∀ s ex b k, motive (.prog (.withBlocked s ex b k)))
    (withPaused : ∀ s red b k, motive (.prog (.withPaused s red b k)))
    (emit : ∀ s a c, motive (.emit s a c)) (emitFast : ∀ s a, motive (.emitFast s a))
    (runLoop : ∀ s a, motive (.runLoop s a)) (inner : ∀ s em, motive (.inner s em))
    (forSlots : ∀ s em a i, motive (.forSlots s em a i))
    (forLatest : ∀ s em a i, motive (.forLatest s em a i))
    (forQueued : ∀ s em a i, motive (.forQueued s em a i))
    (whileQueued : ∀ s em i, motive (.whileQueued s em i))
    (cb : ∀ em src x a, motive (.cb em src x a))
    (direct : ∀ em src x a, motive (.direct em src x a))
    (slotRelay : ∀ r a, motive (.slotRelay r a)) (resume : ∀ s red, motive (.resume s red))
    (replay : ∀ s i, motive (.replay s i)) (drain : ∀ t, motive (.drain t)) : motive t :=
  match t with
  | .prog .ret => ret
  | .prog (.raise e) => raise e
  | .prog (.user f k) => user f k
  | .prog (.api a k) => api a k
  | .prog (.withBlocked s ex b k) => withBlocked s ex b k
  | .prog (.withPaused s red b k) => withPaused s red b k
  | .emit s a c => emit s a c
  | .emitFast s a => emitFast s a
  | .runLoop s a => runLoop s a
  | .inner s em => inner s em
  | .forSlots s em a i => forSlots s em a i
  | .forLatest s em a i => forLatest s em a i
  | .forQueued s em a i => forQueued s em a i
  | .whileQueued s em i => whileQueued s em i
  | .cb em src x a => cb em src x a
  | .direct em src x a => direct em src x a
  | .slotRelay r a => slotRelay r a
  | .resume s red => resume s red
  | .replay s i => replay s i
  | .drain t => drain t

/-- Split on the task (and on the form of the user program) and unfold its body in `h`. -/
macro "unfold_body " t:ident h:ident : tactic => `(tactic|
  (cases $t:ident using Task.splitProg
   all_goals simp only [body] at $h:ident
   all_goals repeat' split at $h:ident
   all_goals simp only [Comp.Via] at $h:ident))

/-- The task is not itself a call outside `Q`. -/
def Task.Only (Q : Act → Prop) : Task → Prop
  | .prog p => p.Only Q
  | .emit s a c => Q (.emit s a c)
  | .emitFast s a => Q (.emitFast s a)
  | _ => True

section
variable (Q : Act → Prop)
@[simp, grind =] theorem only_prog (p) : Task.Only Q (.prog p) = p.Only Q := rfl
@[simp, grind =] theorem only_emit (s a c) : Task.Only Q (.emit s a c) = Q (.emit s a c) := rfl
@[simp, grind =] theorem only_emitFast (s a) : Task.Only Q (.emitFast s a) = Q (.emitFast s a) := rfl
@[simp, grind =] theorem only_runLoop (s a) : Task.Only Q (.runLoop s a) = True := rfl
@[simp, grind =] theorem only_inner (s a) : Task.Only Q (.inner s a) = True := rfl
@[simp, grind =] theorem only_forSlots (s a b c) : Task.Only Q (.forSlots s a b c) = True := rfl
@[simp, grind =] theorem only_forLatest (s a b c) : Task.Only Q (.forLatest s a b c) = True := rfl
@[simp, grind =] theorem only_forQueued (s a b c) : Task.Only Q (.forQueued s a b c) = True := rfl
@[simp, grind =] theorem only_whileQueued (s a b) : Task.Only Q (.whileQueued s a b) = True := rfl
@[simp, grind =] theorem only_cb (s a b c) : Task.Only Q (.cb s a b c) = True := rfl
@[simp, grind =] theorem only_direct (s a b c) : Task.Only Q (.direct s a b c) = True := rfl
@[simp, grind =] theorem only_slotRelay (s a) : Task.Only Q (.slotRelay s a) = True := rfl
@[simp, grind =] theorem only_resume (s a) : Task.Only Q (.resume s a) = True := rfl
@[simp, grind =] theorem only_replay (s a) : Task.Only Q (.replay s a) = True := rfl
@[simp, grind =] theorem only_drain (s) : Task.Only Q (.drain s) = True := rfl
@[simp, grind =] theorem only_user (f k) : Prog.Only Q (.user f k) = ∀ m, (k m).Only Q := rfl
@[simp, grind =] theorem only_api (a k) : Prog.Only Q (.api a k) = (Q a ∧ ∀ r, (k r).Only Q) := rfl
@[simp, grind =] theorem only_withBlocked (s ex b k) : Prog.Only Q (.withBlocked s ex b k) =
    (Q (.block s ex) ∧ Q (.unblock s) ∧ b.Only Q ∧ ∀ r, (k r).Only Q) := rfl
@[simp, grind =] theorem only_withPaused (s red b k) : Prog.Only Q (.withPaused s red b k) =
    (Q (.pause s) ∧ Q (.resume s red) ∧ b.Only Q ∧ ∀ r, (k r).Only Q) := rfl
end

theorem task?_only {Q : Act → Prop} {a : Act} {w : World} {t : Task} (h : a.task? w = some t)
    (hq : Q a) : t.Only Q := by
  cases a with
  | emitQueued o => cases o <;> simp_all [Act.task?] <;> subst h <;> trivial
  | _ => simp_all [Act.task?] <;> subst h <;> first | trivial | exact hq

theorem emitter_restored {env : Env} {t w w' r} (h : Runs env t w w' r) :
    w'.emitter = w.emitter := by
  refine Runs.induct (P := fun _ w w' _ => w'.emitter = w.emitter) ?_ h
  clear h
  intro t w w' r h
  unfold_body t h
  all_goals grind [Comp.Via]

theorem thread_const {env : Env} {t w w' r} (h : Runs env t w w' r) : w'.thread = w.thread := by
  refine Runs.induct (P := fun _ w w' _ => w'.thread = w.thread) ?_ h
  clear h
  intro t w w' r h
  unfold_body t h
  all_goals grind [Comp.Via]

theorem nextEm_mono {env : Env} {t w w' r} (h : Runs env t w w' r) : w.nextEm ≤ w'.nextEm := by
  refine Runs.induct (P := fun _ w w' _ => w.nextEm ≤ w'.nextEm) ?_ h
  clear h
  intro t w w' r h
  unfold_body t h
  all_goals grind [Comp.Via]

theorem log_prefix {env : Env} {t w w' r} (h : Runs env t w w' r) : w.log <+: w'.log := by
  refine Runs.induct (P := fun _ w w' _ => w.log <+: w'.log) ?_ h
  clear h
  intro t w w' r h
  have tr : ∀ {a b c : List Ev}, a <+: b → b <+: c → a <+: c := fun h g => h.trans g
  have ap : ∀ {a b : List Ev} {x}, a ++ [x] <+: b → a <+: b :=
    fun h => (List.prefix_append _ _).trans h
  have gq : ∀ {w : World} {t x a b}, (w.getQueue t x a).log <+: b → w.log <+: b :=
    fun h => (List.prefix_append _ _).trans h
  have ap3 : ∀ {a b : List Ev} {x}, a <+: b → a <+: b ++ [x] :=
    fun h => h.trans (List.prefix_append _ _)
  have rf : ∀ {a : List Ev}, a <+: a := List.prefix_rfl
  have ap2 : ∀ {a : List Ev} {x : Ev}, a <+: a ++ [x] := List.prefix_append _ _
  unfold_body t h
  all_goals first
    | grind [Comp.Via]
    | (clear ap ap2 ap3 rf; grind [Comp.Via, -getQueue_log])

/-- Emission depth is the same before and after any procedure. -/
theorem depth_restored {env : Env} {t w w' r} (h : Runs env t w w' r) :
    ∀ s, 0 ≤ (w.sig s).depth → (w'.sig s).depth = (w.sig s).depth := by
  refine Runs.induct (P := fun _ w w' _ =>
    ∀ s, 0 ≤ (w.sig s).depth → (w'.sig s).depth = (w.sig s).depth) ?_ h
  clear h
  intro t w w' r h
  unfold_body t h
  all_goals grind [Comp.Via]

/-- The re-emission queue of a signal only grows while its emit loop runs, and stays empty
otherwise. -/
theorem emitQueue_inv {env : Env} {t w w' r} (h : Runs env t w w' r) :
    ∀ s, (∀ em, t ≠ .inner s em) →
      (w.sig s).emitQueue <+: (w'.sig s).emitQueue ∧
      ((w.sig s).emitQueue = [] → (w'.sig s).emitQueue = []) := by
  refine Runs.induct (P := fun t w w' _ => ∀ s, (∀ em, t ≠ .inner s em) →
      (w.sig s).emitQueue <+: (w'.sig s).emitQueue ∧
      ((w.sig s).emitQueue = [] → (w'.sig s).emitQueue = [])) ?_ h
  clear h
  intro t w w' r h s hs
  have tr : ∀ {a b c : List Args}, a <+: b → b <+: c → a <+: c := fun h g => h.trans g
  have rf : ∀ {a : List Args}, a <+: a := List.prefix_rfl
  have ap2 : ∀ {a : List Args} {x : Args}, a <+: a ++ [x] := List.prefix_append _ _
  have nl : ∀ {q : List Args} {x}, ¬ (q ++ [x]).length > 1 → q = [] := by
    intro q x hq; cases q <;> simp_all
  have ti : ∀ (a : Act) w em, a.task? w ≠ some (.inner s em) := by
    intro a w em; cases a <;> simp [Act.task?]; rename_i t; cases t <;> simp
  unfold_body t h
  all_goals try grind [Comp.Via]

/-- No `emit_fast` on `s`. -/
def NoFast (s : SigId) : Act → Prop
  | .emitFast s' _ => s' ≠ s
  | _ => True

theorem maxDepth_inv {env : Env} {s : SigId} (he : env.Only (NoFast s)) {t w w' r}
    (h : Runs env t w w' r) : t.Only (NoFast s) → 0 ≤ (w.sig s).depth →
      ((w.sig s).depth = 0 → (w.sig s).maxDepth = 0 → (w'.sig s).maxDepth = 0) ∧
      (0 < (w.sig s).depth → (w.sig s).maxDepth ≤ (w'.sig s).maxDepth) := by
  refine Runs.induct (P := fun t w w' _ => t.Only (NoFast s) → 0 ≤ (w.sig s).depth →
      ((w.sig s).depth = 0 → (w.sig s).maxDepth = 0 → (w'.sig s).maxDepth = 0) ∧
      (0 < (w.sig s).depth → (w.sig s).maxDepth ≤ (w'.sig s).maxDepth)) ?_ h
  clear h
  intro t w w' r h ht hd
  have hbd : ∀ b a, (env.body b a).Only (NoFast s) := he
  have dr := @depth_restored env
  unfold_body t h
  all_goals grind [Comp.Via, NoFast, task?_only]

/-! ## Invariants of the connections -/

/-- Same connections and same dead objects. -/
def ConnEq (w w' : World) : Prop :=
  (∀ s, (w'.sig s).slots = (w.sig s).slots) ∧ (∀ s, (w'.sig s).prioInUse = (w.sig s).prioInUse) ∧
  w'.dead = w.dead ∧ w'.nextSerial = w.nextSerial

theorem ConnEq.refl (w : World) : ConnEq w w := ⟨fun _ => rfl, fun _ => rfl, rfl, rfl⟩
theorem ConnEq.trans {a b c : World} (h : ConnEq a b) (g : ConnEq b c) : ConnEq a c :=
  ⟨fun s => (g.1 s).trans (h.1 s), fun s => (g.2.1 s).trans (h.2.1 s), g.2.2.1.trans h.2.2.1,
    g.2.2.2.trans h.2.2.2⟩

theorem ConnEq.upd (w : World) (s : SigId) (f : SigState → SigState)
    (hf : ∀ st : SigState, (f st).slots = st.slots ∧ (f st).prioInUse = st.prioInUse) :
    ConnEq w (w.upd s f) := by
  refine ⟨fun x => ?_, fun x => ?_, rfl, rfl⟩ <;> rw [upd_sig] <;> split <;> simp [hf]

theorem ConnEq.foldl {α : Type} (g : World → α → World) (hg : ∀ (w : World) a, ConnEq w (g w a)) :
    ∀ (l : List α) (w : World), ConnEq w (l.foldl g w)
  | [], w => .refl w
  | a :: l, w => (hg w a).trans (ConnEq.foldl g hg l (g w a))

theorem connEq_block (env : Env) (w : World) (s : SigId) (ex : List SigId) :
    ConnEq w (w.block env s ex) := by
  have h : ConnEq w (w.upd s fun st => { st with blocked := true }) :=
    .upd _ _ _ (fun st => ⟨rfl, rfl⟩)
  unfold World.block
  dsimp only
  split
  · refine h.trans (ConnEq.foldl _ (fun w a => ?_) _ _)
    split
    · exact .refl _
    · refine ConnEq.trans ?_ (.upd _ _ _ (fun st => ⟨rfl, rfl⟩))
      exact .upd _ _ _ (fun st => ⟨rfl, rfl⟩)
  · exact h

theorem connEq_unblock (env : Env) (w : World) (s : SigId) : ConnEq w (w.unblock env s) := by
  have h : ConnEq w (w.upd s fun st => { st with blocked := false }) :=
    .upd _ _ _ (fun st => ⟨rfl, rfl⟩)
  unfold World.unblock
  dsimp only
  split
  · refine h.trans (ConnEq.foldl _ (fun w a => ?_) _ _)
    split
    · exact .upd _ _ _ (fun st => ⟨rfl, rfl⟩)
    · refine ConnEq.trans ?_ (.upd _ _ _ (fun st => ⟨rfl, rfl⟩))
      exact .upd _ _ _ (fun st => ⟨rfl, rfl⟩)
  · exact h

/-- A property of the connections that every pure API call (allowed by `Q`) preserves is preserved
by every execution. -/
theorem conn_inv {env : Env} {Q : Act → Prop} (J : World → Prop)
    (hrun : ∀ w a, Q a → J w → J (a.run env w).1) (hc : ∀ w w', ConnEq w w' → J w → J w')
    (he : env.Only Q) {t w w' r} (h : Runs env t w w' r) : t.Only Q → J w → J w' := by
  refine Runs.induct (P := fun t w w' _ => t.Only Q → J w → J w') ?_ h
  clear h
  intro t w w' r h ht hj
  have hbd : ∀ b a, (env.body b a).Only Q := he
  have hb := fun (w : World) s ex => hc w _ (connEq_block env w s ex)
  have hu := fun (w : World) s => hc w _ (connEq_unblock env w s)
  have h1 := fun (w : World) s => hc w (w.pause s) (by simp [ConnEq])
  have h2 := fun (w : World) s => hc w (w.unpause s) (by simp [ConnEq])
  have h3 := fun (w : World) s => hc w (w.clearArgs s) (by simp [ConnEq])
  have h4 := fun (w : World) s a => hc w (w.collect s a) (by simp [ConnEq])
  have h5 := fun (w : World) s a => hc w (w.enqueue s a) (by simp [ConnEq])
  have h6 := fun (w : World) s => hc w (w.startLoop s) (by simp [ConnEq])
  have h7 := fun (w : World) s p => hc w (w.endLoop s p) (by simp [ConnEq])
  have h8 := fun (w : World) s a => hc w (w.startFast s a) (by simp [ConnEq])
  have h9 := fun (w : World) s => hc w (w.endFast s) (by simp [ConnEq])
  have h10 := fun (w : World) s => hc w (w.popQueue s) (by simp [ConnEq])
  have h11 := fun (w : World) t x a e => hc w (w.putQueue t x a e) (by simp [ConnEq])
  have h12 := fun (w : World) t x a => hc w (w.getQueue t x a) (by simp [ConnEq])
  have h13 := fun (w : World) m => hc w (w.setMem m) (by simp [ConnEq])
  have h14 := fun (w : World) a b c d => hc w (w.logCall a b c d) (by simp [ConnEq])
  have h15 := fun (w : World) a b c d => hc w (w.logRet a b c d) (by simp [ConnEq])
  clear hc
  unfold_body t h
  all_goals grind [Comp.Via, task?_only]

end Psygnal
