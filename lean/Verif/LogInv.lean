import Verif.Hoare

/-!
# Invariants of the event log (helper lemmas)
-/
namespace Psygnal

/-- The emit loop a procedure belongs to. -/
def Task.em? : Task → Option Nat
  | .inner _ em => some em
  | .forSlots _ em _ _ => some em
  | .forLatest _ em _ _ => some em
  | .forQueued _ em _ _ => some em
  | .whileQueued _ em _ => some em
  | .cb em _ _ _ => em
  | .direct em _ _ _ => em
  | _ => none

/-- The signal of the emit loop a procedure belongs to. -/
def Task.sig? : Task → Option SigId
  | .inner s _ => some s
  | .forSlots s _ _ _ => some s
  | .forLatest s _ _ _ => some s
  | .forQueued s _ _ _ => some s
  | .whileQueued s _ _ => some s
  | .cb _ s _ _ => s
  | .direct _ s _ _ => s
  | _ => none

@[simp, grind =] theorem tem?_prog (p) : Task.em? (.prog p) = none := rfl
@[simp, grind =] theorem tsig?_prog (p) : Task.sig? (.prog p) = none := rfl
@[simp, grind =] theorem tem?_emit (s a c) : Task.em? (.emit s a c) = none := rfl
@[simp, grind =] theorem tsig?_emit (s a c) : Task.sig? (.emit s a c) = none := rfl
@[simp, grind =] theorem tem?_emitFast (s a) : Task.em? (.emitFast s a) = none := rfl
@[simp, grind =] theorem tsig?_emitFast (s a) : Task.sig? (.emitFast s a) = none := rfl
@[simp, grind =] theorem tem?_runLoop (s a) : Task.em? (.runLoop s a) = none := rfl
@[simp, grind =] theorem tsig?_runLoop (s a) : Task.sig? (.runLoop s a) = none := rfl
@[simp, grind =] theorem tem?_inner (s e) : Task.em? (.inner s e) = some e := rfl
@[simp, grind =] theorem tsig?_inner (s e) : Task.sig? (.inner s e) = some s := rfl
@[simp, grind =] theorem tem?_forSlots (s e a i) : Task.em? (.forSlots s e a i) = some e := rfl
@[simp, grind =] theorem tsig?_forSlots (s e a i) : Task.sig? (.forSlots s e a i) = some s := rfl
@[simp, grind =] theorem tem?_forLatest (s e a i) : Task.em? (.forLatest s e a i) = some e := rfl
@[simp, grind =] theorem tsig?_forLatest (s e a i) : Task.sig? (.forLatest s e a i) = some s := rfl
@[simp, grind =] theorem tem?_forQueued (s e a i) : Task.em? (.forQueued s e a i) = some e := rfl
@[simp, grind =] theorem tsig?_forQueued (s e a i) : Task.sig? (.forQueued s e a i) = some s := rfl
@[simp, grind =] theorem tem?_whileQueued (s e i) : Task.em? (.whileQueued s e i) = some e := rfl
@[simp, grind =] theorem tsig?_whileQueued (s e i) : Task.sig? (.whileQueued s e i) = some s := rfl
@[simp, grind =] theorem tem?_cb (e s x a) : Task.em? (.cb e s x a) = e := rfl
@[simp, grind =] theorem tsig?_cb (e s x a) : Task.sig? (.cb e s x a) = s := rfl
@[simp, grind =] theorem tem?_direct (e s x a) : Task.em? (.direct e s x a) = e := rfl
@[simp, grind =] theorem tsig?_direct (e s x a) : Task.sig? (.direct e s x a) = s := rfl
@[simp, grind =] theorem tem?_slotRelay (s a) : Task.em? (.slotRelay s a) = none := rfl
@[simp, grind =] theorem tsig?_slotRelay (s a) : Task.sig? (.slotRelay s a) = none := rfl
@[simp, grind =] theorem tem?_resume (s a) : Task.em? (.resume s a) = none := rfl
@[simp, grind =] theorem tsig?_resume (s a) : Task.sig? (.resume s a) = none := rfl
@[simp, grind =] theorem tem?_replay (s a) : Task.em? (.replay s a) = none := rfl
@[simp, grind =] theorem tsig?_replay (s a) : Task.sig? (.replay s a) = none := rfl
@[simp, grind =] theorem tem?_drain (t) : Task.em? (.drain t) = none := rfl
@[simp, grind =] theorem tsig?_drain (t) : Task.sig? (.drain t) = none := rfl

@[grind →] theorem task?_em {a : Act} {w : World} {t : Task} (h : a.task? w = some t) :
    t.em? = none ∧ t.sig? = none := by
  cases a with
  | emitQueued o => cases o <;> simp_all [Act.task?] <;> subst h <;> simp
  | _ => simp_all [Act.task?] <;> subst h <;> simp

@[simp, grind =] theorem em?_req (s a) : Ev.em? (.req s a) = none := rfl
@[simp, grind =] theorem em?_fast (s a e) : Ev.em? (.fast s a e) = some e := rfl
@[simp, grind =] theorem em?_call (e s d m t b a) : Ev.em? (.call e s d m t b a) = e := rfl
@[simp, grind =] theorem em?_ret (e s b r) : Ev.em? (.ret e s b r) = e := rfl
@[simp, grind =] theorem em?_put (t b a e) : Ev.em? (.put t b a e) = e := rfl
@[simp, grind =] theorem em?_get (t b a) : Ev.em? (.get t b a) = none := rfl

/-- Emit loop numbers in the log `l` are below `n`. -/
def EmBelow (l : List Ev) (n : Nat) : Prop := ∀ e ∈ l, ∀ em, e.em? = some em → em < n

@[grind =] theorem emBelow_append (l : List Ev) (e : Ev) (n : Nat) :
    EmBelow (l ++ [e]) n ↔ EmBelow l n ∧ ∀ em, e.em? = some em → em < n := by
  simp only [EmBelow, List.mem_append, List.mem_singleton]
  grind

theorem emBelow_succ {l : List Ev} {n : Nat} (h : EmBelow l n) : EmBelow l (n + 1) :=
  fun e he em hem => Nat.lt_succ_of_lt (h e he em hem)

grind_pattern emBelow_succ => EmBelow l (n + 1)

/-- What a task needs for `EmBelow`. -/
def EmPre (t : Task) (w : World) : Prop :=
  EmBelow w.log w.nextEm ∧ (t.em?.isSome = t.sig?.isSome) ∧ ∀ em, t.em? = some em → em < w.nextEm

theorem emPre_ok (env : Env) : ∀ t w, EmPre t w →
    (body env t w).Ok env EmPre (fun _ _ w' _ => EmBelow w'.log w'.nextEm)
      (fun w' _ => EmBelow w'.log w'.nextEm) := by
  intro t w ⟨h1, h2, h3⟩
  have nm := @nextEm_mono env
  unfold_goal t
  all_goals grind [Comp.Ok, EmPre]

theorem emPre_live {env : Env} {Q : Act → Prop} {t w} (h : Live env Q t w) : EmPre t w :=
  hoare_live EmPre (fun _ _ w' _ => EmBelow w'.log w'.nextEm) (emPre_ok env)
    (fun w => EmBelow w.log w.nextEm) (by simp [World.init, EmBelow]) (fun _ _ h => h)
    (fun w p _ h => ⟨h, rfl, by simp⟩) (fun _ _ _ _ _ h => h) h

/-! ## Depth of nested emissions -/

/-- Callbacks recorded in the log were called at a legal depth. -/
def EvDepth : Ev → Prop
  | .call _ (some _) d _ _ _ _ => 1 ≤ d ∧ d ≤ LIMIT
  | _ => True

def LogDepth (l : List Ev) : Prop := ∀ e ∈ l, EvDepth e

@[grind =] theorem logDepth_append (l : List Ev) (e : Ev) :
    LogDepth (l ++ [e]) ↔ LogDepth l ∧ EvDepth e := by
  simp only [LogDepth, List.mem_append, List.mem_singleton]
  grind
@[simp, grind =] theorem evDepth_req (s a) : EvDepth (.req s a) = True := rfl
@[simp, grind =] theorem evDepth_fast (s a e) : EvDepth (.fast s a e) = True := rfl
@[simp, grind =] theorem evDepth_call (e s d m t b a) :
    EvDepth (.call e s d m t b a) = (s.isSome → 1 ≤ d ∧ d ≤ LIMIT) := by
  cases s <;> simp [EvDepth]
@[simp, grind =] theorem evDepth_ret (e s b r) : EvDepth (.ret e s b r) = True := rfl
@[simp, grind =] theorem evDepth_put (t b a e) : EvDepth (.put t b a e) = True := rfl
@[simp, grind =] theorem evDepth_get (t b a) : EvDepth (.get t b a) = True := rfl

/-- What a task needs for `LogDepth`. -/
def DepthPre (t : Task) (w : World) : Prop :=
  LogDepth w.log ∧ (∀ s, 0 ≤ (w.sig s).depth) ∧
    ∀ s, t.sig? = some s → 1 ≤ (w.sig s).depth ∧ (w.sig s).depth ≤ LIMIT

def DepthPost (w : World) : Prop := LogDepth w.log ∧ (∀ s, 0 ≤ (w.sig s).depth)

theorem depthPre_ok (env : Env) : ∀ t w, DepthPre t w →
    (body env t w).Ok env DepthPre (fun _ _ w' _ => DepthPost w') (fun w' _ => DepthPost w') := by
  intro t w ⟨h1, h2, h3⟩
  have dr := @depth_restored env
  unfold_goal t
  all_goals first
    | exact ⟨by grind, fun s => by simpa using h2 s⟩
    | grind [Comp.Ok, DepthPre, DepthPost]

theorem depthPre_live {env : Env} {Q : Act → Prop} {t w} (h : Live env Q t w) : DepthPre t w :=
  hoare_live DepthPre (fun _ _ w' _ => DepthPost w') (depthPre_ok env)
    DepthPost (by simp [World.init, DepthPost, SigState.init, LogDepth]) (fun _ _ h => h)
    (fun w p _ h => ⟨h.1, h.2, by simp⟩) (fun _ _ _ _ _ h => h) h

/-! ## Depth counts open callbacks -/

/-- Contribution of one event to `openCalls s`. -/
def Ev.opens (s : SigId) : Ev → Int
  | .call _ src _ _ _ _ _ => if src = some s then 1 else 0
  | .ret _ src _ _ => if src = some s then -1 else 0
  | _ => 0

@[simp, grind =] theorem opens_req (x s a) : Ev.opens x (.req s a) = 0 := rfl
@[simp, grind =] theorem opens_fast (x s a e) : Ev.opens x (.fast s a e) = 0 := rfl
@[simp, grind =] theorem opens_call (x em s d e t b a) :
    Ev.opens x (.call em s d e t b a) = if s = some x then 1 else 0 := rfl
@[simp, grind =] theorem opens_ret (x e s b r) :
    Ev.opens x (.ret e s b r) = if s = some x then -1 else 0 := rfl
@[simp, grind =] theorem opens_put (x t b a e) : Ev.opens x (.put t b a e) = 0 := rfl
@[simp, grind =] theorem opens_get (x t b a) : Ev.opens x (.get t b a) = 0 := rfl

@[grind =] theorem openCalls_append (s : SigId) (l : List Ev) (e : Ev) :
    openCalls s (l ++ [e]) = openCalls s l + e.opens s := by
  induction l with
  | nil => cases e <;> simp [openCalls, Ev.opens]
  | cons x l ih => cases x <;> simp [openCalls, ih] <;> omega

/-- Every recorded depth is one more than the number of open callbacks at that time. -/
def LogNest (l : List Ev) : Prop := ∀ pre post em s d e th b a,
  l = pre ++ .call em (some s) d e th b a :: post → openCalls s pre + 1 = d

def EvNest (l : List Ev) : Ev → Prop
  | .call _ (some s) d _ _ _ _ => openCalls s l + 1 = d
  | _ => True

@[simp, grind =] theorem evNest_req (l s a) : EvNest l (.req s a) = True := rfl
@[simp, grind =] theorem evNest_fast (l s a e) : EvNest l (.fast s a e) = True := rfl
@[simp, grind =] theorem evNest_call (l em s d e t b a) : EvNest l (.call em s d e t b a) =
    (∀ s', s = some s' → openCalls s' l + 1 = d) := by
  cases s <;> simp [EvNest]
@[simp, grind =] theorem evNest_ret (l e s b r) : EvNest l (.ret e s b r) = True := rfl
@[simp, grind =] theorem evNest_put (l t b a e) : EvNest l (.put t b a e) = True := rfl
@[simp, grind =] theorem evNest_get (l t b a) : EvNest l (.get t b a) = True := rfl

@[grind ←] theorem logNest_append {l : List Ev} {x : Ev} (h : LogNest l) (hx : EvNest l x) :
    LogNest (l ++ [x]) := by
  intro pre post em s d e th b a heq
  rcases List.append_eq_append_iff.1 heq with ⟨as, h1, h2⟩ | ⟨bs, h1, h2⟩
  · cases as with
    | nil =>
      simp only [List.nil_append, List.cons.injEq] at h2
      rw [h2.1, evNest_call] at hx
      simp only [List.append_nil] at h1
      rw [h1]
      exact hx s rfl
    | cons y ys => simp at h2
  · cases bs with
    | nil =>
      simp only [List.nil_append, List.cons.injEq] at h2
      rw [← h2.1, evNest_call] at hx
      simp only [List.append_nil] at h1
      rw [← h1]
      exact hx s rfl
    | cons y ys =>
      simp only [List.cons_append, List.cons.injEq] at h2
      exact h pre ys em s d e th b a (by rw [h1, h2.1])

def NestPre (t : Task) (w : World) : Prop :=
  LogNest w.log ∧ (∀ s, 0 ≤ (w.sig s).depth) ∧
    ∀ s, openCalls s w.log = (w.sig s).depth - if t.sig? = some s then 1 else 0

/-- What holds after a task. -/
def NestPost (t : Task) (_ : World) (w' : World) (_ : Res) : Prop :=
  LogNest w'.log ∧ (∀ s, 0 ≤ (w'.sig s).depth) ∧
    ∀ s, openCalls s w'.log = (w'.sig s).depth - if t.sig? = some s then 1 else 0

theorem nestPre_ok (env : Env) : ∀ t w, NestPre t w →
    (body env t w).Ok env NestPre NestPost (NestPost t w) := by
  intro t w ⟨h1, h2, h3⟩
  have dr := @depth_restored env
  unfold_goal t
  all_goals grind [Comp.Ok, NestPre, NestPost]

theorem nestPre_live {env : Env} {Q : Act → Prop} {t w} (h : Live env Q t w) : NestPre t w :=
  hoare_live NestPre NestPost (nestPre_ok env)
    (fun w => LogNest w.log ∧ (∀ s, 0 ≤ (w.sig s).depth) ∧ ∀ s, openCalls s w.log = (w.sig s).depth)
    (by simp [World.init, SigState.init, LogNest, openCalls]) (fun _ _ h => h)
    (fun w p _ h => ⟨h.1, h.2.1, by simpa using h.2.2⟩)
    (fun _ _ _ _ _ h => ⟨h.1, h.2.1, by simpa using h.2.2⟩) h

/-! ## Current emitter in callbacks -/

/-- In the log `l`, the callback recorded by an event saw the right current emitter, or was called
by an `emit_fast` loop. -/
def EvEmitter (l : List Ev) : Ev → Prop
  | .call (some em) (some s) _ e _ _ _ => e = some s ∨ ∃ a, .fast s a em ∈ l
  | _ => True

def LogEmitter (l : List Ev) : Prop := ∀ e ∈ l, EvEmitter l e

@[simp, grind =] theorem evEmitter_req (l s a) : EvEmitter l (.req s a) = True := rfl
@[simp, grind =] theorem evEmitter_fast (l s a e) : EvEmitter l (.fast s a e) = True := rfl
@[simp, grind =] theorem evEmitter_call (l em s d e t b a) : EvEmitter l (.call em s d e t b a) =
    (∀ em', em = some em' → ∀ s', s = some s' → e = some s' ∨ ∃ a, .fast s' a em' ∈ l) := by
  cases em <;> cases s <;> simp [EvEmitter]
@[simp, grind =] theorem evEmitter_ret (l e s b r) : EvEmitter l (.ret e s b r) = True := rfl
@[simp, grind =] theorem evEmitter_put (l t b a e) : EvEmitter l (.put t b a e) = True := rfl
@[simp, grind =] theorem evEmitter_get (l t b a) : EvEmitter l (.get t b a) = True := rfl

theorem EvEmitter.mono {l l' : List Ev} (h : ∀ x ∈ l, x ∈ l') : ∀ {e}, EvEmitter l e → EvEmitter l' e
  | .call (some _) (some _) _ _ _ _ _, .inl he => .inl he
  | .call (some _) (some _) _ _ _ _ _, .inr ⟨a, ha⟩ => .inr ⟨a, h _ ha⟩
  | .call none _ _ _ _ _ _, _ => trivial
  | .call (some _) none _ _ _ _ _, _ => trivial
  | .req .., _ => trivial
  | .fast .., _ => trivial
  | .ret .., _ => trivial
  | .put .., _ => trivial
  | .get .., _ => trivial

@[grind ←] theorem logEmitter_append {l : List Ev} {e : Ev} (h : LogEmitter l) (he : EvEmitter l e) :
    LogEmitter (l ++ [e]) := by
  intro x hx
  rcases List.mem_append.1 hx with hx | hx
  · exact (h x hx).mono (fun y hy => List.mem_append_left _ hy)
  · simp only [List.mem_singleton] at hx
    subst hx
    exact he.mono (fun y hy => List.mem_append_left _ hy)

/-- What a task needs for `LogEmitter`. -/
def EmitterPre (t : Task) (w : World) : Prop :=
  LogEmitter w.log ∧
    ∀ em, t.em? = some em → ∀ s, t.sig? = some s → w.emitter = some s ∨ ∃ a, .fast s a em ∈ w.log

theorem emitterPre_ok (env : Env) : ∀ t w, EmitterPre t w →
    (body env t w).Ok env EmitterPre (fun _ _ w' _ => LogEmitter w'.log) (fun w' _ => LogEmitter w'.log) := by
  intro t w ⟨h1, h3⟩
  have er := @emitter_restored env
  have lp : ∀ {t w w' r}, Runs env t w w' r → ∀ e ∈ w.log, e ∈ w'.log :=
    fun h e he => (log_prefix h).subset he
  unfold_goal t
  all_goals grind [Comp.Ok, EmitterPre]

theorem emitterPre_live {env : Env} {Q : Act → Prop} {t w} (h : Live env Q t w) : EmitterPre t w :=
  hoare_live EmitterPre (fun _ _ w' _ => LogEmitter w'.log) (emitterPre_ok env)
    (fun w => LogEmitter w.log) (by simp [World.init, LogEmitter]) (fun _ _ h => h)
    (fun w p _ h => ⟨h, by simp⟩) (fun _ _ _ _ _ h => h) h

end Psygnal
