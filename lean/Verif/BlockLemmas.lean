import Verif.DeliveryLemmas

/-!
# Blocking and pausing (helper lemmas for C12, C13, C20)
-/
namespace Psygnal

/-! ## API calls that leave block and pause flags alone -/

/-- Same block and pause flags. -/
structure FlagsEq (w w' : World) : Prop where
  app : ∀ x, (w'.sig x).blocked = (w.sig x).blocked ∧ (w'.sig x).paused = (w.sig x).paused ∧
    (w'.sig x).wasBlocked = (w.sig x).wasBlocked

theorem FlagsEq.refl (w : World) : FlagsEq w w := ⟨fun _ => ⟨rfl, rfl, rfl⟩⟩
theorem FlagsEq.trans {a b c : World} (h : FlagsEq a b) (g : FlagsEq b c) : FlagsEq a c :=
  ⟨fun x => ⟨(g.app x).1.trans (h.app x).1, (g.app x).2.1.trans (h.app x).2.1,
    (g.app x).2.2.trans (h.app x).2.2⟩⟩

theorem FlagsEq.upd (w : World) (s : SigId) (f : SigState → SigState)
    (hf : ∀ st, (f st).blocked = st.blocked ∧ (f st).paused = st.paused ∧
      (f st).wasBlocked = st.wasBlocked) : FlagsEq w (w.upd s f) := by
  refine ⟨fun x => ?_⟩
  rw [upd_sig]
  split
  · exact hf _
  · exact ⟨rfl, rfl, rfl⟩

theorem FlagsEq.foldl {α : Type} (g : World → α → World) (hg : ∀ (w : World) a, FlagsEq w (g w a)) :
    ∀ (l : List α) (w : World), FlagsEq w (l.foldl g w)
  | [], w => .refl w
  | a :: l, w => (hg w a).trans (FlagsEq.foldl g hg l (g w a))

theorem flags_plainAppend (w : World) (s : SigId) (x : Slot) : FlagsEq w (w.plainAppend s x) := by
  have h : FlagsEq w (w.upd s (·.appendSlot { x with serial := w.nextSerial })) :=
    FlagsEq.upd w s _ fun st => by
      simp only [SigState.appendSlot]
      repeat' split
      all_goals exact ⟨rfl, rfl, rfl⟩
  exact ⟨h.app⟩

theorem flags_appendSlot (env : Env) (w : World) (s : SigId) (x : Slot) :
    FlagsEq w (w.appendSlot env s x) := by
  unfold World.appendSlot World.connectRelay
  dsimp only
  split
  · refine (flags_plainAppend w s x).trans (.foldl _ (fun w c => ?_) _ _)
    unfold World.connectRelay1
    split
    · exact .refl _
    · exact flags_plainAppend _ _ _
  · exact flags_plainAppend w s x

theorem flags_setSlotsRemoved (env : Env) (w : World) (s : SigId) (ss : List Slot) :
    FlagsEq w (w.setSlotsRemoved env s ss) := by
  have h : FlagsEq w (w.upd s fun st => { st with slots := ss }) := .upd _ _ _ fun _ => ⟨rfl, rfl, rfl⟩
  unfold World.setSlotsRemoved World.disconnectRelay
  dsimp only
  split
  · exact h.trans (.foldl (World.disconnectRelay1 s) (fun w c => .upd _ _ _ fun _ => ⟨rfl, rfl, rfl⟩) _ _)
  · exact h

theorem flags_disconnect1 (env : Env) (w : World) (s : SigId) (c : Option Callable) (m : Bool) :
    FlagsEq w (w.disconnect1 env s c m).1 := by
  unfold World.disconnect1
  split
  · exact flags_setSlotsRemoved ..
  · split
    · exact flags_setSlotsRemoved ..
    · split <;> exact .refl _

theorem flags_disconnectMembers (env : Env) (c : Option Callable) (m : Bool) :
    ∀ (l : List SigId) (w : World), FlagsEq w (World.disconnectMembers env c m l w).1
  | [], _ => .refl _
  | s :: l, w => by
    unfold World.disconnectMembers
    have := flags_disconnect1 env w s c m
    split
    · rename_i w' r h
      rw [h] at this
      exact this.trans (flags_disconnectMembers env c m l w')
    · rename_i h
      rw [h] at this
      exact this

theorem flags_disconnect (env : Env) (w : World) (s : SigId) (c : Option Callable) (m : Bool) :
    FlagsEq w (w.disconnect env s c m).1 := by
  unfold World.disconnect
  split
  · have := flags_disconnectMembers env c m (env.decl s).children w
    split
    · rename_i h; rw [h] at this; exact this.trans (flags_disconnect1 ..)
    · rename_i h; rw [h] at this; exact this
  · exact flags_disconnect1 ..

/-- Only `block`, `unblock` and `pause` change flags. -/
theorem flags_run (env : Env) (w : World) (a : Act) (h1 : ∀ s ex, a ≠ .block s ex)
    (h2 : ∀ s, a ≠ .unblock s) (h3 : ∀ s, a ≠ .pause s) : FlagsEq w (a.run env w).1 := by
  cases a <;> simp only [Act.run]
  case connect =>
    split
    · exact .refl _
    · unfold World.connect
      split
      · split <;> exact .refl _
      · dsimp only
        split
        · exact .refl _
        · exact flags_appendSlot ..
  case connectRaw =>
    split
    · exact .refl _
    · exact flags_appendSlot ..
  case disconnect => exact flags_disconnect ..
  case discard =>
    unfold World.discard
    split
    · exact flags_setSlotsRemoved ..
    · split <;> exact .refl _
  case block => exact absurd rfl (h1 _ _)
  case unblock => exact absurd rfl (h2 _)
  case pause => exact absurd rfl (h3 _)
  all_goals exact ⟨fun _ => ⟨rfl, rfl, rfl⟩⟩

/-! ## `block` and `unblock` -/

/-- The state of a member after the loop of `SignalRelay.block`. -/
theorem block_fold (x : SigId) (ex : List SigId) : ∀ (l : List SigId) (w : World) (s : SigId),
    ((l.foldl (fun w c => if ex.contains c then w else
        let b := (w.sig c).blocked
        (w.upd x fun st => { st with wasBlocked := fun y => if y = c then some b else st.wasBlocked y }).upd
          c fun st => { st with blocked := true }) w).sig s).blocked =
      ((w.sig s).blocked || (l.contains s && !ex.contains s))
  | [], w, s => by simp
  | c :: l, w, s => by
    rw [List.foldl_cons, block_fold x ex l]
    split
    · rename_i h
      by_cases hs : s = c
      · subst hs; simp only [h]; simp
      · simp [hs]
    · rename_i h
      by_cases hs : s = c
      · subst hs; simp at h; simp [h]
      · by_cases hx : s = x
        · subst hx; simp [upd_sig, hs]
        · simp [upd_sig, hs, hx]

@[simp] theorem block_blocked (env : Env) (w : World) (x : SigId) (ex : List SigId) (s : SigId) :
    ((w.block env x ex).sig s).blocked = ((w.sig s).blocked || decide (s = x) ||
      ((env.decl x).isRelay && (env.decl x).children.contains s && !ex.contains s)) := by
  unfold World.block
  dsimp only
  split
  · rename_i h
    rw [block_fold, upd_sig]
    by_cases hs : s = x <;> simp [hs, h]
  · rename_i h
    rw [upd_sig]
    by_cases hs : s = x <;> simp [hs, h]

theorem block_self (env : Env) (w : World) (s : SigId) (ex : List SigId) :
    ((w.block env s ex).sig s).blocked = true := by simp

theorem block_other (env : Env) (w : World) (x : SigId) (ex : List SigId) (s : SigId) (h : x ≠ s)
    (hm : ¬ MemberOf env s x) : ((w.block env x ex).sig s).blocked = (w.sig s).blocked := by
  have : ((env.decl x).isRelay && (env.decl x).children.contains s) = false := by
    simpa [MemberOf] using hm
  rw [block_blocked]
  rw [this]
  simp [Ne.symm h]

theorem block_mono (env : Env) (w : World) (x : SigId) (ex : List SigId) (s : SigId)
    (h : (w.sig s).blocked = true) : ((w.block env x ex).sig s).blocked = true := by simp [h]

/-- The loop of `SignalRelay.unblock` only unblocks, and only members. -/
theorem unblock_fold (x : SigId) : ∀ (l : List SigId) (w : World) (s : SigId),
    ((w.sig s).blocked = false → ((l.foldl (fun w c =>
      let was := ((w.sig x).wasBlocked c).getD false
      let w1 := w.upd x fun st => { st with wasBlocked := fun y => if y = c then none else st.wasBlocked y }
      if was then w1 else w1.upd c fun st => { st with blocked := false }) w).sig s).blocked = false) ∧
    (s ∉ l → ((l.foldl (fun w c =>
      let was := ((w.sig x).wasBlocked c).getD false
      let w1 := w.upd x fun st => { st with wasBlocked := fun y => if y = c then none else st.wasBlocked y }
      if was then w1 else w1.upd c fun st => { st with blocked := false }) w).sig s).blocked =
        (w.sig s).blocked)
  | [], w, s => by simp
  | c :: l, w, s => by
    have h1 := unblock_fold x l
    simp only [List.foldl_cons]
    constructor
    · intro hb
      refine (h1 _ s).1 ?_
      split
      · rw [upd_sig]; split <;> simp_all
      · rw [upd_sig, upd_sig]; repeat' split
        all_goals simp_all
    · intro hs
      rw [List.mem_cons, not_or] at hs
      rw [(h1 _ s).2 hs.2]
      split
      · rw [upd_sig]; split <;> simp_all
      · rw [upd_sig, upd_sig, if_neg hs.1]; repeat' split
        all_goals simp_all

theorem unblock_self (env : Env) (w : World) (s : SigId) : ((w.unblock env s).sig s).blocked = false := by
  unfold World.unblock
  dsimp only
  split
  · exact (unblock_fold s _ _ s).1 (by simp)
  · simp

theorem unblock_other (env : Env) (w : World) (x s : SigId) (h : x ≠ s) (hm : ¬ MemberOf env s x) :
    ((w.unblock env x).sig s).blocked = (w.sig s).blocked := by
  unfold World.unblock
  dsimp only
  split
  · rename_i hr
    rw [(unblock_fold x _ _ s).2 (fun hmem => hm ⟨hr, hmem⟩), upd_sig_ne _ _ (Ne.symm h)]
  · rw [upd_sig_ne _ _ (Ne.symm h)]

@[simp, grind =] theorem block_paused (env : Env) (w : World) (x : SigId) (ex : List SigId) (s : SigId) :
    ((w.block env x ex).sig s).paused = (w.sig s).paused := by
  have key : ∀ (l : List SigId) (w : World), ((l.foldl (fun w c => if ex.contains c then w else
        let b := (w.sig c).blocked
        (w.upd x fun st => { st with wasBlocked := fun y => if y = c then some b else st.wasBlocked y }).upd
          c fun st => { st with blocked := true }) w).sig s).paused = (w.sig s).paused := by
    intro l
    induction l with
    | nil => exact fun _ => rfl
    | cons c l ih =>
      intro w
      rw [List.foldl_cons, ih]
      split
      · rfl
      · simp only [upd_sig]
        repeat' split
        all_goals rfl
  unfold World.block
  dsimp only
  split
  · rw [key, upd_sig]
    split <;> rfl
  · rw [upd_sig]
    split <;> rfl

@[simp, grind =] theorem unblock_paused (env : Env) (w : World) (x s : SigId) :
    ((w.unblock env x).sig s).paused = (w.sig s).paused := by
  have key : ∀ (l : List SigId) (w : World), ((l.foldl (fun w c =>
      let was := ((w.sig x).wasBlocked c).getD false
      let w1 := w.upd x fun st => { st with wasBlocked := fun y => if y = c then none else st.wasBlocked y }
      if was then w1 else w1.upd c fun st => { st with blocked := false }) w).sig s).paused =
        (w.sig s).paused := by
    intro l
    induction l with
    | nil => exact fun _ => rfl
    | cons c l ih =>
      intro w
      rw [List.foldl_cons, ih]
      dsimp only
      split
      · simp only [upd_sig]
        repeat' split
        all_goals rfl
      · simp only [upd_sig]
        repeat' split
        all_goals rfl
  unfold World.unblock
  dsimp only
  split
  · rw [key, upd_sig]
    split <;> rfl
  · rw [upd_sig]
    split <;> rfl

/-! ## User code that changes flags only through contexts -/

/-- `Prog.Calm` for procedures. -/
def Task.Calm (env : Env) (s : SigId) : Task → Prop
  | .prog p => p.Calm env s
  | _ => True

/-- Is this the procedure `s.resume(…)`? -/
def Task.resumes (s : SigId) : Task → Bool
  | .resume x _ => x = s
  | _ => false

theorem flags_calm_run (env : Env) (w : World) (s : SigId) (a : Act) (h : a.Calm env s) :
    (((a.run env w).1).sig s).blocked = (w.sig s).blocked ∧
      (((a.run env w).1).sig s).paused = (w.sig s).paused := by
  by_cases h1 : ∃ x ex, a = .block x ex
  · obtain ⟨x, ex, rfl⟩ := h1
    exact ⟨block_other _ _ _ _ _ h.1 h.2, block_paused ..⟩
  · by_cases h2 : ∃ x, a = .unblock x
    · obtain ⟨x, rfl⟩ := h2
      exact ⟨unblock_other _ _ _ _ h.1 h.2, unblock_paused ..⟩
    · by_cases h3 : ∃ x, a = .pause x
      · obtain ⟨x, rfl⟩ := h3
        simp only [Act.run, World.pause]
        rw [upd_sig_ne _ _ (Ne.symm h)]
        exact ⟨rfl, rfl⟩
      · have := flags_run env w a (fun x ex e => h1 ⟨x, ex, e⟩) (fun x e => h2 ⟨x, e⟩)
          (fun x e => h3 ⟨x, e⟩)
        exact ⟨(this.app s).1, (this.app s).2.1⟩

grind_pattern flags_calm_run => ((a.run env w).1).sig s

@[grind .] theorem calm_task {env : Env} {s : SigId} {w : World} {a : Act} {t : Task}
    (h : a.task? w = some t) (hc : a.Calm env s) : t.Calm env s ∧ t.resumes s = false := by
  cases a <;> simp [Act.task?] at h
  case emitQueued th => cases th <;> simp at h <;> subst h <;> simp [Task.Calm, Task.resumes]
  all_goals subst h
  all_goals simp_all [Task.Calm, Task.resumes, Act.Calm]

/-- Blocking and pausing by contexts is undone at the end, whatever happens inside. -/
theorem calm_restores {env : Env} {s : SigId} (henv : env.Calm s) {t w w' r} (h : Runs env t w w' r) :
    t.Calm env s → (w'.sig s).blocked = (w.sig s).blocked ∧
      (t.resumes s = false → (w'.sig s).paused = (w.sig s).paused) ∧
      (t.resumes s = true → (w'.sig s).paused = false) := by
  refine Runs.induct (P := fun t w w' _ => t.Calm env s → (w'.sig s).blocked = (w.sig s).blocked ∧
      (t.resumes s = false → (w'.sig s).paused = (w.sig s).paused) ∧
      (t.resumes s = true → (w'.sig s).paused = false)) ?_ h
  clear h
  intro t w w' r h hc
  unfold_body t h
  all_goals grind [Comp.Via, Task.Calm, Prog.Calm, Task.resumes, Env.Calm, block_other, unblock_other,
    block_self, unblock_self, block_blocked]

/-! ## Nothing is emitted -/

/-- The signal whose emission this procedure carries out. -/
def Task.loopOf? : Task → Option SigId
  | .runLoop s _ => some s
  | .inner s _ => some s
  | .forSlots s _ _ _ => some s
  | .forLatest s _ _ _ => some s
  | .forQueued s _ _ _ => some s
  | .whileQueued s _ _ => some s
  | .cb _ src _ _ => src
  | .direct _ src _ _ => src
  | .replay s _ => some s
  | _ => none

@[grind .] theorem task_loopOf {w : World} {a : Act} {t : Task} (h : a.task? w = some t) :
    t.loopOf? = none := by
  cases a <;> simp [Act.task?] at h
  case emitQueued th => cases th <;> simp at h <;> subst h <;> rfl
  all_goals subst h
  all_goals rfl

@[grind =] theorem sigEvents_append (s : SigId) (l : List Ev) (e : Ev) :
    sigEvents s (l ++ [e]) = sigEvents s l ++ sigEvents s [e] := by simp [sigEvents]

@[grind =] theorem sigEvents_req (s s' : SigId) (a : Args) :
    sigEvents s [.req s' a] = if s' = s then [.req s' a] else [] := by
  simp only [sigEvents, List.filter_cons, List.filter_nil, decide_eq_true_eq]
@[grind =] theorem sigEvents_fast (s s' : SigId) (a : Args) (em : Nat) :
    sigEvents s [.fast s' a em] = if s' = s then [.fast s' a em] else [] := by
  simp only [sigEvents, List.filter_cons, List.filter_nil, decide_eq_true_eq]
@[grind =] theorem sigEvents_call (s : SigId) (em src d e th b a) :
    sigEvents s [.call em src d e th b a] = if src = some s then [.call em src d e th b a] else [] := by
  simp only [sigEvents, List.filter_cons, List.filter_nil, decide_eq_true_eq]
@[grind =] theorem sigEvents_ret (s : SigId) (em src b r) :
    sigEvents s [.ret em src b r] = if src = some s then [.ret em src b r] else [] := by
  simp only [sigEvents, List.filter_cons, List.filter_nil, decide_eq_true_eq]
@[grind =] theorem sigEvents_put (s : SigId) (t b a em) : sigEvents s [.put t b a em] = [] := by
  simp [sigEvents]
@[grind =] theorem sigEvents_get (s : SigId) (t b a) : sigEvents s [.get t b a] = [] := by
  simp [sigEvents]

/-- Blocked, with nothing recorded, and not currently emitting `s`. -/
def BlockedPre (env : Env) (s : SigId) (t : Task) (w : World) : Prop :=
  t.Calm env s ∧ t.loopOf? ≠ some s ∧ (w.sig s).blocked = true ∧ (w.sig s).argsQueue = []

theorem blockedPre_ok {env : Env} {s : SigId} (henv : env.Calm s) (hs : (env.decl s).isRelay = false) :
    ∀ t w, BlockedPre env s t w → (body env t w).Ok env (BlockedPre env s)
      (fun _ w w' _ => (w'.sig s).blocked = true ∧ (w'.sig s).argsQueue = [] ∧
        sigEvents s w'.log = sigEvents s w.log)
      (fun w' _ => (w'.sig s).blocked = true ∧ (w'.sig s).argsQueue = [] ∧
        sigEvents s w'.log = sigEvents s w.log) := by
  intro t w ⟨h1, h2, h3, h4⟩
  unfold_goal t
  all_goals grind [Comp.Ok, BlockedPre, Task.Calm, Prog.Calm, Env.Calm, Task.loopOf?, block_other,
    unblock_other, block_mono]

/-- Paused, not currently emitting or resuming `s`. -/
def PausedPre (env : Env) (s : SigId) (t : Task) (w : World) : Prop :=
  t.Calm env s ∧ t.loopOf? ≠ some s ∧ t.resumes s = false ∧ (w.sig s).paused = true

theorem pausedPre_ok {env : Env} {s : SigId} (henv : env.Calm s) (hs : (env.decl s).isRelay = false) :
    ∀ t w, PausedPre env s t w → (body env t w).Ok env (PausedPre env s)
      (fun _ w w' _ => (w'.sig s).paused = true ∧ (w.sig s).argsQueue <+: (w'.sig s).argsQueue ∧
        sigEvents s w'.log = sigEvents s w.log)
      (fun w' _ => (w'.sig s).paused = true ∧ (w.sig s).argsQueue <+: (w'.sig s).argsQueue ∧
        sigEvents s w'.log = sigEvents s w.log) := by
  have tr : ∀ {a b c : List Args}, a <+: b → b <+: c → a <+: c := fun h g => h.trans g
  have rf : ∀ {a : List Args}, a <+: a := List.prefix_rfl
  have ap2 : ∀ {a : List Args} {x : Args}, a <+: a ++ [x] := List.prefix_append _ _
  intro t w ⟨h1, h2, h3, h4⟩
  unfold_goal t
  all_goals grind [Comp.Ok, PausedPre, Task.Calm, Prog.Calm, Env.Calm, Task.loopOf?, Task.resumes]

/-! ## Resuming -/

@[grind .] theorem noPause_task {s : SigId} {w : World} {a : Act} {t : Task}
    (h : a.task? w = some t) (hc : NoPause s a) : t.Only (NoPause s) ∧ t.resumes s = false := by
  cases a <;> simp [Act.task?] at h
  case emitQueued th => cases th <;> simp at h <;> subst h <;> simp [Task.Only, Task.resumes]
  all_goals subst h
  all_goals simp_all [Task.Only, Task.resumes, NoPause]

theorem noPause_run (env : Env) (w : World) (s : SigId) (a : Act) (h : NoPause s a) :
    (((a.run env w).1).sig s).paused = (w.sig s).paused := by
  by_cases h1 : ∃ x ex, a = .block x ex
  · obtain ⟨x, ex, rfl⟩ := h1
    exact block_paused ..
  · by_cases h2 : ∃ x, a = .unblock x
    · obtain ⟨x, rfl⟩ := h2
      exact unblock_paused ..
    · by_cases h3 : ∃ x, a = .pause x
      · obtain ⟨x, rfl⟩ := h3
        simp only [Act.run, World.pause]
        rw [upd_sig_ne _ _ (Ne.symm h)]
      · exact ((flags_run env w a (fun x ex e => h1 ⟨x, ex, e⟩) (fun x e => h2 ⟨x, e⟩)
          (fun x e => h3 ⟨x, e⟩)).app s).2.1

grind_pattern noPause_run => ((a.run env w).1).sig s, NoPause s a

/-- Not paused, and this recorded. -/
def NoPausePre (s : SigId) (q : List Args) (t : Task) (w : World) : Prop :=
  t.Only (NoPause s) ∧ t.resumes s = false ∧ (w.sig s).paused = false ∧ (w.sig s).argsQueue = q

theorem noPausePre_ok {env : Env} {s : SigId} {q : List Args} (henv : env.Only (NoPause s)) :
    ∀ t w, NoPausePre s q t w → (body env t w).Ok env (NoPausePre s q)
      (fun _ _ w' _ => (w'.sig s).paused = false ∧ (w'.sig s).argsQueue = q)
      (fun w' _ => (w'.sig s).paused = false ∧ (w'.sig s).argsQueue = q) := by
  intro t w ⟨h1, h2, h3, h4⟩
  unfold_goal t
  all_goals grind [Comp.Ok, NoPausePre, Task.Only, Prog.Only, Env.Only, NoPause, Task.resumes]

theorem noPause_within {env : Env} {s : SigId} {q : List Args} (henv : env.Only (NoPause s)) {t w t1 w1}
    (h : Within env t w t1 w1) (h0 : NoPausePre s q t w) : NoPausePre s q t1 w1 := by
  induction h with
  | refl => exact h0
  | step _ hr ih =>
    exact Comp.Ok.reaches (fun h h' => hoare _ _ (noPausePre_ok henv) h h') _ _ _
      (noPausePre_ok henv _ _ ih) hr

theorem clearArgs_eq (w : World) (s : SigId) (h : (w.sig s).argsQueue = []) : w.clearArgs s = w := by
  have : (w.clearArgs s).sig = w.sig := by
    funext x
    simp only [World.clearArgs, upd_sig]
    split
    · rename_i hx
      subst hx
      rw [← h]
    · rfl
  calc w.clearArgs s = { w with sig := (w.clearArgs s).sig } := rfl
    _ = w := by rw [this]

/-- One step of the replay loop. -/
theorem replay_step {env : Env} {s i w w'} (h : Runs env (.replay s i) w w' (.ok ())) :
    ((w.sig s).argsQueue.length ≤ i ∧ w' = w) ∨
    ∃ a w1, (w.sig s).argsQueue[i]? = some a ∧ Runs env (.runLoop s a) w w1 (.ok ()) ∧
      Runs env (.replay s (i + 1)) w1 w' (.ok ()) ∧
      Within env (.replay s i) w (.runLoop s a) w ∧
      Within env (.replay s i) w (.replay s (i + 1)) w1 := by
  cases hq : (w.sig s).argsQueue[i]? with
  | none =>
    rw [runs_iff] at h
    simp only [body, hq, Comp.Via] at h
    exact .inl ⟨List.getElem?_eq_none_iff.1 hq, h.1⟩
  | some a =>
    have hbody : body env (.replay s i) w = .call (.runLoop s a) w fun w' r =>
        match r with
        | .error e => .done w' (.error e)
        | .ok _ => .call (.replay s (i + 1)) w' .done := by
      simp only [body, hq]
      rfl
    rw [runs_iff, hbody] at h
    obtain ⟨w1, r1, h1, h2⟩ := h
    match r1, h2 with
    | .error e, h2 => simp [Comp.Via] at h2
    | .ok (), ⟨w2, r2, h3, h4, h5⟩ =>
      subst h4; subst h5
      refine .inr ⟨a, w1, rfl, h1, h3, .step .refl ?_, .step .refl ?_⟩
      · rw [hbody]; exact .inl ⟨rfl, rfl⟩
      · rw [hbody]; exact .inr ⟨w1, .ok (), h1, .inl ⟨rfl, rfl⟩⟩

theorem replay_emissions {env : Env} {Q : Act → Prop} {s : SigId} {q : List Args} {xs : List Slot}
    (hm : (env.decl s).mode = .immediate) : ∀ (n i : Nat) (w w' : World), q.length - i = n →
    Live env Q (.replay s i) w → Runs env (.replay s i) w w' (.ok ()) →
    (∀ t1 w1, Within env (.replay s i) w t1 w1 → (w1.sig s).slots = xs ∧ (w1.sig s).argsQueue = q) →
    (w'.sig s).argsQueue = q ∧ ∃ l, w'.log = w.log ++ l ∧ Emissions s w.thread xs (q.drop i) l := by
  intro n
  induction n with
  | zero =>
    intro i w w' hn hl h hk
    have hq := (hk _ _ .refl).2
    rcases replay_step h with ⟨-, rfl⟩ | ⟨a, w1, ha, -⟩
    · refine ⟨hq, [], by simp, ?_⟩
      rw [List.drop_eq_nil_of_le (by omega)]
      rfl
    · rw [hq, List.getElem?_eq_none_iff.2 (by omega)] at ha
      simp at ha
  | succ n ih =>
    intro i w w' hn hl h hk
    have hq := (hk _ _ .refl).2
    rcases replay_step h with ⟨hle, -⟩ | ⟨a, w1, ha, h1, h2, hw1, hw2⟩
    · rw [hq] at hle
      omega
    · rw [hq] at ha
      obtain ⟨hi, ha⟩ := List.getElem?_eq_some_iff.1 ha
      have hl1 := live_within hl hw1
      obtain ⟨l1, hlog1, hd1⟩ := runLoop_slots (t1 := .runLoop s a) hm h1 .refl
        ((queuePre_live hl1 s (by simp [hm])).2 (by simp)) rfl (deadInv_live hl1)
        (fun t2 w2 h => (hk t2 w2 (hw1.trans h)).1)
      obtain ⟨hqe, l2, hlog2, he⟩ := ih (i + 1) w1 w' (by omega) (live_within hl hw2) h2
        (fun t1 w2 h => hk t1 w2 (hw2.trans h))
      refine ⟨hqe, .req s a :: (l1 ++ l2), by rw [hlog2, hlog1]; simp, ?_⟩
      rw [List.drop_eq_getElem_cons hi, ha]
      exact ⟨w.nextEm, l1, l2, rfl, hd1, by rw [← thread_const h1]; exact he⟩

theorem replay_emitAll {env : Env} {s : SigId} {q : List Args} : ∀ (n i : Nat) (w w' : World),
    q.length - i = n → Runs env (.replay s i) w w' (.ok ()) →
    (∀ t1 w1, Within env (.replay s i) w t1 w1 → (w1.sig s).argsQueue = q) →
    (∀ j w1, Within env (.replay s i) w (.replay s j) w1 → (w1.sig s).blocked = false ∧
      (w1.sig s).paused = false ∧ w1.hook = none) →
    (w'.sig s).argsQueue = q ∧ EmitAll env s (q.drop i) w w' := by
  intro n
  induction n with
  | zero =>
    intro i w w' hn h hk _
    have hq := hk _ _ .refl
    rcases replay_step h with ⟨-, rfl⟩ | ⟨a, w1, ha, -⟩
    · refine ⟨hq, ?_⟩
      rw [List.drop_eq_nil_of_le (by omega)]
      rfl
    · rw [hq, List.getElem?_eq_none_iff.2 (by omega)] at ha
      simp at ha
  | succ n ih =>
    intro i w w' hn h hk hf
    have hq := hk _ _ .refl
    rcases replay_step h with ⟨hle, -⟩ | ⟨a, w1, ha, h1, h2, hw1, hw2⟩
    · rw [hq] at hle
      omega
    · rw [hq] at ha
      obtain ⟨hi, ha⟩ := List.getElem?_eq_some_iff.1 ha
      obtain ⟨hqe, he⟩ := ih (i + 1) w1 w' (by omega) h2 (fun t1 w2 h => hk t1 w2 (hw2.trans h))
        (fun j w2 h => hf j w2 (hw2.trans h))
      refine ⟨hqe, ?_⟩
      rw [List.drop_eq_getElem_cons hi, ha]
      refine ⟨w1, ?_, he⟩
      obtain ⟨hb, hp, hh⟩ := hf i w .refl
      rw [runs_iff]
      simp only [body, hb, hp, hh, Bool.false_eq_true, if_false, false_and]
      exact ⟨w1, .ok (), h1, rfl, rfl⟩

end Psygnal
