import Verif.Swap
import Verif.Separate
import Verif.CoreInv
import Verif.SlotLemmas
import Verif.ModesLemmas

/-! # Lemmas for C87: `emit_fast` in the place of `emit` -/
namespace Psygnal
namespace Swap

/-- Another emitter, other greatest depths, another log. -/
def alt (e : Option SigId) (m : SigId → Int) (l : List Ev) (w : World) : World :=
  { w with sig := fun s => { w.sig s with maxDepth := m s }, emitter := e, log := l }

variable {e : Option SigId} {m : SigId → Int} {l : List Ev} {env : Env} {w : World}

theorem upd_alt {s : SigId} {f : SigState → SigState}
    (h : ∀ st a, f { st with maxDepth := a } = { f st with maxDepth := a }) : (alt e m l w).upd s f = alt e m l (w.upd s f) := by
  simp only [alt, World.upd, World.mk.injEq, and_true]
  funext x
  split
  · exact h _ _
  · rfl

theorem fold_alt {α : Type} {g : World → α → World} (h : ∀ w c, g (alt e m l w) c = alt e m l (g w c)) :
    ∀ (k : List α) (w : World), k.foldl g (alt e m l w) = alt e m l (k.foldl g w)
  | [], _ => rfl
  | c :: k, w => by rw [List.foldl_cons, List.foldl_cons, h, fold_alt h k]

theorem append_state (st : SigState) (x : Slot) (a : Int) :
    ({ st with maxDepth := a } : SigState).appendSlot x = { st.appendSlot x with maxDepth := a } := by
  simp only [SigState.appendSlot]
  split
  · split <;> rfl
  · rfl

theorem plainAppend_alt {s : SigId} {x : Slot} : (alt e m l w).plainAppend s x = alt e m l (w.plainAppend s x) := by
  simp only [World.plainAppend]
  rw [upd_alt (fun st a => append_state st _ a)]
  rfl

theorem connectRelay1_alt {r c : SigId} : World.connectRelay1 r (alt e m l w) c = alt e m l (World.connectRelay1 r w c) := by
  simp only [World.connectRelay1]
  by_cases h : (slotIndex (.relay r) (w.sig c).slots).isSome
  · rw [if_pos h, if_pos (show (slotIndex (.relay r) ((alt e m l w).sig c).slots).isSome from h)]
  · rw [if_neg h, if_neg (show ¬ (slotIndex (.relay r) ((alt e m l w).sig c).slots).isSome from h), plainAppend_alt]

theorem disconnectRelay1_alt {r c : SigId} : World.disconnectRelay1 r (alt e m l w) c = alt e m l (World.disconnectRelay1 r w c) :=
  upd_alt fun _ _ => rfl

theorem appendSlot_alt {s : SigId} {x : Slot} : (alt e m l w).appendSlot env s x = alt e m l (w.appendSlot env s x) := by
  simp only [World.appendSlot]
  rw [plainAppend_alt]
  by_cases h : (env.decl s).isRelay ∧ ((w.plainAppend s x).sig s).slots.length = 1
  · rw [if_pos h]
    refine (if_pos h).trans ?_
    exact fold_alt (fun w c => connectRelay1_alt) _ _
  · rw [if_neg h]
    exact if_neg h

theorem removed_alt {s : SigId} {k : List Slot} : (alt e m l w).setSlotsRemoved env s k = alt e m l (w.setSlotsRemoved env s k) := by
  simp only [World.setSlotsRemoved]
  rw [upd_alt (fun st a => rfl)]
  split
  · exact fold_alt (fun w c => disconnectRelay1_alt) _ _
  · rfl

theorem disconnect1_alt {s : SigId} {c : Option Callable} {b : Bool} :
    (alt e m l w).disconnect1 env s c b = (alt e m l (w.disconnect1 env s c b).1, (w.disconnect1 env s c b).2) := by
  cases c with
  | none => simp only [World.disconnect1, removed_alt]
  | some c =>
    simp only [World.disconnect1]
    rw [show ((alt e m l w).sig s).slots = (w.sig s).slots from rfl]
    cases slotIndex c.base (w.sig s).slots with
    | none => cases b <;> rfl
    | some i => simp only [removed_alt]

theorem members_alt {c : Option Callable} {b : Bool} : ∀ (k : List SigId) (w : World),
    World.disconnectMembers env c b k (alt e m l w) =
      (alt e m l (World.disconnectMembers env c b k w).1, (World.disconnectMembers env c b k w).2)
  | [], _ => rfl
  | s :: k, w => by
    simp only [World.disconnectMembers, disconnect1_alt]
    rcases w.disconnect1 env s c b with ⟨w1, r | e⟩
    · rfl
    · exact members_alt k w1

theorem disconnect_alt {s : SigId} {c : Option Callable} {b : Bool} :
    (alt e m l w).disconnect env s c b = (alt e m l (w.disconnect env s c b).1, (w.disconnect env s c b).2) := by
  simp only [World.disconnect, members_alt]
  by_cases h : (env.decl s).isRelay
  · simp only [if_pos h]
    rcases World.disconnectMembers env c b (env.decl s).children w with ⟨w1, r | e⟩
    · rfl
    · exact disconnect1_alt
  · simp only [if_neg h]
    exact disconnect1_alt

theorem discard_alt {s : SigId} {b : Base} {k : Bool} :
    (alt e m l w).discard env s b k = (alt e m l (w.discard env s b k).1, (w.discard env s b k).2) := by
  simp only [World.discard]
  rw [show ((alt e m l w).sig s).slots = (w.sig s).slots from rfl]
  cases removeKey b (w.sig s).slots with
  | none => cases k <;> rfl
  | some l => simp only [removed_alt]

theorem block_alt {s : SigId} {ex : List SigId} : (alt e m l w).block env s ex = alt e m l (w.block env s ex) := by
  simp only [World.block]
  rw [upd_alt (fun st a => rfl)]
  split
  · refine fold_alt (fun w c => ?_) _ _
    split
    · rfl
    · rw [upd_alt (fun st a => rfl), upd_alt (fun st a => rfl)]
      rfl
  · rfl

theorem unblock_alt {s : SigId} : (alt e m l w).unblock env s = alt e m l (w.unblock env s) := by
  simp only [World.unblock]
  rw [upd_alt (fun st a => rfl)]
  split
  · refine fold_alt (fun w c => ?_) _ _
    rw [upd_alt (fun st a => rfl)]
    by_cases h : ((w.sig s).wasBlocked c).getD false = true
    · rw [if_pos h]; exact if_pos h
    · rw [if_neg h]
      refine (if_neg h).trans ?_
      rw [upd_alt (fun st a => rfl)]
  · rfl

theorem connect_alt {s : SigId} {c : Callable} {o : ConnOpts} :
    (alt e m l w).connect env s c o = (alt e m l (w.connect env s c o).1, (w.connect env s c o).2) := by
  simp only [World.connect, appendSlot_alt]
  rw [show ((alt e m l w).sig s).slots = (w.sig s).slots from rfl]
  by_cases h : o.unique ≠ .no ∧ (slotIndex c.base (w.sig s).slots).isSome
  · simp only [if_pos h]
    split <;> rfl
  · simp only [if_neg h]
    split <;> rfl

theorem run_alt (a : Act) (ha : a ≠ .currentEmitter) : a.run env (alt e m l w) = (alt e m l (a.run env w).1, (a.run env w).2) := by
  cases a with
  | connect s c o =>
    simp only [Act.run, connect_alt]
    by_cases h : c.base.isDead w = true
    · rw [if_pos h]; exact if_pos h
    · rw [if_neg h]; exact if_neg h
  | connectRaw s b m p =>
    simp only [Act.run, appendSlot_alt]
    by_cases h : b.isDead w = true
    · rw [if_pos h]; exact if_pos h
    · rw [if_neg h]; exact if_neg h
  | disconnect s c m => exact disconnect_alt
  | discard s b m => exact discard_alt
  | block s ex => simp only [Act.run, block_alt]
  | unblock s => simp only [Act.run, unblock_alt]
  | pause s =>
    simp only [Act.run, World.pause]
    rw [upd_alt (fun st a => rfl)]
  | kill o => rfl
  | currentEmitter => exact absurd rfl ha
  | _ => rfl

/-- Other code of the callbacks. -/
def withBody (env : Env) (b : Base → Args → Prog) : Env := { env with body := b }

theorem members_body (g : Base → Args → Prog) {c : Option Callable} {b : Bool} : ∀ (l : List SigId) (w : World),
    World.disconnectMembers (withBody env g) c b l w = World.disconnectMembers env c b l w
  | [], _ => rfl
  | s :: l, w => by
    simp only [World.disconnectMembers]
    rw [show w.disconnect1 (withBody env g) s c b = w.disconnect1 env s c b from rfl]
    rcases w.disconnect1 env s c b with ⟨w1, r | e⟩
    · rfl
    · exact members_body g l w1

theorem run_body (a : Act) (g : Base → Args → Prog) : a.run (withBody env g) w = a.run env w := by
  cases a with
  | disconnect s c b =>
    simp only [Act.run, World.disconnect, members_body]
    rfl
  | _ => rfl

/-! ## What holds of the states -/

/-- What holds of the one run: no hook; plain signals have an empty queue and are not left more often than entered; only members of groups
have relaying callbacks, which are not for other threads, and these do not wait in thread queues. -/
structure Good (env : Env) (w : World) : Prop where
  hook : w.hook = none
  st : ∀ s, env.Plain s → (w.sig s).emitQueue = [] ∧ 0 ≤ (w.sig s).depth
  slots : ∀ s, ∀ x ∈ (w.sig s).slots, ∀ r, x.base = .relay r → ¬ env.Free s ∧ x.thread = none
  tq : ∀ t, ∀ x ∈ w.tq t, ∀ r, x.1.base ≠ .relay r

/-- What relates the two runs. -/
structure Ok (env : Env) (m : SigId → Int) (l : List Ev) (w : World) : Prop where
  max : ∀ s, ¬ env.Plain s → m s = (w.sig s).maxDepth
  log : l.map Ev.bare = w.log.map Ev.bare

theorem Good.sub {w' : World} (h : Good env w) (h1 : SubConn w w') (h2 : ∀ s, (w.sig s).EmitFrame (w'.sig s)) (h3 : w'.hook = none)
    (h4 : w'.tq = w.tq) : Good env w' :=
  ⟨h3, fun s hs => by rw [(h2 s).emitQueue, (h2 s).depth]; exact h.st s hs,
    fun s x hx => h.slots s x ((h1.slots s).subset hx), by rw [h4]; exact h.tq⟩

theorem Good.upd (h : Good env w) {s : SigId} {g : SigState → SigState} (h1 : (g (w.sig s)).slots = (w.sig s).slots)
    (h2 : env.Plain s → (g (w.sig s)).emitQueue = [] ∧ 0 ≤ (g (w.sig s)).depth) : Good env (w.upd s g) := by
  refine ⟨h.hook, fun y hp => ?_, fun y z hz => ?_, h.tq⟩
  · by_cases hy : y = s
    · subst hy; rw [upd_sig_same]; exact h2 hp
    · rw [upd_sig_ne _ _ hy]; exact h.st y hp
  · by_cases hy : y = s
    · subst hy; rw [upd_sig_same, h1] at hz; exact h.slots y z hz
    · rw [upd_sig_ne _ _ hy] at hz; exact h.slots y z hz

/-- Changes of one signal that concern neither callbacks nor emission. -/
theorem Good.upd' (h : Good env w) {s : SigId} {g : SigState → SigState} (h1 : ∀ st, (g st).slots = st.slots)
    (h2 : ∀ st, (g st).emitQueue = st.emitQueue ∧ (g st).depth = st.depth) : Good env (w.upd s g) :=
  h.upd (h1 _) fun hp => by rw [(h2 _).1, (h2 _).2]; exact h.st s hp

theorem Good.ev (h : Good env w) {x : Ev} : Good env (w.ev x) := ⟨h.hook, h.st, h.slots, h.tq⟩

theorem Good.append (h : Good env w) {s : SigId} {x : Slot} (hx : ∀ r, x.base = .relay r → ¬ env.Free s ∧ x.thread = none) :
    Good env (w.plainAppend s x) := by
  refine ⟨h.hook, fun y hp => ?_, fun y z hz => ?_, h.tq⟩
  · have := h.st y hp
    by_cases hy : y = s
    · subst hy
      simp only [World.plainAppend, upd_sig_same, SigState.appendSlot]
      split
      · split <;> exact this
      · exact this
    · simp only [World.plainAppend, upd_sig_ne _ _ hy]; exact this
  · by_cases hy : y = s
    · subst hy
      simp only [World.plainAppend, upd_sig_same] at hz
      rcases Modes.mem_append hz with rfl | hz
      · exact hx
      · exact h.slots y z hz
    · simp only [World.plainAppend, upd_sig_ne _ _ hy] at hz
      exact h.slots y z hz

theorem Good.appendSlot (h : Good env w) {s : SigId} {x : Slot} (hx : ∀ r, x.base ≠ .relay r) : Good env (w.appendSlot env s x) := by
  have h1 := h.append (s := s) (x := x) fun r hr => absurd hr (hx r)
  simp only [World.appendSlot]
  split
  · have key : ∀ (k : List SigId) (w : World), (∀ c ∈ k, c ∈ (env.decl s).children) → Good env w →
        Good env (k.foldl (World.connectRelay1 s) w) := by
      intro k
      induction k with
      | nil => intro w _ h; exact h
      | cons c k ih =>
        intro w hk h
        refine ih _ (fun y hy => hk y (by simp [hy])) ?_
        unfold World.connectRelay1
        split
        · exact h
        · exact h.append fun r _ => ⟨fun hf => hf s (hk c (by simp)), rfl⟩
    exact key _ _ (fun _ h => h) h1
  · exact h1

theorem Good.act (h : Good env w) {a : Act} (ha : a.Blind env) : Good env (a.run env w).1 := by
  by_cases h1 : ∃ s c o, a = .connect s c o
  · obtain ⟨s, c, o, rfl⟩ := h1
    simp only [Act.run, World.connect]
    repeat' split
    all_goals first | exact h | exact h.appendSlot ha
  · by_cases h2 : ∃ s b m p, a = .connectRaw s b m p
    · obtain ⟨s, b, m, p, rfl⟩ := h2
      simp only [Act.run]
      split
      · exact h
      · exact h.appendSlot ha
    · refine h.sub (sub_run w a (fun s c o e => h1 ⟨s, c, o, e⟩) (fun s b m p e => h2 ⟨s, b, m, p, e⟩)) (frame_run env w a).sig ?_
        (frame_run env w a).tq
      by_cases h3 : ∃ k, a = .setHook k
      · obtain ⟨k, rfl⟩ := h3
        exact ha
      · rw [(frame_run_noHook env w a (fun k e => h3 ⟨k, e⟩)).hook]
        exact h.hook

theorem Ok.act (h : Ok env m l w) (a : Act) : Ok env m l (a.run env w).1 :=
  ⟨fun s hs => by rw [((frame_run env w a).sig s).maxDepth]; exact h.max s hs, by rw [(frame_run env w a).log]; exact h.log⟩

theorem Ok.upd' (h : Ok env m l w) {s : SigId} {g : SigState → SigState} (h1 : ∀ st, (g st).maxDepth = st.maxDepth) : Ok env m l (w.upd s g) := by
  refine ⟨fun y hp => ?_, h.log⟩
  by_cases hy : y = s
  · subst hy; rw [upd_sig_same, h1]; exact h.max y hp
  · rw [upd_sig_ne _ _ hy]; exact h.max y hp

theorem Ok.ev (h : Ok env m l w) {x y : Ev} (hx : x.bare = y.bare) : Ok env m (l ++ [x]) (w.ev y) :=
  ⟨h.max, by simp only [World.ev, List.map_append, h.log, List.map_cons, List.map_nil, hx]⟩

/-- Change at one signal. -/
def put (m : SigId → Int) (s : SigId) (x : Int) : SigId → Int := fun y => if y = s then x else m y

/-- Changes of one signal in both runs. -/
theorem alt_upd {s : SigId} {g : SigState → SigState} {x : Int}
    (h : g { w.sig s with maxDepth := m s } = { g (w.sig s) with maxDepth := x }) :
    (alt e m l w).upd s g = alt e (put m s x) l (w.upd s g) := by
  simp only [alt, World.upd, World.mk.injEq, and_true]
  funext y
  by_cases hy : y = s
  · subst hy; simp only [if_true, put]; exact h
  · simp only [if_neg hy, put]

/-! ## Executions of the other program, from those of the loop over the callbacks -/

section
variable {v v1 : World} {s : SigId} {a : Args} {r : Res} {c : Bool}

theorem emit_blocked (h : (v.sig s).blocked = true) : Runs env (.emit s a c) v v (.ok ()) := by
  rw [runs_iff]; simp only [body, if_pos h]; exact ⟨rfl, rfl⟩

theorem fast_blocked (h : (v.sig s).blocked = true) : Runs env (.emitFast s a) v v (.ok ()) := by
  rw [runs_iff]; simp only [body, if_pos h]; exact ⟨rfl, rfl⟩

theorem emit_paused (h : ¬ (v.sig s).blocked = true) (h2 : c = true → bindsPos (env.decl s).sig a.length = true) (h3 : (v.sig s).paused = true) :
    Runs env (.emit s a c) v (v.collect s a) (.ok ()) := by
  rw [runs_iff]
  have : ¬ (c = true ∧ bindsPos (env.decl s).sig a.length = false) := fun hh => by rw [h2 hh.1] at hh; cases hh.2
  simp only [body, if_neg h, if_neg this, if_pos h3]; exact ⟨rfl, rfl⟩

theorem fast_paused (h : ¬ (v.sig s).blocked = true) (h3 : (v.sig s).paused = true) :
    Runs env (.emitFast s a) v (v.collect s a) (.ok ()) := by
  rw [runs_iff]
  simp only [body, if_neg h, if_pos h3]; exact ⟨rfl, rfl⟩

theorem emit_loop (h : ¬ (v.sig s).blocked = true) (h2 : c = true → bindsPos (env.decl s).sig a.length = true)
    (h3 : ¬ (v.sig s).paused = true) (h4 : v.hook = none) (h5 : Runs env (.runLoop s a) v v1 r) : Runs env (.emit s a c) v v1 r := by
  rw [runs_iff]
  have : ¬ (c = true ∧ bindsPos (env.decl s).sig a.length = false) := fun hh => by rw [h2 hh.1] at hh; cases hh.2
  simp only [body, if_neg h, if_neg this, if_neg h3, h4]
  exact ⟨_, _, h5, rfl, rfl⟩

theorem loop_limit (h : (v.sig s).depth ≥ LIMIT) : Runs env (.runLoop s a) v v (.error .recursion) := by
  rw [runs_iff]; simp only [body, if_pos h]; exact ⟨rfl, rfl⟩

theorem fast_limit (h : ¬ (v.sig s).blocked = true) (h3 : ¬ (v.sig s).paused = true) (h4 : (v.sig s).depth ≥ LIMIT) :
    Runs env (.emitFast s a) v v (.error .recursion) := by
  rw [runs_iff]; simp only [body, if_neg h, if_neg h3, if_pos h4]; exact ⟨rfl, rfl⟩

theorem fast_loop (h : ¬ (v.sig s).blocked = true) (h3 : ¬ (v.sig s).paused = true) (h4 : ¬ (v.sig s).depth ≥ LIMIT)
    (h5 : Runs env (.forSlots s v.nextEm a 0) (v.startFast s a) v1 r) : Runs env (.emitFast s a) v (v1.endFast s) (wrapRes s r) := by
  rw [runs_iff]; simp only [body, if_neg h, if_neg h3, if_neg h4]; exact ⟨_, _, h5, rfl, rfl⟩

/-- The state in which the callbacks are called by `emit`. -/
def begun (v : World) (s : SigId) (a : Args) : World := ((v.enqueue s a).startLoop s).popQueue s

theorem enq (v : World) (s : SigId) (a : Args) : ((v.enqueue s a).sig s).emitQueue = (v.sig s).emitQueue ++ [a] := by
  simp only [World.enqueue, World.ev, World.upd, if_true]

theorem started (v : World) (s : SigId) (a : Args) : (((v.enqueue s a).startLoop s).sig s).emitQueue = (v.sig s).emitQueue ++ [a] := by
  simp only [World.enqueue, World.startLoop, World.ev, World.upd, if_true, SigState.enter]

theorem plain_loop (hp : env.Plain s) (hq : (v.sig s).emitQueue = []) (h4 : ¬ (v.sig s).depth ≥ LIMIT)
    (h5 : Runs env (.forSlots s v.nextEm a 0) (begun v s a) v1 r) : Runs env (.runLoop s a) v (v1.endLoop s v.emitter) (wrapRes s r) := by
  rw [runs_iff]
  have h6 : ¬ ((v.enqueue s a).sig s).emitQueue.length > 1 := by rw [enq, hq]; simp
  simp only [body, if_neg h4, if_neg h6]
  refine ⟨v1, r, ?_, rfl, rfl⟩
  rw [runs_iff]
  simp only [body, hp.1, started, hq, List.nil_append]
  exact ⟨_, _, h5, rfl, rfl⟩

end

/-! ## Beginning and end of emissions -/

section
variable {s : SigId} {a : Args}

theorem good_begun (h : Good env w) : Good env (begun w s a) := by
  have e : begun w s a = { (((w.upd s fun st => { st with emitQueue := st.emitQueue ++ [a] }).upd s SigState.enter).upd s
      fun st => { st with emitQueue := st.emitQueue.tail }).ev (.req s a) with emitter := some s, nextEm := w.nextEm + 1 } := rfl
  rw [e]
  refine ⟨h.hook, fun y hp => ?_, fun y z hz => ?_, h.tq⟩
  · have := h.st y hp
    by_cases hy : y = s
    · subst hy
      simp only [World.ev, upd_sig_same, SigState.enter, this.1]
      exact ⟨rfl, by have := this.2; omega⟩
    · simp only [World.ev, upd_sig_ne _ _ hy]; exact this
  · by_cases hy : y = s
    · subst hy
      simp only [World.ev, upd_sig_same, SigState.enter] at hz
      exact h.slots y z hz
    · simp only [World.ev, upd_sig_ne _ _ hy] at hz; exact h.slots y z hz

/-- `emit` and `emit`. -/
theorem begun_alt : begun (alt e m l w) s a = alt (some s) (put m s (max (m s) ((w.sig s).depth + 1))) (l ++ [.req s a]) (begun w s a) := by
  simp only [begun, alt, World.popQueue, World.startLoop, World.enqueue, World.upd, World.ev, World.mk.injEq, and_true]
  funext y
  by_cases hy : y = s
  · subst hy; simp only [if_true, put, SigState.enter]
  · simp only [if_neg hy, put]

theorem ok_begun (h : Ok env m l w) : Ok env (put m s (max (m s) ((w.sig s).depth + 1))) (l ++ [.req s a]) (begun w s a) := by
  refine ⟨fun y hp => ?_, ?_⟩
  · have := h.max y hp
    simp only [begun, World.popQueue, World.startLoop, World.enqueue, World.upd, World.ev]
    by_cases hy : y = s
    · subst hy; simp only [if_true, put, SigState.enter, this]
    · simp only [if_neg hy, put, this]
  · show _ = (w.log ++ [Ev.req s a]).map Ev.bare
    simp only [List.map_append, h.log]

/-- `emit` here, `emit_fast` there. -/
theorem fast_alt (hq : (w.sig s).emitQueue = []) :
    (alt e m l w).startFast s a = alt e m (l ++ [.fast s a w.nextEm]) (begun w s a) := by
  simp only [begun, alt, World.popQueue, World.startLoop, World.startFast, World.enqueue, World.upd, World.ev, World.mk.injEq, and_true]
  funext y
  by_cases hy : y = s
  · subst hy; simp only [if_true, SigState.enter, hq, List.nil_append, List.tail_cons]
  · simp only [if_neg hy]

theorem ok_fast (h : Ok env m l w) (hp : env.Plain s) : Ok env m (l ++ [.fast s a w.nextEm]) (begun w s a) := by
  refine ⟨fun y hy => ?_, ?_⟩
  · have := h.max y hy
    simp only [begun, World.popQueue, World.startLoop, World.enqueue, World.upd, World.ev]
    rw [if_neg (by rintro rfl; exact hy hp), if_neg (by rintro rfl; exact hy hp), if_neg (by rintro rfl; exact hy hp)]
    exact this
  · show _ = (w.log ++ [Ev.req s a]).map Ev.bare
    simp only [List.map_append, h.log]
    rfl

theorem leave_slots (st : SigState) : st.leave.slots = st.slots := by simp only [SigState.leave]; split <;> rfl

theorem good_end (h : Good env w) (p : Option SigId) : Good env (w.endLoop s p) := by
  have h1 : Good env { w with emitter := p } := ⟨h.hook, h.st, h.slots, h.tq⟩
  refine h1.upd (leave_slots _) fun hp => ?_
  simp only [SigState.leave]
  split
  · exact ⟨rfl, by simp⟩
  · exact ⟨rfl, by dsimp only at *; omega⟩

theorem end_alt {p : Option SigId} : (alt e m l w).endLoop s p =
    alt p (put m s (if (w.sig s).depth - 1 ≤ 0 then 0 else m s)) l (w.endLoop s none) := by
  have : ({ alt e m l w with emitter := p } : World) = alt p m l { w with emitter := none } := rfl
  simp only [World.endLoop, this]
  refine alt_upd ?_
  simp only [SigState.leave]
  split <;> rfl

theorem alt_emitter {p q : Option SigId} : alt p m l (w.endLoop s q) = alt p m l (w.endLoop s none) := rfl

theorem ok_end (h : Ok env m l w) (p : Option SigId) : Ok env (put m s (if (w.sig s).depth - 1 ≤ 0 then 0 else m s)) l (w.endLoop s p) := by
  refine ⟨fun y hy => ?_, h.log⟩
  have := h.max y hy
  simp only [World.endLoop, World.upd, put]
  by_cases hys : y = s
  · subst hys
    simp only [if_true, SigState.leave]
    split
    · rfl
    · exact this
  · simp only [if_neg hys]; exact this

theorem leave_fast (st : SigState) (h1 : st.emitQueue = []) (h2 : 0 ≤ st.depth) (k : Int) :
    (if ({ st with maxDepth := k } : SigState).depth > 0 then { ({ st with maxDepth := k } : SigState) with depth := st.depth - 1 }
      else { st with maxDepth := k }) = { st.leave with maxDepth := k } := by
  unfold SigState.leave
  by_cases h3 : st.depth > 0
  · refine (if_pos h3).trans ?_
    by_cases h4 : st.depth - 1 ≤ 0
    · rw [if_pos h4]
      have : st.depth - 1 = 0 := by omega
      simp only [this, h1]
    · rw [if_neg h4]; simp only [h1]
  · refine (if_neg h3).trans ?_
    rw [if_pos (by omega)]
    have : st.depth = 0 := by omega
    simp only [h1, this]

/-- The end of `emit` here, of `emit_fast` there. -/
theorem endFast_alt {p : Option SigId} (hg : Good env w) (hp : env.Plain s) : (alt e m l w).endFast s = alt e m l (w.endLoop s p) := by
  obtain ⟨h1, h2⟩ := hg.st s hp
  simp only [alt, World.endFast, World.endLoop, World.upd, World.mk.injEq, and_true]
  funext y
  by_cases hy : y = s
  · subst hy
    rw [if_pos rfl, if_pos rfl]
    exact leave_fast (w.sig y) h1 h2 (m y)
  · simp only [if_neg hy]

theorem ok_endFast (h : Ok env m l w) (hp : env.Plain s) (p : Option SigId) : Ok env m l (w.endLoop s p) := by
  refine ⟨fun y hy => ?_, h.log⟩
  simp only [World.endLoop, World.upd]
  rw [if_neg (by rintro rfl; exact hy hp)]
  exact h.max y hy

/-- `emit_fast` here. -/
theorem good_startFast (h : Good env w) : Good env (w.startFast s a) := by
  have h1 := h.upd (s := s) (g := fun st => { st with depth := st.depth + 1 }) rfl fun hp => ⟨(h.st s hp).1, by
    have := (h.st s hp).2; dsimp only; omega⟩
  exact ⟨h1.hook, h1.st, h1.slots, h1.tq⟩

theorem good_endFast (h : Good env w) : Good env (w.endFast s) := by
  refine h.upd ?_ fun hp => ?_
  · split <;> rfl
  · obtain ⟨h1, h2⟩ := h.st s hp
    split
    · exact ⟨h1, by dsimp only; omega⟩
    · exact ⟨h1, h2⟩

/-- `emit_fast` and `emit_fast`. -/
theorem startFast_alt : (alt e m l w).startFast s a = alt e m (l ++ [.fast s a w.nextEm]) (w.startFast s a) := by
  simp only [alt, World.startFast, World.upd, World.ev, World.mk.injEq, and_true]
  funext y
  by_cases hy : y = s
  · subst hy; simp only [if_true]
  · simp only [if_neg hy]

theorem ok_startFast (h : Ok env m l w) {x : Ev} (hx : x.bare = .req s a) : Ok env m (l ++ [x]) (w.startFast s a) := by
  have h1 := (h.upd' (s := s) (g := fun st => { st with depth := st.depth + 1 }) fun _ => rfl).ev (x := x) (y := .fast s a w.nextEm) hx
  exact ⟨h1.max, h1.log⟩

theorem endFast_both : (alt e m l w).endFast s = alt e m l (w.endFast s) := by
  refine upd_alt fun st a => ?_
  dsimp only
  split <;> rfl

theorem ok_endFast_both (h : Ok env m l w) : Ok env m l (w.endFast s) := by
  refine h.upd' fun st => ?_
  split <;> rfl

/-- `emit_fast` here, `emit` there. -/
theorem begun_fast (hq : (w.sig s).emitQueue = []) : begun (alt e m l w) s a =
    alt (some s) (put m s (max (m s) ((w.sig s).depth + 1))) (l ++ [.req s a]) (w.startFast s a) := by
  simp only [begun, alt, World.popQueue, World.startLoop, World.startFast, World.enqueue, World.upd, World.ev, World.mk.injEq, and_true]
  funext y
  by_cases hy : y = s
  · subst hy; simp only [if_true, put, SigState.enter, hq, List.nil_append, List.tail_cons]
  · simp only [if_neg hy, put]

theorem Ok.put (h : Ok env m l w) (hp : env.Plain s) (x : Int) : Ok env (put m s x) l w :=
  ⟨fun y hy => by simp only [Swap.put]; rw [if_neg (by rintro rfl; exact hy hp)]; exact h.max y hy, h.log⟩

theorem end_fast {p : Option SigId} (hg : Good env w) (hp : env.Plain s) : (alt e m l w).endLoop s p =
    alt p (Swap.put m s (if (w.sig s).depth - 1 ≤ 0 then 0 else m s)) l (w.endFast s) := by
  rw [end_alt, ← endFast_alt hg hp, endFast_both]

end

/-! ## The simulation -/

/-- The other run does the same, from related states. -/
def Go (env env' : Env) (pre : Option SigId → Prop) (t : Task) (w w' : World) (r : Res) : Prop :=
  ∀ e m l, pre e → Good env w → Ok env m l w → ∃ m' l', Runs env' t (alt e m l w) (alt e m' l' w') r ∧ Good env w' ∧ Ok env m' l' w'

/-- Members of groups are emitted by the same emitter in both runs. -/
def Seen (env : Env) (s : SigId) (w : World) (e : Option SigId) : Prop := ¬ env.Free s → e = w.emitter

/-- So are callbacks that relay. -/
def SeenBy (x : Slot) (w : World) (e : Option SigId) : Prop := ∀ r, x.base = .relay r → e = w.emitter ∧ x.thread = none

/-- The other run does the same, with the one or the other kind of emission. -/
def Sim (env env' : Env) : Task → World → World → Res → Prop
  | .prog p, w, w', r => ∀ p', p.Alike env p' → Go env env' (fun _ => True) (.prog p') w w' r
  | .emit s a c, w, w', r => Go env env' (fun _ => True) (.emit s a c) w w' r ∧
      (env.Plain s → (c = true → bindsPos (env.decl s).sig a.length = true) → Go env env' (fun _ => True) (.emitFast s a) w w' r)
  | .emitFast s a, w, w', r => (env.Free s → Go env env' (fun _ => True) (.emitFast s a) w w' r) ∧
      (env.Plain s → ∀ c, (c = true → bindsPos (env.decl s).sig a.length = true) → Go env env' (fun _ => True) (.emit s a c) w w' r)
  | .runLoop s a, w, w', r => Go env env' (fun _ => True) (.runLoop s a) w w' r ∧
      (env.Plain s → ¬ (w.sig s).blocked = true → ¬ (w.sig s).paused = true → Go env env' (fun _ => True) (.emitFast s a) w w' r)
  | .inner s em, w, w', r => (¬ env.Plain s → Go env env' (Seen env s w) (.inner s em) w w' r) ∧
      (env.Plain s → ∀ a, (w.sig s).emitQueue = [a] → Go env env' (fun _ => True) (.forSlots s em a 0) (w.popQueue s) w' r)
  | .forSlots s em a i, w, w', r => Go env env' (Seen env s w) (.forSlots s em a i) w w' r
  | .forLatest s em a i, w, w', r => ¬ env.Plain s → Go env env' (Seen env s w) (.forLatest s em a i) w w' r
  | .forQueued s em a i, w, w', r => Go env env' (Seen env s w) (.forQueued s em a i) w w' r
  | .whileQueued s em i, w, w', r => Go env env' (Seen env s w) (.whileQueued s em i) w w' r
  | .cb em src x a, w, w', r => Go env env' (SeenBy x w) (.cb em src x a) w w' r
  | .direct em src x a, w, w', r => Go env env' (SeenBy x w) (.direct em src x a) w w' r
  | .slotRelay s a, w, w', r => Go env env' (· = w.emitter) (.slotRelay s a) w w' r
  | .resume s a, w, w', r => Go env env' (fun _ => True) (.resume s a) w w' r
  | .replay s i, w, w', r => Go env env' (fun _ => True) (.replay s i) w w' r
  | .drain t, w, w', r => Go env env' (fun _ => True) (.drain t) w w' r

end Swap
end Psygnal
