import Verif.Modes
import Verif.Separate
import Verif.CoreInv
import Verif.SlotLemmas

/-! # Lemmas for C84: the re-emission mode matters only when a signal is re-emitted -/
namespace Psygnal
namespace Modes

/-- Other emission queues. -/
def withQ (q : SigId → List Args) (w : World) : World :=
  { w with sig := fun s => { w.sig s with emitQueue := q s } }

variable {q : SigId → List Args} {env : Env} {w : World}

theorem upd_withQ {s : SigId} {f : SigState → SigState}
    (h : ∀ st a, f { st with emitQueue := a } = { f st with emitQueue := a }) : (withQ q w).upd s f = withQ q (w.upd s f) := by
  simp only [withQ, World.upd, World.mk.injEq, and_true]
  funext x
  split
  · exact h _ _
  · rfl

theorem fold_withQ {α : Type} {g : World → α → World} (h : ∀ w c, g (withQ q w) c = withQ q (g w c)) :
    ∀ (l : List α) (w : World), l.foldl g (withQ q w) = withQ q (l.foldl g w)
  | [], _ => rfl
  | c :: l, w => by rw [List.foldl_cons, List.foldl_cons, h, fold_withQ h l]

theorem append_state (st : SigState) (x : Slot) (a : List Args) :
    ({ st with emitQueue := a } : SigState).appendSlot x = { st.appendSlot x with emitQueue := a } := by
  simp only [SigState.appendSlot]
  split
  · split <;> rfl
  · rfl

theorem plainAppend_withQ {s : SigId} {x : Slot} : (withQ q w).plainAppend s x = withQ q (w.plainAppend s x) := by
  simp only [World.plainAppend]
  rw [upd_withQ (fun st a => append_state st _ a)]
  rfl

theorem connectRelay1_withQ {r c : SigId} : World.connectRelay1 r (withQ q w) c = withQ q (World.connectRelay1 r w c) := by
  simp only [World.connectRelay1]
  by_cases h : (slotIndex (.relay r) (w.sig c).slots).isSome
  · rw [if_pos h, if_pos (show (slotIndex (.relay r) ((withQ q w).sig c).slots).isSome from h)]
  · rw [if_neg h, if_neg (show ¬ (slotIndex (.relay r) ((withQ q w).sig c).slots).isSome from h), plainAppend_withQ]

theorem disconnectRelay1_withQ {r c : SigId} : World.disconnectRelay1 r (withQ q w) c = withQ q (World.disconnectRelay1 r w c) :=
  upd_withQ fun _ _ => rfl

theorem appendSlot_withQ {s : SigId} {x : Slot} : (withQ q w).appendSlot env s x = withQ q (w.appendSlot env s x) := by
  simp only [World.appendSlot]
  rw [plainAppend_withQ]
  by_cases h : (env.decl s).isRelay ∧ ((w.plainAppend s x).sig s).slots.length = 1
  · rw [if_pos h]
    refine (if_pos h).trans ?_
    exact fold_withQ (fun w c => connectRelay1_withQ) _ _
  · rw [if_neg h]
    exact if_neg h

theorem removed_withQ {s : SigId} {l : List Slot} : (withQ q w).setSlotsRemoved env s l = withQ q (w.setSlotsRemoved env s l) := by
  simp only [World.setSlotsRemoved]
  rw [upd_withQ (fun st a => rfl)]
  split
  · exact fold_withQ (fun w c => disconnectRelay1_withQ) _ _
  · rfl

theorem disconnect1_withQ {s : SigId} {c : Option Callable} {m : Bool} :
    (withQ q w).disconnect1 env s c m = (withQ q (w.disconnect1 env s c m).1, (w.disconnect1 env s c m).2) := by
  cases c with
  | none => simp only [World.disconnect1, removed_withQ]
  | some c =>
    simp only [World.disconnect1]
    rw [show ((withQ q w).sig s).slots = (w.sig s).slots from rfl]
    cases slotIndex c.base (w.sig s).slots with
    | none => cases m <;> rfl
    | some i => simp only [removed_withQ]

theorem members_withQ {c : Option Callable} {m : Bool} : ∀ (l : List SigId) (w : World),
    World.disconnectMembers env c m l (withQ q w) =
      (withQ q (World.disconnectMembers env c m l w).1, (World.disconnectMembers env c m l w).2)
  | [], _ => rfl
  | s :: l, w => by
    simp only [World.disconnectMembers, disconnect1_withQ]
    rcases w.disconnect1 env s c m with ⟨w1, r | e⟩
    · rfl
    · exact members_withQ l w1

theorem disconnect_withQ {s : SigId} {c : Option Callable} {m : Bool} :
    (withQ q w).disconnect env s c m = (withQ q (w.disconnect env s c m).1, (w.disconnect env s c m).2) := by
  simp only [World.disconnect, members_withQ]
  by_cases h : (env.decl s).isRelay
  · simp only [if_pos h]
    rcases World.disconnectMembers env c m (env.decl s).children w with ⟨w1, r | e⟩
    · rfl
    · exact disconnect1_withQ
  · simp only [if_neg h]
    exact disconnect1_withQ

theorem discard_withQ {s : SigId} {b : Base} {m : Bool} :
    (withQ q w).discard env s b m = (withQ q (w.discard env s b m).1, (w.discard env s b m).2) := by
  simp only [World.discard]
  rw [show ((withQ q w).sig s).slots = (w.sig s).slots from rfl]
  cases removeKey b (w.sig s).slots with
  | none => cases m <;> rfl
  | some l => simp only [removed_withQ]

theorem block_withQ {s : SigId} {ex : List SigId} : (withQ q w).block env s ex = withQ q (w.block env s ex) := by
  simp only [World.block]
  rw [upd_withQ (fun st a => rfl)]
  split
  · refine fold_withQ (fun w c => ?_) _ _
    split
    · rfl
    · rw [upd_withQ (fun st a => rfl), upd_withQ (fun st a => rfl)]
      rfl
  · rfl

theorem unblock_withQ {s : SigId} : (withQ q w).unblock env s = withQ q (w.unblock env s) := by
  simp only [World.unblock]
  rw [upd_withQ (fun st a => rfl)]
  split
  · refine fold_withQ (fun w c => ?_) _ _
    rw [upd_withQ (fun st a => rfl)]
    by_cases h : ((w.sig s).wasBlocked c).getD false = true
    · rw [if_pos h]; exact if_pos h
    · rw [if_neg h]
      refine (if_neg h).trans ?_
      rw [upd_withQ (fun st a => rfl)]
  · rfl

theorem kill_withQ {o : ObjId} : (withQ q w).kill env o = withQ q (w.kill env o) := rfl

theorem connect_withQ {s : SigId} {c : Callable} {o : ConnOpts} :
    (withQ q w).connect env s c o = (withQ q (w.connect env s c o).1, (w.connect env s c o).2) := by
  simp only [World.connect, appendSlot_withQ]
  rw [show ((withQ q w).sig s).slots = (w.sig s).slots from rfl]
  by_cases h : o.unique ≠ .no ∧ (slotIndex c.base (w.sig s).slots).isSome
  · simp only [if_pos h]
    split <;> rfl
  · simp only [if_neg h]
    split <;> rfl

theorem run_withQ (a : Act) : a.run env (withQ q w) = (withQ q (a.run env w).1, (a.run env w).2) := by
  cases a with
  | connect s c o =>
    simp only [Act.run, connect_withQ]
    by_cases h : c.base.isDead w = true
    · rw [if_pos h]; exact if_pos h
    · rw [if_neg h]; exact if_neg h
  | connectRaw s b m p =>
    simp only [Act.run, appendSlot_withQ]
    by_cases h : b.isDead w = true
    · rw [if_pos h]; exact if_pos h
    · rw [if_neg h]; exact if_neg h
  | disconnect s c m => exact disconnect_withQ
  | discard s b m => exact discard_withQ
  | block s ex => simp only [Act.run, block_withQ]
  | unblock s => simp only [Act.run, unblock_withQ]
  | pause s =>
    simp only [Act.run, World.pause]
    rw [upd_withQ (fun st a => rfl)]
  | kill o => rfl
  | _ => rfl

theorem members_modes (m : SigId → Mode) {c : Option Callable} {b : Bool} : ∀ (l : List SigId) (w : World),
    World.disconnectMembers (env.withModes m) c b l w = World.disconnectMembers env c b l w
  | [], _ => rfl
  | s :: l, w => by
    simp only [World.disconnectMembers]
    rw [show w.disconnect1 (env.withModes m) s c b = w.disconnect1 env s c b from rfl]
    rcases w.disconnect1 env s c b with ⟨w1, r | e⟩
    · rfl
    · exact members_modes m l w1

theorem run_modes (a : Act) (m : SigId → Mode) : a.run (env.withModes m) w = a.run env w := by
  cases a with
  | disconnect s c b =>
    simp only [Act.run, World.disconnect, members_modes]
    rfl
  | _ => rfl

/-! ## The states of the two runs -/

/-- The emission queue in the one run and in the other, depth and greatest depth of a signal. -/
structure Fr where
  q : List Args
  q' : List Args
  d : Int
  m : Int

/-- Not being emitted. -/
def rest : Fr := ⟨[], [], 0, 0⟩

/-- The state of the other run. -/
def V (f : SigId → Fr) (w : World) : World := withQ (fun s => (f s).q') w

/-- Change at one signal. -/
def put (f : SigId → Fr) (s : SigId) (x : Fr) : SigId → Fr := fun y => if y = s then x else f y

theorem put_same {f : SigId → Fr} {s : SigId} {x : Fr} : put f s x s = x := if_pos rfl
theorem put_ne {f : SigId → Fr} {s y : SigId} {x : Fr} (h : y ≠ s) : put f s x y = f y := if_neg h

/-- What holds of the one run. -/
structure Good (d : Levels) (f : SigId → Fr) (w : World) : Prop where
  st : ∀ s, (w.sig s).emitQueue = (f s).q ∧ (w.sig s).depth = (f s).d ∧ (w.sig s).maxDepth = (f s).m
  slots : ∀ s, ∀ x ∈ (w.sig s).slots, d.cb x.base ≤ d.sig s
  hook : ∀ b, w.hook = some b → d.cb b = 0
  log : ∀ em s k e t b a, Ev.call em (some s) k e t b a ∈ w.log → k = 1

/-- Signals below `n` are not being emitted. -/
def Quiet (d : Levels) (n : Nat) (f : SigId → Fr) : Prop := ∀ s, d.sig s < n → f s = rest

variable {d : Levels} {f : SigId → Fr} {n : Nat}

theorem Quiet.mono {k : Nat} (h : Quiet d n f) (hk : k ≤ n) : Quiet d k f := fun s hs => h s (Nat.lt_of_lt_of_le hs hk)

theorem Quiet.put (h : Quiet d n f) {s : SigId} {x : Fr} (hs : d.sig s ≤ n) : Quiet d (d.sig s) (put f s x) := by
  intro y hy
  rw [put_ne (by rintro rfl; omega)]
  exact h y (by omega)

/-- Changes of one signal that leave the callbacks alone. -/
theorem Good.upd (h : Good d f w) {s : SigId} {g : SigState → SigState} {x : Fr} (h1 : (g (w.sig s)).slots = (w.sig s).slots)
    (h2 : (g (w.sig s)).emitQueue = x.q ∧ (g (w.sig s)).depth = x.d ∧ (g (w.sig s)).maxDepth = x.m) : Good d (put f s x) (w.upd s g) := by
  refine ⟨fun y => ?_, fun y z hz => ?_, h.hook, h.log⟩
  · by_cases hy : y = s
    · subst hy; rw [put_same, upd_sig_same]; exact h2
    · rw [put_ne hy, upd_sig_ne _ _ hy]; exact h.st y
  · by_cases hy : y = s
    · subst hy; rw [upd_sig_same, h1] at hz; exact h.slots y z hz
    · rw [upd_sig_ne _ _ hy] at hz; exact h.slots y z hz

theorem put_self {s : SigId} : Modes.put f s (f s) = f := by
  funext y
  by_cases hy : y = s
  · subst hy; exact put_same
  · exact put_ne hy

/-- Changes of one signal that concern neither callbacks nor emission. -/
theorem Good.upd' (h : Good d f w) {s : SigId} {g : SigState → SigState} (h1 : ∀ st, (g st).slots = st.slots)
    (h2 : ∀ st, (g st).emitQueue = st.emitQueue ∧ (g st).depth = st.depth ∧ (g st).maxDepth = st.maxDepth) : Good d f (w.upd s g) := by
  have := h.upd (s := s) (g := g) (x := f s) (h1 _) (by
    obtain ⟨a, b, c⟩ := h2 (w.sig s)
    obtain ⟨a', b', c'⟩ := h.st s
    exact ⟨a.trans a', b.trans b', c.trans c'⟩)
  rwa [put_self] at this

theorem Good.sub {w' : World} (h : Good d f w) (h1 : SubConn w w') (h2 : ∀ s, (w.sig s).EmitFrame (w'.sig s)) (h3 : ∀ b, w'.hook = some b → d.cb b = 0)
    (h4 : w'.log = w.log) : Good d f w' :=
  ⟨fun s => ⟨(h2 s).emitQueue.trans (h.st s).1, (h2 s).depth.trans (h.st s).2.1, (h2 s).maxDepth.trans (h.st s).2.2⟩,
    fun s x hx => h.slots s x ((h1.slots s).subset hx), h3, by rw [h4]; exact h.log⟩

theorem mem_append {st : SigState} {x y : Slot} (h : y ∈ (st.appendSlot x).slots) : y = x ∨ y ∈ st.slots := by
  have hi : ∀ l : List Slot, y ∈ insertByPriority x l → y = x ∨ y ∈ l := by
    intro l
    induction l with
    | nil => intro h; simp [insertByPriority] at h; exact .inl h
    | cons z l ih =>
      intro h
      simp only [insertByPriority] at h
      split at h
      · simpa using h
      · rcases List.mem_cons.mp h with rfl | h
        · simp
        · rcases ih h with rfl | h <;> simp [*]
  simp only [SigState.appendSlot] at h
  split at h
  · split at h
    · rcases List.mem_append.mp h with h | h
      · exact .inr h
      · exact .inl (List.mem_singleton.mp h)
    · exact hi _ h
  · exact hi _ h

theorem Good.append (h : Good d f w) {s : SigId} {x : Slot} (hx : d.cb x.base ≤ d.sig s) : Good d f (w.plainAppend s x) := by
  refine ⟨fun y => ?_, fun y z hz => ?_, h.hook, h.log⟩
  · have := h.st y
    by_cases hy : y = s
    · subst hy
      simp only [World.plainAppend, upd_sig_same, SigState.appendSlot]
      split
      · split <;> exact this
      · exact this
    · simp only [World.plainAppend, upd_sig_ne _ _ hy]; exact this
  · by_cases hy : y = s
    · subst hy
      simp only [World.plainAppend, upd_sig_same] at hz
      rcases mem_append hz with rfl | hz
      · exact hx
      · exact h.slots y z hz
    · simp only [World.plainAppend, upd_sig_ne _ _ hy] at hz
      exact h.slots y z hz

theorem Good.appendSlot (hk : d.Kept env) (h : Good d f w) {s : SigId} {x : Slot} (hx : d.cb x.base ≤ d.sig s) : Good d f (w.appendSlot env s x) := by
  have h1 := h.append hx
  simp only [World.appendSlot]
  split
  · have key : ∀ (l : List SigId) (w : World), (∀ c ∈ l, c ∈ (env.decl s).children) → Good d f w → Good d f (l.foldl (World.connectRelay1 s) w) := by
      intro l
      induction l with
      | nil => intro w _ h; exact h
      | cons c l ih =>
        intro w hl h
        refine ih _ (fun y hy => hl y (by simp [hy])) ?_
        unfold World.connectRelay1
        split
        · exact h
        · exact h.append (hk.kids s c (hl c (by simp)))
    exact key _ _ (fun _ h => h) h1
  · exact h1

theorem Good.act (hk : d.Kept env) (h : Good d f w) {a : Act} (ha : d.Allows n a) : Good d f (a.run env w).1 := by
  by_cases h1 : ∃ s c o, a = .connect s c o
  · obtain ⟨s, c, o, rfl⟩ := h1
    simp only [Act.run, World.connect]
    repeat' split
    all_goals first | exact h | exact h.appendSlot hk ha
  · by_cases h2 : ∃ s b m p, a = .connectRaw s b m p
    · obtain ⟨s, b, m, p, rfl⟩ := h2
      simp only [Act.run]
      split
      · exact h
      · exact h.appendSlot hk ha
    · refine h.sub (sub_run w a (fun s c o e => h1 ⟨s, c, o, e⟩) (fun s b m p e => h2 ⟨s, b, m, p, e⟩)) (frame_run env w a).sig ?_
        (frame_run env w a).log
      by_cases h3 : ∃ k, a = .setHook k
      · obtain ⟨k, rfl⟩ := h3
        exact ha
      · rw [(frame_run_noHook env w a (fun k e => h3 ⟨k, e⟩)).hook]
        exact h.hook

/-! ## Steps of the emission -/

theorem V_upd {s : SigId} {g : SigState → SigState} {x : Fr}
    (h : g { w.sig s with emitQueue := (f s).q' } = { g (w.sig s) with emitQueue := x.q' }) :
    (V f w).upd s g = V (put f s x) (w.upd s g) := by
  simp only [V, withQ, World.upd, World.mk.injEq, and_true]
  funext y
  by_cases hy : y = s
  · subst hy; rw [if_pos rfl, if_pos rfl, put_same]; exact h
  · rw [if_neg hy, if_neg hy, put_ne hy]

theorem V_upd' {s : SigId} {g : SigState → SigState} (h : ∀ st a, g { st with emitQueue := a } = { g st with emitQueue := a }) :
    (V f w).upd s g = V f (w.upd s g) := upd_withQ h

theorem Good.ev (h : Good d f w) {e : Ev} (he : ∀ em s k c t b a, e = .call em (some s) k c t b a → k = 1) : Good d f (w.ev e) := by
  refine ⟨h.st, h.slots, h.hook, fun em s k c t b a hm => ?_⟩
  rcases List.mem_append.mp hm with hm | hm
  · exact h.log _ _ _ _ _ _ _ hm
  · exact he _ _ _ _ _ _ _ (List.mem_singleton.mp hm).symm

theorem Good.emitter (h : Good d f w) (e : Option SigId) (k : Nat) : Good d f { w with emitter := e, nextEm := k } := ⟨h.st, h.slots, h.hook, h.log⟩

theorem good_start (h : Good d f w) {s : SigId} (hs : f s = rest) (args : Args) :
    Good d (put f s ⟨[args], [args], 1, 1⟩) ((w.enqueue s args).startLoop s) ∧
    ((V f w).enqueue s args).startLoop s = V (put f s ⟨[args], [args], 1, 1⟩) ((w.enqueue s args).startLoop s) := by
  obtain ⟨a, b, c⟩ := h.st s
  rw [hs] at a b c
  constructor
  · have h1 : Good d (put f s ⟨[args], [args], 0, 0⟩) (w.enqueue s args) :=
      Good.ev (h.upd (x := ⟨[args], [args], 0, 0⟩) rfl ⟨by simp only [a]; rfl, b, c⟩) (by intros; contradiction)
    have h2 := h1.upd (s := s) (g := SigState.enter) (x := ⟨[args], [args], 1, 1⟩) rfl (by
      have e : (w.enqueue s args).sig s = { w.sig s with emitQueue := (w.sig s).emitQueue ++ [args] } :=
        upd_sig_same w s fun st => { st with emitQueue := st.emitQueue ++ [args] }
      rw [e]
      simp only [SigState.enter, a, b, c, rest]
      exact ⟨rfl, rfl, rfl⟩)
    rw [show put (put f s ⟨[args], [args], 0, 0⟩) s ⟨[args], [args], 1, 1⟩ = put f s ⟨[args], [args], 1, 1⟩ from by
      funext y; simp only [put]; split <;> rfl] at h2
    exact h2.emitter _ _
  · simp only [V, withQ, World.startLoop, World.enqueue, World.upd, World.ev, World.mk.injEq, and_true]
    funext y
    by_cases hy : y = s
    · subst hy
      simp only [if_true, put_same, hs, rest, SigState.enter, List.nil_append]
    · simp only [if_neg hy, put_ne hy]

theorem good_end (h : Good d (put f s x) w) (hs : f s = rest) (hx : x.d = 1) (e : Option SigId) :
    Good d f (w.endLoop s e) ∧ (V (put f s x) w).endLoop s e = V f (w.endLoop s e) := by
  obtain ⟨a, b, c⟩ := h.st s
  rw [put_same] at a b c
  have hb : (w.sig s).depth = 1 := b.trans hx
  have hp : put (put f s x) s rest = f := by
    funext y
    by_cases hy : y = s
    · subst hy; rw [put_same, hs]
    · rw [put_ne hy, put_ne hy]
  constructor
  · have h2 := (h.emitter e w.nextEm).upd (s := s) (g := SigState.leave) (x := rest) (by
      simp only [SigState.leave]; split <;> rfl) (by
      simp only [SigState.leave, hb]
      exact ⟨rfl, rfl, rfl⟩)
    rw [hp] at h2
    exact h2
  · have h3 := V_upd (f := put f s x) (w := { w with emitter := e }) (s := s) (g := SigState.leave) (x := rest) (by
      simp only [SigState.leave, hb]
      rfl)
    rw [hp] at h3
    exact h3

theorem good_startFast (h : Good d f w) {s : SigId} (hs : f s = rest) (args : Args) :
    Good d (put f s ⟨[], [], 1, 0⟩) (w.startFast s args) ∧ (V f w).startFast s args = V (put f s ⟨[], [], 1, 0⟩) (w.startFast s args) := by
  obtain ⟨a, b, c⟩ := h.st s
  rw [hs] at a b c
  constructor
  · have h1 : Good d (put f s ⟨[], [], 1, 0⟩) ((w.upd s fun st => { st with depth := st.depth + 1 }).ev (.fast s args w.nextEm)) :=
      Good.ev (h.upd (x := ⟨[], [], 1, 0⟩) rfl ⟨a, by simp only [b]; rfl, c⟩) (by intros; contradiction)
    exact h1.emitter _ _
  · simp only [World.startFast]
    rw [V_upd (x := ⟨[], [], 1, 0⟩) (by rw [hs]; rfl)]
    rfl

theorem good_endFast (h : Good d (put f s ⟨[], [], 1, 0⟩) w) (hs : f s = rest) :
    Good d f (w.endFast s) ∧ (V (put f s ⟨[], [], 1, 0⟩) w).endFast s = V f (w.endFast s) := by
  obtain ⟨a, b, c⟩ := h.st s
  rw [put_same] at a b c
  have hp : put (put f s ⟨[], [], 1, 0⟩) s rest = f := by
    funext y
    by_cases hy : y = s
    · subst hy; rw [put_same, hs]
    · rw [put_ne hy, put_ne hy]
  constructor
  · have h2 := h.upd (s := s) (g := fun st => if st.depth > 0 then { st with depth := st.depth - 1 } else st) (x := rest) (by
      split <;> rfl) (by
      simp only [b]
      exact ⟨a, rfl, c⟩)
    rw [hp] at h2
    exact h2
  · have h3 := V_upd (f := put f s ⟨[], [], 1, 0⟩) (w := w) (s := s)
      (g := fun st => if st.depth > 0 then { st with depth := st.depth - 1 } else st) (x := rest) (by
      simp only [b, put_same]
      rfl)
    rw [hp] at h3
    exact h3

/-- In the one run the argument is taken from the queue before the callbacks are called or it is not, and in the other as well. -/
theorem good_pop {args : Args} (h : Good d f w) {s : SigId} (hs : f s = ⟨[args], [args], 1, 1⟩) (b b' : Bool) :
    Good d (put f s ⟨if b then [] else [args], if b' then [] else [args], 1, 1⟩) (if b then w.popQueue s else w) ∧
    (if b' then (V f w).popQueue s else V f w) =
      V (put f s ⟨if b then [] else [args], if b' then [] else [args], 1, 1⟩) (if b then w.popQueue s else w) := by
  have hst := h.st s
  rw [hs] at hst
  have hp : put f s ⟨[args], [args], 1, 1⟩ = f := by rw [← hs, put_self]
  constructor
  · cases b with
    | true => exact h.upd (s := s) (g := fun st => { st with emitQueue := st.emitQueue.tail }) (x := ⟨[], if b' then [] else [args], 1, 1⟩) rfl ⟨by show (w.sig s).emitQueue.tail = []; rw [hst.1]; rfl, hst.2⟩
    | false =>
      refine ⟨fun y => ?_, h.slots, h.hook, h.log⟩
      by_cases hy : y = s
      · subst hy; rw [put_same]; exact hst
      · rw [put_ne hy]; exact h.st y
  · cases b <;> cases b' <;> simp only [V, withQ, World.popQueue, World.upd, World.mk.injEq, and_true, Bool.false_eq_true, if_true, if_false] <;>
      funext y <;> by_cases hy : y = s <;> first | (subst hy; simp only [if_true, put_same, hs, List.tail_cons]) | simp only [if_neg hy, put_ne hy]

/-! ## Executions -/

/-- The loops over the callbacks of the three modes do the same. -/
def All (env : Env) (s : SigId) (em : Nat) (args : Args) (i : Nat) (v v' : World) (r : Res) : Prop :=
  Runs env (.forSlots s em args i) v v' r ∧ Runs env (.forLatest s em args i) v v' r ∧ Runs env (.forQueued s em args i) v v' r

/-- A signal whose callbacks are being called. -/
def Fr.Busy (x : Fr) : Prop := x.d = 1 ∧ x.m ≤ 1 ∧ x.q.length ≤ 1 ∧ x.q'.length ≤ 1

/-- The other run does the same. -/
def Sim (d : Levels) (env' : Env) : Task → World → World → Res → Prop
  | .prog p, w, w', r => ∀ f n, Good d f w → Quiet d n f → p.Only (d.Allows n) → Runs env' (.prog p) (V f w) (V f w') r ∧ Good d f w'
  | .emit s a c, w, w', r => ∀ f n, Good d f w → Quiet d n f → d.sig s < n → Runs env' (.emit s a c) (V f w) (V f w') r ∧ Good d f w'
  | .emitFast s a, w, w', r => ∀ f n, Good d f w → Quiet d n f → d.sig s < n → Runs env' (.emitFast s a) (V f w) (V f w') r ∧ Good d f w'
  | .runLoop s a, w, w', r => ∀ f n, Good d f w → Quiet d n f → d.sig s < n → Runs env' (.runLoop s a) (V f w) (V f w') r ∧ Good d f w'
  | .resume s a, w, w', r => ∀ f n, Good d f w → Quiet d n f → d.sig s < n → Runs env' (.resume s a) (V f w) (V f w') r ∧ Good d f w'
  | .replay s a, w, w', r => ∀ f n, Good d f w → Quiet d n f → d.sig s < n → Runs env' (.replay s a) (V f w) (V f w') r ∧ Good d f w'
  | .slotRelay s a, w, w', r => ∀ f n, Good d f w → Quiet d n f → d.sig s < n → Runs env' (.slotRelay s a) (V f w) (V f w') r ∧ Good d f w'
  | .drain t, w, w', r => ∀ f n, Good d f w → Quiet d n f → (∀ b, d.cb b ≤ n) → Runs env' (.drain t) (V f w) (V f w') r ∧ Good d f w'
  | .cb em src x a, w, w', r => ∀ f n, Good d f w → Quiet d n f → d.cb x.base ≤ n → (∀ s, src = some s → (f s).d = 1) →
      Runs env' (.cb em src x a) (V f w) (V f w') r ∧ Good d f w'
  | .direct em src x a, w, w', r => ∀ f n, Good d f w → Quiet d n f → d.cb x.base ≤ n → (∀ s, src = some s → (f s).d = 1) →
      Runs env' (.direct em src x a) (V f w) (V f w') r ∧ Good d f w'
  | .forSlots s em a i, w, w', r => ∀ f, Good d f w → Quiet d (d.sig s) f → (f s).Busy → All env' s em a i (V f w) (V f w') r ∧ Good d f w'
  | .forLatest s em a i, w, w', r => ∀ f, Good d f w → Quiet d (d.sig s) f → (f s).Busy → All env' s em a i (V f w) (V f w') r ∧ Good d f w'
  | .forQueued s em a i, w, w', r => ∀ f, Good d f w → Quiet d (d.sig s) f → (f s).Busy → All env' s em a i (V f w) (V f w') r ∧ Good d f w'
  | .whileQueued s em i, w, w', r => ∀ f a, Good d f w → Quiet d (d.sig s) f → (f s).Busy → i = 0 → (f s).q = [a] →
      All env' s em a 0 (V f w) (V f w') r ∧ Good d f w'
  | .inner s em, w, w', r => ∀ f a, Good d f w → Quiet d (d.sig s) f → f s = ⟨[a], [a], 1, 1⟩ →
      ∃ q q', Runs env' (.inner s em) (V f w) (V (put f s ⟨q, q', 1, 1⟩) w') r ∧ Good d (put f s ⟨q, q', 1, 1⟩) w'

section
variable {m : SigId → Mode}

theorem sim_prog (hk : d.Kept env) {p : Prog} {w w' : World} {r : Res}
    (h : (body env (.prog p) w).Via (fun t w w' r => Runs env t w w' r ∧ Sim d (env.withModes m) t w w' r) w' r) :
    Sim d (env.withModes m) (.prog p) w w' r := by
  intro f n hg hq hp
  rw [runs_iff]
  cases p with
  | ret => obtain ⟨rfl, rfl⟩ := h; exact ⟨⟨rfl, rfl⟩, hg⟩
  | raise e => obtain ⟨rfl, rfl⟩ := h; exact ⟨⟨rfl, rfl⟩, hg⟩
  | user g k =>
    obtain ⟨w1, r1, ⟨_, h1⟩, rfl, rfl⟩ := h
    obtain ⟨h2, h3⟩ := h1 f n ⟨hg.st, hg.slots, hg.hook, hg.log⟩ hq (hp w.mem)
    exact ⟨⟨_, _, h2, rfl, rfl⟩, h3⟩
  | api a k =>
    simp only [body] at h ⊢
    have ht : a.task? (V f w) = a.task? w := by cases a <;> rfl
    rw [ht]
    split at h
    · rename_i t hta
      obtain ⟨w1, r1, ⟨_, h1⟩, w2, r2, ⟨_, h2⟩, rfl, rfl⟩ := h
      have h3 : Runs (env.withModes m) t (V f w) (V f w1) r1 ∧ Good d f w1 := by
        have ha := hp.1
        cases a with
        | emitQueued o => cases o <;> cases hta <;> exact h1 f n hg hq ha
        | emit => cases hta; exact h1 f n hg hq ha
        | emitFast => cases hta; exact h1 f n hg hq ha
        | resume => cases hta; exact h1 f n hg hq ha
        | _ => cases hta
      obtain ⟨h4, h5⟩ := h2 f n h3.2 hq (hp.2 _)
      exact ⟨⟨_, _, h3.1, _, _, h4, rfl, rfl⟩, h5⟩
    · obtain ⟨w1, r1, ⟨_, h1⟩, rfl, rfl⟩ := h
      obtain ⟨h2, h3⟩ := h1 f n (hg.act hk hp.1) hq (hp.2 _)
      refine ⟨?_, h3⟩
      have e : a.run (env.withModes m) (V f w) = (V f (a.run env w).1, (a.run env w).2) := (run_modes a m).trans (run_withQ a)
      simp only [e]
      exact ⟨_, _, h2, rfl, rfl⟩
  | withBlocked s ex b k =>
    obtain ⟨w1, r1, ⟨_, h1⟩, w2, r2, ⟨_, h2⟩, rfl, rfl⟩ := h
    have hb : Good d f (w.block env s ex) := hg.act (a := .block s ex) (n := n) hk trivial
    have hu : Good d f w1 → Good d f (w1.unblock env s) := fun h => h.act (a := .unblock s) (n := n) hk trivial
    obtain ⟨h3, h4⟩ := h1 f n hb hq hp.2.2.1
    have e1 : (V f w).block (env.withModes m) s ex = V f (w.block env s ex) :=
      (congrArg Prod.fst (run_modes (w := V f w) (env := env) (.block s ex) m)).trans block_withQ
    have e2 : (V f w1).unblock (env.withModes m) s = V f (w1.unblock env s) :=
      (congrArg Prod.fst (run_modes (w := V f w1) (env := env) (.unblock s) m)).trans unblock_withQ
    simp only [body, e1]
    by_cases hbl : (w.sig s).blocked = true
    · simp only [if_pos hbl] at h2
      obtain ⟨h5, h6⟩ := h2 f n h4 hq (hp.2.2.2 _)
      refine ⟨⟨_, _, h3, _, _, ?_, rfl, rfl⟩, h6⟩
      rw [if_pos (show ((V f w).sig s).blocked = true from hbl)]
      exact h5
    · simp only [if_neg hbl] at h2
      obtain ⟨h5, h6⟩ := h2 f n (hu h4) hq (hp.2.2.2 _)
      refine ⟨⟨_, _, h3, _, _, ?_, rfl, rfl⟩, h6⟩
      rw [if_neg (show ¬ ((V f w).sig s).blocked = true from hbl), e2]
      exact h5
  | withPaused s red b k =>
    obtain ⟨w1, r1, ⟨_, h1⟩, h⟩ := h
    have hb : Good d f (w.pause s) := hg.act (env := env) (a := .pause s) (n := n) hk trivial
    obtain ⟨h3, h4⟩ := h1 f n hb hq hp.2.2.1
    have e1 : (V f w).pause s = V f (w.pause s) := upd_withQ fun _ _ => rfl
    simp only [body, e1]
    by_cases hpa : (w.sig s).paused = true
    · simp only [if_pos hpa] at h
      obtain ⟨w2, r2, ⟨_, h2⟩, rfl, rfl⟩ := h
      obtain ⟨h5, h6⟩ := h2 f n h4 hq (hp.2.2.2 _)
      refine ⟨⟨_, _, h3, ?_⟩, h6⟩
      simp only [if_pos (show ((V f w).sig s).paused = true from hpa)]
      exact ⟨_, _, h5, rfl, rfl⟩
    · simp only [if_neg hpa] at h
      obtain ⟨w2, r2, ⟨_, h2⟩, w3, r3, ⟨_, h5⟩, rfl, rfl⟩ := h
      obtain ⟨h6, h7⟩ := h2 f n h4 hq hp.2.1
      obtain ⟨h8, h9⟩ := h5 f n h7 hq (hp.2.2.2 _)
      refine ⟨⟨_, _, h3, ?_⟩, h9⟩
      simp only [if_neg (show ¬ ((V f w).sig s).paused = true from hpa)]
      exact ⟨_, _, h6, _, _, h8, rfl, rfl⟩

theorem sim_emit {s : SigId} {args : Args} {c : Bool} {w w' : World} {r : Res}
    (h : (body env (.emit s args c) w).Via (fun t w w' r => Runs env t w w' r ∧ Sim d (env.withModes m) t w w' r) w' r) :
    Sim d (env.withModes m) (.emit s args c) w w' r := by
  intro f n hg hq hs
  rw [runs_iff]
  simp only [body] at h ⊢
  by_cases h1 : (w.sig s).blocked = true
  · rw [if_pos h1] at h
    obtain ⟨rfl, rfl⟩ := h
    exact ⟨by rw [if_pos (show ((V f _).sig s).blocked = true from h1)]; exact ⟨rfl, rfl⟩, hg⟩
  rw [if_neg h1] at h
  rw [if_neg (show ¬ ((V f w).sig s).blocked = true from h1)]
  by_cases h2 : c ∧ bindsPos (env.decl s).sig args.length = false
  · rw [if_pos h2] at h
    obtain ⟨rfl, rfl⟩ := h
    exact ⟨by rw [if_pos (show c ∧ bindsPos ((env.withModes m).decl s).sig args.length = false from h2)]; exact ⟨rfl, rfl⟩, hg⟩
  rw [if_neg h2] at h
  rw [if_neg (show ¬ (c ∧ bindsPos ((env.withModes m).decl s).sig args.length = false) from h2)]
  by_cases h3 : (w.sig s).paused = true
  · rw [if_pos h3] at h
    obtain ⟨rfl, rfl⟩ := h
    refine ⟨?_, hg.upd' (fun _ => rfl) fun _ => ⟨rfl, rfl, rfl⟩⟩
    rw [if_pos (show ((V f w).sig s).paused = true from h3)]
    exact ⟨(upd_withQ fun _ _ => rfl).symm, rfl⟩
  rw [if_neg h3] at h
  rw [if_neg (show ¬ ((V f w).sig s).paused = true from h3), show (V f w).hook = w.hook from rfl]
  cases hh : w.hook with
  | none =>
    rw [hh] at h
    obtain ⟨w1, r1, ⟨_, h4⟩, rfl, rfl⟩ := h
    obtain ⟨h5, h6⟩ := h4 f n hg hq hs
    exact ⟨⟨_, _, h5, rfl, rfl⟩, h6⟩
  | some b =>
    rw [hh] at h
    obtain ⟨w1, r1, ⟨_, h4⟩, h⟩ := h
    obtain ⟨h5, h6⟩ := h4 f n hg hq (by show d.cb b ≤ n; rw [hg.hook b hh]; exact Nat.zero_le _) (by intro s hs; cases hs)
    cases r1 with
    | error e => obtain ⟨rfl, rfl⟩ := h; exact ⟨⟨_, _, h5, rfl, rfl⟩, h6⟩
    | ok u =>
      obtain ⟨w2, r2, ⟨_, h7⟩, rfl, rfl⟩ := h
      obtain ⟨h8, h9⟩ := h7 f n h6 hq hs
      exact ⟨⟨_, _, h5, _, _, h8, rfl, rfl⟩, h9⟩

theorem sim_emitFast {s : SigId} {args : Args} {w w' : World} {r : Res}
    (h : (body env (.emitFast s args) w).Via (fun t w w' r => Runs env t w w' r ∧ Sim d (env.withModes m) t w w' r) w' r) :
    Sim d (env.withModes m) (.emitFast s args) w w' r := by
  intro f n hg hq hs
  have hr := hq s hs
  rw [runs_iff]
  simp only [body] at h ⊢
  by_cases h1 : (w.sig s).blocked = true
  · rw [if_pos h1] at h
    obtain ⟨rfl, rfl⟩ := h
    exact ⟨by rw [if_pos (show ((V f _).sig s).blocked = true from h1)]; exact ⟨rfl, rfl⟩, hg⟩
  rw [if_neg h1] at h
  rw [if_neg (show ¬ ((V f w).sig s).blocked = true from h1)]
  by_cases h3 : (w.sig s).paused = true
  · rw [if_pos h3] at h
    obtain ⟨rfl, rfl⟩ := h
    refine ⟨?_, hg.upd' (fun _ => rfl) fun _ => ⟨rfl, rfl, rfl⟩⟩
    rw [if_pos (show ((V f w).sig s).paused = true from h3)]
    exact ⟨(upd_withQ fun _ _ => rfl).symm, rfl⟩
  rw [if_neg h3] at h
  rw [if_neg (show ¬ ((V f w).sig s).paused = true from h3)]
  have h4 : ¬ (w.sig s).depth ≥ LIMIT := by rw [(hg.st s).2.1, hr]; decide
  rw [if_neg h4] at h
  rw [if_neg (show ¬ ((V f w).sig s).depth ≥ LIMIT from h4)]
  obtain ⟨w1, r1, ⟨_, h5⟩, rfl, rfl⟩ := h
  obtain ⟨g1, g2⟩ := good_startFast hg hr args
  obtain ⟨h6, h7⟩ := h5 _ g1 (hq.put (Nat.le_of_lt hs)) (by rw [put_same]; exact ⟨rfl, by decide, by simp, by simp⟩)
  obtain ⟨g3, g4⟩ := good_endFast h7 hr
  exact ⟨⟨V (put f s ⟨[], [], 1, 0⟩) w1, r1, by rw [g2]; exact h6.1, g4.symm, rfl⟩, g3⟩

theorem sim_runLoop {s : SigId} {args : Args} {w w' : World} {r : Res}
    (h : (body env (.runLoop s args) w).Via (fun t w w' r => Runs env t w w' r ∧ Sim d (env.withModes m) t w w' r) w' r) :
    Sim d (env.withModes m) (.runLoop s args) w w' r := by
  intro f n hg hq hs
  have hr := hq s hs
  rw [runs_iff]
  simp only [body] at h ⊢
  have h4 : ¬ (w.sig s).depth ≥ LIMIT := by rw [(hg.st s).2.1, hr]; decide
  rw [if_neg h4] at h
  rw [if_neg (show ¬ ((V f w).sig s).depth ≥ LIMIT from h4)]
  have h5 : ((w.enqueue s args).sig s).emitQueue = [args] := by
    rw [show (w.enqueue s args).sig s = _ from upd_sig_same w s fun st => { st with emitQueue := st.emitQueue ++ [args] }]
    simp only [(hg.st s).1, hr]
    rfl
  have h6 : (((V f w).enqueue s args).sig s).emitQueue = [args] := by
    rw [show ((V f w).enqueue s args).sig s = _ from upd_sig_same (V f w) s fun st => { st with emitQueue := st.emitQueue ++ [args] }]
    simp only [V, withQ, hr]
    rfl
  rw [h5, if_neg (by simp)] at h
  rw [h6, if_neg (by simp)]
  obtain ⟨w1, r1, ⟨_, h7⟩, rfl, rfl⟩ := h
  obtain ⟨g1, g2⟩ := good_start hg hr args
  obtain ⟨q, q', h8, h9⟩ := h7 _ args g1 (hq.put (Nat.le_of_lt hs)) put_same
  have hpp : put (put f s ⟨[args], [args], 1, 1⟩) s ⟨q, q', 1, 1⟩ = put f s ⟨q, q', 1, 1⟩ := by
    funext y; simp only [put]; split <;> rfl
  rw [hpp] at h8 h9
  obtain ⟨g3, g4⟩ := good_end h9 hr rfl w.emitter
  exact ⟨⟨V (put f s ⟨q, q', 1, 1⟩) w1, r1, by rw [g2]; exact h8, g4.symm, rfl⟩, g3⟩

theorem all_none {e : Env} {s : SigId} {em : Nat} {args : Args} {i : Nat} {v : World} (h : (v.sig s).slots[i]? = none) :
    All e s em args i v v (.ok ()) := by
  refine ⟨?_, ?_, ?_⟩ <;> rw [runs_iff] <;> simp only [body, h] <;> exact ⟨rfl, rfl⟩

theorem all_error {e : Env} {s : SigId} {em : Nat} {args : Args} {i : Nat} {v v' : World} {x : Slot} {r : Exc} (h : (v.sig s).slots[i]? = some x)
    (hd : ¬ (v.sig s).depth < (v.sig s).maxDepth) (hc : Runs e (.cb (some em) (some s) x args) v v' (.error r)) :
    All e s em args i v v' (.error r) := by
  refine ⟨?_, ?_, ?_⟩ <;> rw [runs_iff] <;> simp only [body, h, if_neg hd] <;> exact ⟨_, _, hc, rfl, rfl⟩

theorem all_ok {e : Env} {s : SigId} {em : Nat} {args : Args} {i : Nat} {v v1 v' : World} {x : Slot} {r : Res} {u : Unit}
    (h : (v.sig s).slots[i]? = some x)
    (hd : ¬ (v.sig s).depth < (v.sig s).maxDepth) (hc : Runs e (.cb (some em) (some s) x args) v v1 (.ok u))
    (hl : (v1.sig s).emitQueue.length ≤ 1) (ha : All e s em args (i + 1) v1 v' r) : All e s em args i v v' r := by
  obtain ⟨a1, a2, a3⟩ := ha
  have hl' : ¬ ((v1.sig s).emitQueue.length : Int) > LIMIT := by simp only [LIMIT]; omega
  refine ⟨?_, ?_, ?_⟩ <;> rw [runs_iff] <;> simp only [body, h, if_neg hd]
  · exact ⟨_, _, hc, _, _, a1, rfl, rfl⟩
  · exact ⟨_, _, hc, _, _, a2, rfl, rfl⟩
  · refine ⟨_, _, hc, ?_⟩
    simp only [if_neg hl']
    exact ⟨_, _, a3, rfl, rfl⟩

theorem busy_depth (hg : Good d f w) {s : SigId} (hb : (f s).Busy) : ¬ (w.sig s).depth < (w.sig s).maxDepth := by
  obtain ⟨_, b, c⟩ := hg.st s
  rw [b, c]
  have := hb.1
  have := hb.2.1
  omega

theorem sim_loop {s : SigId} {em : Nat} {args : Args} {i : Nat} {w w' : World} {r : Res} (hf : ∀ f, Good d f w → Quiet d (d.sig s) f → (f s).Busy →
    ((w.sig s).slots[i]? = none ∧ w' = w ∧ r = .ok ()) ∨
    ∃ x, (w.sig s).slots[i]? = some x ∧
      ((∃ e, Sim d (env.withModes m) (.cb (some em) (some s) x args) w w' (.error e) ∧ r = .error e) ∨
       ∃ w1 u, Sim d (env.withModes m) (.cb (some em) (some s) x args) w w1 (.ok u) ∧
        ((w1.sig s).emitQueue.length ≤ 1 → ∀ f, Good d f w1 → Quiet d (d.sig s) f → (f s).Busy →
          All (env.withModes m) s em args (i + 1) (V f w1) (V f w') r ∧ Good d f w'))) :
    ∀ f, Good d f w → Quiet d (d.sig s) f → (f s).Busy → All (env.withModes m) s em args i (V f w) (V f w') r ∧ Good d f w' := by
  intro f hg hq hb
  rcases hf f hg hq hb with ⟨h1, rfl, rfl⟩ | ⟨x, hx, h⟩
  · exact ⟨all_none h1, hg⟩
  · have hxl : d.cb x.base ≤ d.sig s := hg.slots s x (List.mem_of_getElem? hx)
    have hsrc : ∀ y, some s = some y → (f y).d = 1 := by rintro y ⟨⟩; exact hb.1
    rcases h with ⟨e, h1, rfl⟩ | ⟨w1, u, h1, h2⟩
    · obtain ⟨h3, h4⟩ := h1 f _ hg hq hxl hsrc
      exact ⟨all_error hx (busy_depth hg hb) h3, h4⟩
    · obtain ⟨h3, h4⟩ := h1 f _ hg hq hxl hsrc
      have hl : (w1.sig s).emitQueue.length ≤ 1 := by rw [(h4.st s).1]; exact hb.2.2.1
      obtain ⟨h5, h6⟩ := h2 hl f h4 hq hb
      exact ⟨all_ok hx (busy_depth hg hb) h3 hb.2.2.2 h5, h6⟩

theorem sim_forSlots {s : SigId} {em : Nat} {args : Args} {i : Nat} {w w' : World} {r : Res}
    (h : (body env (.forSlots s em args i) w).Via (fun t w w' r => Runs env t w w' r ∧ Sim d (env.withModes m) t w w' r) w' r) :
    Sim d (env.withModes m) (.forSlots s em args i) w w' r := by
  refine sim_loop fun f hg hq hb => ?_
  simp only [body] at h
  split at h
  · rename_i hn
    exact .inl ⟨hn, h⟩
  · rename_i x hx
    obtain ⟨w1, r1, ⟨_, h1⟩, h⟩ := h
    cases r1 with
    | error e => obtain ⟨rfl, rfl⟩ := h; exact .inr ⟨x, hx, .inl ⟨e, h1, rfl⟩⟩
    | ok u =>
      obtain ⟨w2, r2, ⟨_, h2⟩, rfl, rfl⟩ := h
      exact .inr ⟨x, hx, .inr ⟨w1, u, h1, fun _ => h2⟩⟩

theorem sim_forLatest {s : SigId} {em : Nat} {args : Args} {i : Nat} {w w' : World} {r : Res}
    (h : (body env (.forLatest s em args i) w).Via (fun t w w' r => Runs env t w w' r ∧ Sim d (env.withModes m) t w w' r) w' r) :
    Sim d (env.withModes m) (.forLatest s em args i) w w' r := by
  refine sim_loop fun f hg hq hb => ?_
  simp only [body] at h
  split at h
  · rename_i hn
    exact .inl ⟨hn, h⟩
  · rename_i x hx
    rw [if_neg (busy_depth hg hb)] at h
    obtain ⟨w1, r1, ⟨_, h1⟩, h⟩ := h
    cases r1 with
    | error e => obtain ⟨rfl, rfl⟩ := h; exact .inr ⟨x, hx, .inl ⟨e, h1, rfl⟩⟩
    | ok u =>
      obtain ⟨w2, r2, ⟨_, h2⟩, rfl, rfl⟩ := h
      exact .inr ⟨x, hx, .inr ⟨w1, u, h1, fun _ => h2⟩⟩

theorem sim_forQueued {s : SigId} {em : Nat} {args : Args} {i : Nat} {w w' : World} {r : Res}
    (h : (body env (.forQueued s em args i) w).Via (fun t w w' r => Runs env t w w' r ∧ Sim d (env.withModes m) t w w' r) w' r) :
    Sim d (env.withModes m) (.forQueued s em args i) w w' r := by
  refine sim_loop fun f hg hq hb => ?_
  simp only [body] at h
  split at h
  · rename_i hn
    exact .inl ⟨hn, h⟩
  · rename_i x hx
    obtain ⟨w1, r1, ⟨_, h1⟩, h⟩ := h
    cases r1 with
    | error e => obtain ⟨rfl, rfl⟩ := h; exact .inr ⟨x, hx, .inl ⟨e, h1, rfl⟩⟩
    | ok u =>
      refine .inr ⟨x, hx, .inr ⟨w1, u, h1, fun hl => ?_⟩⟩
      have hl' : ¬ ((w1.sig s).emitQueue.length : Int) > LIMIT := by simp only [LIMIT]; omega
      simp only [if_neg hl'] at h
      obtain ⟨w2, r2, ⟨_, h2⟩, rfl, rfl⟩ := h
      exact h2

theorem sim_whileQueued {s : SigId} {em : Nat} {i : Nat} {w w' : World} {r : Res}
    (h : (body env (.whileQueued s em i) w).Via (fun t w w' r => Runs env t w w' r ∧ Sim d (env.withModes m) t w w' r) w' r) :
    Sim d (env.withModes m) (.whileQueued s em i) w w' r := by
  rintro f a hg hq hb rfl ha
  have e : (w.sig s).emitQueue = [a] := (hg.st s).1.trans ha
  simp only [body, e, List.getElem?_cons_zero] at h
  obtain ⟨w1, r1, ⟨_, h1⟩, h⟩ := h
  obtain ⟨h2, h3⟩ := h1 f hg hq hb
  cases r1 with
  | error e => obtain ⟨rfl, rfl⟩ := h; exact ⟨h2, h3⟩
  | ok u =>
    obtain ⟨w2, r2, ⟨h4, _⟩, rfl, rfl⟩ := h
    have e' : (w1.sig s).emitQueue = [a] := (h3.st s).1.trans ha
    rw [runs_iff] at h4
    simp only [body, e'] at h4
    obtain ⟨rfl, rfl⟩ := h4
    exact ⟨h2, h3⟩

/-- What a mode takes from the queue. -/
def pops : Mode → Bool
  | .queued => false
  | _ => true

theorem sim_inner {s : SigId} {em : Nat} {w w' : World} {r : Res}
    (h : (body env (.inner s em) w).Via (fun t w w' r => Runs env t w w' r ∧ Sim d (env.withModes m) t w w' r) w' r) :
    Sim d (env.withModes m) (.inner s em) w w' r := by
  intro f a hg hq hs
  have e : (w.sig s).emitQueue = [a] := by rw [(hg.st s).1, hs]
  have e' : ((V f w).sig s).emitQueue = [a] := by simp only [V, withQ, hs]
  obtain ⟨g1, g2⟩ := good_pop hg hs (pops (env.decl s).mode) (pops (m s))
  refine ⟨if pops (env.decl s).mode then [] else [a], if pops (m s) then [] else [a], ?_⟩
  generalize hF : put f s ⟨if pops (env.decl s).mode then [] else [a], if pops (m s) then [] else [a], 1, 1⟩ = F at g1 g2 ⊢
  have hFs : F s = ⟨if pops (env.decl s).mode then [] else [a], if pops (m s) then [] else [a], 1, 1⟩ := by rw [← hF, put_same]
  have hq' : Quiet d (d.sig s) F := by rw [← hF]; exact hq.put (Nat.le_refl _)
  have hb : (F s).Busy := by
    rw [hFs]
    refine ⟨rfl, Int.le_refl _, ?_, ?_⟩ <;> dsimp only <;> split <;> simp
  have key : All (env.withModes m) s em a 0 (V F (if pops (env.decl s).mode then w.popQueue s else w)) (V F w') r ∧ Good d F w' := by
    simp only [body, e] at h
    cases hm : (env.decl s).mode with
    | immediate =>
      rw [hm] at h g1
      obtain ⟨w1, r1, ⟨_, h1⟩, rfl, rfl⟩ := h
      exact h1 F g1 hq' hb
    | latest =>
      rw [hm] at h g1
      obtain ⟨w1, r1, ⟨_, h1⟩, rfl, rfl⟩ := h
      exact h1 F g1 hq' hb
    | queued =>
      rw [hm] at h g1
      obtain ⟨w1, r1, ⟨_, h1⟩, rfl, rfl⟩ := h
      exact h1 F a g1 hq' hb rfl (by rw [hFs, hm]; rfl)
  refine ⟨?_, key.2⟩
  obtain ⟨⟨k1, k2, k3⟩, k4⟩ := key
  rw [← g2] at k1 k2 k3
  rw [runs_iff]
  simp only [body, e', show ((env.withModes m).decl s).mode = m s from rfl]
  cases hm : m s with
  | immediate => rw [hm] at k1; exact ⟨_, _, k1, rfl, rfl⟩
  | latest => rw [hm] at k2; exact ⟨_, _, k2, rfl, rfl⟩
  | queued =>
    rw [hm] at k3
    refine ⟨_, _, ?_, rfl, rfl⟩
    rw [runs_iff]
    simp only [body, e', List.getElem?_cons_zero]
    refine ⟨_, _, k3, ?_⟩
    cases r with
    | error x => exact ⟨rfl, rfl⟩
    | ok u =>
      refine ⟨_, _, ?_, rfl, rfl⟩
      rw [runs_iff]
      have e2 : ((V F w').sig s).emitQueue = [a] := by simp only [V, withQ, hFs, hm]; rfl
      simp only [body, e2]
      exact ⟨rfl, rfl⟩

theorem sim_cb {em : Option Nat} {src : Option SigId} {x : Slot} {args : Args} {w w' : World} {r : Res}
    (h : (body env (.cb em src x args) w).Via (fun t w w' r => Runs env t w w' r ∧ Sim d (env.withModes m) t w w' r) w' r) :
    Sim d (env.withModes m) (.cb em src x args) w w' r := by
  intro f n hg hq hx hs
  rw [runs_iff]
  simp only [body] at h ⊢
  cases hth : x.thread with
  | none =>
    rw [hth] at h
    obtain ⟨w1, r1, ⟨_, h1⟩, rfl, rfl⟩ := h
    obtain ⟨h2, h3⟩ := h1 f n hg hq hx hs
    exact ⟨⟨_, _, h2, rfl, rfl⟩, h3⟩
  | some t =>
    rw [hth] at h
    dsimp only at h ⊢
    by_cases ht : w.thread = t
    · rw [if_pos ht] at h
      rw [if_pos (show (V f w).thread = t from ht)]
      obtain ⟨w1, r1, ⟨_, h1⟩, rfl, rfl⟩ := h
      obtain ⟨h2, h3⟩ := h1 f n hg hq hx hs
      exact ⟨⟨_, _, h2, rfl, rfl⟩, h3⟩
    · rw [if_neg ht] at h
      rw [if_neg (show ¬ (V f w).thread = t from ht)]
      obtain ⟨rfl, rfl⟩ := h
      have h1 := hg.ev (e := .put t x.base args em) (by intros; contradiction)
      exact ⟨⟨rfl, rfl⟩, ⟨h1.st, h1.slots, h1.hook, h1.log⟩⟩

theorem sim_direct (hk : d.Kept env) {em : Option Nat} {src : Option SigId} {x : Slot} {args : Args} {w w' : World} {r : Res}
    (h : (body env (.direct em src x args) w).Via (fun t w w' r => Runs env t w w' r ∧ Sim d (env.withModes m) t w w' r) w' r) :
    Sim d (env.withModes m) (.direct em src x args) w w' r := by
  intro f n hg hq hx hs
  have hl : Good d f (w.logCall em src x.base (x.callArgs args)) := by
    refine hg.ev ?_
    intro em' s k c t b a he
    cases src with
    | none => cases he
    | some s' =>
      cases he
      show (w.sig s).depth = 1
      rw [(hg.st s).2.1]
      exact hs s rfl
  have hret : ∀ {w1 : World} {r1 : Res}, Good d f w1 → Good d f (w1.logRet em src x.base r1) := fun h => h.ev (by intros; contradiction)
  rw [runs_iff]
  simp only [body] at h ⊢
  by_cases hd : x.base.isDead w = true
  · rw [if_pos hd] at h
    obtain ⟨rfl, rfl⟩ := h
    rw [if_pos (show x.base.isDead (V f _) = true from hd)]
    exact ⟨⟨rfl, rfl⟩, hg⟩
  · rw [if_neg hd] at h
    rw [if_neg (show ¬ x.base.isDead (V f w) = true from hd)]
    have hc := hk.code x.base (x.callArgs args)
    cases hb : x.base with
    | relay r' =>
      rw [hb] at h hl hx hret
      obtain ⟨w1, r1, ⟨_, h1⟩, rfl, rfl⟩ := h
      obtain ⟨h2, h3⟩ := h1 f n hl hq (Nat.lt_of_lt_of_le (hk.relay r') hx)
      exact ⟨⟨_, _, h2, rfl, rfl⟩, hret h3⟩
    | _ =>
      rw [hb] at h hl hx hret hc
      obtain ⟨w1, r1, ⟨_, h1⟩, rfl, rfl⟩ := h
      obtain ⟨h2, h3⟩ := h1 f _ hl (hq.mono hx) hc
      exact ⟨⟨_, _, h2, rfl, rfl⟩, hret h3⟩

theorem sim_slotRelay {s : SigId} {args : Args} {w w' : World} {r : Res}
    (h : (body env (.slotRelay s args) w).Via (fun t w w' r => Runs env t w w' r ∧ Sim d (env.withModes m) t w w' r) w' r) :
    Sim d (env.withModes m) (.slotRelay s args) w w' r := by
  intro f n hg hq hs
  rw [runs_iff]
  simp only [body] at h ⊢
  rw [show ((env.withModes m).decl s).isRelay = (env.decl s).isRelay from rfl]
  split at h
  · rename_i hh; rw [if_pos hh]; obtain ⟨rfl, rfl⟩ := h; exact ⟨⟨rfl, rfl⟩, hg⟩
  · rename_i hh; rw [if_neg hh, show (V f w).emitter = w.emitter from rfl]
    cases he : w.emitter with
    | none => rw [he] at h; obtain ⟨rfl, rfl⟩ := h; exact ⟨⟨rfl, rfl⟩, hg⟩
    | some e =>
      rw [he] at h
      dsimp only at h ⊢
      rw [show ((V f w).sig e).slots = (w.sig e).slots from rfl]
      split at h
      · rename_i hh; rw [if_pos hh]; obtain ⟨rfl, rfl⟩ := h; exact ⟨⟨rfl, rfl⟩, hg⟩
      · rename_i hh; rw [if_neg hh]; obtain ⟨w1, r1, ⟨_, h1⟩, rfl, rfl⟩ := h
        obtain ⟨h2, h3⟩ := h1 f n hg hq hs
        exact ⟨⟨_, _, h2, rfl, rfl⟩, h3⟩

theorem sim_replay {s : SigId} {i : Nat} {w w' : World} {r : Res}
    (h : (body env (.replay s i) w).Via (fun t w w' r => Runs env t w w' r ∧ Sim d (env.withModes m) t w w' r) w' r) :
    Sim d (env.withModes m) (.replay s i) w w' r := by
  intro f n hg hq hs
  rw [runs_iff]
  simp only [body] at h ⊢
  rw [show ((V f w).sig s).argsQueue = (w.sig s).argsQueue from rfl]
  split at h
  · obtain ⟨rfl, rfl⟩ := h; exact ⟨⟨rfl, rfl⟩, hg⟩
  · obtain ⟨w1, r1, ⟨_, h1⟩, h⟩ := h
    obtain ⟨h2, h3⟩ := h1 f n hg hq hs
    cases r1 with
    | error e => obtain ⟨rfl, rfl⟩ := h; exact ⟨⟨_, _, h2, rfl, rfl⟩, h3⟩
    | ok u =>
      obtain ⟨w2, r2, ⟨_, h4⟩, rfl, rfl⟩ := h
      obtain ⟨h5, h6⟩ := h4 f n h3 hq hs
      exact ⟨⟨_, _, h2, _, _, h5, rfl, rfl⟩, h6⟩

theorem sim_resume {s : SigId} {red : Option Reducer} {w w' : World} {r : Res}
    (h : (body env (.resume s red) w).Via (fun t w w' r => Runs env t w w' r ∧ Sim d (env.withModes m) t w w' r) w' r) :
    Sim d (env.withModes m) (.resume s red) w w' r := by
  intro f n hg hq hs
  have hu : Good d f (w.unpause s) := hg.upd' (fun _ => rfl) fun _ => ⟨rfl, rfl, rfl⟩
  have eu : (V f w).unpause s = V f (w.unpause s) := upd_withQ fun _ _ => rfl
  have hc : ∀ {w1 : World}, Good d f w1 → Good d f (w1.clearArgs s) := fun h => h.upd' (fun _ => rfl) fun _ => ⟨rfl, rfl, rfl⟩
  have ec : ∀ {w1 : World}, (V f w1).clearArgs s = V f (w1.clearArgs s) := upd_withQ fun _ _ => rfl
  rw [runs_iff]
  simp only [body] at h ⊢
  rw [eu, show ((V f w).sig s).argsQueue = (w.sig s).argsQueue from rfl, show ((V f w).sig s).slots = (w.sig s).slots from rfl, ec]
  split at h
  · rename_i hh; rw [if_pos hh]; obtain ⟨rfl, rfl⟩ := h; exact ⟨⟨rfl, rfl⟩, hu⟩
  · rename_i hh; rw [if_neg hh]; clear hh; split at h
    · rename_i hh; rw [if_pos hh]; obtain ⟨rfl, rfl⟩ := h; exact ⟨⟨rfl, rfl⟩, hc hu⟩
    · rename_i hh; rw [if_neg hh]; clear hh; cases red with
      | none =>
        obtain ⟨w1, r1, ⟨_, h1⟩, h⟩ := h
        obtain ⟨h2, h3⟩ := h1 f n hu hq hs
        cases r1 with
        | error e => obtain ⟨rfl, rfl⟩ := h; exact ⟨⟨_, _, h2, rfl, rfl⟩, h3⟩
        | ok u => obtain ⟨rfl, rfl⟩ := h; exact ⟨⟨_, _, h2, ec.symm, rfl⟩, hc h3⟩
      | some rd =>
        dsimp only at h ⊢
        cases hrd : rd.run (w.sig s).argsQueue with
        | error e => rw [hrd] at h; obtain ⟨rfl, rfl⟩ := h; exact ⟨⟨rfl, rfl⟩, hu⟩
        | ok args =>
          rw [hrd] at h
          obtain ⟨w1, r1, ⟨_, h1⟩, h⟩ := h
          obtain ⟨h2, h3⟩ := h1 f n hu hq hs
          cases r1 with
          | error e => obtain ⟨rfl, rfl⟩ := h; exact ⟨⟨_, _, h2, rfl, rfl⟩, h3⟩
          | ok u => obtain ⟨rfl, rfl⟩ := h; exact ⟨⟨_, _, h2, ec.symm, rfl⟩, hc h3⟩

theorem sim_drain {t : ThreadId} {w w' : World} {r : Res}
    (h : (body env (.drain t) w).Via (fun t w w' r => Runs env t w w' r ∧ Sim d (env.withModes m) t w w' r) w' r) :
    Sim d (env.withModes m) (.drain t) w w' r := by
  intro f n hg hq hn
  rw [runs_iff]
  simp only [body] at h ⊢
  rw [show (V f w).tq t = w.tq t from rfl]
  cases hq' : w.tq t with
  | nil => rw [hq'] at h; obtain ⟨rfl, rfl⟩ := h; exact ⟨⟨rfl, rfl⟩, hg⟩
  | cons y l =>
    obtain ⟨x, args⟩ := y
    rw [hq'] at h
    obtain ⟨w1, r1, ⟨_, h1⟩, h⟩ := h
    have hgq : Good d f (w.getQueue t x args) := by
      have h1 := hg.ev (e := .get t x.base args) (by intros; contradiction)
      exact ⟨h1.st, h1.slots, h1.hook, h1.log⟩
    obtain ⟨h2, h3⟩ := h1 f n hgq hq (hn _) (by intro s hs; cases hs)
    cases r1 with
    | error e => obtain ⟨rfl, rfl⟩ := h; exact ⟨⟨_, _, h2, rfl, rfl⟩, h3⟩
    | ok u =>
      obtain ⟨w2, r2, ⟨_, h4⟩, rfl, rfl⟩ := h
      obtain ⟨h5, h6⟩ := h4 f n h3 hq hn
      exact ⟨⟨_, _, h2, _, _, h5, rfl, rfl⟩, h6⟩

theorem sim (hk : d.Kept env) {t : Task} {w w' : World} {r : Res} (h : Runs env t w w' r) : Sim d (env.withModes m) t w w' r := by
  refine Runs.induct (P := Sim d (env.withModes m)) ?_ h
  clear h
  intro t w w' r h
  cases t with
  | prog p => exact sim_prog hk h
  | emit s a c => exact sim_emit h
  | emitFast s a => exact sim_emitFast h
  | runLoop s a => exact sim_runLoop h
  | inner s em => exact sim_inner h
  | forSlots s em a i => exact sim_forSlots h
  | forLatest s em a i => exact sim_forLatest h
  | forQueued s em a i => exact sim_forQueued h
  | whileQueued s em i => exact sim_whileQueued h
  | cb em src x a => exact sim_cb h
  | direct em src x a => exact sim_direct hk h
  | slotRelay s a => exact sim_slotRelay h
  | resume s red => exact sim_resume h
  | replay s i => exact sim_replay h
  | drain t => exact sim_drain h

/-- Everything at rest. -/
theorem V_rest (h : Good d (fun _ => rest) w) : V (fun _ => rest) w = w := by
  have : (fun s => ({ w.sig s with emitQueue := [] } : SigState)) = w.sig := by
    funext s
    have := (h.st s).1
    cases hs : w.sig s
    rw [hs] at this
    simp only [SigState.mk.injEq, true_and, and_true]
    exact this.symm
  show ({ w with sig := fun s => { w.sig s with emitQueue := [] } } : World) = w
  rw [this]

theorem top (hk : d.Kept env) {p : Prog} (hp : p.Only (d.Allows n)) {w w' : World} {r : Res} (hg : Good d (fun _ => rest) w)
    (h : Runs env (.prog p) w w' r) : Runs (env.withModes m) (.prog p) w w' r ∧ Good d (fun _ => rest) w' := by
  obtain ⟨h1, h2⟩ := sim (m := m) hk h (fun _ => rest) n hg (fun _ _ => rfl) hp
  rw [V_rest hg, V_rest h2] at h1
  exact ⟨h1, h2⟩

theorem good_init : Good d (fun _ => rest) .init := by
  refine ⟨fun s => ⟨rfl, rfl, rfl⟩, fun s x hx => ?_, fun b h => ?_, fun em s k e t b a h => ?_⟩
  · simp [World.init, SigState.init] at hx
  · cases h
  · simp [World.init] at h

theorem turns (hk : d.Kept env) {ps : List (Bool × ThreadId × Prog)} (hp : ∀ x ∈ ps, ∃ n, x.2.2.Only (d.Allows n)) {w w' : World}
    {rs : List (Bool × Res)} (hg : Good d (fun _ => rest) w) (h : Turns env ps w rs w') :
    Turns (env.withModes m) ps w rs w' ∧ Good d (fun _ => rest) w' := by
  induction h with
  | nil => exact ⟨.nil, hg⟩
  | @cons b t p ps w w1 w2 r rs h1 _ ih =>
    obtain ⟨n, hn⟩ := hp _ (.head _)
    obtain ⟨h3, h4⟩ := top (m := m) hk hn (w := { w with thread := t }) ⟨hg.st, hg.slots, hg.hook, hg.log⟩ h1
    obtain ⟨h5, h6⟩ := ih (fun x hx => hp x (.tail _ hx)) h4
    exact ⟨.cons h3 h5, h6⟩

theorem kept_modes (hk : d.Kept env) : d.Kept (env.withModes m) := ⟨hk.code, hk.relay, hk.kids⟩

theorem modes_back : (env.withModes m).withModes (fun s => (env.decl s).mode) = env := rfl

end

end Modes
end Psygnal
