import Verif.Core

/-! # Signals that have nothing to do with each other

A program is divided into two sides: signals, callbacks, objects and memory of one side and of the other.  What the sides share is
`Signal._current_emitter` (`/repo/src/psygnal/_signal.py:293`), `SignalInstance._debug_hook` (`:522`) and the queues of threads
(`/repo/src/psygnal/_queue.py:29-31`). -/
namespace Psygnal

/-- What belongs to one side: signals, callbacks (`/repo/src/psygnal/_weak_callback.py:96-170`), objects that own callbacks, places in
memory. -/
structure Side where
  sig : SigId → Bool
  base : Base → Bool
  obj : ObjId → Bool
  adr : Nat → Bool

/-- The other side (what the first one does not share; `/repo/src/psygnal/_signal.py:543-567`). -/
def Side.other (d : Side) : Side := ⟨fun s => !d.sig s, fun b => !d.base b, fun o => !d.obj o, fun a => !d.adr a⟩

/-- API calls on this side: on its signals, connecting its callbacks, dropping its objects.  `emit_queued`
(`/repo/src/psygnal/_queue.py:69-94`) and setting the debug hook (`/repo/src/psygnal/_signal.py:522`) concern both sides. -/
def Act.on (d : Side) : Act → Prop
  | .emit s .. => d.sig s = true
  | .emitFast s _ => d.sig s = true
  | .connect s c _ => d.sig s = true ∧ d.base c.base = true
  | .connectRaw s b .. => d.sig s = true ∧ d.base b = true
  | .disconnect s .. => d.sig s = true
  | .discard s .. => d.sig s = true
  | .contains s _ => d.sig s = true
  | .len s => d.sig s = true
  | .block s _ => d.sig s = true
  | .unblock s => d.sig s = true
  | .pause s => d.sig s = true
  | .resume s _ => d.sig s = true
  | .currentEmitter => True
  | .emitQueued _ => False
  | .kill o => d.obj o = true
  | .setHook _ => False
  | .getHook => True

/-- The two memories agree on this side (user memory, see `Mem`; code called at `/repo/src/psygnal/_signal.py:1308`). -/
def Side.same (d : Side) (m m' : Mem) : Prop := ∀ a, d.adr a = true → m a = m' a

/-- Code of this side: it calls the API on this side only, reads and writes the memory of this side only (user code, called at
`/repo/src/psygnal/_signal.py:1308`). -/
def Prog.on (d : Side) : Prog → Prop
  | .ret => True
  | .raise _ => True
  | .user f k => (∀ m m', d.same m m' → d.same (f m) (f m') ∧ k m = k m') ∧ (∀ m, d.other.same (f m) m) ∧ ∀ m, (k m).on d
  | .api a k => a.on d ∧ ∀ r, (k r).on d
  | .withBlocked s _ b k => d.sig s = true ∧ b.on d ∧ ∀ r, (k r).on d
  | .withPaused s _ b k => d.sig s = true ∧ b.on d ∧ ∀ r, (k r).on d

/-- The sides are separate: a group is on the side of its members (`/repo/src/psygnal/_group.py:71`), a callback on that of its owner, a relay
on that of its group, and the callbacks of this side run code of this side. -/
structure Side.Separate (env : Env) (d : Side) : Prop where
  kids : ∀ s c, c ∈ (env.decl s).children → d.sig c = d.sig s
  parent : ∀ s r, (env.decl s).parent = some r → d.sig r = d.sig s
  owner : ∀ b o, b.owner? = some o → d.base b = d.obj o
  relay : ∀ r, d.base (.relay r) = d.sig r
  code : ∀ b args, d.base b = true → (env.body b args).on d

/-- The slot without the number of its connection (a ghost of `Slot`, `/repo/src/psygnal/_weak_callback.py:211-226`). -/
def Slot.bare (x : Slot) : Slot := { x with serial := 0 }

/-- The attributes of a signal, without these numbers (`/repo/src/psygnal/_signal.py:543-567`). -/
def SigState.bare (st : SigState) : SigState := { st with slots := st.slots.map Slot.bare }

/-- What one side sees of an event: those of its signals and callbacks, without the numbers of loops (ghosts; events of
`/repo/src/psygnal/_signal.py:1238,1269,1308` and `/repo/src/psygnal/_queue.py:63,90`). -/
def Side.see (d : Side) : Ev → Option Ev
  | .req s a => if d.sig s then some (.req s a) else none
  | .fast s a _ => if d.sig s then some (.fast s a 0) else none
  | .call em src n e t b a => if d.base b then some (.call (em.map fun _ => 0) src n e t b a) else none
  | .ret em src b r => if d.base b then some (.ret (em.map fun _ => 0) src b r) else none
  | .put t b a em => if d.base b then some (.put t b a (em.map fun _ => 0)) else none
  | .get t b a => if d.base b then some (.get t b a) else none

/-- The callbacks of this side that wait in the queue of a thread (`/repo/src/psygnal/_queue.py:63`). -/
def Side.waiting (d : Side) (w : World) (t : ThreadId) : List (Slot × Args) :=
  ((w.tq t).filter fun q => d.base q.1.base).map fun q => (q.1.bare, q.2)

/-- The two states are the same for this side: its signals (`/repo/src/psygnal/_signal.py:543-567`), objects, memory, waiting callbacks, and
what it has seen. -/
structure Side.Agree (d : Side) (w w' : World) : Prop where
  sig : ∀ s, d.sig s = true → (w.sig s).bare = (w'.sig s).bare
  dead : ∀ o, d.obj o = true → w.dead o = w'.dead o
  mem : d.same w.mem w'.mem
  waiting : ∀ t, d.waiting w t = d.waiting w' t
  log : w.log.filterMap d.see = w'.log.filterMap d.see

/-- Programs (marked) run one after the other, each to its end, in some thread, with their results (user code, calling
`/repo/src/psygnal/_signal.py:449-1507` from outside). -/
inductive Turns (env : Env) : List (Bool × ThreadId × Prog) → World → List (Bool × Res) → World → Prop where
  | nil {w : World} : Turns env [] w [] w
  | cons {b : Bool} {t : ThreadId} {p : Prog} {ps : List (Bool × ThreadId × Prog)} {w w1 w2 : World} {r : Res} {rs : List (Bool × Res)} :
      Runs env (.prog p) { w with thread := t } w1 r → Turns env ps w1 rs w2 → Turns env ((b, t, p) :: ps) w ((b, r) :: rs) w2

end Psygnal
