import Verif.Swap
import Verif.Separate
import Verif.Spec

/-!
# A callback that only watches (vocabulary for C88)

No new model code: predicates on programs and states of `Core.lean`.
-/
namespace Psygnal

/-- The event is about callback `b`: it is called, returns, or waits (`_weak_callback.py:358,401,454`, `_queue.py:63,90`). -/
def Ev.about (b : Base) : Ev → Bool
  | .call _ _ _ _ _ b' _ => b' = b
  | .ret _ _ b' _ => b' = b
  | .put _ b' _ _ => b' = b
  | .get _ b' _ => b' = b
  | .req .. => false
  | .fast .. => false

/-- The call has nothing to do with the callback `b` that is connected to `s` with priority `p`: it neither connects it (`_signal.py:633`) nor
disconnects it (`:1105`) nor looks for it (`:1134`); what it connects to `s` has a higher priority (`:770-792`); it does not ask for the
number of callbacks of `s` (`:1138`) and does not pause `s` (`:1365`).  (Furthermore it does not connect the private relaying methods of
groups or make them the debug hook, `_group.py:97-100`, and does not `emit_fast` members of groups.) -/
def Act.Ignores (env : Env) (s : SigId) (b : Base) (p : Int) : Act → Prop
  | .emitFast y _ => env.Free y
  | .connect y c o => c.base ≠ b ∧ (∀ r, c.base ≠ .relay r) ∧ (y = s → p < o.priority)
  | .connectRaw y c _ q => c ≠ b ∧ (∀ r, c ≠ .relay r) ∧ (y = s → p < q)
  | .disconnect _ c _ => ∀ x, c = some x → x.base ≠ b
  | .discard _ c _ => c ≠ b
  | .contains _ c => c.base ≠ b
  | .len y => y ≠ s
  | .pause y => y ≠ s
  | .setHook h => ∀ x r, h = some x → x ≠ .relay r
  | _ => True

/-- The state `w` is the state `v` for everybody but callback `x`, which is, or is no longer, the last one connected to `s`: the same
memory, objects, thread queues, flags, depths, queues, connections, and the same events but for those of `x` (all attributes of
`_signal.py:543-567` but `_priority_in_use`, and up to the ghost numbers of connections). -/
structure World.Beside (s : SigId) (x : Slot) (v w : World) : Prop where
  log : w.log.filter (fun e => !e.about x.base) = v.log.filter fun e => !e.about x.base
  mem : w.mem = v.mem
  dead : w.dead = v.dead
  hook : w.hook = v.hook
  emitter : w.emitter = v.emitter
  tq : ∀ t, (w.tq t).map (fun q => (q.1.bare, q.2)) = (v.tq t).map fun q => (q.1.bare, q.2)
  others : ∀ y, y ≠ s → (w.sig y).bare = (v.sig y).bare
  slots : (w.sig s).slots.map Slot.bare = (v.sig s).slots.map Slot.bare ∨
    (w.sig s).slots.map Slot.bare = (v.sig s).slots.map Slot.bare ++ [x.bare]
  here : ({ w.sig s with slots := [], prioInUse := true } : SigState) = { v.sig s with slots := [], prioInUse := true }

end Psygnal
