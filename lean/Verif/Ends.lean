import Verif.Spec

/-!
# Which programs end: vocabulary of C83 (not part of the model)
-/
namespace Psygnal

/-- Calls that callbacks may make without any emission running for ever: everything except connecting
(`SignalInstance.connect` `_signal.py:633`: the emit loop at `:1307` walks the live list of callbacks),
pausing (`pause` `:1365`: `resume` at `:1427` walks the live list of collected arguments), draining the
queue of another thread (`emit_queued` `_queue.py:69`: the loop at `:89` runs until that queue is empty)
and installing a debug hook (`_signal.py:1196`).  Emissions and `resume` are of the finitely many
signals `S`. -/
def Harmless (S : List SigId) : Act → Prop
  | .emit s _ _ => s ∈ S
  | .emitFast s _ => s ∈ S
  | .resume s _ => s ∈ S
  | .connect .. => False
  | .connectRaw .. => False
  | .pause _ => False
  | .emitQueued t => t = none
  | .setHook h => h = none
  | _ => True

/-- Calls that a program (not a callback) may make: everything, also connecting and pausing, except
draining the queue of another thread (`_queue.py:69`) and installing a debug hook (`_signal.py:1196`). -/
def Simple : Act → Prop
  | .emitQueued t => t = none
  | .setHook h => h = none
  | _ => True

end Psygnal
