import Verif.Spec

/-!
# Re-emission modes and signals that are not re-emitted: vocabulary of C84 (not part of the model)
-/
namespace Psygnal

/-- The same signals, callbacks and signatures, with other re-emission modes (`ReemissionMode`, `_signal.py:200-206`,
chosen at `:559-564`). -/
def Env.withModes (env : Env) (m : SigId → Mode) : Env :=
  { env with decl := fun s => { env.decl s with mode := m s } }

/-- Levels of signals and of callbacks (emit loops of `_signal.py:1264-1328` that are nested go down). -/
structure Levels where
  sig : SigId → Nat
  cb : Base → Nat

/-- Calls that code of level `n` may make.  It emits and resumes signals below `n` (`_signal.py:1142,1203,1373`), connects
callbacks to signals that are not below them (`:633,820,932`), calls `emit_queued` (`_queue.py:69`) if no callback is above
it, and installs debug hooks (`_signal.py:522`) of the lowest level.  Everything else is free. -/
def Levels.Allows (d : Levels) (n : Nat) : Act → Prop
  | .emit s _ _ => d.sig s < n
  | .emitFast s _ => d.sig s < n
  | .resume s _ => d.sig s < n
  | .connect s c _ => d.cb c.base ≤ d.sig s
  | .connectRaw s b _ _ => d.cb b ≤ d.sig s
  | .emitQueued _ => ∀ b, d.cb b ≤ n
  | .setHook h => ∀ b, h = some b → d.cb b = 0
  | _ => True

/-- Callbacks keep to their level; the group of a signal (`_group.py:71-100`) is below it. -/
structure Levels.Kept (d : Levels) (env : Env) : Prop where
  code : ∀ b args, (env.body b args).Only (d.Allows (d.cb b))
  relay : ∀ r, d.sig r < d.cb (.relay r)
  kids : ∀ r c, c ∈ (env.decl r).children → d.cb (.relay r) ≤ d.sig c

end Psygnal
