import Verif.Conc
import Verif.Core

/-! # One thread: the emissions of `Conc.lean` are those of `Core.lean`

The model with threads (`/repo/src/psygnal/_signal.py:1264-1328` in small steps) and the sequential one were written separately.  Here they
are compared: code that emits, asks for the current emitter and raises is translated, and whenever the sequential model says how it ends,
the thread gets there too, with the same calls. -/
namespace Psygnal.Conc

/-- Code as a program of the sequential model: user code that calls `/repo/src/psygnal/_signal.py:418-434,1142-1201`.  Other operations
are not translated. -/
def trans : Code → Prog
  | .ret => .ret
  | .raise => .raise (.user 0)
  | .see k => .api .currentEmitter fun
    | .ok (.sig v) => trans (k v)
    | _ => .ret
  | .emit s a k => .api (.emit s [.atom a] false) fun
    | .ok _ => trans (k true)
    | .error _ => trans (k false)
  | .hold .. => .ret
  | .slots .. => .ret

/-- Code that is translated: it emits and asks for the emitter (`/repo/src/psygnal/_signal.py:418-434,1142-1201`). -/
def Plain : Code → Prop
  | .ret => True
  | .raise => True
  | .see k => ∀ v, Plain (k v)
  | .emit _ _ k => ∀ b, Plain (k b)
  | .hold .. => False
  | .slots .. => False

/-- The re-emission modes (`/repo/src/psygnal/_signal.py:193-204`). -/
def Mode.core : Mode → Psygnal.Mode
  | .immediate => .immediate
  | .queued => .queued
  | .latest => .latest

/-- The signals and callbacks for the sequential model: callback `x` of signal `s` is a method (`/repo/src/psygnal/_weak_callback.py:412-456`). -/
def Env.core (e : Env) : Psygnal.Env where
  decl s := ⟨(e.mode s).core, [], false, false, [], none⟩
  body b args := match b, args with
    | .method s x, [.atom a] => trans (e.body s x a.toNat)
    | _, _ => .ret
  pysig _ := none

/-- A slot of the sequential model (`/repo/src/psygnal/_weak_callback.py:412-456`). -/
def coreSlot (s x : Nat) : Slot := ⟨.method s x, [], none, 0, none, 0⟩

/-- The state of the sequential model before anything is emitted, with the callbacks connected (`/repo/src/psygnal/_signal.py:551-557`). -/
def Env.world (e : Env) : World := { World.init with sig := fun s => { SigState.init with slots := (e.slots s).map (coreSlot s) } }

/-- The calls of callbacks, from the log of the sequential model: signal, callback, argument (`/repo/src/psygnal/_signal.py:1308`). -/
def coreCall : Psygnal.Ev → Option (Nat × Nat × Val)
  | .call _ _ _ _ _ (.method s x) [v] => some (s, x, v)
  | _ => none

/-- The calls of callbacks, from the log of this model (`/repo/src/psygnal/_signal.py:1308`). -/
def concCall : Ev → Option (Nat × Nat × Val)
  | .call _ s x a => some (s, x, .atom a)
  | _ => none

end Psygnal.Conc
