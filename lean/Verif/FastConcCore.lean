import Verif.FastConc
import Verif.Core

/-! # One thread: the emissions of `FastConc.lean` are those of `Core.lean`

`FastConc.lean` has `emit_fast` and `emit` in small steps (`/repo/src/psygnal/_signal.py:1203-1318`) and was written separately from the
sequential model.  Here code of the one is translated into programs of the other. -/
namespace Psygnal.FC

/-- Code as a program of the sequential model: user code that calls `/repo/src/psygnal/_signal.py:1142-1256`. -/
def trans : Code → Prog
  | .ret => .ret
  | .raise => .raise (.user 0)
  | .emit true s a k => .api (.emitFast s [.atom a]) fun
    | .ok _ => trans (k true)
    | .error _ => trans (k false)
  | .emit false s a k => .api (.emit s [.atom a] false) fun
    | .ok _ => trans (k true)
    | .error _ => trans (k false)

/-- The signals and callbacks for the sequential model: callback `x` of signal `s` is a method
(`/repo/src/psygnal/_weak_callback.py:412-456`). -/
def Env.core (e : Env) : Psygnal.Env where
  decl s := ⟨if e.latest s then .latest else .immediate, [], false, false, [], none⟩
  body b args := match b, args with
    | .method s x, [.atom a] => trans (e.body s x a.toNat)
    | _, _ => .ret
  pysig _ := none

/-- A slot of the sequential model (`/repo/src/psygnal/_weak_callback.py:412-456`). -/
def coreSlot (s x : Nat) : Slot := ⟨.method s x, [], none, 0, none, 0⟩

/-- The state of the sequential model before anything is emitted, with the callbacks connected (`/repo/src/psygnal/_signal.py:551-557`). -/
def Env.world (e : Env) : World := { World.init with sig := fun s => { SigState.init with slots := (e.slots s).map (coreSlot s) } }

/-- The calls of callbacks, from the log of the sequential model: signal, callback, argument (`/repo/src/psygnal/_signal.py:1241,1308`). -/
def coreCall : Psygnal.Ev → Option (Nat × Nat × Val)
  | .call _ _ _ _ _ (.method s x) [v] => some (s, x, v)
  | _ => none

/-- The calls of callbacks, from the log of a thread (`/repo/src/psygnal/_signal.py:1241,1308`). -/
def fastCall : Ev → Option (Nat × Nat × Val)
  | .call m x => some (m.s, x, .atom m.a)
  | _ => none

end Psygnal.FC
