import Verif.ConcCore

/-! # Threads that use different signals

The threads are divided into two sets, and so are the signals (`/repo/src/psygnal/_signal.py:551-567`: all attributes that emissions use
are those of one instance, apart from `_current_emitter`, `:293`). -/
namespace Psygnal.Conc

/-- Code that uses only the signals in `S` (`/repo/src/psygnal/_signal.py:1142,736,1122`), and does not call `current_emitter`
(`:418-434`), which all threads share (C46). -/
def Code.on (S : Nat → Bool) : Code → Prop
  | .ret => True
  | .raise => True
  | .see _ => False
  | .emit s _ k => S s = true ∧ ∀ b, (k b).on S
  | .hold s c k => S s = true ∧ c.on S ∧ ∀ b, (k b).on S
  | .slots s _ k => S s = true ∧ k.on S

/-- The threads in `T` use only signals in `S`, the others only other signals, and the same holds for the callbacks
(`/repo/src/psygnal/_signal.py:1308`). -/
structure Apart (e : Env) (prog : Nat → Code) (T S : Nat → Bool) : Prop where
  code : ∀ t, (prog t).on (fun s => S s == T t)
  body : ∀ s x a, (e.body s x a).on (fun s' => S s' == S s)

/-- The thread of an observation (see `Ev`; `/repo/src/psygnal/_signal.py:1308`). -/
def Ev.thread : Ev → Nat
  | .call t .. => t
  | .done t _ => t
  | .saw t .. => t

end Psygnal.Conc
