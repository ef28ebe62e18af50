import Verif.Core

/-!
# Programs that differ in `emit` and `emit_fast` (vocabulary for C87)

No new model code: predicates on programs and states of `Core.lean`.
-/
namespace Psygnal

/-- The signal is in no group (`SignalGroup._psygnal_instances`, `_group.py:71,272-280`). -/
def Env.Free (env : Env) (s : SigId) : Prop := ∀ r, s ∉ (env.decl r).children

/-- The signal re-emits at once (`reemission='immediate'`, `_signal.py:533,544,559-564`) and is in no group. -/
def Env.Plain (env : Env) (s : SigId) : Prop := (env.decl s).mode = .immediate ∧ env.Free s

/-- The call does not show whether signals are emitted with `emit` or `emit_fast`: it neither asks for `Signal.current_emitter()`
(`_signal.py:418-426`) nor sets a debug hook (`:522`), does not connect the private relaying methods of groups (`_group.py:97-100`), and does
not `emit_fast` members of groups (whose relays ask for the current emitter). -/
def Act.Blind (env : Env) : Act → Prop
  | .currentEmitter => False
  | .setHook h => h = none
  | .connect _ c _ => ∀ r, c.base ≠ .relay r
  | .connectRaw _ b _ _ => ∀ r, b ≠ .relay r
  | .emitFast s _ => env.Free s
  | _ => True

/-- The same call, or `emit` (`_signal.py:1142-1201`) against `emit_fast` (`:1203-1256`) of the same plain signal with the same arguments
(that bind to its signature if they are checked, `:1174-1181`). -/
inductive Act.Alike (env : Env) : Act → Act → Prop where
  | same {a : Act} : a.Blind env → Act.Alike env a a
  | fast {s : SigId} {a : Args} {c : Bool} : env.Plain s → (c = true → bindsPos (env.decl s).sig a.length = true) →
      Act.Alike env (.emit s a c) (.emitFast s a)
  | slow {s : SigId} {a : Args} {c : Bool} : env.Plain s → (c = true → bindsPos (env.decl s).sig a.length = true) →
      Act.Alike env (.emitFast s a) (.emit s a c)

/-- The same program up to `emit` against `emit_fast` at any of its calls (user code, as `Prog` in `Core.lean`; `_signal.py:1142,1203`). -/
inductive Prog.Alike (env : Env) : Prog → Prog → Prop where
  | ret : Prog.Alike env .ret .ret
  | raise {e : Exc} : Prog.Alike env (.raise e) (.raise e)
  | user {f : Mem → Mem} {k k' : Mem → Prog} : (∀ m, Prog.Alike env (k m) (k' m)) → Prog.Alike env (.user f k) (.user f k')
  | api {a a' : Act} {k k' : Except Exc Resp → Prog} : a.Alike env a' → (∀ r, Prog.Alike env (k r) (k' r)) →
      Prog.Alike env (.api a k) (.api a' k')
  | withBlocked {s : SigId} {ex : List SigId} {b b' : Prog} {k k' : Except Exc Unit → Prog} : Prog.Alike env b b' →
      (∀ r, Prog.Alike env (k r) (k' r)) → Prog.Alike env (.withBlocked s ex b k) (.withBlocked s ex b' k')
  | withPaused {s : SigId} {red : Option Reducer} {b b' : Prog} {k k' : Except Exc Unit → Prog} : Prog.Alike env b b' →
      (∀ r, Prog.Alike env (k r) (k' r)) → Prog.Alike env (.withPaused s red b k) (.withPaused s red b' k')

/-- The same declarations, and callbacks with the same code up to `emit` against `emit_fast` (`Env` in `Core.lean`; `_signal.py:1142,1203`). -/
structure Env.Alike (env env' : Env) : Prop where
  decl : env'.decl = env.decl
  pysig : env'.pysig = env.pysig
  code : ∀ b a, (env.body b a).Alike env (env'.body b a)

/-- An event without what `emit_fast` leaves out: who is the current emitter (`_signal.py:408-416`), and by which of the two calls an
emission started (`:1238,1269`). -/
def Ev.bare : Ev → Ev
  | .fast s a _ => .req s a
  | .call em s d _ t b a => .call em s d none t b a
  | e => e

/-- The same for everybody who looks: the calls (in order, with arguments, by which signal, at which depth, in which thread), their
results, the emissions, memory, connections, flags, collected and queued arguments, depths, thread queues, living objects, hook
(all attributes of `_signal.py:543-567` but `_max_recursion_depth`, which only `latest-only` signals read, `:1314-1317`). -/
structure World.Looks (w v : World) : Prop where
  log : w.log.map Ev.bare = v.log.map Ev.bare
  mem : w.mem = v.mem
  tq : w.tq = v.tq
  dead : w.dead = v.dead
  hook : w.hook = v.hook
  emitter : w.emitter = v.emitter
  slots : ∀ s, (w.sig s).slots = (v.sig s).slots
  blocked : ∀ s, (w.sig s).blocked = (v.sig s).blocked
  paused : ∀ s, (w.sig s).paused = (v.sig s).paused
  argsQueue : ∀ s, (w.sig s).argsQueue = (v.sig s).argsQueue
  emitQueue : ∀ s, (w.sig s).emitQueue = (v.sig s).emitQueue
  depth : ∀ s, (w.sig s).depth = (v.sig s).depth

end Psygnal
