import Verif.Dataclass
/-!
# Listeners that assign fields

Assignments to the fields of an evented object whose listeners themselves read and assign its fields
(`/repo/src/psygnal/_group_descriptor.py:306-402`), with the emission of the fields' signals, which use
the default mode `immediate` (`/repo/src/psygnal/_group_descriptor.py:242`,
`/repo/src/psygnal/_signal.py:1264-1308`).  Each field has its own signal; the listeners of a signal, among them the relay of
the group, are fixed.
-/
namespace Psygnal.DCN
open Psygnal.DC (Val Env EqMap)

/-- Exceptions: of the setter, of the comparison, of a listener (`EmitLoopError`), `RecursionError`, and others raised by
a listener itself (`/repo/src/psygnal/_group_descriptor.py:315-318`, `/repo/src/psygnal/_signal.py:1266,1280-1296`). -/
inductive Err
  | setter
  | comparison
  | emitLoop
  | recursion
  | other
  deriving DecidableEq, Repr

/-- What a listener, or the program outside, does with the object: read a field, assign a field (an exception may be
caught), raise (any code around `/repo/src/psygnal/_group_descriptor.py:387-402`). -/
inductive Prog
  | done
  | raise
  | get (f : Nat) (k : Val → Prog)
  | set (f : Nat) (v : Val) (k : Except Err Unit → Prog)

/-- A call of listener number `slot` of field `field` with the new and the old value, when the field has the value `now`
(`/repo/src/psygnal/_group_descriptor.py:318`, `/repo/src/psygnal/_signal.py:1307-1308`). -/
structure Call where
  field : Nat
  slot : Nat
  new : Val
  old : Val
  now : Val
  deriving DecidableEq, Repr

/-- The fields, the operators of the class, `_recursion_depth` of each signal
(`/repo/src/psygnal/_group_descriptor.py:313,316`, `/repo/src/psygnal/_signal.py:1265`), and for the statements: the calls made, whether
a `RecursionError` has been raised for an assignment, for which fields an emission was ended by an exception, and which fields were
assigned during an emission of theirs that was reported. -/
structure St where
  vals : Nat → Val
  eqmap : EqMap
  depth : Nat → Nat
  log : List Call
  limited : Bool
  failed : Nat → Bool
  nested : Nat → Bool

/-- The setting: comparisons; what the original `__setattr__` stores for a value, or that it raises; the listeners of each field in the
order of connection, which may remember the calls so far; `RECURSION_LIMIT`
(`/repo/src/psygnal/_group_descriptor.py:60-119,321`, `/repo/src/psygnal/_signal.py:1265,1307`). -/
structure Cfg where
  env : Env
  conv : Nat → Val → Option Val
  listeners : Nat → List (List Call → Prog)
  limit : Nat

/-- The result of code: it returns or raises (`/repo/src/psygnal/_group_descriptor.py:401-402`). -/
abbrev Code := St → Except Err Unit × St

/-- `super_setattr(self, name, value)` (`/repo/src/psygnal/_group_descriptor.py:390,394,399,402`). -/
def store (c : Cfg) (f : Nat) (v : Val) : Code := fun s =>
  match c.conv f v with
  | none => (.error .setter, s)
  | some w => (.ok (), { s with vals := fun g => if g = f then w else s.vals g })

/-- The loop over the listeners (`/repo/src/psygnal/_signal.py:1307-1308`); `run` runs a listener. -/
def loop (run : Prog → Code) (f : Nat) (new old : Val) : Nat → List (List Call → Prog) → Code
  | _, [] => fun s => (.ok (), s)
  | i, l :: ls => fun s =>
    let s1 := { s with log := s.log ++ [⟨f, i, new, old, s.vals f⟩] }
    let r := run (l s1.log) s1
    match r.1 with
    | .error e => (.error e, r.2)
    | .ok _ => loop run f new old (i + 1) ls r.2

/-- What an exception in the loop becomes (`/repo/src/psygnal/_signal.py:1280-1296`). -/
def wrap : Err → Err
  | .recursion => .recursion
  | _ => .emitLoop

/-- The emission begins (`/repo/src/psygnal/_signal.py:1274`). -/
def St.enter (s : St) (f : Nat) : St :=
  { s with
    nested := fun g => if g = f then s.nested f || decide (0 < s.depth f) else s.nested g
    depth := fun g => if g = f then s.depth f + 1 else s.depth g }

/-- The emission ends, `bad`: with an exception (`/repo/src/psygnal/_signal.py:1297-1303`). -/
def St.leave (s : St) (f : Nat) (bad : Bool) : St :=
  { s with
    failed := fun g => if g = f then s.failed f || bad else s.failed g
    depth := fun g => if g = f then s.depth f - 1 else s.depth g }

/-- `signal.emit(new, old)` (`/repo/src/psygnal/_group_descriptor.py:318`, `/repo/src/psygnal/_signal.py:1264-1303`). -/
def emit (c : Cfg) (run : Prog → Code) (f : Nat) (new old : Val) : Code := fun s =>
  if c.limit ≤ s.depth f then (.error .recursion, { s with limited := true })
  else
    let r := loop run f new old 0 (c.listeners f) (s.enter f)
    match r.1 with
    | .ok _ => (.ok (), r.2.leave f false)
    | .error e => (.error (wrap e), r.2.leave f true)

/-- `_setattr_and_emit_` (`/repo/src/psygnal/_group_descriptor.py:306-318,387-402`). -/
def assignWith (c : Cfg) (run : Prog → Code) (f : Nat) (v : Val) : Code := fun s =>
  if (c.listeners f).isEmpty then store c f v s
  else
    let r := store c f v s
    let q := DC.checkEq c.env r.2.eqmap f (s.vals f) (r.2.vals f)
    let s2 := { r.2 with eqmap := q.2 }
    match q.1 with
    | .error _ => (.error .comparison, s2)
    | .ok true => (r.1, s2)
    | .ok false =>
      let e := emit c run f (s2.vals f) (s.vals f) s2
      match e.1 with
      | .error x => (.error x, e.2)
      | .ok _ => (r.1, e.2)

/-- A program, given what assignments do (`/repo/src/psygnal/_signal.py:1308`, `/repo/src/psygnal/_group_descriptor.py:387`). -/
def runWith (asg : Nat → Val → Code) : Prog → Code
  | .done => fun s => (.ok (), s)
  | .raise => fun s => (.error .other, s)
  | .get f k => fun s => runWith asg (k (s.vals f)) s
  | .set f v k => fun s => runWith asg (k (asg f v s).1) (asg f v s).2

/-- `obj.f = v` with room for `n` nested assignments until Python's own recursion limit
(`/repo/src/psygnal/_group_descriptor.py:387-402`). -/
def assign (c : Cfg) : Nat → Nat → Val → Code
  | 0, _, _ => fun s => (.error .recursion, { s with limited := true })
  | n + 1, f, v => assignWith c (runWith (assign c n)) f v

/-- A program outside of listeners (`/repo/src/psygnal/_group_descriptor.py:387-402`). -/
def run (c : Cfg) (n : Nat) (p : Prog) : Code := runWith (assign c n) p

/-- An object whose signals are at rest (`/repo/src/psygnal/_signal.py:1298-1302`). -/
def start (vals : Nat → Val) (m : EqMap) : St := ⟨vals, m, fun _ => 0, [], false, fun _ => false, fun _ => false⟩

end Psygnal.DCN
