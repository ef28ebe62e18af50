import Verif.TypeCheck

/-! # Connecting to all signals of a group directly, and strict groups (`/repo/src/psygnal/_group.py:102-156,187-206,282-341,499-550`)

One group.  Simplified: callbacks return at once and do nothing to the group (nested emissions: C04-C11, C19); no priorities (C01), no
blocking and pausing (C20, C21); callbacks stay alive (C15); a callback is a number, with a signature that can be found (C16). -/
namespace Psygnal.Direct

open Psygnal.TC (P Ann Err)

/-- What the program text gives: `issubclass`, `str(annotation)`, the signatures of the callbacks, and the class `EmissionInfo`
(`/repo/src/psygnal/_group.py:40-50,542-550`). -/
structure Env where
  sub : Nat → Nat → Bool
  str : Ann → Nat
  sig : Nat → List P
  info : Nat

/-! ## Classes -/

/-- A `Signal` in a group class: its signature, and `check_nargs_on_connect`, `check_types_on_connect`
(`/repo/src/psygnal/_signal.py:295-321`). -/
structure Sig where
  spec : List P
  cn : Bool := true
  ct : Bool := false
  deriving DecidableEq

/-- The loop of `_is_uniform` (`/repo/src/psygnal/_group.py:542-550`); `seen` is the set. -/
def uniformLoop (str : Ann → Nat) : List Sig → List (List Nat) → Bool
  | [], _ => true
  | s :: ss, seen =>
    let v := s.spec.map (fun p => str p.ann)
    if seen ≠ [] ∧ v ∉ seen then false else uniformLoop str ss (v :: seen)

/-- `_is_uniform(signals)` (`/repo/src/psygnal/_group.py:542-550`). -/
def isUniform (str : Ann → Nat) (l : List Sig) : Bool := uniformLoop str l []

/-- `d[k] = v` (dict display of `/repo/src/psygnal/_group.py:308-311`). -/
def setKey (d : List (Nat × Sig)) (k : Nat) (v : Sig) : List (Nat × Sig) :=
  if d.any (·.1 == k) then d.map (fun e => if e.1 = k then (k, v) else e) else d ++ [(k, v)]

/-- `{**a, **b}` (`/repo/src/psygnal/_group.py:308-311`). -/
def merge (a b : List (Nat × Sig)) : List (Nat × Sig) := b.foldl (fun d e => setKey d e.1 e.2) a

/-- A group class: `_psygnal_signals` and `_psygnal_uniform` (`/repo/src/psygnal/_group.py:258-259`). -/
structure Cls where
  signals : List (Nat × Sig) := []
  uniform : Bool := false
  deriving DecidableEq

/-- `class G(Base, strict=strict)` with the signals `own` (`/repo/src/psygnal/_group.py:282-341`; names that are reserved: C54).
`none`: `TypeError`, there is no class. -/
def define (env : Env) (base : Cls) (own : List (Nat × Sig)) (strict : Bool) : Option Cls :=
  let sigs := merge base.signals own
  let u := isUniform env.str (sigs.map (·.2))
  if strict ∧ u = false then none else some ⟨sigs, u⟩

/-- `psygnals_uniform()` (`/repo/src/psygnal/_group.py:411-414`). -/
def Cls.psygnalsUniform (c : Cls) : Bool := c.uniform

/-! ## Groups -/

/-- What a slot calls: a callback, or the relay of the group (`/repo/src/psygnal/_group.py:97-100`). -/
inductive Base
  | fn (f : Nat)
  | relay
  deriving DecidableEq

/-- A connected slot (`/repo/src/psygnal/_signal.py:756-766`). -/
structure Slot where
  base : Base
  maxArgs : Option Nat
  deriving DecidableEq

/-- A member of the group (`/repo/src/psygnal/_group.py:263-279`, `/repo/src/psygnal/_signal.py:524-567`). -/
structure Mem where
  sig : Sig
  slots : List Slot := []
  deriving DecidableEq

/-- An argument: a value or an `EmissionInfo` (`/repo/src/psygnal/_group.py:40-50,97-100`). -/
inductive Arg
  | val (n : Nat)
  | info (i : Nat) (args : List Nat)
  deriving DecidableEq

/-- What happens: a callback is called; an operation ends, `some e`: with an exception (`/repo/src/psygnal/_signal.py:723-768,1097-1132`). -/
inductive Ev
  | call (f : Nat) (args : List Arg)
  | done (r : Option Err)
  deriving DecidableEq

/-- A group: the members, the slots of the relay, and what has happened (`/repo/src/psygnal/_group.py:67-72`). -/
structure St where
  mems : List Mem
  own : List Slot := []
  log : List Ev := []
  deriving DecidableEq

/-- `G()` (`/repo/src/psygnal/_group.py:265-280`). -/
def Cls.new (c : Cls) : St := ⟨c.signals.map (fun e => ⟨e.2, []⟩), [], []⟩

/-- The argument `unique` of `connect` (`/repo/src/psygnal/_signal.py:737-743`). -/
inductive Uniq
  | no
  | quiet
  | raise
  deriving DecidableEq

/-- Arguments of `connect` (`/repo/src/psygnal/_signal.py:633-644`). -/
structure CArgs where
  cn : Option Bool := none
  ct : Option Bool := none
  uniq : Uniq := .no
  maxArgs : Option Nat := none
  deriving DecidableEq

/-- Is it connected?  (`slot in self`, `/repo/src/psygnal/_signal.py:737,1134-1136`) -/
def has (b : Base) (l : List Slot) : Bool := l.any (fun x => x.base = b)

/-- `connect(f, check_nargs=…, check_types=…, unique=…, max_args=…)` of a signal with slots `l` (`/repo/src/psygnal/_signal.py:723-768`):
the new slot, if there is one. -/
def newSlot (env : Env) (sig : Sig) (l : List Slot) (f : Nat) (a : CArgs) : Except Err (Option Slot) :=
  if a.uniq ≠ .no ∧ has (.fn f) l then (if a.uniq = .raise then .error .value else .ok none)
  else match if a.cn.getD sig.cn ∧ a.maxArgs = none then TC.nargs sig.spec (env.sig f) else .ok a.maxArgs with
    | .error e => .error e
    | .ok m => match if a.ct.getD sig.ct then TC.typesMatch env.sub (env.sig f) sig.spec else .ok true with
      | .error e => .error e
      | .ok false => .error .value
      | .ok true => .ok (some ⟨.fn f, m⟩)

/-- `member.connect(f, …)` (`/repo/src/psygnal/_signal.py:723-768`). -/
def Mem.connect (env : Env) (f : Nat) (a : CArgs) (m : Mem) : Except Err Mem :=
  match newSlot env m.sig m.slots f a with
  | .error e => .error e
  | .ok none => .ok m
  | .ok (some x) => .ok { m with slots := m.slots ++ [x] }

/-- The loop of `connect_direct` (`/repo/src/psygnal/_group.py:145-156`): an exception leaves it, what is connected stays so. -/
def directLoop (env : Env) (f : Nat) (a : CArgs) : List Mem → List Mem × Option Err
  | [] => ([], none)
  | m :: ms => match m.connect env f a with
    | .error e => (m :: ms, some e)
    | .ok m' => let r := directLoop env f a ms; (m' :: r.1, r.2)

/-- `member.connect(relay, check_nargs=False, check_types=False, unique=True)` (`/repo/src/psygnal/_group.py:79-86`). -/
def Mem.connectRelay (m : Mem) : Mem :=
  if has .relay m.slots then m else { m with slots := m.slots ++ [⟨.relay, none⟩] }

/-- Remove the first slot that calls `b` (`/repo/src/psygnal/_signal.py:1097-1103,1128-1130`). -/
def drop (b : Base) (l : List Slot) : List Slot := l.eraseP (fun x => x.base = b)

/-- `member.disconnect(relay)` (`/repo/src/psygnal/_group.py:93-95`). -/
def Mem.dropRelay (m : Mem) : Mem := { m with slots := drop .relay m.slots }

/-- The signature of the relay (`/repo/src/psygnal/_group.py:70`). -/
def relaySig (env : Env) : Sig := ⟨TC.build [.ty (.cls env.info)], true, false⟩

/-- `group.connect(f, …)` (`/repo/src/psygnal/_group.py:74-77,465-497`). -/
def groupConnect (env : Env) (f : Nat) (a : CArgs) (s : St) : St × Option Err :=
  match newSlot env (relaySig env) s.own f a with
  | .error e => (s, some e)
  | .ok none => (s, none)
  | .ok (some x) =>
    if s.own = [] then ({ s with own := [x], mems := s.mems.map Mem.connectRelay }, none)
    else ({ s with own := s.own ++ [x] }, none)

/-- `member.disconnect(f, missing_ok)` (`/repo/src/psygnal/_signal.py:1105-1132`); `none`: all slots. -/
def Mem.disconnect (f : Option Nat) (ok : Bool) (m : Mem) : Except Err Mem := match f with
  | none => .ok { m with slots := [] }
  | some f =>
    if has (.fn f) m.slots then .ok { m with slots := drop (.fn f) m.slots }
    else if ok then .ok m else .error .value

/-- The loop of `group.disconnect` (`/repo/src/psygnal/_group.py:204-205`). -/
def offLoop (f : Option Nat) (ok : Bool) : List Mem → List Mem × Option Err
  | [] => ([], none)
  | m :: ms => match m.disconnect f ok with
    | .error e => (m :: ms, some e)
    | .ok m' => let r := offLoop f ok ms; (m' :: r.1, r.2)

/-- The relay loses slots (`/repo/src/psygnal/_group.py:88-95`): if none is left, it leaves the members. -/
def setOwn (l : List Slot) (s : St) : St :=
  { s with own := l, mems := if l = [] then s.mems.map Mem.dropRelay else s.mems }

/-- `group.disconnect(f, missing_ok)` (`/repo/src/psygnal/_group.py:187-206,516-517`). -/
def groupDisconnect (f : Option Nat) (ok : Bool) (s : St) : St × Option Err :=
  let r := offLoop f ok s.mems
  let s' := { s with mems := r.1 }
  match r.2 with
  | some e => (s', some e)
  | none => match f with
    | none => (setOwn [] s', none)
    | some f =>
      if has (.fn f) s.own then (setOwn (drop (.fn f) s.own) s', none)
      else (s', if ok then none else some .value)

/-- The arguments a slot is given (`/repo/src/psygnal/_weak_callback.py:240-241,356-357,399-400,452-453`). -/
def Slot.given {α : Type} (x : Slot) (args : List α) : List α := match x.maxArgs with
  | none => args
  | some m => args.take m

/-- A slot of the relay is called (`/repo/src/psygnal/_group.py:97-100`). -/
def ownCall (i : Nat) (args : List Nat) (x : Slot) : List Ev := match x.base with
  | .fn f => [.call f (x.given [.info i args])]
  | .relay => []

/-- A slot of member `i` is called (`/repo/src/psygnal/_signal.py:1305-1308`, `/repo/src/psygnal/_group.py:97-100`). -/
def slotCall (own : List Slot) (i : Nat) (args : List Nat) (x : Slot) : List Ev := match x.base with
  | .fn f => [.call f (x.given (args.map .val))]
  | .relay => own.flatMap (ownCall i args)

/-- `member.emit(*args)` (`/repo/src/psygnal/_signal.py:1142-1201`); there may be no such member. -/
def emit (i : Nat) (args : List Nat) (s : St) : St := match s.mems[i]? with
  | none => s
  | some m => { s with log := s.log ++ m.slots.flatMap (slotCall s.own i args) }

/-- What a program does with a group (`/repo/src/psygnal/_group.py:465-517`, `/repo/src/psygnal/_signal.py:633,1105,1142`). -/
inductive Op
  | direct (f : Nat) (a : CArgs)
  | group (f : Nat) (a : CArgs)
  | member (i : Nat) (f : Nat) (a : CArgs)
  | off (f : Option Nat) (ok : Bool)
  | memberOff (i : Nat) (f : Option Nat) (ok : Bool)
  | emit (i : Nat) (args : List Nat)
  deriving DecidableEq

/-- Replace a member, if the operation on it succeeds (`/repo/src/psygnal/_signal.py:633,1105`). -/
def onMem (i : Nat) (k : Mem → Except Err Mem) (s : St) : St × Option Err := match s.mems[i]? with
  | none => (s, none)
  | some m => match k m with
    | .error e => (s, some e)
    | .ok m' => ({ s with mems := s.mems.set i m' }, none)

/-- One operation (`/repo/src/psygnal/_group.py:465-517`, `/repo/src/psygnal/_signal.py:633,1105,1142`). -/
def act (env : Env) : Op → St → St × Option Err
  | .direct f a, s => let r := directLoop env f a s.mems; ({ s with mems := r.1 }, r.2)
  | .group f a, s => groupConnect env f a s
  | .member i f a, s => onMem i (Mem.connect env f a) s
  | .off f ok, s => groupDisconnect f ok s
  | .memberOff i f ok, s => onMem i (Mem.disconnect f ok) s
  | .emit i args, s => (Direct.emit i args s, none)

/-- One operation; exceptions are caught (`/repo/src/psygnal/_group.py:465-517`). -/
def step (env : Env) (s : St) (o : Op) : St :=
  let r := act env o s
  { r.1 with log := r.1.log ++ [.done r.2] }

/-- A program (`/repo/src/psygnal/_group.py:465-517`). -/
def run (env : Env) (ops : List Op) (s : St) : St := ops.foldl (step env) s

end Psygnal.Direct
