/-!
# An evented set in several threads

One `EventedSet` (`/repo/src/psygnal/containers/_evented_set.py:31-109,127-170,235-322,348-355`) and any number of threads that add and discard items, call the bulk
methods and look items up.  Every access to `_data`, to `_is_paused` and to `_args_queue` of `items_changed`, and every delivery, is a step of its own; what a
thread does with its local variables belongs to the step before.  Simplified: the set is kept in insertion order, as `EventedOrderedSet` does; `tuple(self)` is one
step, and so is the reduction of what is recorded; at least one callback is connected, a delivery is one step (its inside: C45, C46) and does not fail; callbacks do
not touch the set (those: C70).
-/
namespace Psygnal.StC

/-- A method call (`/repo/src/psygnal/containers/_evented_set.py:38,53,273-300`). -/
inductive Call
  | add (x : Nat)
  | discard (x : Nat)
  | update (xs : List Nat)
  | diff (xs : List Nat)
  | inter (xs : List Nat)
  | sym (xs : List Nat)
  | clear
  deriving DecidableEq, Repr

/-- User code of a thread: calls, and `x in s` (`/repo/src/psygnal/containers/_evented_set.py:38,53,69,273-300`). -/
inductive Code
  | ret
  | call (o : Call) (c : Code)
  | has (x : Nat) (c : Bool → Code)

/-- What happens, in thread `t` (`/repo/src/psygnal/containers/_evented_set.py:38-109,273-322`, `/repo/src/psygnal/_signal.py:1192-1193,1371,1407-1429,1534`). -/
inductive Ev
  /-- the method is called (`_evented_set.py:38,53,273-300`) -/
  | call (t : Nat) (o : Call)
  /-- is the item in the set? (`_evented_set.py:170,303,309`) -/
  | test (t x : Nat) (b : Bool)
  /-- the item is stored (`_evented_set.py:103`) -/
  | put (t x : Nat)
  /-- the item is dropped (`_evented_set.py:106`) -/
  | drop (t x : Nat)
  /-- is the set empty? (`_evented_set.py:315`) -/
  | empty (t : Nat) (b : Bool)
  /-- `tuple(self)` (`_evented_set.py:143,315`) -/
  | items (t : Nat) (l : List Nat)
  /-- all items are dropped, after `tuple(self)` was `l` (`_evented_set.py:109`) -/
  | wipe (t : Nat) (l : List Nat)
  /-- is the signal paused? asked by `emit` (`_signal.py:1192`) -/
  | paused (t : Nat) (b : Bool)
  /-- the change is recorded (`_signal.py:1193`) -/
  | record (t : Nat) (a r : List Nat)
  /-- the callbacks are told (`_signal.py:1201`, `:1425`) -/
  | told (t : Nat) (a r : List Nat)
  /-- is the signal paused? asked by `paused()` (`_signal.py:1534`) -/
  | was (t : Nat) (b : Bool)
  /-- the signal is paused (`_signal.py:1371`) -/
  | pause (t : Nat)
  /-- the signal is resumed (`_signal.py:1407`) -/
  | resume (t : Nat)
  /-- is something recorded? (`_signal.py:1410`) -/
  | any (t : Nat) (b : Bool)
  /-- what is recorded is reduced (`_signal.py:1418`) -/
  | reduce (t : Nat) (a r : List Nat)
  /-- the record is emptied (`_signal.py:1429`) -/
  | forget (t : Nat)
  /-- the method returns (`_evented_set.py:38-67,273-300`) -/
  | done (t : Nat)
  /-- `x in s` (`_evented_set.py:71`) -/
  | look (t x : Nat) (b : Bool)
  deriving DecidableEq, Repr

/-- What a bulk method does with an item: `self.add(i)`, `self.discard(i)`, or one of the two (`/repo/src/psygnal/containers/_evented_set.py:51,130,145,170`). -/
inductive Do
  | add (x : Nat)
  | del (x : Nat)
  | flip (x : Nat)
  deriving DecidableEq, Repr

/-- Where a thread goes on after an item: the call, the items left, what `paused()` saw (none for `add` and `discard` outside of bulk methods), the program
(`/repo/src/psygnal/containers/_evented_set.py:50-51,129-130,143-145,169-170`, `/repo/src/psygnal/_signal.py:1528-1544`). -/
structure Rest where
  call : Call
  todo : List Do
  saw : Option Bool
  code : Code

/-- What a thread does next (`/repo/src/psygnal/containers/_evented_set.py:38-170,273-322`, `/repo/src/psygnal/_signal.py:1192-1201,1371,1407-1429,1528-1544`). -/
inductive Ctl
  | run (c : Code)
  /-- `item in self`, adding (`/repo/src/psygnal/containers/_evented_set.py:303`) -/
  | testA (x : Nat) (k : Rest)
  /-- `/repo/src/psygnal/containers/_evented_set.py:103` -/
  | put (x : Nat) (k : Rest)
  /-- `item not in self`, discarding (`/repo/src/psygnal/containers/_evented_set.py:309`) -/
  | testD (x : Nat) (k : Rest)
  /-- `/repo/src/psygnal/containers/_evented_set.py:106` -/
  | drop (x : Nat) (k : Rest)
  /-- `i in self` (`/repo/src/psygnal/containers/_evented_set.py:170`) -/
  | testS (x : Nat) (k : Rest)
  /-- `emit` asks whether the signal is paused (`/repo/src/psygnal/_signal.py:1192`) -/
  | emit (a r : List Nat) (k : Rest)
  /-- `/repo/src/psygnal/_signal.py:1193` -/
  | record (a r : List Nat) (k : Rest)
  /-- `/repo/src/psygnal/_signal.py:1201` -/
  | tell (a r : List Nat) (k : Rest)
  /-- `paused()` (`/repo/src/psygnal/_signal.py:1534`) -/
  | was (o : Call) (c : Code)
  /-- `/repo/src/psygnal/_signal.py:1540,1371` -/
  | pause (o : Call) (w : Bool) (c : Code)
  /-- `len(self) == 0` (`/repo/src/psygnal/containers/_evented_set.py:315`) -/
  | empty (w : Bool) (c : Code)
  /-- `tuple(self)` (`/repo/src/psygnal/containers/_evented_set.py:315`) -/
  | itemsC (w : Bool) (c : Code)
  /-- `/repo/src/psygnal/containers/_evented_set.py:109` -/
  | wipe (l : List Nat) (w : Bool) (c : Code)
  /-- `tuple(self)` (`/repo/src/psygnal/containers/_evented_set.py:143`) -/
  | itemsI (xs : List Nat) (w : Bool) (c : Code)
  /-- `/repo/src/psygnal/_signal.py:1544,1407` -/
  | resume (o : Call) (c : Code)
  /-- `/repo/src/psygnal/_signal.py:1410` -/
  | any (o : Call) (c : Code)
  /-- `/repo/src/psygnal/_signal.py:1418` -/
  | reduce (o : Call) (c : Code)
  /-- `/repo/src/psygnal/_signal.py:1425` -/
  | tellR (o : Call) (a r : List Nat) (c : Code)
  /-- `/repo/src/psygnal/_signal.py:1429` -/
  | forget (o : Call) (c : Code)
  /-- the method returns (`/repo/src/psygnal/containers/_evented_set.py:38-67,273-300`) -/
  | done (o : Call) (c : Code)

/-- The set, and `_is_paused` and `_args_queue` of its signal (`/repo/src/psygnal/containers/_evented_set.py:32`, `/repo/src/psygnal/_signal.py:547,553`). -/
structure Data where
  set : List Nat
  paused : Bool
  queue : List (List Nat × List Nat)
  deriving DecidableEq, Repr

/-- What an event does (`/repo/src/psygnal/containers/_evented_set.py:103,106,109`, `/repo/src/psygnal/_signal.py:1193,1371,1407,1429`). -/
def Ev.on (d : Data) : Ev → Data
  | .put _ x => { d with set := if x ∈ d.set then d.set else d.set ++ [x] }
  | .drop _ x => { d with set := d.set.filter (· != x) }
  | .wipe _ _ => { d with set := [] }
  | .record _ a r => { d with queue := d.queue ++ [(a, r)] }
  | .pause _ => { d with paused := true }
  | .resume _ => { d with paused := false }
  | .forget _ => { d with queue := [] }
  | _ => d

/-- What a bulk method does with one item begins (`/repo/src/psygnal/containers/_evented_set.py:43,58,170`). -/
def start : Do → Rest → Ctl
  | .add x, k => .testA x k
  | .del x, k => .testD x k
  | .flip x, k => .testS x k

/-- After an item: the next one, or the end of the method; `__exit__` resumes if the signal was not paused (`/repo/src/psygnal/containers/_evented_set.py:50-51`,
`/repo/src/psygnal/_signal.py:1543-1544`). -/
def Rest.go (k : Rest) : Ctl :=
  match k.todo with
  | d :: ds => start d { k with todo := ds }
  | [] => match k.saw with
    | some false => .resume k.call k.code
    | _ => .done k.call k.code

/-- The body of a bulk method; `add` and `discard` do not pause, so the last two lines are not reached (`/repo/src/psygnal/containers/_evented_set.py:48-51,63-67,127-130,140-145,163-170,273-300`). -/
def enter (w : Bool) (c : Code) : Call → Ctl
  | .update xs => Rest.go ⟨.update xs, xs.map .add, some w, c⟩
  | .diff xs => Rest.go ⟨.diff xs, xs.map .del, some w, c⟩
  | .sym xs => Rest.go ⟨.sym xs, xs.map .flip, some w, c⟩
  | .inter xs => .itemsI xs w c
  | .clear => .empty w c
  | .add x => .testA x ⟨.add x, [], some w, c⟩
  | .discard x => .testD x ⟨.discard x, [], some w, c⟩

/-- The next event of a thread, and what it does then (`/repo/src/psygnal/containers/_evented_set.py:38-109,127-170,273-322,348-355`,
`/repo/src/psygnal/_signal.py:1192-1201,1371,1407-1429,1528-1544`). -/
def next (d : Data) (t : Nat) : Ctl → Option (Ev × Ctl)
  | .run .ret => none
  | .run (.call (.add x) c) => some (.call t (.add x), .testA x ⟨.add x, [], none, c⟩)
  | .run (.call (.discard x) c) => some (.call t (.discard x), .testD x ⟨.discard x, [], none, c⟩)
  | .run (.call o c) => some (.call t o, .was o c)
  | .run (.has x c) => some (.look t x (decide (x ∈ d.set)), .run (c (decide (x ∈ d.set))))
  | .testA x k => some (.test t x (decide (x ∈ d.set)), if x ∈ d.set then k.go else .put x k)
  | .put x k => some (.put t x, .emit [x] [] k)
  | .testD x k => some (.test t x (decide (x ∈ d.set)), if x ∈ d.set then .drop x k else k.go)
  | .drop x k => some (.drop t x, .emit [] [x] k)
  | .testS x k => some (.test t x (decide (x ∈ d.set)), if x ∈ d.set then .testD x k else .testA x k)
  | .emit a r k => some (.paused t d.paused, if d.paused then .record a r k else .tell a r k)
  | .record a r k => some (.record t a r, k.go)
  | .tell a r k => some (.told t a r, k.go)
  | .was o c => some (.was t d.paused, .pause o d.paused c)
  | .pause o w c => some (.pause t, enter w c o)
  | .empty w c => some (.empty t d.set.isEmpty, if d.set.isEmpty then Rest.go ⟨.clear, [], some w, c⟩ else .itemsC w c)
  | .itemsC w c => some (.items t d.set, .wipe d.set w c)
  | .wipe l w c => some (.wipe t l, .emit [] l ⟨.clear, [], some w, c⟩)
  | .itemsI xs w c => some (.items t d.set, Rest.go ⟨.inter xs, (d.set.filter (fun i => decide (i ∉ xs))).map .del, some w, c⟩)
  | .resume o c => some (.resume t, .any o c)
  | .any o c => some (.any t (!d.queue.isEmpty), if d.queue.isEmpty then .done o c else .reduce o c)
  | .reduce o c => some (.reduce t (d.queue.flatMap Prod.fst) (d.queue.flatMap Prod.snd),
      .tellR o (d.queue.flatMap Prod.fst) (d.queue.flatMap Prod.snd) c)
  | .tellR o a r c => some (.told t a r, .forget o c)
  | .forget o c => some (.forget t, .done o c)
  | .done _ c => some (.done t, .run c)

/-- The set, what the threads do, what happened (`/repo/src/psygnal/containers/_evented_set.py:32`). -/
structure St where
  data : Data
  thr : Nat → Ctl
  log : List Ev

/-- One step of thread `t` (`/repo/src/psygnal/containers/_evented_set.py:38-322`). -/
def step (σ : St) (t : Nat) : St :=
  match next σ.data t (σ.thr t) with
  | none => σ
  | some (e, x) => ⟨e.on σ.data, fun u => if u = t then x else σ.thr u, σ.log ++ [e]⟩

/-- A schedule: which thread makes the next step (`/repo/src/psygnal/containers/_evented_set.py:38-322`). -/
def run (s : List Nat) (σ : St) : St := s.foldl step σ

/-- The beginning: the set has some items, nothing is paused, threads begin (`/repo/src/psygnal/containers/_evented_set.py:269-271`,
`/repo/src/psygnal/_signal.py:547,553`). -/
def init (l : List Nat) (prog : Nat → Code) : St := ⟨⟨l, false, []⟩, fun t => .run (prog t), []⟩

end Psygnal.StC
