/-!
# An evented dictionary in several threads

One `EventedDict` (`/repo/src/psygnal/containers/_evented_dict.py:138-192`) and any number of threads that assign, delete and look up items.  Every access
to the underlying `_dict` and every emission is a step of its own; what a thread does with its local variables belongs to the step before.  Simplified:
values are objects, compared with `is`; the order of the keys is left out (C30); there are no base types; listeners do not touch the dictionary (those:
C64); an emission is one step (its inside: C45) and does not fail.  `pop` and `setdefault` of `MutableMapping` are programs made from these operations.
-/
namespace Psygnal.DcC

/-- User code of a thread (calls of `/repo/src/psygnal/containers/_evented_dict.py:59,176,188`): assign an item, delete one - the program goes on knowing
whether that raised `KeyError` - or look one up. -/
inductive Code
  | ret
  | set (k v : Nat) (c : Bool → Code)
  | del (k : Nat) (c : Bool → Code)
  | get (k : Nat) (c : Option Nat → Code)

/-- What happens, in thread `t` and with key `k` (`/repo/src/psygnal/containers/_evented_dict.py:59-60,176-192`). -/
inductive Ev
  /-- `d[k] = v` begins (`:176`) -/
  | call (t k v : Nat)
  /-- `del d[k]` begins (`:188`) -/
  | callD (t k : Nat)
  /-- is the key there? (`:177`) -/
  | has (t k : Nat) (b : Bool)
  /-- the value of the key is read (`:182`, `:189`) -/
  | read (t k : Nat) (x : Option Nat)
  /-- the value is stored (`:179`, `:185`) -/
  | put (t k v : Nat)
  /-- the key is deleted, with the value that it had (`:191`) -/
  | took (t k : Nat) (x : Option Nat)
  /-- `adding` is emitted (`:178`) -/
  | adding (t k : Nat)
  /-- `changing` is emitted (`:184`) -/
  | changing (t k : Nat)
  /-- `removing` is emitted (`:190`) -/
  | removing (t k : Nat)
  /-- `added` is emitted (`:180`) -/
  | added (t k v : Nat)
  /-- `changed` is emitted (`:186`) -/
  | changed (t k old v : Nat)
  /-- `removed` is emitted (`:192`) -/
  | removed (t k item : Nat)
  /-- the value is there already (`:183`) -/
  | same (t k v : Nat)
  /-- `KeyError`, of the assignment of `v` or of the deletion (`:182`, `:189`, `:191`) -/
  | fail (t k : Nat) (v : Option Nat)
  /-- `d[k]` is looked up (`:60`) -/
  | look (t k : Nat) (x : Option Nat)
  deriving DecidableEq, Repr

/-- What a thread does next. -/
inductive Ctl
  | run (c : Code)
  /-- `key not in self._dict` (`/repo/src/psygnal/containers/_evented_dict.py:177`) -/
  | has (k v : Nat) (c : Bool → Code)
  /-- `/repo/src/psygnal/containers/_evented_dict.py:178` -/
  | adding (k v : Nat) (c : Bool → Code)
  /-- `/repo/src/psygnal/containers/_evented_dict.py:179` -/
  | putNew (k v : Nat) (c : Bool → Code)
  /-- `/repo/src/psygnal/containers/_evented_dict.py:180` -/
  | added (k v : Nat) (c : Bool → Code)
  /-- `old_value = self._dict[key]` (`/repo/src/psygnal/containers/_evented_dict.py:182`) -/
  | old (k v : Nat) (c : Bool → Code)
  /-- nothing to do (`/repo/src/psygnal/containers/_evented_dict.py:183`) -/
  | same (k v : Nat) (c : Bool → Code)
  /-- `/repo/src/psygnal/containers/_evented_dict.py:184` -/
  | changing (k v o : Nat) (c : Bool → Code)
  /-- `/repo/src/psygnal/containers/_evented_dict.py:185` -/
  | putOld (k v o : Nat) (c : Bool → Code)
  /-- `/repo/src/psygnal/containers/_evented_dict.py:186` -/
  | changed (k v o : Nat) (c : Bool → Code)
  /-- `item = self._dict[key]` (`/repo/src/psygnal/containers/_evented_dict.py:189`) -/
  | item (k : Nat) (c : Bool → Code)
  /-- `/repo/src/psygnal/containers/_evented_dict.py:190` -/
  | removing (k i : Nat) (c : Bool → Code)
  /-- `/repo/src/psygnal/containers/_evented_dict.py:191` -/
  | take (k i : Nat) (c : Bool → Code)
  /-- `/repo/src/psygnal/containers/_evented_dict.py:192` -/
  | removed (k i : Nat) (c : Bool → Code)
  /-- the `KeyError` reaches the caller (`/repo/src/psygnal/containers/_evented_dict.py:182,189,191`) -/
  | raise (k : Nat) (v : Option Nat) (c : Bool → Code)

/-- The dictionary: which keys it has, with which values (`/repo/src/psygnal/containers/_evented_dict.py:47`). -/
abbrev Dict := Nat → Option Nat

/-- What the dictionary is after an event (`/repo/src/psygnal/containers/_evented_dict.py:54,57`). -/
def Ev.on (d : Dict) : Ev → Dict
  | .put _ k v => fun m => if m = k then some v else d m
  | .took _ k (some _) => fun m => if m = k then none else d m
  | _ => d

/-- The next event of a thread, and what it does then (`/repo/src/psygnal/containers/_evented_dict.py:59-60,176-192`). -/
def next (d : Dict) (t : Nat) : Ctl → Option (Ev × Ctl)
  | .run .ret => none
  | .run (.set k v c) => some (.call t k v, .has k v c)
  | .run (.del k c) => some (.callD t k, .item k c)
  | .run (.get k c) => some (.look t k (d k), .run (c (d k)))
  | .has k v c => some (.has t k (d k).isSome, if (d k).isSome then .old k v c else .adding k v c)
  | .adding k v c => some (.adding t k, .putNew k v c)
  | .putNew k v c => some (.put t k v, .added k v c)
  | .added k v c => some (.added t k v, .run (c false))
  | .old k v c => some (.read t k (d k), match d k with
    | none => .raise k (some v) c
    | some o => if v = o then .same k v c else .changing k v o c)
  | .same k v c => some (.same t k v, .run (c false))
  | .changing k v o c => some (.changing t k, .putOld k v o c)
  | .putOld k v o c => some (.put t k v, .changed k v o c)
  | .changed k v o c => some (.changed t k o v, .run (c false))
  | .item k c => some (.read t k (d k), match d k with
    | none => .raise k none c
    | some i => .removing k i c)
  | .removing k i c => some (.removing t k, .take k i c)
  | .take k i c => some (.took t k (d k), if (d k).isSome then .removed k i c else .raise k none c)
  | .removed k i c => some (.removed t k i, .run (c false))
  | .raise k v c => some (.fail t k v, .run (c true))

/-- The dictionary, what the threads do, what happened (`/repo/src/psygnal/containers/_evented_dict.py:44-51,173`). -/
structure St where
  dict : Dict
  thr : Nat → Ctl
  log : List Ev

/-- One step of thread `t` (`/repo/src/psygnal/containers/_evented_dict.py:176-192`). -/
def step (σ : St) (t : Nat) : St :=
  match next σ.dict t (σ.thr t) with
  | none => σ
  | some (e, x) => ⟨e.on σ.dict, fun u => if u = t then x else σ.thr u, σ.log ++ [e]⟩

/-- A schedule: which thread makes the next step (`/repo/src/psygnal/containers/_evented_dict.py:176-192`). -/
def run (s : List Nat) (σ : St) : St := s.foldl step σ

/-- The beginning: the dictionary has some items, threads begin (`/repo/src/psygnal/containers/_evented_dict.py:165-174`). -/
def init (d : Dict) (prog : Nat → Code) : St := ⟨d, fun t => .run (prog t), []⟩

/-- `d.pop(k)` of `collections.abc.MutableMapping`, which `EventedDict` inherits (`/repo/src/psygnal/containers/_evented_dict.py:27`): look up, then delete; the program gets the value, or
nothing if one of the two raises. -/
def pop (k : Nat) (c : Option Nat → Code) : Code :=
  .get k (fun
    | none => c none
    | some v => .del k (fun
      | true => c none
      | false => c (some v)))

/-- `d.setdefault(k, v)` of `collections.abc.MutableMapping` (`/repo/src/psygnal/containers/_evented_dict.py:27`): look up, then assign; the program gets what is returned, or nothing if the
assignment raises. -/
def setdefault (k v : Nat) (c : Option Nat → Code) : Code :=
  .get k (fun
    | some w => c (some w)
    | none => .set k v (fun
      | true => c none
      | false => c (some v)))

end Psygnal.DcC
