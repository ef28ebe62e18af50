import Verif.Py

/-!
# An evented list in several threads

One `EventedList` (`/repo/src/psygnal/containers/_evented_list.py:89-290`) and any number of threads that insert, assign, delete, move and look up items by
integer index.  Every access to the underlying `_data` and every emission is a step of its own; what a thread does with its local variables belongs to
the step before.  Simplified: items are objects, compared with `is`; no slices, no `reverse`, no child events (one thread: C27, C28, C35); listeners do
not touch the list (those: C64); an emission is one step (its inside: C45) and does not fail.  `append` and `pop` of `MutableSequence` are programs made
from these operations.
-/
namespace Psygnal.LsC

/-- User code of a thread (calls of `/repo/src/psygnal/containers/_evented_list.py:137,151,162,180,239,271`).  The program goes on knowing whether an
assignment or deletion raised `IndexError`; what `move` returned, or that it raised; what it looked up. -/
inductive Code
  | ret
  | insert (i : Int) (v : Nat) (c : Code)
  | set (i : Int) (v : Nat) (c : Bool → Code)
  | del (i : Int) (c : Bool → Code)
  | move (s d : Int) (c : Option Bool → Code)
  | get (i : Int) (c : Option Nat → Code)
  | len (c : Nat → Code)

/-- What happens, in thread `t` (`/repo/src/psygnal/containers/_evented_list.py:137-197,239-241,271-290`). -/
inductive Ev
  /-- `l.insert(i, v)` begins (`:137`) -/
  | callI (t : Nat) (i : Int) (v : Nat)
  /-- `l[i] = v` begins (`:162`) -/
  | callS (t : Nat) (i : Int) (v : Nat)
  /-- `del l[i]` begins (`:180`) -/
  | callD (t : Nat) (i : Int)
  /-- `l.move(s, d)` begins (`:271`) -/
  | callM (t : Nat) (s d : Int)
  /-- the length is read (`:192`, `:278`) -/
  | len (t n : Nat)
  /-- the item is read (`:164`) -/
  | read (t : Nat) (i : Int) (x : Option Nat)
  /-- the item is inserted into `_data` (`:141`, `:287`) -/
  | ins (t : Nat) (i : Int) (v : Nat)
  /-- the item is stored in `_data`, in place of `x` (`:176`) -/
  | put (t : Nat) (i : Int) (v : Nat) (x : Option Nat)
  /-- an item is taken from `_data` (`:186`, `:284`) -/
  | took (t : Nat) (i : Int) (x : Option Nat)
  /-- `inserting` is emitted (`:140`) -/
  | inserting (t : Nat) (i : Int)
  /-- `inserted` is emitted (`:142`) -/
  | inserted (t : Nat) (i : Int) (v : Nat)
  /-- `changed` is emitted (`:178`) -/
  | changed (t : Nat) (i : Int) (old v : Nat)
  /-- `removing` is emitted (`:184`) -/
  | removing (t : Nat) (i : Int)
  /-- `removed` is emitted (`:187`) -/
  | removed (t : Nat) (i : Int) (x : Nat)
  /-- `moving` is emitted (`:283`) -/
  | moving (t : Nat) (s d : Int)
  /-- `moved` is emitted (`:288`) -/
  | moved (t : Nat) (s d : Int) (x : Nat)
  /-- `reordered` is emitted (`:289`) -/
  | reordered (t : Nat)
  /-- the item is there already (`:165-166`) -/
  | same (t : Nat) (i : Int) (v : Nat)
  /-- the item need not be moved (`:281`) -/
  | stay (t : Nat) (s d : Int)
  /-- `IndexError` with this index (`:164`, `:176`, `:186`, `:284`) -/
  | fail (t : Nat) (i : Int)
  /-- `l[i]` is looked up (`:153`) -/
  | look (t : Nat) (i : Int) (x : Option Nat)
  /-- `len(l)` (`:241`) -/
  | size (t n : Nat)
  deriving DecidableEq, Repr

/-- What a thread does next. -/
inductive Ctl
  | run (c : Code)
  /-- `/repo/src/psygnal/containers/_evented_list.py:140` -/
  | inserting (i : Int) (v : Nat) (c : Code)
  /-- `/repo/src/psygnal/containers/_evented_list.py:141` -/
  | ins (i : Int) (v : Nat) (c : Code)
  /-- `/repo/src/psygnal/containers/_evented_list.py:142` -/
  | inserted (i : Int) (v : Nat) (c : Code)
  /-- `old = self._data[key]` (`/repo/src/psygnal/containers/_evented_list.py:164`) -/
  | old (i : Int) (v : Nat) (c : Bool → Code)
  /-- nothing to do (`/repo/src/psygnal/containers/_evented_list.py:166`) -/
  | same (i : Int) (v : Nat) (c : Bool → Code)
  /-- `/repo/src/psygnal/containers/_evented_list.py:176` -/
  | put (i : Int) (v o : Nat) (c : Bool → Code)
  /-- `/repo/src/psygnal/containers/_evented_list.py:178` -/
  | changed (i : Int) (v o : Nat) (c : Bool → Code)
  /-- the assignment raises (`/repo/src/psygnal/containers/_evented_list.py:164,176`) -/
  | failS (i : Int) (v : Nat) (c : Bool → Code)
  /-- `len(self)` for a negative key (`/repo/src/psygnal/containers/_evented_list.py:192`) -/
  | lenD (i : Int) (c : Bool → Code)
  /-- key and index (`/repo/src/psygnal/containers/_evented_list.py:184`) -/
  | removing (i j : Int) (c : Bool → Code)
  /-- `/repo/src/psygnal/containers/_evented_list.py:186` -/
  | take (i j : Int) (c : Bool → Code)
  /-- `/repo/src/psygnal/containers/_evented_list.py:187` -/
  | removed (i j : Int) (x : Nat) (c : Bool → Code)
  /-- the deletion raises (`/repo/src/psygnal/containers/_evented_list.py:186`) -/
  | failD (i j : Int) (c : Bool → Code)
  /-- `len(self)` for a negative destination (`/repo/src/psygnal/containers/_evented_list.py:278`) -/
  | lenM (s d : Int) (c : Option Bool → Code)
  /-- source, destination as called and as computed (`/repo/src/psygnal/containers/_evented_list.py:281`) -/
  | stay (s d e : Int) (c : Option Bool → Code)
  /-- `/repo/src/psygnal/containers/_evented_list.py:283` -/
  | moving (s d e : Int) (c : Option Bool → Code)
  /-- `/repo/src/psygnal/containers/_evented_list.py:284` -/
  | takeM (s d e : Int) (c : Option Bool → Code)
  /-- `/repo/src/psygnal/containers/_evented_list.py:287` -/
  | insM (s d e : Int) (x : Nat) (c : Option Bool → Code)
  /-- `/repo/src/psygnal/containers/_evented_list.py:288` -/
  | moved (s d e : Int) (x : Nat) (c : Option Bool → Code)
  /-- `/repo/src/psygnal/containers/_evented_list.py:289` -/
  | reordered (s d e : Int) (x : Nat) (c : Option Bool → Code)
  /-- the move raises (`/repo/src/psygnal/containers/_evented_list.py:284`) -/
  | failM (s d e : Int) (c : Option Bool → Code)

/-- What `_data` is after an event (`/repo/src/psygnal/containers/_evented_list.py:141,176,186,284,287`). -/
def Ev.on (l : List Nat) : Ev → List Nat
  | .ins _ i v => Py.insert l i v
  | .put _ i v (some _) => match Py.setItem l i v with
    | .ok l' => l'
    | .error _ => l
  | .took _ i (some _) => match Py.pop l i with
    | .ok (_, l') => l'
    | .error _ => l
  | _ => l

/-- `self._data[i]`, nothing for `IndexError` (`/repo/src/psygnal/containers/_evented_list.py:153,164`). -/
def item (l : List Nat) (i : Int) : Option Nat := (Py.getItem l i).toOption

/-- Is the move needed? (`/repo/src/psygnal/containers/_evented_list.py:279-281`) -/
def need (s d e : Int) (c : Option Bool → Code) : Ctl := if e = s ∨ e = s + 1 then .stay s d e c else .moving s d e c

/-- The next event of a thread, and what it does then (`/repo/src/psygnal/containers/_evented_list.py:137-143,151-154,162-197,239-241,271-290`). -/
def next (l : List Nat) (t : Nat) : Ctl → Option (Ev × Ctl)
  | .run .ret => none
  | .run (.insert i v c) => some (.callI t i v, .inserting i v c)
  | .run (.set i v c) => some (.callS t i v, .old i v c)
  | .run (.del i c) => some (.callD t i, if i < 0 then .lenD i c else .removing i i c)
  | .run (.move s d c) => some (.callM t s d, if d < 0 then .lenM s d c else need s d d c)
  | .run (.get i c) => some (.look t i (item l i), .run (c (item l i)))
  | .run (.len c) => some (.size t l.length, .run (c l.length))
  | .inserting i v c => some (.inserting t i, .ins i v c)
  | .ins i v c => some (.ins t i v, .inserted i v c)
  | .inserted i v c => some (.inserted t i v, .run c)
  | .old i v c => some (.read t i (item l i), match item l i with
    | none => .failS i v c
    | some o => if v = o then .same i v c else .put i v o c)
  | .same i v c => some (.same t i v, .run (c false))
  | .put i v o c => some (.put t i v (item l i), if (item l i).isSome then .changed i v o c else .failS i v c)
  | .changed i v o c => some (.changed t i o v, .run (c false))
  | .failS i _ c => some (.fail t i, .run (c true))
  | .lenD i c => some (.len t l.length, .removing i (i + l.length) c)
  | .removing i j c => some (.removing t j, .take i j c)
  | .take i j c => some (.took t j (item l j), match item l j with
    | none => .failD i j c
    | some x => .removed i j x c)
  | .removed _ j x c => some (.removed t j x, .run (c false))
  | .failD _ j c => some (.fail t j, .run (c true))
  | .lenM s d c => some (.len t l.length, need s d (d + (l.length + 1)) c)
  | .stay s _ e c => some (.stay t s e, .run (c (some false)))
  | .moving s d e c => some (.moving t s e, .takeM s d e c)
  | .takeM s d e c => some (.took t s (item l s), match item l s with
    | none => .failM s d e c
    | some x => .insM s d (if s < e then e - 1 else e) x c)
  | .insM s d e x c => some (.ins t e x, .moved s d e x c)
  | .moved s d e x c => some (.moved t s e x, .reordered s d e x c)
  | .reordered _ _ _ _ c => some (.reordered t, .run (c (some true)))
  | .failM s _ _ c => some (.fail t s, .run (c none))

/-- The underlying list, what the threads do, what happened (`/repo/src/psygnal/containers/_evented_list.py:124`). -/
structure St where
  data : List Nat
  thr : Nat → Ctl
  log : List Ev

/-- One step of thread `t` (`/repo/src/psygnal/containers/_evented_list.py:137-290`). -/
def step (σ : St) (t : Nat) : St :=
  match next σ.data t (σ.thr t) with
  | none => σ
  | some (e, x) => ⟨e.on σ.data, fun u => if u = t then x else σ.thr u, σ.log ++ [e]⟩

/-- A schedule: which thread makes the next step (`/repo/src/psygnal/containers/_evented_list.py:137-290`). -/
def run (s : List Nat) (σ : St) : St := s.foldl step σ

/-- The beginning: the list has some items, threads begin (`/repo/src/psygnal/containers/_evented_list.py:116-128`). -/
def init (l : List Nat) (prog : Nat → Code) : St := ⟨l, fun t => .run (prog t), []⟩

/-- `l.append(v)` of `collections.abc.MutableSequence`, which `EventedList` inherits (`/repo/src/psygnal/containers/_evented_list.py:89,131`): insert at the
length. -/
def append (v : Nat) (c : Code) : Code := .len fun n => .insert n v c

/-- `l.pop(i)` of `collections.abc.MutableSequence` (`/repo/src/psygnal/containers/_evented_list.py:89,133`): look up, then delete; the program gets the
item, or nothing if one of the two raises. -/
def pop (i : Int) (c : Option Nat → Code) : Code :=
  .get i (fun
    | none => c none
    | some v => .del i (fun
      | true => c none
      | false => c (some v)))

end Psygnal.LsC
