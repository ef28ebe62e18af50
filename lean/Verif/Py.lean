/-!
# Python built-ins used by the containers

`psygnal.containers` stores its data in built-in lists, dicts and sets and inherits
the rest of its interface from `collections.abc`.  Neither is part of /repo, so the
semantics below is part of the trusted base (DESIGN.md).  Objects are values of a type
`α`; Lean equality plays the role of Python's `is`, and `==` is a parameter.
-/

deriving instance DecidableEq for Except

namespace Psygnal.Py

/-- Kinds of exception raised by the containers and by the built-ins they use
(`/repo/src/psygnal/containers/_evented_list.py:162-197`, `_evented_dict.py:62-99`,
`_evented_set.py:39-179`).  `emitLoop` is the error of a listener, re-raised by `emit`
(`/repo/src/psygnal/_signal.py:1264-1303`). -/
inductive Err
  | index | value | type | key | attribute | runtime | emitLoop
  deriving DecidableEq, Repr

/-- A computation on an object: it may raise, and changes made before the raise stay.
(Every method body in `/repo/src/psygnal/containers` is of this shape.) -/
def M (σ α : Type) : Type := σ → Except Err α × σ

namespace M
variable {σ α β : Type}

/-- Sequencing of statements; an exception skips the rest
(used by every method of `/repo/src/psygnal/containers`). -/
def bind (m : M σ α) (f : α → M σ β) : M σ β := fun s =>
  match m s with
  | (.ok a, s') => f a s'
  | (.error e, s') => (.error e, s')

/-- `return a` (used by every method of `/repo/src/psygnal/containers`). -/
def pure (a : α) : M σ α := fun s => (.ok a, s)

/-- Statement sequencing as a `Monad` (used by every method of
`/repo/src/psygnal/containers`). -/
instance : Monad (M σ) where
  pure := pure
  bind := bind

/-- `raise e` (e.g. `/repo/src/psygnal/containers/_evented_list.py:171,196-197`). -/
def raise (e : Err) : M σ α := fun s => (.error e, s)

/-- Reading the object's state (every method of `/repo/src/psygnal/containers`). -/
def get : M σ σ := fun s => (.ok s, s)

/-- Writing the object's state (every method of `/repo/src/psygnal/containers`). -/
def modify (f : σ → σ) : M σ Unit := fun s => (.ok (), f s)

/-- A built-in operation that may raise
(e.g. `self._data[key]`, `/repo/src/psygnal/containers/_evented_list.py:164`). -/
def ofExcept (x : Except Err α) : M σ α := fun s => (x, s)

/-- A `for` loop over an already computed sequence
(e.g. `/repo/src/psygnal/containers/_evented_list.py:183-187`). -/
def forEach (l : List β) (f : β → M σ Unit) : M σ Unit :=
  match l with
  | [] => pure ()
  | x :: xs => bind (f x) fun _ => forEach xs f

@[simp] theorem bind_eq (m : M σ α) (f : α → M σ β) : (m >>= f) = bind m f := rfl
@[simp] theorem pure_eq (a : α) : (Pure.pure a : M σ α) = pure a := rfl
@[simp] theorem pure_app (a : α) (s : σ) : (pure a : M σ α) s = (.ok a, s) := rfl
@[simp] theorem raise_app (e : Err) (s : σ) : (raise e : M σ α) s = (.error e, s) := rfl
@[simp] theorem get_app (s : σ) : (get : M σ σ) s = (.ok s, s) := rfl
@[simp] theorem modify_app (f : σ → σ) (s : σ) : modify f s = (.ok (), f s) := rfl
@[simp] theorem ofExcept_app (x : Except Err α) (s : σ) : (ofExcept x : M σ α) s = (x, s) := rfl

theorem bind_app (m : M σ α) (f : α → M σ β) (s : σ) :
    bind m f s = match m s with
      | (.ok a, s') => f a s'
      | (.error e, s') => (.error e, s') := rfl

theorem bind_ok {m : M σ α} {f : α → M σ β} {s s' : σ} {a : α} (h : m s = (.ok a, s')) :
    bind m f s = f a s' := by simp [bind, h]

theorem bind_err {m : M σ α} {f : α → M σ β} {s s' : σ} {e : Err} (h : m s = (.error e, s')) :
    bind m f s = (.error e, s') := by simp [bind, h]

/-- `P` is kept by `m`, whether it raises or not. -/
def Keeps (P : σ → Prop) (m : M σ α) : Prop := ∀ s, P s → P (m s).2

theorem Keeps.bind {P : σ → Prop} {m : M σ α} {f : α → M σ β} (h : Keeps P m)
    (hf : ∀ a, Keeps P (f a)) : Keeps P (M.bind m f) := by
  intro s hs
  have := h s hs
  simp only [M.bind]
  rcases hm : m s with ⟨_ | a, s'⟩
  · simpa [hm] using this
  · exact hf a s' (by simpa [hm] using this)

theorem Keeps.seq {P : σ → Prop} {m : M σ α} {f : α → M σ β} (h : Keeps P m)
    (hf : ∀ a, Keeps P (f a)) : Keeps P (m >>= f) := h.bind hf

theorem Keeps.pure' {P : σ → Prop} (a : α) : Keeps P (Pure.pure a : M σ α) := fun _ h => h
theorem Keeps.pure {P : σ → Prop} (a : α) : Keeps P (M.pure a : M σ α) := fun _ h => h
theorem Keeps.raise {P : σ → Prop} (e : Err) : Keeps P (M.raise e : M σ α) := fun _ h => h
theorem Keeps.get {P : σ → Prop} : Keeps P (M.get : M σ σ) := fun _ h => h
theorem Keeps.ofExcept {P : σ → Prop} (x : Except Err α) : Keeps P (M.ofExcept x : M σ α) :=
  fun _ h => h

theorem Keeps.forEach {P : σ → Prop} {f : β → M σ Unit} (l : List β)
    (h : ∀ b, Keeps P (f b)) : Keeps P (M.forEach l f) := by
  induction l with
  | nil => exact Keeps.pure ()
  | cons x xs ih => exact (h x).bind fun _ => ih

end M

/-! ## Lists -/

variable {α : Type}

/-- Resolution of an integer index against a length, as done by `list.__getitem__`
(used at `/repo/src/psygnal/containers/_evented_list.py:153,164,186`). -/
def normIndex (n : Nat) (i : Int) : Option Nat :=
  let j := if i < 0 then i + n else i
  if 0 ≤ j ∧ j < n then some j.toNat else none

/-- `l[i]` (used at `/repo/src/psygnal/containers/_evented_list.py:153,164`). -/
def getItem (l : List α) (i : Int) : Except Err α :=
  match (normIndex l.length i).bind (l[·]?) with
  | some x => .ok x
  | none => .error .index

/-- `l[i] = x` (used at `/repo/src/psygnal/containers/_evented_list.py:173,176`). -/
def setItem (l : List α) (i : Int) (x : α) : Except Err (List α) :=
  match normIndex l.length i with
  | some j => .ok (l.set j x)
  | none => .error .index

/-- The position at which `list.insert(i, …)` inserts: out-of-range indices are clamped
(used at `/repo/src/psygnal/containers/_evented_list.py:141,287`). -/
def insertPos (n : Nat) (i : Int) : Nat :=
  (if i < 0 then max 0 (i + n) else min i n).toNat

/-- `l.insert(i, x)` (used at `/repo/src/psygnal/containers/_evented_list.py:141,287`). -/
def insert (l : List α) (i : Int) (x : α) : List α :=
  l.take (insertPos l.length i) ++ x :: l.drop (insertPos l.length i)

/-- `l.pop(i)`: the removed item and the rest
(used at `/repo/src/psygnal/containers/_evented_list.py:186,284`). -/
def pop (l : List α) (i : Int) : Except Err (α × List α) :=
  match normIndex l.length i with
  | some j => match l[j]? with
    | some x => .ok (x, l.eraseIdx j)
    | none => .error .index
  | none => .error .index

/-- A `slice` object (`/repo/src/psygnal/containers/_evented_list.py:44,169,193`). -/
structure Slice where
  start : Option Int := none
  stop : Option Int := none
  step : Option Int := none
  deriving DecidableEq, Repr

/-- One bound of `slice.indices(n)`: negative bounds count from the end, and everything is
clamped to `[lo, hi]` (used at `/repo/src/psygnal/containers/_evented_list.py:194,365`). -/
def sliceBound (n : Nat) (lo hi : Int) (dflt : Int) : Option Int → Int
  | none => dflt
  | some b => if b < 0 then max (b + n) lo else min b hi

/-- `slice.indices(n)`; a zero step is a `ValueError`
(used at `/repo/src/psygnal/containers/_evented_list.py:194,365`). -/
def sliceIndices (s : Slice) (n : Nat) : Except Err (Int × Int × Int) :=
  let step := s.step.getD 1
  if step = 0 then .error .value
  else
    let lo : Int := if step < 0 then -1 else 0
    let hi : Int := if step < 0 then n - 1 else n
    .ok (sliceBound n lo hi (if step < 0 then hi else lo) s.start,
         sliceBound n lo hi (if step < 0 then lo else hi) s.stop, step)

/-- Number of elements of `range(start, stop, step)`
(used at `/repo/src/psygnal/containers/_evented_list.py:194,365`). -/
def rangeLen (start stop step : Int) : Nat :=
  if 0 < step then
    if start < stop then ((stop - start - 1) / step + 1).toNat else 0
  else if step < 0 then
    if stop < start then ((start - stop - 1) / (-step) + 1).toNat else 0
  else 0

/-- `range(start, stop, step)`
(used at `/repo/src/psygnal/containers/_evented_list.py:194,365`). -/
def range (start stop step : Int) : List Int :=
  (List.range (rangeLen start stop step)).map fun (k : Nat) => start + (k : Int) * step

/-- The positions selected by a slice: `range(*s.indices(n))`
(used at `/repo/src/psygnal/containers/_evented_list.py:194,365`). -/
def sliceIdx (s : Slice) (n : Nat) : Except Err (List Int) :=
  match sliceIndices s n with
  | .ok (a, b, c) => .ok (range a b c)
  | .error e => .error e

/-- `l[s]` for a slice (used at `/repo/src/psygnal/containers/_evented_list.py:153,164`). -/
def getSlice (l : List α) (s : Slice) : Except Err (List α) :=
  match sliceIdx s l.length with
  | .ok idx => .ok (idx.filterMap fun i => l[i.toNat]?)
  | .error e => .error e

/-- `l[s] = vs` for a slice: with step 1 the segment is replaced, otherwise the lengths
must agree (used at `/repo/src/psygnal/containers/_evented_list.py:173`). -/
def setSlice (l : List α) (s : Slice) (vs : List α) : Except Err (List α) :=
  match sliceIndices s l.length with
  | .error e => .error e
  | .ok (a, b, c) =>
    if c = 1 then .ok (l.take a.toNat ++ vs ++ l.drop (max a b).toNat)
    else
      let idx := range a b c
      if idx.length = vs.length then
        .ok ((idx.zip vs).foldl (fun l p => l.set p.1.toNat p.2) l)
      else .error .value

/-- `del l[s]` for a slice, on a built-in list: drop the items at the selected positions.
(Specification side of `/repo/src/psygnal/containers/_evented_list.py:180-187`.) -/
def delSlice (l : List α) (s : Slice) : Except Err (List α) :=
  match sliceIdx s l.length with
  | .ok idx => .ok ((l.zipIdx.filter fun p => !idx.contains (p.2 : Int)).map (·.1))
  | .error e => .error e

/-- An index argument: an `int`, a `slice`, some other object with `__index__` (such as a
numpy integer), or anything else
(`/repo/src/psygnal/containers/_evented_list.py:44,189-197`). -/
inductive Key
  | int (i : Int)
  | slice (s : Slice)
  | indexable (i : Int)
  | other
  deriving DecidableEq, Repr

end Psygnal.Py
