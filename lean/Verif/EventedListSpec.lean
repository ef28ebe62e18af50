import Verif.EventedList

/-!
# Specification vocabulary for `EventedList` (C27, C28, C29, C35)
-/

namespace Psygnal.EL
open Psygnal.Py (M Err Key Slice)

variable {α : Type}

/-- What the same operation does to a built-in `list` (the reference of C27).  `same v x` is
`v is x or v == x`.  Operations that lists do not have are `AttributeError`s. -/
def pyStep (same : α → α → Bool) : Op α → List α → Except Err (Res α) × List α
  | .getItem (.int i), l | .getItem (.indexable i), l => match Py.getItem l i with
    | .ok x => (.ok (.item x), l)
    | .error e => (.error e, l)
  | .getItem (.slice k), l => match Py.getSlice l k with
    | .ok xs => (.ok (.items xs), l)
    | .error e => (.error e, l)
  | .getItem .other, l => (.error .type, l)
  | .setItem i x, l => match Py.setItem l i x with
    | .ok l' => (.ok .unit, l')
    | .error e => (.error e, l)
  | .setSlice k (some vs), l => match Py.setSlice l k vs with
    | .ok l' => (.ok .unit, l')
    | .error e => (.error e, l)
  | .setSlice k none, l => match Py.sliceIndices k l.length with
    | .ok _ => (.error .type, l)
    | .error e => (.error e, l)
  | .setOther, l => (.error .type, l)
  | .delItem (.int i), l | .delItem (.indexable i), l => match Py.pop l i with
    | .ok p => (.ok .unit, p.2)
    | .error e => (.error e, l)
  | .delItem (.slice k), l => match Py.delSlice l k with
    | .ok l' => (.ok .unit, l')
    | .error e => (.error e, l)
  | .delItem .other, l => (.error .type, l)
  | .insert i x, l => (.ok .unit, Py.insert l i x)
  | .append x, l => (.ok .unit, l ++ [x])
  | .extend xs, l => (.ok .unit, l ++ xs)
  | .extendSelf, l => (.ok .unit, l ++ l)
  | .pop (.int i), l | .pop (.indexable i), l => match Py.pop l i with
    | .ok p => (.ok (.item p.1), p.2)
    | .error e => (.error e, l)
  | .pop _, l => (.error .type, l)
  | .remove x, l => match l.findIdx? (same · x) with
    | some i => (.ok .unit, l.eraseIdx i)
    | none => (.error .value, l)
  | .clear, _ => (.ok .unit, [])
  | .reverse _, l => (.ok .unit, l.reverse)
  | .len, l => (.ok (.int l.length), l)
  | .contents, l => (.ok (.items l), l)
  | .add xs, l => (.ok (.items (l ++ xs)), l)
  | .radd xs, l => (.ok (.items (xs ++ l)), l)
  | .index x a b, l =>
    let bound (i : Int) : Int := if i < 0 then max (i + l.length) 0 else i
    let ok (i : Nat) : Bool := decide (bound a ≤ i) && b.all (fun b => decide ((i : Int) < bound b)) &&
      l[i]?.any (same · x)
    match (List.range l.length).find? ok with
    | some i => (.ok (.int i), l)
    | none => (.error .value, l)
  | .contains x, l => (.ok (.bool (l.any (same · x))), l)
  | .count x, l => (.ok (.int (l.countP (same · x))), l)
  | .move _ _, l | .moveMultiple _ _, l | .childEmit _ _ _, l => (.error .attribute, l)

/-- A sequence of operations on a built-in list. -/
def pyRun (same : α → α → Bool) : List (Op α) → List α → List (Except Err (Res α)) × List α
  | [], l => ([], l)
  | op :: ops, l =>
    let r := pyStep same op l
    let rs := pyRun same ops r.2
    (r.1 :: rs.1, rs.2)

/-- The elements put into the list by an operation. -/
def Op.news : Op α → List α
  | .setItem _ x | .insert _ x | .append x => [x]
  | .setSlice _ (some xs) | .extend xs => xs
  | _ => []

/-- The operations for which C27 is proved, on a list of length `n`: those that built-in lists
have, except `del l[i]` for `-2n ≤ i < -n`, `del` and `pop` with integer-like objects that
are not `int`s, and `pop` with a slice (refuted below). -/
def Op.Plain (n : Nat) : Op α → Prop
  | .delItem (.int i) => -(n : Int) ≤ i ∨ i < -(2 * n : Int)
  | .delItem (.indexable _) | .pop (.indexable _) | .pop (.slice _) => False
  | .move _ _ | .moveMultiple _ _ | .childEmit _ _ _ => False
  | _ => True

/-- `Plain` along a sequence of operations, by the lengths a built-in list would have. -/
def AllPlain (same : α → α → Bool) : List (Op α) → List α → Prop
  | [], _ => True
  | op :: ops, l => op.Plain l.length ∧ AllPlain same ops (pyStep same op l).2

/-- No listener ever raises. -/
def Cfg.Quiet (c : Cfg α) : Prop := ∀ log, c.fails log = false

/-- What an observer does on an event, to its own copy `l` of the list: it performs the
reported change.  On `reordered` it re-reads the list, whose contents are then `e.2`. -/
def observe (l : List α) (e : Ev α × List α) : List α :=
  match e.1 with
  | .inserted i v => Py.insert l i v
  | .removed i _ => match Py.pop l i with
    | .ok p => p.2
    | .error _ => l
  | .changed i _ v => match Py.setItem l i v with
    | .ok l' => l'
    | .error _ => l
  | .changedSlice k _ vs => match Py.setSlice l k vs with
    | .ok l' => l'
    | .error _ => l
  | .moved src dest v => match Py.pop l src with
    | .ok p => Py.insert p.2 dest v
    | .error _ => l
  | .reordered => e.2
  | _ => l

/-- The copy of an observer that starts with `l` and sees the events `log`. -/
def replay (l : List α) (log : List (Ev α × List α)) : List α := log.foldl observe l

/-- Item placement of `move` and `move_multiple` (C29): the items not in `S` before position
`d`, then the items at the positions `S` in that order, then the others. -/
def place (l : List α) (S : List Nat) (d : Nat) : List α :=
  ((List.range l.length).filter (fun j => j < d ∧ j ∉ S) ++ S ++
    (List.range l.length).filter (fun j => d ≤ j ∧ j ∉ S)).filterMap (l[·]?)

/-- Every operation that the program may perform satisfies `P`. -/
def Prog.All (P : Op α → Prop) : Prog α → Prop
  | .done | .raise => True
  | .op o k => P o ∧ ∀ r, (k r).All P

end Psygnal.EL
