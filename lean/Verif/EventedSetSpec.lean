import Verif.EventedSet

/-!
# What C31 and C32 say about sets
-/

namespace Psygnal.ES
open Psygnal.Py (M Err)

variable {α : Type} [DecidableEq α]

/-- Listeners that never raise. -/
def Cfg.Quiet (c : Cfg α) : Prop := ∀ log, c.fails log = false

/-- The iteration order after adding an element is some order of the elements. -/
def Cfg.Fair (c : Cfg α) : Prop := ∀ l x, (c.place l x).Perm (x :: l)

/-- The result is a new set with exactly the elements `P`. -/
def NewSet (r : Except Err (Res α)) (P : α → Prop) : Prop :=
  ∃ l, r = .ok (.set l) ∧ l.Nodup ∧ ∀ y, y ∈ l ↔ P y

/-- The result is the truth value of `P`. -/
def Truth (r : Except Err (Res α)) (P : Prop) : Prop := ∃ b, r = .ok (.bool b) ∧ (b = true ↔ P)

/-- `new` has exactly the elements `P`. -/
def Holds (new : List α) (P : α → Prop) : Prop := ∀ y, y ∈ new ↔ P y

/-- What a built-in set with the elements `old` does: the result `r` and the elements `new` afterwards. -/
def PySet (old : List α) (r : Except Err (Res α)) (new : List α) : Op α → Prop
  | .add x => r = .ok .unit ∧ Holds new fun y => y = x ∨ y ∈ old
  | .discard x => r = .ok .unit ∧ Holds new fun y => y ∈ old ∧ y ≠ x
  | .remove x => (x ∈ old → r = .ok .unit ∧ Holds new fun y => y ∈ old ∧ y ≠ x) ∧
      (x ∉ old → r = .error .key ∧ Holds new (· ∈ old))
  | .pop => (old ≠ [] → ∃ x ∈ old, r = .ok (.item x) ∧ Holds new fun y => y ∈ old ∧ y ≠ x) ∧
      (old = [] → r = .error .key ∧ new = [])
  | .clear | .differenceUpdateSelf | .symmetricDifferenceUpdateSelf | .isubSelf | .ixorSelf => r = .ok .unit ∧ new = []
  | .update o => r = .ok .unit ∧ Holds new fun y => y ∈ old ∨ ∃ l ∈ o, y ∈ l
  | .differenceUpdate o => r = .ok .unit ∧ Holds new fun y => y ∈ old ∧ ∀ l ∈ o, y ∉ l
  | .intersectionUpdate o => r = .ok .unit ∧ Holds new fun y => y ∈ old ∧ ∀ l ∈ o, y ∈ l
  | .symmetricDifferenceUpdate xs | .ixor xs =>
      r = .ok .unit ∧ Holds new fun y => (y ∈ old ∧ y ∉ xs) ∨ (y ∉ old ∧ y ∈ xs)
  | .ior xs => r = .ok .unit ∧ Holds new fun y => y ∈ old ∨ y ∈ xs
  | .iand xs => r = .ok .unit ∧ Holds new fun y => y ∈ old ∧ y ∈ xs
  | .isub xs => r = .ok .unit ∧ Holds new fun y => y ∈ old ∧ y ∉ xs
  | .contains x => Truth r (x ∈ old) ∧ Holds new (· ∈ old)
  | .len => r = .ok (.int old.length) ∧ Holds new (· ∈ old)
  | .items | .copy => NewSet r (· ∈ old) ∧ Holds new (· ∈ old)
  | .difference o => NewSet r (fun y => y ∈ old ∧ ∀ l ∈ o, y ∉ l) ∧ Holds new (· ∈ old)
  | .intersection o => NewSet r (fun y => y ∈ old ∧ ∀ l ∈ o, y ∈ l) ∧ Holds new (· ∈ old)
  | .symmetricDifference xs | .xor xs =>
      NewSet r (fun y => (y ∈ old ∧ y ∉ xs) ∨ (y ∉ old ∧ y ∈ xs)) ∧ Holds new (· ∈ old)
  | .union o => NewSet r (fun y => y ∈ old ∨ ∃ l ∈ o, y ∈ l) ∧ Holds new (· ∈ old)
  | .issubset xs | .le xs => Truth r (∀ y ∈ old, y ∈ xs) ∧ Holds new (· ∈ old)
  | .issuperset xs | .ge xs => Truth r (∀ y ∈ xs, y ∈ old) ∧ Holds new (· ∈ old)
  | .isdisjoint xs => Truth r (∀ y ∈ xs, y ∉ old) ∧ Holds new (· ∈ old)
  | .and xs => NewSet r (fun y => y ∈ old ∧ y ∈ xs) ∧ Holds new (· ∈ old)
  | .or xs => NewSet r (fun y => y ∈ old ∨ y ∈ xs) ∧ Holds new (· ∈ old)
  | .sub xs => NewSet r (fun y => y ∈ old ∧ y ∉ xs) ∧ Holds new (· ∈ old)
  | .lt xs => Truth r ((∀ y ∈ old, y ∈ xs) ∧ ∃ y ∈ xs, y ∉ old) ∧ Holds new (· ∈ old)
  | .gt xs => Truth r ((∀ y ∈ xs, y ∈ old) ∧ ∃ y ∈ old, y ∉ xs) ∧ Holds new (· ∈ old)
  | .eq xs => Truth r (∀ y, y ∈ old ↔ y ∈ xs) ∧ Holds new (· ∈ old)

/-- The operations for which the claims hold: the arguments of operators are sets (as lists: without duplicates), the
argument of `symmetric_difference_update` has no duplicates, and is not, nor that of `difference_update`, the set
itself; `intersection` and `intersection_update` have an argument. -/
def Op.Plain : Op α → Prop
  | .differenceUpdateSelf | .symmetricDifferenceUpdateSelf => False
  | .intersectionUpdate o | .intersection o => o ≠ []
  | .symmetricDifferenceUpdate xs | .ixor xs | .le xs | .lt xs | .ge xs | .gt xs | .eq xs => xs.Nodup
  | _ => True

/-- The in-place operators, which do not collect their changes. -/
def Op.InPlace : Op α → Prop
  | .ior _ | .iand _ | .isub _ | .ixor _ => True
  | _ => False

/-- An event is exact: it reports, without repetition, just the elements added and removed between the elements `old`
and `new`, and there was a change. -/
structure Exact (old : List α) (e : List α × List α) (new : List α) : Prop where
  added_nodup : e.1.Nodup
  removed_nodup : e.2.Nodup
  added : ∀ y, y ∈ e.1 ↔ y ∈ new ∧ y ∉ old
  removed : ∀ y, y ∈ e.2 ↔ y ∈ old ∧ y ∉ new
  change : e.1 ≠ [] ∨ e.2 ≠ []

/-- A sequence of exact events that leads from `old` to `new`; no event, no change. -/
inductive Story : List α → List ((List α × List α) × List α) → List α → Prop
  | nil {old new : List α} : (∀ y, y ∈ old ↔ y ∈ new) → Story old [] new
  | cons {old mid new : List α} {e : List α × List α} {es : List ((List α × List α) × List α)} :
      Exact old e mid → Story mid es new → Story old ((e, mid) :: es) new

/-- The primitive call removes `x`. -/
def Prim.Removes (x : α) (p : Prim α) : Prop := p = .del x ∨ p = .clr

/-- The `n`-th primitive call is the first insertion of `x` since its last removal, and `x` has not been removed
after it. -/
structure Born (h : List (Prim α)) (x : α) (n : Nat) : Prop where
  ins : h[n]? = some (.ins x)
  kept : ∀ m p, n < m → h[m]? = some p → ¬ p.Removes x
  first : ∀ m, m < n → h[m]? = some (.ins x) → ∃ k p, m < k ∧ k < n ∧ h[k]? = some p ∧ p.Removes x

end Psygnal.ES
