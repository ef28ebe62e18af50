import Verif.Selection

/-!
# What C33 and C34 say about selections
-/

namespace Psygnal.Sel
open Psygnal.Py (M Err Key Slice)

variable {α : Type} [DecidableEq α]

/-- Listeners that never raise. -/
def Cfg.Quiet (c : Cfg α) : Prop := ∀ log, c.fails log = false

/-- The emissions of `items_changed`. -/
def itemsOf (log : List (Ev α × List α)) : List ((List α × List α) × List α) :=
  log.filterMap fun e => match e.1 with
    | .items a r => some ((a, r), e.2)
    | _ => none

/-- The last value that `events.active` reported, or `a`. -/
def lastActive (a : Option α) (log : List (Ev α × List α)) : Option α :=
  log.foldl (fun a e => match e.1 with
    | .active v => v
    | _ => a) a

/-- The last value that `events._current` reported, or `a`. -/
def lastCurrent (a : Option α) (log : List (Ev α × List α)) : Option α :=
  log.foldl (fun a e => match e.1 with
    | .current v => v
    | _ => a) a

/-- What C33 says: `active` is the only selected item, if there is just one, and then it is the current item. -/
structure Consistent (s : St α) : Prop where
  active : ∀ x, s.active = some x ↔ s.data = [x]
  current : ∀ x, s.active = some x → s.current = some x

/-- `active = x` is asked for an item that the parent does not have while nothing is selected: the case in which C33
fails. -/
def Op.Bad (op : Op α) (s : St α) : Prop := ∃ x, op = .setActive (some x) ∧ s.inParent x = false ∧ s.data = []

/-- The operation does not toggle the same item twice in one go. -/
def Op.Plain : Op α → Prop
  | .set (.symmetricDifferenceUpdate xs) | .set (.ixor xs) => xs.Nodup
  | _ => True

/-- No operation of the history is `Bad` when it is done. -/
def NoBad (c : Cfg α) : List (Op α) → St α → Prop
  | [], _ => True
  | op :: ops, s => ¬ op.Bad s ∧ NoBad c ops (step c op s).2

/-- The same for an operation on a list with a selection. -/
def LOp.Bad (op : LOp α) (s : St α) : Prop := ∃ o, op = .sel o ∧ o.Bad s

/-- The operation does not toggle the same item twice in one go. -/
def LOp.Plain : LOp α → Prop
  | .sel op => op.Plain
  | _ => True

/-- The operation assigns to items of the list (the case in which C34 fails). -/
def LOp.Assigns : LOp α → Prop
  | .setItem _ _ | .setSlice _ _ => True
  | _ => False

/-- No operation of the history is `Bad` when it is done, or assigns to items of the list. -/
def LFine (c : Cfg α) : List (LOp α) → St α → Prop
  | [], _ => True
  | op :: ops, s => ¬ op.Bad s ∧ ¬ op.Assigns ∧ LFine c ops (lstep c op s).2

end Psygnal.Sel
