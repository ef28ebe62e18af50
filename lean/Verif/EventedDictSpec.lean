import Verif.EventedDict

/-!
# What C30 says about `EventedDict`: built-in dicts and observers
-/

namespace Psygnal.ED
open Psygnal.Py (M Err)

variable {K V : Type} [DecidableEq K]

/-! ## Specification: the built-in dict -/

/-- Assignment of several items one after the other to a built-in dict whose values must satisfy `ok`. -/
def pyUpdate (h : K → Bool) (ok : V → Bool) : List (K × V) → List (K × V) → Except Err (Res K V) × List (K × V)
  | [], d => (.ok .unit, d)
  | p :: l, d =>
    if h p.1 && ok p.2 then pyUpdate h ok l (put d p.1 p.2) else (.error .type, d)

/-- One operation on a built-in dict that takes only values with `ok` (`TypeError` otherwise) and only keys with `h`. -/
def pyStep (h : K → Bool) (ok : V → Bool) : Op K V → List (K × V) → Except Err (Res K V) × List (K × V)
  | .getItem k, d => if h k then (match lookup d k with | some v => (.ok (.val v), d) | none => (.error .key, d))
      else (.error .type, d)
  | .setItem k v, d => if h k && ok v then (.ok .unit, put d k v) else (.error .type, d)
  | .delItem k, d => if h k then (if (lookup d k).isSome then (.ok .unit, del d k) else (.error .key, d))
      else (.error .type, d)
  | .len, d => (.ok (.int d.length), d)
  | .items, d => (.ok (.items d), d)
  | .contains k, d => if h k then (.ok (.bool (lookup d k).isSome), d) else (.error .type, d)
  | .get k v, d => if h k then (.ok (.val ((lookup d k).getD v)), d) else (.error .type, d)
  | .pop k v, d => if h k then (match lookup d k, v with
        | some w, _ => (.ok (.val w), del d k)
        | none, some v => (.ok (.val v), d)
        | none, none => (.error .key, d))
      else (.error .type, d)
  | .popItem, d => match d.getLast? with
    | some p => (.ok (.item p.1 p.2), d.dropLast)
    | none => (.error .key, d)
  | .clear, _ => (.ok .unit, [])
  | .update l, d => pyUpdate h ok l d
  | .setDefault k v, d => if h k then (match lookup d k with
        | some w => (.ok (.val w), d)
        | none => if ok v then (.ok (.val v), put d k v) else (.error .type, d))
      else (.error .type, d)
  | .copy, d => (.ok (.items d), d)
  | .reversed, d => (.ok (.keys (d.map Prod.fst).reverse), d)

/-- A sequence of operations on a built-in dict. -/
def pyRun (h : K → Bool) (ok : V → Bool) : List (Op K V) → List (K × V) → List (Except Err (Res K V)) × List (K × V)
  | [], d => ([], d)
  | op :: ops, d => ((pyStep h ok op d).1 :: (pyRun h ok ops (pyStep h ok op d).2).1, (pyRun h ok ops (pyStep h ok op d).2).2)

/-- Listeners that never raise. -/
def Cfg.Quiet (c : Cfg K V) : Prop := ∀ log, c.fails log = false

/-- What an observer does on an event, to its own copy. -/
def observe (d : List (K × V)) : Ev K V → List (K × V)
  | .added k v => put d k v
  | .changed k _ v => put d k v
  | .removed k _ => del d k
  | _ => d

/-- The copy of an observer that starts with `d` and sees the events `log`. -/
def replay (d : List (K × V)) (log : List (Ev K V × List (K × V))) : List (K × V) := log.foldl (fun d e => observe d e.1) d

end Psygnal.ED
