import Verif.EventedListNested
import Verif.EventedDictNested

/-!
# Listeners that operate on the container: C64

`listening c p n` is the list (dict) `c` whose listeners perform the program `p log` at every emission, where `log` are
the emissions so far: any methods of the container itself, depending on the results, after which they return or raise.
These methods emit events in turn, at which the listeners are called again, and so on, up to `n` levels deep; the next
level is a `RecursionError`.  `c.fails` are further listeners that may raise, and `c.rounds` only bounds the loop of
`clear`, which listeners can keep going.  With `c.early`, the observer that keeps the log is called before these listeners.
-/

namespace Psygnal.EL
open Psygnal.Py (M Err Key Slice)

variable {α : Type} [DecidableEq α] {c : Cfg α}

/-- **C64** for lists (partial).  For every initial contents, every sequence of operations, and listeners that call any
methods of the list, to any depth of nesting and raising or not: an observer connected before them that performs each
reported change on its own copy has exactly the contents of the list, after the whole sequence and right after each single
event.  Here listeners do not call `reverse()` (they may call `reverse(emit_individual_events=True)`; the operations outside
listeners are arbitrary).  Missing, and false: `C64_reverse_refuted`, `C64_late_refuted`. -/
theorem C64_list_partial (he : c.early = true) {p : List (Ev α × List α) → Prog α}
    (hp : ∀ log, (p log).All (· ≠ .reverse false)) (n : Nat) (ops : List (Op α)) (d : List α) :
    replay d (run (listening c p n) ops { data := d }).2.log = (run (listening c p n) ops { data := d }).2.data ∧
    ∀ pre e post, (run (listening c p n) ops { data := d }).2.log = pre ++ e :: post → replay d (pre ++ [e]) = e.2 :=
  (run_seen (listening_tells he hp n false) (fun _ _ _ => listening_tells he hp n true)
    (⟨⟨rfl, by simp⟩, rfl⟩ : Seen d false { data := d })).1

/-- **C64** for lists, where listeners may call `reverse()`, but neither they nor the operations use `move_multiple`. -/
theorem C64_list_reverse_partial (he : c.early = true) {p : List (Ev α × List α) → Prog α}
    (hp : ∀ log, (p log).All (∀ ks i, · ≠ .moveMultiple ks i)) (n : Nat) (ops : List (Op α))
    (ho : ∀ ks i, .moveMultiple ks i ∉ ops) (d : List α) :
    replay d (run (listening c p n) ops { data := d }).2.log = (run (listening c p n) ops { data := d }).2.data ∧
    ∀ pre e post, (run (listening c p n) ops { data := d }).2.log = pre ++ e :: post → replay d (pre ++ [e]) = e.2 :=
  (run_seen (listening_tells' he hp n) (fun ks i h => absurd h (ho ks i))
    (⟨⟨rfl, by simp⟩, rfl⟩ : Seen d false { data := d })).1

/-- The program that performs these operations and ignores their results. -/
def ops : List (Op α) → Prog α
  | [] => .done
  | o :: l => .op o fun _ => ops l

/-- A list of numbers for the examples; every number `k` has the signal `2 * k`. -/
def nestCfg (childEvents : Bool := false) (early : Bool := true) : Cfg Nat where
  eq := fun a b => decide (a = b)
  isList := fun _ => false
  wrap := id
  sigs := fun k => [2 * k]
  childEvents := childEvents
  fails := fun _ => false
  early := early

/-- Listeners that react to insertions of `7` by removing the first item, to removals by inserting a copy of the next item in
front, and to the insertion of `8` with an error, unless they can first clear the list. -/
def exProg (log : List (Ev Nat × List Nat)) : Prog Nat :=
  match log.getLast? with
  | some (.inserted _ 7, _) => ops [.delItem (.int 0)]
  | some (.removed _ v, _) => if v < 3 then ops [.insert 0 (v + 1), .move 0 2] else .done
  | some (.inserted _ 8, _) => .op .clear fun _ => .raise
  | _ => .done

theorem exProg_all (log : List (Ev Nat × List Nat)) : (exProg log).All (· ≠ .reverse false) := by
  unfold exProg
  split
  · simp [ops, Prog.All]
  · split <;> simp [ops, Prog.All]
  · simp [Prog.All]
  · trivial

/-- What the observer of `C64_list_partial` sees: the insertion of 7 leads to the removal of 1, which leads to the insertion
of 2, which is moved behind 7; `removing` and `removed` enclose nothing, but `move` continues after nested events. -/
example : (run (listening nestCfg exProg 5) [.append 7, .moveMultiple [.int 1] 0] { data := [1] }).2.log =
    [(.inserting 1, [1]), (.inserted 1 7, [1, 7]), (.removing 0, [1, 7]), (.removed 0 1, [7]), (.inserting 0, [7]),
     (.inserted 0 2, [2, 7]), (.moving 0 2, [2, 7]), (.moved 0 1 2, [7, 2]), (.reordered, [7, 2]),
     (.moving 1 0, [7, 2]), (.moved 1 0 2, [2, 7]), (.reordered, [2, 7])] := by
  decide +kernel

example := C64_list_partial (c := nestCfg) rfl exProg_all 5 [.append 7, .append 8, .moveMultiple [.int 1] 0] [1]

example := C64_list_reverse_partial (c := nestCfg) (p := fun log => match log.getLast? with
    | some (.inserted _ 7, _) => ops [.reverse false, .append 7]
    | _ => .done) rfl (by intro log; split <;> simp [ops, Prog.All]) 3 [.append 7, .reverse false]
  (by simp) [1]

/-- A listener that inserts 2 in front when 1 is inserted. -/
def insertFront (log : List (Ev Nat × List Nat)) : Prog Nat := match log.getLast? with
  | some (.inserted _ 1, _) => ops [.insert 0 2]
  | _ => .done

/-- **C64 is false** for observers connected after such a listener: they are told of the nested change first.  Here the
listener reacts to the insertion of 1 by inserting 2 in front; a later observer is told `inserted(0, 2)` and then
`inserted(0, 1)`, and ends with `[1, 2]`, while the list is `[2, 1]`. -/
theorem C64_late_refuted :
    (run (listening (nestCfg (early := false)) insertFront 5) [.insert 0 1] { data := [] }).2.data = [2, 1] ∧
    replay [] (run (listening (nestCfg (early := false)) insertFront 5) [.insert 0 1] { data := [] }).2.log = [1, 2] := by
  decide

/-- A listener that reverses the list when an item has been moved, and raises. -/
def reverseRaise (log : List (Ev Nat × List Nat)) : Prog Nat := match log.getLast? with
  | some (.moved .., _) => .op (.reverse false) fun _ => .raise
  | _ => .done

/-- **C64 is false** for listeners that call `reverse()` while `move_multiple` runs, which blocks `reordered`: when
a listener then raises, no event ever reports that the list was reversed. -/
theorem C64_reverse_refuted :
    (run (listening nestCfg reverseRaise 5) [.moveMultiple [.int 2] 0] { data := [1, 2, 3] }).2.data = [2, 1, 3] ∧
    replay [1, 2, 3] (run (listening nestCfg reverseRaise 5) [.moveMultiple [.int 2] 0] { data := [1, 2, 3] }).2.log = [3, 1, 2] ∧
    (run (listening nestCfg reverseRaise 5) [.moveMultiple [.int 2] 0] { data := [1, 2, 3] }).2.blocked = false := by
  decide

/-- A listener that removes inserted items. -/
def removeAgain (log : List (Ev Nat × List Nat)) : Prog Nat := match log.getLast? with
  | some (.inserted i _, _) => ops [.delItem (.int i)]
  | _ => .done

/-- What fails when listeners operate on the list: child events are connected after the listeners of `inserted` have run,
so a child that a listener has removed again is connected, and stays connected. -/
theorem C64_children_refuted :
    (run (listening (nestCfg true) removeAgain 5) [.append 3] { data := [] }).2.data = [] ∧
    (run (listening (nestCfg true) removeAgain 5) [.append 3] { data := [] }).2.conns 6 = 1 := by
  decide

/-- A listener that removes the first item before the one at position 2 is removed. -/
def removeFirst (log : List (Ev Nat × List Nat)) : Prog Nat := match log.getLast? with
  | some (.removing 2, _) => ops [.delItem (.int 0)]
  | _ => .done

/-- And `clear` stops at the first `IndexError`, also one that is due to a listener: the list is not empty, and nobody is told
of an error. -/
theorem C64_clear_refuted :
    (run (listening nestCfg removeFirst 5) [.clear] { data := [1, 2, 3] }).1 = [.ok .unit] ∧
    (run (listening nestCfg removeFirst 5) [.clear] { data := [1, 2, 3] }).2.data = [2, 3] := by
  decide

end Psygnal.EL

namespace Psygnal.ED
open Psygnal.Py (M Err)

variable {K V : Type} [DecidableEq K] [DecidableEq V] {c : Cfg K V}

/-- **C64** for dicts, without restriction on the listeners: for every initial dict, every sequence of operations, and
listeners that call any methods of the dict, to any depth of nesting and raising or not, an observer connected before them
that applies `added`, `changed` and `removed` to its own copy has exactly the dict, order included, after the whole sequence
and right after each single event; and keys stay distinct. -/
theorem C64_dict (he : c.early = true) (p : List (Ev K V × List (K × V)) → Prog K V) (n : Nat) (ops : List (Op K V))
    (d : List (K × V)) :
    replay d (run (listening c p n) ops { dict := d }).2.log = (run (listening c p n) ops { dict := d }).2.dict ∧
    (∀ pre e post, (run (listening c p n) ops { dict := d }).2.log = pre ++ e :: post → replay d (pre ++ [e]) = e.2) ∧
    ((d.map Prod.fst).Nodup → ((run (listening c p n) ops { dict := d }).2.dict.map Prod.fst).Nodup) := by
  have h := run_seen (listening_tells (d := d) p he n) ops (s := { dict := d }) ⟨⟨rfl, by simp⟩, id⟩
  exact ⟨h.1.1, h.1.2, h.2⟩

/-- The program that performs these operations and ignores their results. -/
def ops : List (Op K V) → Prog K V
  | [] => .done
  | o :: l => .op o fun _ => ops l

/-- A dict of numbers for the examples. -/
def nestCfg (early : Bool := true) : Cfg Nat Nat where
  hashable _ := true
  okType v := decide (v < 50)
  fails _ := false
  early := early

/-- A listener that answers the addition of 1 with an addition of 2, that with a deletion of 1, and that with an error. -/
example : run (listening nestCfg (fun log => match log.getLast? with
      | some (.added 1 _, _) => ops [.setItem 2 20]
      | some (.added 2 _, _) => ops [.delItem 1]
      | some (.removed .., _) => .raise
      | _ => .done) 5) [.setItem 1 10, .items] { dict := [] } =
    ([.ok .unit, .ok (.items [(2, 20)])],
     { dict := [(2, 20)],
       log := [(.adding 1, []), (.added 1 10, [(1, 10)]), (.adding 2, [(1, 10)]), (.added 2 20, [(1, 10), (2, 20)]),
         (.removing 1, [(1, 10), (2, 20)]), (.removed 1 10, [(2, 20)])] }) := by
  rfl

/-- A listener that deletes key 1 when it is added. -/
def deleteAgain (log : List (Ev Nat Nat × List (Nat × Nat))) : Prog Nat Nat := match log.getLast? with
  | some (.added 1 _, _) => ops [.delItem 1]
  | _ => .done

/-- For dicts, too, observers connected after such listeners are misled. -/
theorem C64_dict_late_refuted :
    (run (listening (nestCfg (early := false)) deleteAgain 5) [.setItem 1 10] { dict := [] }).2.dict = [] ∧
    replay [] (run (listening (nestCfg (early := false)) deleteAgain 5) [.setItem 1 10] { dict := [] }).2.log = [(1, 10)] := by
  decide

/-- A listener that sets key 1 before it is deleted. -/
def setAgain (log : List (Ev Nat Nat × List (Nat × Nat))) : Prog Nat Nat := match log.getLast? with
  | some (.removing 1, _) => ops [.setItem 1 11]
  | _ => .done

/-- With listeners that operate on the dict, `removed` may report a value that was not the last one: the value is read
before `removing` is emitted. -/
theorem C64_dict_value_refuted :
    (run (listening nestCfg setAgain 5) [.delItem 1] { dict := [(1, 10)] }).2.log =
      [(.removing 1, [(1, 10)]), (.changing 1, [(1, 10)]), (.changed 1 10 11, [(1, 11)]), (.removed 1 10, [])] := by
  decide

/-- A listener that deletes key 1 before it is deleted, once. -/
def deleteFirst (log : List (Ev Nat Nat × List (Nat × Nat))) : Prog Nat Nat := match log.getLast? with
  | some (.removing 1, _) => if log.length = 1 then ops [.delItem 1] else .done
  | _ => .done

/-- `clear` stops at the first `KeyError`, also one that is due to a listener: the dict is not empty, and nobody is told. -/
theorem C64_dict_clear_refuted :
    (run (listening nestCfg deleteFirst 5) [.clear] { dict := [(1, 10), (2, 20), (3, 30)] }).1 = [.ok .unit] ∧
    (run (listening nestCfg deleteFirst 5) [.clear] { dict := [(1, 10), (2, 20), (3, 30)] }).2.dict = [(2, 20), (3, 30)] := by
  decide

end Psygnal.ED
