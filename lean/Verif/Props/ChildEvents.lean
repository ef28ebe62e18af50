import Verif.ChildEventsLemmas
import Verif.Props.EventedList

/-!
# C79: what `child_event` of an `EventedList` reports

`EventedList(child_events=True)` listens to the signals of its children and tells its own listeners which child emitted what
(`/repo/src/psygnal/containers/_evented_list.py:397-425`).  The programs here operate on the list and emit any signals, in any order.
-/

namespace Psygnal.EL
open Psygnal.Py (M Err Key Slice)

variable {α : Type} [DecidableEq α] {c : Cfg α} [c.Passive] {w : World α}

/-! ## What is reported is true -/

/-- **C79** (partial).  Whatever the program does - every operation on the list, successful or not, listeners may raise - and emits by
`emit`, each child event says the truth: the reported signal was emitted with the reported arguments; the reported object is the
instance of that signal, or of a relay of it; and the list had, at the reported index, that object or one equal to it.
Missing, and false: `emit_fast` (below), and "that object" instead of "or one equal to it" (below). -/
theorem C79_true_partial (hl : ∀ x, c.isList x = false) (ops : List (WOp α))
    (h1 : ∀ g x m, .list (.childEmit g x m) ∉ ops) (h2 : ∀ outer g args, .emit true outer g args ∉ ops)
    {i : Int} {obj : α} {g : Nat} {args : List Nat} {l : List α}
    (h : (.childEvent i obj g args, l) ∈ (wrun c w ops { data := [] }).log) :
    (∃ outer, .emit false outer g args ∈ ops) ∧ (obj = w.inst g ∨ ∃ r ∈ w.relays g, obj = w.inst r) ∧
      ∃ (n : Nat) (v : α), i = n ∧ l[n]? = some v ∧ (v = obj ∨ c.eq v obj = true) := by
  let Q : List (WOp α) → Ev α × List α → Prop := fun ops e => match e.1 with
    | .childEvent i obj g args => (∃ outer, .emit false outer g args ∈ ops) ∧ (obj = w.inst g ∨ ∃ r ∈ w.relays g, obj = w.inst r) ∧
      ∃ (n : Nat) (v : α), i = n ∧ e.2[n]? = some v ∧ (v = obj ∨ c.eq v obj = true)
    | _ => True
  have hQ : ∀ (ops : List (WOp α)) (e : Ev α) (d : List α), e.own = true → Q ops (e, d) := by
    intro ops e d h
    cases e <;> first | trivial | exact absurd h (by simp [Ev.own])
  have key : ∀ (rest : List (WOp α)) (s : St α), (∀ o ∈ rest, o ∈ ops) → Logged (Q ops) s → Logged (Q ops) (wrun c w rest s) := by
    intro rest
    induction rest with
    | nil => exact fun s _ h => h
    | cons o rest ih =>
      intro s hin hs
      refine ih (wstep c w s o) (fun o h => hin o (by simp [h])) ?_
      have ho := hin o (by simp)
      cases o with
      | list o => exact step_logged (hQ ops) o (fun g x m h => h1 g x m (h ▸ ho)) s hs
      | emit fast outer g args =>
        cases fast with
        | true => exact absurd ho (h2 outer g args)
        | false =>
          exact emission_logged hl outer g args (fun i x v d e1 e2 e3 => ⟨⟨outer, ho⟩, e3, i, v, rfl, e1, e2⟩) s hs
  exact key ops { data := [] } (fun _ h => h) (by simp [Logged]) _ h

/-! ## What is emitted is reported -/

/-- **C79** (partial).  After any program without item and slice assignment, with listeners that do not raise: if `x` is the only child
in the list that has signal `g`, or a group in which `g` is a member, and those signals have it as their instance, then an emission
`g.emit(*args)` is reported, with the index of the first item that is `x` or equals it, the signal `g` and its arguments: once per
occurrence of the child in the list and way the list has found `g` there.  Missing, and false: assignment (C35), signals with another
instance, `emit_fast`, the index of the child itself (all below). -/
theorem C79_told_partial (hq : c.Quiet) (hc : c.childEvents = true) (hl : ∀ x, c.isList x = false) (ops : List (WOp α))
    (h1 : ∀ i x, .list (.setItem i x) ∉ ops) (h2 : ∀ k vs, .list (.setSlice k vs) ∉ ops) {x : α} {g : Nat}
    (hx : x ∈ (wrun c w ops { data := [] }).data)
    (hown : ∀ y ∈ (wrun c w ops { data := [] }).data, ∀ r, (r = g ∨ r ∈ w.relays g) → r ∈ c.sigs y → y = x ∧ w.inst r = x)
    (outer : Option Nat) (args : List Nat) :
    ∃ i : Nat, (wrun c w ops { data := [] }).data.findIdx? (fun v => decide (v = x) || c.eq v x) = some i ∧
      (wrun c w (ops ++ [.emit false outer g args]) { data := [] }).data = (wrun c w ops { data := [] }).data ∧
      (wrun c w (ops ++ [.emit false outer g args]) { data := [] }).log = (wrun c w ops { data := [] }).log ++
        List.replicate ((wrun c w ops { data := [] }).data.count x *
            ((c.sigs x).count g + ((w.relays g).map fun r => (c.sigs x).count r).sum))
          (.childEvent i x g args, (wrun c w ops { data := [] }).data) := by
  have hat : Attached c (wrun c w ops { data := [] }) := wrun_attached hq hc hl ops h1 h2 ⟨by simp, by simp⟩
  have hlast : wrun c w (ops ++ [.emit false outer g args]) { data := [] } =
      (emission c w false outer g args (wrun c w ops { data := [] })).2 := by
    simp [wrun, wstep]
  rw [hlast]
  generalize wrun c w ops { data := [] } = s at *
  have hcnt : ∀ r, (r = g ∨ r ∈ w.relays g) → s.conns r = s.data.count x * (c.sigs x).count r := by
    intro r hr
    rw [hat.2 r]
    have : ∀ l : List α, (∀ y ∈ l, r ∈ c.sigs y → y = x) → (l.flatMap c.sigs).count r = l.count x * (c.sigs x).count r := by
      intro l
      induction l with
      | nil => simp
      | cons y l ih =>
        intro h
        rw [List.flatMap_cons, List.count_append, ih fun y' h' => h y' (by simp [h']), List.count_cons]
        by_cases hy : y = x
        · subst hy; simp [Nat.add_mul, Nat.add_comm]
        · have : r ∉ c.sigs y := fun h' => hy (h y (by simp) h')
          simp [hy, List.count_eq_zero.2 this]
    exact this _ fun y hy h => (hown y hy r hr h).1
  have hinst : ∀ r, (r = g ∨ r ∈ w.relays g) → s.conns r ≠ 0 → w.inst r = x := by
    intro r hr h0
    rw [hcnt r hr] at h0
    have : (c.sigs x).count r ≠ 0 := fun h => h0 (by simp [h])
    exact (hown x hx r hr (List.count_pos_iff.1 (Nat.pos_of_ne_zero this))).2
  cases hi : s.data.findIdx? (fun v => decide (v = x) || c.eq v x) with
  | none =>
    have := List.findIdx?_eq_none_iff.1 hi x hx
    simp at this
  | some i =>
    refine ⟨i, rfl, ?_⟩
    rw [emission_all hq (fun x _ => hl x) outer g hi args (hinst g (.inl rfl)) fun r hr => hinst r (.inr hr)]
    refine ⟨rfl, ?_⟩
    have hsum : ((w.relays g).map s.conns).sum = s.data.count x * ((w.relays g).map fun r => (c.sigs x).count r).sum := by
      have : ∀ rs : List Nat, (∀ r ∈ rs, r ∈ w.relays g) →
          (rs.map s.conns).sum = s.data.count x * (rs.map fun r => (c.sigs x).count r).sum := by
        intro rs
        induction rs with
        | nil => simp
        | cons r rs ih =>
          intro h
          simp only [List.map_cons, List.sum_cons, ih fun r' h' => h r' (by simp [h']), hcnt r (.inr (h r (by simp))), Nat.mul_add]
      exact this _ fun _ h => h
    simp only [hsum, hcnt g (.inl rfl), Nat.mul_add]

/-- **C79** (partial), the ordinary case: the child is in the list once, no other item equals it, and the list has found its signal
once.  Then an emission is reported exactly once, with the position of the child. -/
theorem C79_once_partial (hq : c.Quiet) (hc : c.childEvents = true) (hl : ∀ x, c.isList x = false) (ops : List (WOp α))
    (h1 : ∀ i x, .list (.setItem i x) ∉ ops) (h2 : ∀ k vs, .list (.setSlice k vs) ∉ ops) {x : α} {g n : Nat}
    (hx : (wrun c w ops { data := [] }).data[n]? = some x)
    (hother : ∀ k y, (wrun c w ops { data := [] }).data[k]? = some y → y = x ∨ c.eq y x = true → k = n)
    (hown : ∀ y ∈ (wrun c w ops { data := [] }).data, ∀ r, (r = g ∨ r ∈ w.relays g) → r ∈ c.sigs y → y = x ∧ w.inst r = x)
    (hone : (c.sigs x).count g + ((w.relays g).map fun r => (c.sigs x).count r).sum = 1)
    (outer : Option Nat) (args : List Nat) :
    (wrun c w (ops ++ [.emit false outer g args]) { data := [] }).log = (wrun c w ops { data := [] }).log ++
      [(.childEvent n x g args, (wrun c w ops { data := [] }).data)] := by
  obtain ⟨i, hi, -, hlog⟩ := C79_told_partial hq hc hl ops h1 h2 (List.mem_of_getElem? hx) hown outer args
  rw [hlog, hone]
  generalize wrun c w ops { data := [] } = s at *
  have hin : i = n := by
    obtain ⟨hlt, hs, -⟩ := List.findIdx?_eq_some_iff_getElem.1 hi
    exact hother i _ (List.getElem?_eq_getElem hlt) (by simpa using hs)
  have hc1 : s.data.count x = 1 := by
    have key : ∀ (l : List α) (n : Nat), l[n]? = some x → (∀ k, l[k]? = some x → k = n) → l.count x = 1 := by
      intro l
      induction l with
      | nil => simp
      | cons y l ih =>
        intro n h1 h2
        cases n with
        | zero =>
          have hy : y = x := by simpa using h1
          subst hy
          have : y ∉ l := fun hm => by
            obtain ⟨k, hk⟩ := List.getElem?_of_mem hm
            have := h2 (k + 1) (by simpa using hk)
            omega
          simp [List.count_eq_zero.2 this]
        | succ n =>
          have hy : y ≠ x := fun hy => by
            have := h2 0 (by simp [hy])
            omega
          rw [List.count_cons_of_ne hy]
          refine ih n (by simpa using h1) fun k hk => ?_
          have := h2 (k + 1) (by simpa using hk)
          omega
    exact key _ n hx fun k hk => hother k x hk (.inl rfl)
  simp [hc1, hin]

/-- An emission of a signal that no child in the list has, and no group of a child in the list: nothing is reported, whoever had it
before. -/
theorem C79_silent_partial (hq : c.Quiet) (hc : c.childEvents = true) (hl : ∀ x, c.isList x = false) (ops : List (WOp α))
    (h1 : ∀ i x, .list (.setItem i x) ∉ ops) (h2 : ∀ k vs, .list (.setSlice k vs) ∉ ops) {g : Nat}
    (hno : ∀ y ∈ (wrun c w ops { data := [] }).data, ∀ r, (r = g ∨ r ∈ w.relays g) → r ∉ c.sigs y)
    (fast : Bool) (outer : Option Nat) (args : List Nat) :
    wrun c w (ops ++ [.emit fast outer g args]) { data := [] } = wrun c w ops { data := [] } := by
  have hat : Attached c (wrun c w ops { data := [] }) := wrun_attached hq hc hl ops h1 h2 ⟨by simp, by simp⟩
  have h0 : ∀ r, (r = g ∨ r ∈ w.relays g) → (wrun c w ops { data := [] }).conns r = 0 := by
    intro r hr
    rw [hat.2 r, List.count_eq_zero.2]
    simpa [List.mem_flatMap] using fun y hy => hno y hy r hr
  have hlast : wrun c w (ops ++ [.emit fast outer g args]) { data := [] } =
      (emission c w fast outer g args (wrun c w ops { data := [] })).2 := by
    simp [wrun, wstep]
  rw [hlast, emission_deaf fast outer g args (h0 g (.inl rfl)) fun r hr => h0 r (.inr hr)]

/-! ## An example

Child `x` has the signal `10 x` as an attribute and a group with the relay `10 x + 1`, whose members are the signals `10 x + 2` and
`10 x + 3`.  The children `5` and `6` compare equal.  Child `9` is a container: its group with the relay `91` has no instance (`0`). -/

/-- The children. -/
def kids : Cfg Nat where
  eq a b := a == b || (a == 5 && b == 6) || (a == 6 && b == 5)
  isList _ := false
  wrap x := x
  sigs x := if x = 9 then [91] else if x = 0 then [] else [10 * x, 10 * x + 1]
  childEvents := true
  fails _ := false

/-- Their signals. -/
def nursery : World Nat where
  inst g := if g / 10 = 9 then 0 else g / 10
  relays g := if g % 10 = 2 ∨ g % 10 = 3 then [g - g % 10 + 1] else []

instance : kids.Passive := ⟨rfl, rfl⟩

/-- The hypotheses are met: after a program with insertions, a removal, a move and other emissions, child `3` is at position `1`; its
attribute and a member of its group are reported once each, the child that was removed is not heard any more. -/
theorem C79_example (outer : Option Nat) (args : List Nat) :
    (wrun kids nursery [.list (.extend [1, 2, 3, 4]), .emit false none 22 [7], .list (.remove 2), .list (.move 0 3), .list (.insert 0 7)]
      { data := [] }).data = [7, 3, 4, 1] ∧
    (wrun kids nursery ([.list (.extend [1, 2, 3, 4]), .emit false none 22 [7], .list (.remove 2), .list (.move 0 3), .list (.insert 0 7)]
      ++ [.emit false outer 33 args]) { data := [] }).log =
      (wrun kids nursery [.list (.extend [1, 2, 3, 4]), .emit false none 22 [7], .list (.remove 2), .list (.move 0 3), .list (.insert 0 7)]
        { data := [] }).log ++ [(.childEvent (1 : Nat) 3 33 args, [7, 3, 4, 1])] ∧
    (wrun kids nursery ([.list (.extend [1, 2, 3, 4]), .emit false none 22 [7], .list (.remove 2), .list (.move 0 3), .list (.insert 0 7)]
      ++ [.emit false outer 30 args]) { data := [] }).log =
      (wrun kids nursery [.list (.extend [1, 2, 3, 4]), .emit false none 22 [7], .list (.remove 2), .list (.move 0 3), .list (.insert 0 7)]
        { data := [] }).log ++ [(.childEvent (1 : Nat) 3 30 args, [7, 3, 4, 1])] ∧
    wrun kids nursery ([.list (.extend [1, 2, 3, 4]), .emit false none 22 [7], .list (.remove 2), .list (.move 0 3), .list (.insert 0 7)]
      ++ [.emit false outer 22 args]) { data := [] } =
      wrun kids nursery [.list (.extend [1, 2, 3, 4]), .emit false none 22 [7], .list (.remove 2), .list (.move 0 3), .list (.insert 0 7)]
        { data := [] } ∧
    (wrun kids nursery [.list (.extend [1, 2, 3, 4]), .emit false none 22 [7], .list (.remove 2), .list (.move 0 3), .list (.insert 0 7)]
      { data := [] }).log.filterMap (fun e => match e.1 with
        | .childEvent i x g a => some (i, x, g, a)
        | _ => none) = [(1, 2, 22, [7])] := by
  have hd : (wrun kids nursery [.list (.extend [1, 2, 3, 4]), .emit false none 22 [7], .list (.remove 2), .list (.move 0 3),
      .list (.insert 0 7)] { data := [] }).data = [7, 3, 4, 1] := by decide +kernel
  refine ⟨hd, ?_, ?_, ?_, by decide +kernel⟩
  · have := C79_once_partial (c := kids) (w := nursery) (fun _ => rfl) rfl (fun _ => rfl) [.list (.extend [1, 2, 3, 4]),
      .emit false none 22 [7], .list (.remove 2), .list (.move 0 3), .list (.insert 0 7)] (by simp) (by simp) (x := 3) (g := 33) (n := 1)
      (by rw [hd]; rfl)
      (by rw [hd]; intro k y; rcases k with _ | _ | _ | _ | k <;> simp <;> rintro rfl <;> decide)
      (by rw [hd]; simp [kids, nursery]) (by decide) outer args
    rw [hd] at this
    exact this
  · have := C79_once_partial (c := kids) (w := nursery) (fun _ => rfl) rfl (fun _ => rfl) [.list (.extend [1, 2, 3, 4]),
      .emit false none 22 [7], .list (.remove 2), .list (.move 0 3), .list (.insert 0 7)] (by simp) (by simp) (x := 3) (g := 30) (n := 1)
      (by rw [hd]; rfl)
      (by rw [hd]; intro k y; rcases k with _ | _ | _ | _ | k <;> simp <;> rintro rfl <;> decide)
      (by rw [hd]; simp [kids, nursery]) (by decide) outer args
    rw [hd] at this
    exact this
  · exact C79_silent_partial (c := kids) (w := nursery) (fun _ => rfl) rfl (fun _ => rfl) [.list (.extend [1, 2, 3, 4]),
      .emit false none 22 [7], .list (.remove 2), .list (.move 0 3), .list (.insert 0 7)] (by simp) (by simp) (g := 22)
      (by rw [hd]; simp [kids, nursery]) false outer args

/-! ## What is false -/

/-- **C79 is false** for children that compare equal: an emission of child `6` at position `1` is reported with the position of
child `5`. -/
theorem C79_equal_refuted :
    (wrun kids nursery [.list (.extend [5, 6]), .emit false none 60 [7]] { data := [] }).log.getLast? =
      some (.childEvent 0 6 60 [7], [5, 6]) := by decide +kernel

/-- **C79 is false** for a child that is in the list twice: one emission, two reports, both with the first position. -/
theorem C79_twice_refuted :
    (wrun kids nursery [.list (.extend [1, 3, 3]), .emit false none 30 [7]] { data := [] }).log.drop 6 =
      [(.childEvent 1 3 30 [7], [1, 3, 3]), (.childEvent 1 3 30 [7], [1, 3, 3])] := by decide +kernel

/-- **C79 is false** for containers as children (lists of lists, dicts, sets): their groups do not know whom they belong to, so nothing
they emit is reported, although the list is connected to them. -/
theorem C79_container_refuted :
    (wrun kids nursery [.list (.extend [1, 9]), .emit false none 92 [7]] { data := [] }).conns 91 = 1 ∧
    (wrun kids nursery [.list (.extend [1, 9]), .emit false none 92 [7]] { data := [] }).log =
      (wrun kids nursery [.list (.extend [1, 9])] { data := [] }).log := by decide +kernel

omit [c.Passive] in
/-- **C79 is false** for `emit_fast`, for every list and signal: outside of other emissions nothing is reported. -/
theorem C79_fast_refuted (ops : List (WOp α)) (g : Nat) (args : List Nat) (s : St α) :
    (wrun c w (ops ++ [.emit true none g args]) s).log = (wrun c w ops s).log := by
  have hlast : wrun c w (ops ++ [.emit true none g args]) s = (emission c w true none g args (wrun c w ops s)).2 := by
    simp [wrun, wstep]
  rw [hlast]
  have hu : ∀ (n : Nat) (s : St α), M.forEach (List.replicate n ()) (fun _ => hear c w none args) s = (.ok (), s) := by
    intro n
    induction n with
    | zero => exact fun _ => rfl
    | succ n ih =>
      intro s
      rw [List.replicate_succ, M.forEach]
      exact ih s
  have hr : ∀ (rs : List Nat) (s : St α), M.forEach rs (fun r => relayed c w none r args) s = (.ok (), s) := by
    intro rs
    induction rs with
    | nil => exact fun _ => rfl
    | cons r rs ih =>
      intro s
      rw [M.forEach]
      exact ih s
  simp only [emission, if_true, M.bind_eq, M.bind_app, M.get_app, hu, hr]

/-- **C79 is false** for `emit_fast` in a callback: the report names the signal that is being emitted around it (here `30` of child `3`),
with the arguments of the other (`10` of child `1`). -/
theorem C79_nested_fast_refuted :
    (wrun kids nursery [.list (.extend [1, 2, 3]), .emit true (some 30) 10 [7]] { data := [] }).log.getLast? =
      some (.childEvent 2 3 30 [7], [1, 2, 3]) := by decide +kernel

/-- **C79 is false** for item assignment: the new child is not heard, and the old one neither, because it is not found (C35). -/
theorem C79_assigned_refuted :
    (wrun kids nursery [.list (.extend [1, 2]), .list (.setItem 0 3), .emit false none 30 [7], .emit false none 10 [7]]
      { data := [] }).log = (wrun kids nursery [.list (.extend [1, 2]), .list (.setItem 0 3)] { data := [] }).log := by decide +kernel

/-! ## Listening does no harm -/

/-- **C79**: whatever happened before, the list does not make an emission of a signal fail (also when the child is not found any more), and
an emission changes neither the items nor the connections. -/
theorem C79_harmless (hq : c.Quiet) (ops : List (WOp α)) (s : St α) (fast : Bool) (outer : Option Nat) (g : Nat) (args : List Nat) :
    (emission c w fast outer g args (wrun c w ops s)).1 = .ok () ∧
      (wrun c w (ops ++ [.emit fast outer g args]) s).data = (wrun c w ops s).data ∧
      (wrun c w (ops ++ [.emit fast outer g args]) s).conns = (wrun c w ops s).conns := by
  have hlast : wrun c w (ops ++ [.emit fast outer g args]) s = (emission c w fast outer g args (wrun c w ops s)).2 := by
    simp [wrun, wstep]
  rw [hlast]
  generalize wrun c w ops s = s
  refine ⟨?_, emission_same fast outer g args s.data s.conns s ⟨rfl, rfl⟩⟩
  have hall : ∀ {β : Type} (l : List β) (f : β → M (St α) Unit), (∀ b s, (f b s).1 = .ok ()) → ∀ s, (M.forEach l f s).1 = .ok () := by
    intro β l f hf
    induction l with
    | nil => exact fun _ => rfl
    | cons b l ih =>
      intro s
      have := hf b s
      simp only [M.forEach, M.bind_app]
      split
      · exact ih _
      · rename_i h
        rw [h] at this
        exact this
  have hre : ∀ (e : Nat) (x : α) (m : ChildMsg) (s : St α), (reemit c e x m s).1 = .ok () := by
    intro e x m s
    simp only [reemit]
    split
    · rfl
    · split <;> rw [emit_quiet hq]
  have hh : ∀ (cur : Option Nat) (u : Unit) (s : St α), ((fun _ => hear c w cur args : Unit → M (St α) Unit) u s).1 = .ok () := by
    intro cur _ s
    cases cur with
    | none => rfl
    | some e => exact hre _ _ _ _
  have hr : ∀ (cur : Option Nat) (r : Nat) (s : St α), (relayed c w cur r args s).1 = .ok () := by
    intro cur r s
    cases cur with
    | none => rfl
    | some e => exact hall _ _ (fun _ s => hre _ _ _ s) _
  simp only [emission, M.bind_eq, M.bind_app, M.get_app]
  split
  · exact hall _ _ (hr _) _
  · rename_i h
    exact (congrArg Prod.fst h).symm.trans (hall _ _ (hh _) _)

/-- The child that item assignment put in the place of `1` is not found any more; an emission of `1` goes well. -/
example : (emission kids nursery false none 10 [7] (wrun kids nursery [.list (.extend [1, 2]), .list (.setItem 0 3)] { data := [] })).1 = .ok () ∧
    (wrun kids nursery [.list (.extend [1, 2]), .list (.setItem 0 3)] { data := [] }).conns 10 = 1 := by decide +kernel

end Psygnal.EL
