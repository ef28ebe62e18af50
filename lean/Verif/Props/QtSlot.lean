import Verif.QtSlotLemmas
import Verif.Props.Connect

/-! # C76: Qt signals as callbacks -/
namespace Psygnal.QtSlot

/-- **C76** (as far as true).  A Qt signal, of PyQt or PySide, or its `emit` method, is connected to a signal with `k` parameters, with any
`on_ref_error`.  It is refused exactly if it has more than `k` parameters; otherwise each emission gives it exactly as many values as it has
parameters, so that Qt emits them; the reference is kept, and connecting emits nothing.  Missing: names of types with commas or closing
brackets, and PySide signals with 255 parameters (refuted below). -/
theorem C76_partial (q : Qt) (hq : Plain q) (h255 : q.lib = .pyside → q.types.length ≠ 255) (bound : Bool) (r : OnRef) (k : Nat) :
    ((∃ s, (connect { onRef := r } k (q.callee bound)).1 = .ok s) ↔ q.types.length ≤ k)
    ∧ (∀ s, (connect { onRef := r } k (q.callee bound)).1 = .ok s →
        s.strong = true ∧ ∀ args : List Nat, args.length = k → q.takes (s.given args).length)
    ∧ (connect { onRef := r } k (q.callee bound)).2 = [] := by
  have h := connect_qt hq bound h255 r k
  by_cases hk : k < q.types.length
  · rw [if_pos hk] at h
    rw [h]
    exact ⟨⟨(fun ⟨s, hs⟩ => by cases hs), fun hn => by omega⟩, (fun s hs => by cases hs), rfl⟩
  · rw [if_neg hk] at h
    rw [h]
    refine ⟨⟨fun _ => by omega, fun _ => ⟨_, rfl⟩⟩, fun s hs => ?_, rfl⟩
    cases hs
    refine ⟨rfl, fun args ha => ?_⟩
    simp only [Slot.given, Qt.takes, List.length_take]
    omega

/-- Nothing about the callable looks like Qt: the name of its type contains neither `pyqtBoundSignal` nor `SignalInstance`, and it is no
`emit` method of such a type. -/
structure Ordinary (c : Callee) : Prop where
  pyqt : ¬ ['p', 'y', 'q', 't', 'B', 'o', 'u', 'n', 'd', 'S', 'i', 'g', 'n', 'a', 'l'] <:+: c.tname
  pyside : ¬ ['S', 'i', 'g', 'n', 'a', 'l', 'I', 'n', 's', 't', 'a', 'n', 'c', 'e'] <:+: c.tname
  emits : c.qualname ≠ ['p', 'y', 'q', 't', 'B', 'o', 'u', 'n', 'd', 'S', 'i', 'g', 'n', 'a', 'l', '.', 'e', 'm', 'i', 't'] ∧ c.qualname ≠ ['S', 'i', 'g', 'n', 'a', 'l', 'I', 'n', 's', 't', 'a', 'n', 'c', 'e', '.', 'e', 'm', 'i', 't']

theorem guess_ordinary {c : Callee} (h : Ordinary c) : guess c = (.ok none, []) := by
  have h1 : ¬ has pyqtBoundSignal c.tname = true := fun x => h.pyqt (has_iff.mp x)
  have h2 : c.qualname ≠ pyqtEmit := h.emits.1
  have h3 : ¬ (c.qualname = signalInstanceEmit ∧ builtin.isPrefixOf c.tname = true) := fun x => h.emits.2 x.1
  have h4 : ¬ (has signalInstance c.tname = true ∧ has qtCore c.tmodule = true) := fun x => h.pyside (has_iff.mp x.1)
  rw [guess, if_neg h1, if_neg h2, if_neg h3, if_neg h4]

/-- Connecting any other callable calls nothing; it is refused exactly if no number of arguments up to the number of parameters of the signal
can be passed to it, or if it has keyword-only parameters without default; and every emission calls it with arguments that it
takes. -/
theorem C76_ordinary (c : Callee) (hc : Ordinary c) {sg : PySig} (hs : c.sig = some sg) (hw : WFSig sg) (r : OnRef) (k : Nat) :
    ((∃ s, (connect { onRef := r } k c).1 = .ok s) ↔ ∃ j, j ≤ k ∧ bindsPos sg j = true)
    ∧ (∀ s, (connect { onRef := r } k c).1 = .ok s → ∀ args : List Nat, args.length = k → bindsPos sg (s.given args).length = true)
    ∧ (connect { onRef := r } k c).2 = [] := by
  have hconn : connect { onRef := r } k c = ((match posargRange sg with
      | none => .error .value
      | some (lo, hi) => if k < lo then .error .value else .ok ⟨hi, !c.weakable⟩), []) := by
    rw [connect, if_pos ⟨rfl, rfl⟩, checkNargs, guess_ordinary hc]
    simp only [hs]
    cases posargRange sg with
    | none => rfl
    | some p =>
      obtain ⟨lo, hi⟩ := p
      simp only [checkRange]
      by_cases hk : k < lo
      · simp [hk]
      · cases hwk : c.weakable <;> simp [hk, ref, hwk]
  obtain ⟨h1, h2⟩ := C16_range_correct hw
  have hle : ∀ lo hi, posargRange sg = some (lo, some hi) → lo ≤ hi := by
    intro lo hi h
    rw [posargRange_eq] at h
    split at h
    · cases h
    · simp only [Option.some.injEq, Prod.mk.injEq] at h
      obtain ⟨ha, hb⟩ := h
      split at hb
      · cases hb
      · cases hb; omega
  rw [hconn]
  cases hr : posargRange sg with
  | none =>
    simp only
    refine ⟨⟨(fun ⟨s, hs⟩ => by cases hs), fun ⟨j, _, hj⟩ => ?_⟩, (fun s hs => by cases hs), trivial⟩
    rw [h2 hr j] at hj; cases hj
  | some p =>
    obtain ⟨lo, hi⟩ := p
    have hb := h1 lo hi hr
    simp only
    by_cases hk : k < lo
    · rw [if_pos hk]
      refine ⟨⟨(fun ⟨s, hs⟩ => by cases hs), fun ⟨j, hj, hj'⟩ => ?_⟩, (fun s hs => by cases hs), trivial⟩
      have := ((hb j).mp hj').1
      omega
    · rw [if_neg hk]
      refine ⟨⟨fun _ => ?_, fun _ => ⟨_, rfl⟩⟩, fun s hs args ha => ?_, trivial⟩
      · refine ⟨lo, by omega, (hb lo).mpr ⟨Nat.le_refl _, fun m hm => ?_⟩⟩
        subst hm
        exact hle lo m hr
      · cases hs
        rw [hb]
        cases hi with
        | none => simp only [Slot.given]; exact ⟨by omega, by simp⟩
        | some m =>
          have := hle lo m hr
          simp only [Slot.given, List.length_take, Option.some.injEq]
          exact ⟨by omega, fun m' hm' => by omega⟩

/-- `on_ref_error` decides what happens to an ordinary callable without weak references if the number of arguments is not looked at:
`"raise"` raises, otherwise a strong reference is kept. -/
theorem C76_ref_partial (c : Callee) (o : Opts) (ho : o.check = false ∨ o.maxArgs ≠ none ∨ (Ordinary c ∧ c.sig = none)) (k : Nat) :
    (connect o k c).1 = (if c.weakable then .ok ⟨o.maxArgs, false⟩ else if o.onRef = .raise then .error .type else .ok ⟨o.maxArgs, true⟩) := by
  by_cases h1 : o.check = true ∧ o.maxArgs = none
  · rcases ho with h | h | ⟨h, h2⟩
    · simp [h] at h1
    · exact absurd h1.2 h
    · rw [connect, if_pos h1, checkNargs, guess_ordinary h]
      simp [h2, ref, h1.2]
  · rw [connect, if_neg h1]; rfl

/-! ## Examples and refutations -/

/-- `valueChanged(int,QString)`. -/
def changed (l : Lib) : Qt := ⟨l, ['c', 'h', 'a', 'n', 'g', 'e', 'd'], [['i', 'n', 't'], ['Q', 'S', 't', 'r', 'i', 'n', 'g']]⟩

/-- `Plain` holds, so `C76_partial` applies. -/
example (l : Lib) : Plain (changed l) := by cases l <;> exact ⟨by decide, by decide, by decide⟩

example : (connect {} 3 ((changed .pyside).callee false)).1.toOption = some ⟨some 2, true⟩
    ∧ (connect {} 1 ((changed .pyqt).callee true)).1.toOption = none := by decide +kernel

/-- A bound method of a C extension that cannot be referenced weakly: `f(x, y=0)`. -/
def plainFn : Callee where
  tname := ['b', 'u', 'i', 'l', 't', 'i', 'n', '_', 'm', 'e', 't', 'h', 'o', 'd']
  tmodule := ['b', 'u', 'i', 'l', 't', 'i', 'n', 's']
  qualname := ['T', 'h', 'i', 'n', 'g', '.', 's', 'e', 't']
  signal := []
  reply := .accepts
  sig := some [⟨.posOrKw, false⟩, ⟨.posOrKw, true⟩]
  weakable := false

/-- The hypotheses of `C76_ordinary` are met. -/
example : Ordinary plainFn ∧ WFSig [⟨.posOrKw, false⟩, ⟨.posOrKw, true⟩] := ⟨⟨by decide, by decide, by decide⟩, by simp [WFSig, Kind.phase, Param.isPos]⟩

/-- `changed(QMap<QString,int>)`: one parameter. -/
def mapSignal (l : Lib) : Qt := ⟨l, ['c', 'h', 'a', 'n', 'g', 'e', 'd'], [['Q', 'M', 'a', 'p', '<', 'Q', 'S', 't', 'r', 'i', 'n', 'g', ',', 'i', 'n', 't', '>']]⟩

/-- The comma in the name of a type is counted: the Qt signal has one parameter; connected to a signal with one parameter it is refused, and connected
to one with two it gets two values, which Qt does not take. -/
theorem C76_comma_refuted (l : Lib) (bound : Bool) : ((connect {} 1 ((mapSignal l).callee bound)).1.toOption = none)
    ∧ ∃ s, (connect {} 2 ((mapSignal l).callee bound)).1 = .ok s ∧ ¬ (mapSignal l).takes (s.given [7, 8]).length := by
  cases l <;> cases bound
  all_goals exact ⟨by decide +kernel, ⟨some 2, true⟩, by rfl, by simp only [Qt.takes]; decide⟩

/-- The bracket in the name of a type ends the list: `run(std::function<void(int)>,int)` has two parameters and gets one value. -/
def funSignal (l : Lib) : Qt := ⟨l, ['r', 'u', 'n'], [['s', 't', 'd', ':', ':', 'f', 'u', 'n', 'c', 't', 'i', 'o', 'n', '<', 'v', 'o', 'i', 'd', '(', ')', '>'], ['i', 'n', 't']]⟩

theorem C76_bracket_refuted (l : Lib) (bound : Bool) :
    ∃ s, (connect {} 2 ((funSignal l).callee bound)).1 = .ok s ∧ ¬ (funSignal l).takes (s.given [7, 8]).length := by
  cases l <;> cases bound
  all_goals exact ⟨⟨some 1, true⟩, by rfl, by simp only [Qt.takes]; decide⟩

/-- A PySide signal with 255 parameters is emitted, with 255 times 1, when it is connected. -/
theorem C76_255_refuted (q : Qt) (hl : q.lib = .pyside) (hn : q.types.length = 255) (bound : Bool) (k : Nat) :
    (connect {} k (q.callee bound)).2 = [255] := by
  have hp : probe (q.callee bound) = (.ok none, [255]) := by
    have : (q.callee bound).reply = .accepts := if_pos hn
    rw [probe, this]
  have hg : guess (q.callee bound) = (.ok none, [255]) := by
    cases bound
    · rw [guess, if_neg (by simp only [Qt.callee, hl]; decide), if_neg (by simp only [Qt.callee, hl]; decide),
        if_pos (by simp only [Qt.callee, hl]; decide), hp]
    · rw [guess, if_neg (by simp only [Qt.callee, hl]; decide), if_neg (by simp only [Qt.callee, hl]; decide),
        if_neg (by simp only [Qt.callee, hl]; decide), if_pos (by simp only [Qt.callee, hl]; decide), hp]
  rw [connect, if_pos ⟨rfl, rfl⟩, checkNargs, hg]
  cases bound
  · rfl
  · rfl

/-- The `emit` method of a psygnal signal compiled with mypyc: a built-in method of a class `SignalInstance`. -/
def compiledEmit : Callee where
  tname := ['b', 'u', 'i', 'l', 't', 'i', 'n', '_', 'f', 'u', 'n', 'c', 't', 'i', 'o', 'n', '_', 'o', 'r', '_', 'm', 'e', 't', 'h', 'o', 'd']
  tmodule := ['b', 'u', 'i', 'l', 't', 'i', 'n', 's']
  qualname := ['S', 'i', 'g', 'n', 'a', 'l', 'I', 'n', 's', 't', 'a', 'n', 'c', 'e', '.', 'e', 'm', 'i', 't']
  signal := []
  reply := .accepts
  sig := some [⟨.varPos, false⟩]
  weakable := true

/-- It is taken for one of PySide: connecting it emits 255 times the value 1 from the signal it belongs to. -/
theorem C76_probe_refuted : (connect {} 1 compiledEmit).2 = [255] := rfl

/-- `on_ref_error="raise"` is not respected by `connect` as it is called by default: every callable whose signature is known is treated as one of Qt
here, and a strong reference is made without a word. -/
theorem C76_ref_refuted : Ordinary plainFn ∧ plainFn.weakable = false
    ∧ (connect { onRef := .raise } 1 plainFn).1.toOption = some ⟨some 2, true⟩ := ⟨⟨by decide, by decide, by decide⟩, rfl, by decide⟩

end Psygnal.QtSlot
