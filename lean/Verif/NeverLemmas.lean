import Verif.EndsLemmas
import Verif.Examples

/-!
# Programs that run for ever (helper lemmas for the refutations of C83)
-/
namespace Psygnal
namespace Never

/-- A set of procedures each of which cannot end without first ending another one of the set. -/
theorem never {env : Env} (Bad : Task → World → Prop)
    (h : ∀ t w, Bad t w → ∀ w' r, ¬ (body env t w).Via (fun t w w' r => Runs env t w w' r ∧ ¬ Bad t w) w' r)
    {t : Task} {w : World} (hb : Bad t w) : ¬ ∃ w' r, Runs env t w w' r := by
  rintro ⟨w', r, hr⟩
  exact Runs.induct (P := fun t w _ _ => ¬ Bad t w) (fun t w w' r hv hb => h t w hb w' r hv) hr hb

/-! ## A callback that connects -/

/-- Every callback connects `f` to signal 0. -/
def grow : Env := Ex.env fun _ _ => .api (Ex.conn 0 (.func 0)) fun _ => .ret

/-- Signal 0 has a callback number `i`, and all its callbacks are `f`. -/
def Grow (i : Nat) (w : World) : Prop :=
  i < (w.sig 0).slots.length ∧ (∀ x ∈ (w.sig 0).slots, x.base = .func 0 ∧ x.thread = none) ∧
    (w.sig 0).prioInUse = false

theorem grow_cb {i em args x} {w : World} (h : Grow i w) (hx : (w.sig 0).slots[i]? = some x) :
    ∃ w', exec grow 6 (.cb em (some 0) x args) w = some (w', .ok ()) ∧ Grow (i + 1) w' := by
  have hm := h.2.1 x (List.mem_of_getElem? hx)
  obtain ⟨b, bound, m, pr, th, ser⟩ := x
  simp only at hm
  obtain ⟨rfl, rfl⟩ := hm
  obtain ⟨h1, h2, h3⟩ := h
  refine ⟨((w.logCall em (some 0) (.func 0) (Slot.callArgs ⟨.func 0, bound, m, pr, none, ser⟩ args)).plainAppend 0
      ⟨.func 0, [], some 1, 0, none, 0⟩).logRet em (some 0) (.func 0) (.ok ()), rfl, ?_⟩
  have hs : ((((w.logCall em (some 0) (.func 0) (Slot.callArgs ⟨.func 0, bound, m, pr, none, ser⟩ args)).plainAppend 0
      ⟨.func 0, [], some 1, 0, none, 0⟩).logRet em (some 0) (.func 0) (.ok ())).sig 0) =
      { w.sig 0 with slots := (w.sig 0).slots ++ [⟨.func 0, [], some 1, 0, none, w.nextSerial⟩] } := by
    show (((w.sig 0).appendSlot ⟨.func 0, [], some 1, 0, none, w.nextSerial⟩)) = _
    simp [SigState.appendSlot, h3]
  refine ⟨by rw [hs]; simp; omega, ?_, by rw [hs]; exact h3⟩
  rw [hs]
  intro x hx
  rcases List.mem_append.1 hx with hx | hx
  · exact h2 x hx
  · rw [List.mem_singleton.1 hx]
    exact ⟨rfl, rfl⟩

/-- The procedures that do not end. -/
inductive GrowBad : Task → World → Prop
  | loop {em args i w} : Grow i w → GrowBad (.forSlots 0 em args i) w
  | inner {em w a q} : Grow 0 w → (w.sig 0).emitQueue = a :: q → GrowBad (.inner 0 em) w
  | run {args w} : Grow 0 w → (w.sig 0).emitQueue = [] → (w.sig 0).depth = 0 → GrowBad (.runLoop 0 args) w
  | emit {n w} : Grow 0 w → (w.sig 0).emitQueue = [] → (w.sig 0).depth = 0 → (w.sig 0).blocked = false →
      (w.sig 0).paused = false → w.hook = none → GrowBad (.emit 0 [.atom n] true) w

theorem grow_never {t : Task} {w : World} (hb : GrowBad t w) : ¬ ∃ w' r, Runs grow t w w' r := by
  refine never GrowBad ?_ hb
  clear hb t w
  intro t w hb w' r hv
  cases hb with
  | @loop em args i _ h =>
    obtain ⟨x, hx⟩ : ∃ x, (w.sig 0).slots[i]? = some x := ⟨_, List.getElem?_eq_getElem h.1⟩
    simp only [body, hx] at hv
    obtain ⟨w1, r1, ⟨h1, -⟩, h2⟩ := hv
    obtain ⟨w2, he, hg⟩ := grow_cb (em := some em) (args := args) h hx
    obtain ⟨rfl, rfl⟩ := Runs.det h1 ⟨6, he⟩
    obtain ⟨_, _, ⟨-, h3⟩, -⟩ := h2
    exact h3 (.loop hg)
  | @inner em _ a q h hq =>
    have hm : (grow.decl 0).mode = .immediate := rfl
    simp only [body, hq, hm] at hv
    obtain ⟨_, _, ⟨-, h3⟩, -⟩ := hv
    refine h3 (.loop ⟨?_, ?_, ?_⟩)
    · simpa using h.1
    · simpa using h.2.1
    · simpa using h.2.2
  | @run args _ h hq hd =>
    simp only [body, hd] at hv
    rw [if_neg (by decide), if_neg (by simp [hq])] at hv
    obtain ⟨_, _, ⟨-, h3⟩, -⟩ := hv
    refine h3 (.inner (a := args) (q := []) ⟨?_, ?_, ?_⟩ (by simp [hq]))
    · simpa using h.1
    · simpa using h.2.1
    · simpa using h.2.2
  | @emit n _ h hq hd hb hp hk =>
    have hc : bindsPos (grow.decl 0).sig [Val.atom n].length = true := rfl
    simp only [body, hb, hp, hk, hc] at hv
    simp at hv
    obtain ⟨_, _, ⟨-, h3⟩, -⟩ := hv
    exact h3 (.run h hq hd)

/-! ## A callback that pauses and emits -/

/-- Every callback pauses signal 0 and emits it (the arguments are collected). -/
def hold : Env := Ex.env fun _ _ => .api (.pause 0) fun _ => .api (Ex.emit 0 7) fun _ => .ret

/-- Signal 0 has collected a set of arguments number `i`, has one callback, and is not being emitted. -/
def Hold (i : Nat) (w : World) : Prop :=
  i < (w.sig 0).argsQueue.length ∧ (∃ ser, (w.sig 0).slots = [⟨.func 0, [], some 1, 0, none, ser⟩]) ∧
    (w.sig 0).emitQueue = [] ∧ (w.sig 0).depth = 0 ∧ (w.sig 0).blocked = false

theorem hold_run {i args} {w : World} (h : Hold i w) :
    ∃ w', Runs hold (.runLoop 0 args) w w' (.ok ()) ∧ Hold (i + 1) w' := by
  obtain ⟨h1, ⟨ser, h2⟩, h3, h4, h5⟩ := h
  have hm : (hold.decl 0).mode = .immediate := rfl
  have hc : bindsPos (hold.decl 0).sig [Val.atom 7].length = true := rfl
  -- the callback
  have hcb : ∀ (v : World) em a, (v.sig 0).blocked = false →
      Runs hold (.cb em (some 0) ⟨.func 0, [], some 1, 0, none, ser⟩ a) v
        ((((v.logCall em (some 0) (.func 0) (a.take 1)).pause 0).collect 0 [.atom 7]).logRet em (some 0)
          (.func 0) (.ok ())) (.ok ()) := by
    intro v em a hb
    have hbody : ∀ a, hold.body (.func 0) a = .api (.pause 0) fun _ => .api (Ex.emit 0 7) fun _ => .ret :=
      fun _ => rfl
    have hem : Runs hold (.emit 0 [.atom 7] true) ((v.logCall em (some 0) (.func 0) (a.take 1)).pause 0)
        (((v.logCall em (some 0) (.func 0) (a.take 1)).pause 0).collect 0 [.atom 7]) (.ok ()) := by
      rw [runs_iff]
      have hb' : (((v.logCall em (some 0) (.func 0) (a.take 1)).pause 0).sig 0).blocked = false := by
        simpa using hb
      have hp' : (((v.logCall em (some 0) (.func 0) (a.take 1)).pause 0).sig 0).paused = true := by simp
      simp only [body, hb', hp', hc]
      exact ⟨rfl, rfl⟩
    have hret : ∀ u, Runs hold (.prog .ret) u u (.ok ()) := fun u => ⟨1, rfl⟩
    have hp2 : Runs hold (.prog (.api (Ex.emit 0 7) fun _ => .ret))
        ((v.logCall em (some 0) (.func 0) (a.take 1)).pause 0)
        (((v.logCall em (some 0) (.func 0) (a.take 1)).pause 0).collect 0 [.atom 7]) (.ok ()) :=
      (runs_iff ..).2 ⟨_, _, hem, _, _, hret _, rfl, rfl⟩
    have hp1 : Runs hold (.prog (hold.body (.func 0) (a.take 1))) (v.logCall em (some 0) (.func 0) (a.take 1))
        (((v.logCall em (some 0) (.func 0) (a.take 1)).pause 0).collect 0 [.atom 7]) (.ok ()) :=
      (runs_iff ..).2 ⟨_, _, hp2, rfl, rfl⟩
    have hd : Runs hold (.direct em (some 0) ⟨.func 0, [], some 1, 0, none, ser⟩ a) v
        ((((v.logCall em (some 0) (.func 0) (a.take 1)).pause 0).collect 0 [.atom 7]).logRet em (some 0)
          (.func 0) (.ok ())) (.ok ()) :=
      (runs_iff ..).2 ⟨_, _, hp1, rfl, rfl⟩
    exact (runs_iff ..).2 ⟨_, _, hd, rfl, rfl⟩
  generalize hw2 : ((w.enqueue 0 args).startLoop 0).popQueue 0 = w2
  have hs2 : (w2.sig 0).slots = [⟨.func 0, [], some 1, 0, none, ser⟩] := by subst hw2; simp [h2]
  have hb2 : (w2.sig 0).blocked = false := by subst hw2; simp [h5]
  have hcb2 := hcb w2 (some w.nextEm) args hb2
  generalize hw3 : (((w2.logCall (some w.nextEm) (some 0) (.func 0) (args.take 1)).pause 0).collect 0
    [.atom 7]).logRet (some w.nextEm) (some 0) (.func 0) (.ok ()) = w3 at hcb2
  have hs3 : (w3.sig 0).slots = [⟨.func 0, [], some 1, 0, none, ser⟩] := by subst hw3; simpa using hs2
  have hl3 : Runs hold (.forSlots 0 w.nextEm args 1) w3 w3 (.ok ()) := by
    rw [runs_iff]
    simp only [body, hs3]
    exact ⟨rfl, rfl⟩
  have hl2 : Runs hold (.forSlots 0 w.nextEm args 0) w2 w3 (.ok ()) := by
    rw [runs_iff]
    simp only [body, hs2]
    exact ⟨_, _, hcb2, _, _, hl3, rfl, rfl⟩
  have hin : Runs hold (.inner 0 w.nextEm) ((w.enqueue 0 args).startLoop 0) w3 (.ok ()) := by
    rw [runs_iff]
    have hq : (((w.enqueue 0 args).startLoop 0).sig 0).emitQueue = [args] := by simp [h3]
    simp only [body, hq, hm]
    subst hw2
    exact ⟨_, _, hl2, rfl, rfl⟩
  refine ⟨w3.endLoop 0 w.emitter, ?_, ?_⟩
  · rw [runs_iff]
    simp only [body, h4]
    rw [if_neg (by decide), if_neg (by simp [h3])]
    exact ⟨_, _, hin, rfl, rfl⟩
  · refine ⟨?_, ⟨ser, by simpa using hs3⟩, ?_, ?_, ?_⟩
    · subst hw3; subst hw2; simp; omega
    · subst hw3; subst hw2; simp
    · subst hw3; subst hw2; simp [h4]
    · subst hw3; subst hw2; simp [h5]

/-- The procedures that do not end. -/
inductive HoldBad : Task → World → Prop
  | replay {i w} : Hold i w → HoldBad (.replay 0 i) w
  | resume {w} : Hold 0 w → HoldBad (.resume 0 none) w

theorem hold_never {t : Task} {w : World} (hb : HoldBad t w) : ¬ ∃ w' r, Runs hold t w w' r := by
  refine never HoldBad ?_ hb
  clear hb t w
  intro t w hb w' r hv
  cases hb with
  | @replay i _ h =>
    obtain ⟨x, hx⟩ : ∃ x, (w.sig 0).argsQueue[i]? = some x := ⟨_, List.getElem?_eq_getElem h.1⟩
    simp only [body, hx] at hv
    obtain ⟨w1, r1, ⟨h1, -⟩, h2⟩ := hv
    obtain ⟨w2, he, hg⟩ := hold_run (args := x) h
    obtain ⟨rfl, rfl⟩ := Runs.det h1 he
    obtain ⟨_, _, ⟨-, h3⟩, -⟩ := h2
    exact h3 (.replay hg)
  | resume h =>
    obtain ⟨h1, ⟨ser, h2⟩, h3, h4, h5⟩ := h
    have he : (w.sig 0).argsQueue.isEmpty = false := by
      cases hq : (w.sig 0).argsQueue with
      | nil => simp [hq] at h1
      | cons a q => rfl
    simp only [body, he, h2] at hv
    obtain ⟨_, _, ⟨-, h6⟩, -⟩ := hv
    refine h6 (.replay ⟨?_, ⟨ser, ?_⟩, ?_, ?_, ?_⟩)
    · simpa using h1
    · simpa using h2
    · simpa using h3
    · simpa using h4
    · simpa using h5

/-! ## Draining the queue of another thread -/

/-- Every callback emits signal 0. -/
def echo : Env := Ex.env fun _ _ => .api (Ex.emit 0 7) fun _ => .ret

/-- Thread 0 runs, a call of `f` is queued for thread 1, and `f` is connected to signal 0 to run in
thread 1. -/
def Echo (w : World) : Prop :=
  w.thread = 0 ∧ w.tq 1 ≠ [] ∧ (∀ e ∈ w.tq 1, ∃ ser, e.1 = ⟨.func 0, [], some 1, 0, some 1, ser⟩) ∧
    (∃ ser, (w.sig 0).slots = [⟨.func 0, [], some 1, 0, some 1, ser⟩]) ∧
    (w.sig 0).emitQueue = [] ∧ (w.sig 0).depth = 0 ∧ (w.sig 0).blocked = false ∧
    (w.sig 0).paused = false ∧ w.hook = none

theorem echo_direct {x args rest} {w : World} (h : Echo w) (hq : w.tq 1 = (x, args) :: rest) :
    ∃ w', Runs echo (.direct none none x args) (w.getQueue 1 x args) w' (.ok ()) ∧ Echo w' := by
  obtain ⟨h1, h2, h3, ⟨ser, h4⟩, h5, h6, h7, h8, h9⟩ := h
  obtain ⟨ser', hx⟩ := h3 (x, args) (by rw [hq]; simp)
  simp only at hx
  subst hx
  have hm : (echo.decl 0).mode = .immediate := rfl
  have hc : bindsPos (echo.decl 0).sig [Val.atom 7].length = true := rfl
  generalize hw1 : (w.getQueue 1 ⟨.func 0, [], some 1, 0, some 1, ser'⟩ args).logCall none none (.func 0)
    (args.take 1) = w1
  have ht1 : w1.thread = 0 := by subst hw1; exact h1
  have hs1 : w1.sig = w.sig := by subst hw1; rfl
  have hq1 : w1.tq 1 = rest := by subst hw1; simp [World.getQueue, World.logCall, World.ev, hq]
  have hk1 : w1.hook = none := by subst hw1; exact h9
  generalize hw2 : ((w1.enqueue 0 [.atom 7]).startLoop 0).popQueue 0 = w2
  have ht2 : w2.thread = 0 := by subst hw2; exact ht1
  have hs2 : (w2.sig 0).slots = [⟨.func 0, [], some 1, 0, some 1, ser⟩] := by
    subst hw2; simp [hs1, h4]
  have hq2 : w2.tq 1 = rest := by subst hw2; exact hq1
  have hk2 : w2.hook = none := by subst hw2; exact hk1
  generalize hw3 : w2.putQueue 1 ⟨.func 0, [], some 1, 0, some 1, ser⟩ [.atom 7] (some w1.nextEm) = w3
  have hcb : Runs echo (.cb (some w1.nextEm) (some 0) ⟨.func 0, [], some 1, 0, some 1, ser⟩ [.atom 7]) w2 w3
      (.ok ()) := by
    rw [runs_iff]
    simp only [body, ht2]
    rw [if_neg (by decide)]
    exact ⟨hw3.symm, rfl⟩
  have hs3 : (w3.sig 0).slots = [⟨.func 0, [], some 1, 0, some 1, ser⟩] := by subst hw3; exact hs2
  have hl3 : Runs echo (.forSlots 0 w1.nextEm [.atom 7] 1) w3 w3 (.ok ()) := by
    rw [runs_iff]
    simp only [body, hs3]
    exact ⟨rfl, rfl⟩
  have hl2 : Runs echo (.forSlots 0 w1.nextEm [.atom 7] 0) w2 w3 (.ok ()) := by
    rw [runs_iff]
    simp only [body, hs2]
    exact ⟨_, _, hcb, _, _, hl3, rfl, rfl⟩
  have hin : Runs echo (.inner 0 w1.nextEm) ((w1.enqueue 0 [.atom 7]).startLoop 0) w3 (.ok ()) := by
    rw [runs_iff]
    have hq : (((w1.enqueue 0 [.atom 7]).startLoop 0).sig 0).emitQueue = [[.atom 7]] := by simp [hs1, h5]
    simp only [body, hq, hm]
    subst hw2
    exact ⟨_, _, hl2, rfl, rfl⟩
  have hrun : Runs echo (.runLoop 0 [.atom 7]) w1 (w3.endLoop 0 w1.emitter) (.ok ()) := by
    rw [runs_iff]
    simp only [body, hs1, h6]
    rw [if_neg (by decide), if_neg (by simp [hs1, h5])]
    exact ⟨_, _, hin, rfl, rfl⟩
  have hem : Runs echo (.emit 0 [.atom 7] true) w1 (w3.endLoop 0 w1.emitter) (.ok ()) := by
    rw [runs_iff]
    simp only [body, hs1, h7, h8, hk1, hc]
    exact ⟨_, _, hrun, rfl, rfl⟩
  have hp : Runs echo (.prog (echo.body (.func 0) (args.take 1))) w1 (w3.endLoop 0 w1.emitter) (.ok ()) :=
    (runs_iff ..).2 ⟨_, _, hem, _, _, ⟨1, rfl⟩, rfl, rfl⟩
  refine ⟨(w3.endLoop 0 w1.emitter).logRet none none (.func 0) (.ok ()), ?_, ?_⟩
  · rw [runs_iff]
    subst hw1
    exact ⟨_, _, hp, rfl, rfl⟩
  · have hq3 : w3.tq 1 = rest ++ [(⟨.func 0, [], some 1, 0, some 1, ser⟩, [.atom 7])] := by
      subst hw3; simp [World.putQueue, hq2]
    refine ⟨?_, ?_, ?_, ⟨ser, by simpa using hs3⟩, ?_, ?_, ?_, ?_, ?_⟩
    · subst hw3; exact ht2
    · show w3.tq 1 ≠ []
      rw [hq3]; simp
    · show ∀ e ∈ w3.tq 1, _
      rw [hq3]
      intro e he
      rcases List.mem_append.1 he with he | he
      · exact h3 e (by rw [hq]; exact List.mem_cons_of_mem _ he)
      · rw [List.mem_singleton.1 he]; exact ⟨ser, rfl⟩
    · subst hw3; subst hw2; simp [World.putQueue]
    · subst hw3; subst hw2; simp [World.putQueue, hs1, h6]
    · subst hw3; subst hw2; simp [World.putQueue, hs1, h7]
    · subst hw3; subst hw2; simp [World.putQueue, hs1, h8]
    · subst hw3; exact hk2

/-- The procedures that do not end. -/
inductive EchoBad : Task → World → Prop
  | drain {w} : Echo w → EchoBad (.drain 1) w

theorem echo_never {t : Task} {w : World} (hb : EchoBad t w) : ¬ ∃ w' r, Runs echo t w w' r := by
  refine never EchoBad ?_ hb
  clear hb t w
  intro t w hb w' r hv
  cases hb with
  | drain h =>
    cases hq : w.tq 1 with
    | nil => exact h.2.1 hq
    | cons e rest =>
      obtain ⟨x, args⟩ := e
      simp only [body, hq] at hv
      obtain ⟨w1, r1, ⟨h1, -⟩, h2⟩ := hv
      obtain ⟨w2, he, hg⟩ := echo_direct h hq
      obtain ⟨rfl, rfl⟩ := Runs.det h1 he
      obtain ⟨_, _, ⟨-, h3⟩, -⟩ := h2
      exact h3 (.drain hg)

end Never
end Psygnal
