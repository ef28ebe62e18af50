import Verif.DataclassNestedLemmas
/-!
# C69: listeners that assign fields of the object they listen to

An evented object keeps all listeners of a field informed of its value, also when listeners assign fields of the object: each is told
every change, beginning where the one before ended, and the last value it is told is the value of the field.

It holds for the listener connected first, in every execution without `RecursionError`; all other listeners are told the same changes
if none raises, but in another order if a listener assigns its own field.
-/
namespace Psygnal.DCN
open Psygnal.DC (Val Env EqMap)

/-- The changes lead from the first value to the last. -/
def Leads : Val → List (Val × Val) → Val → Prop
  | v, [], w => v = w
  | v, (new, old) :: cs, w => old = v ∧ Leads new cs w

theorem Chain.leads {v w : Val} {cs : List Call} (h : Chain v cs w) : Leads v (cs.map fun c => (c.new, c.old)) w := by
  induction cs generalizing v with
  | nil => exact h
  | cons c cs ih => exact ⟨h.1, ih h.2⟩

/-- **C69** (first listener).  For every program, listeners that read and assign any fields, to any depth, raising or not:
the changes told to the listener of a field that was connected first lead from the first to the present value, and each time it is
called the field has the value it is told.  Needed: comparisons tell whether values are the same; no `RecursionError`
(`C69_limit_refuted`). -/
theorem C69_first_partial (c : Cfg) (he : Exact c.env) (f : Nat) (hf : c.listeners f ≠ []) (n : Nat) (p : Prog)
    (vals : Nat → Val) (m : EqMap) (hl : (run c n p (start vals m)).2.limited = false) :
    Leads (vals f) (told (run c n p (start vals m)).2.log f 0) ((run c n p (start vals m)).2.vals f) ∧
    ∀ e ∈ heard (run c n p (start vals m)).2.log f 0, e.now = e.new := by
  obtain ⟨_, es, h1, h2, h3⟩ := run_informed he hf n p (start vals m) hl
  rw [show heard (start vals m).log f 0 = [] from rfl, List.nil_append] at h1
  rw [told, h1]
  exact ⟨h2.leads, h3⟩

/-- **C69** (all listeners).  All listeners of a field are told the same changes, if no emission of its signal ended with an exception. -/
theorem C69_all_partial (c : Cfg) (f n : Nat) (p : Prog) (vals : Nat → Val) (m : EqMap)
    (hx : (run c n p (start vals m)).2.failed f = false) {i j : Nat} (hi : i < (c.listeners f).length)
    (hj : j < (c.listeners f).length) :
    (told (run c n p (start vals m)).2.log f i).Perm (told (run c n p (start vals m)).2.log f j) := by
  obtain ⟨_, d, h1, e, h2⟩ := run_balanced c f n p (start vals m) hx
  rw [h1]
  exact (h2 i hi).trans (h2 j hj).symm

/-- **C69** (order).  Every listener of a field knows its value, if in addition the field was not assigned, with a change to report, while
its listeners were being called. -/
theorem C69_order_partial (c : Cfg) (he : Exact c.env) (f n : Nat) (p : Prog) (vals : Nat → Val) (m : EqMap)
    (hl : (run c n p (start vals m)).2.limited = false) (hx : (run c n p (start vals m)).2.failed f = false)
    (hn : (run c n p (start vals m)).2.nested f = false) {i : Nat} (hi : i < (c.listeners f).length) :
    Leads (vals f) (told (run c n p (start vals m)).2.log f i) ((run c n p (start vals m)).2.vals f) := by
  have hf : c.listeners f ≠ [] := by
    intro q; rw [q] at hi; exact absurd hi (Nat.not_lt_zero _)
  obtain ⟨_, _, d, h1, _, h2⟩ := (run_ordered c f n p (start vals m)).2 hn hx
  have h3 := (C69_first_partial c he f hf n p vals m hl).1
  rw [show (start vals m).log = [] from rfl, List.nil_append] at h1
  rw [h1] at h3 ⊢
  rw [h2 rfl i hi]
  exact h3

/-- **C69** (raising).  No emission of a field ends with an exception if its listeners do not raise; they may assign fields for which
others do. -/
theorem C69_quiet (c : Cfg) (f n : Nat) (p : Prog) (vals : Nat → Val) (m : EqMap)
    (hq : ∀ l ∈ c.listeners f, ∀ log, (l log).Quiet) : (run c n p (start vals m)).2.failed f = false :=
  run_quiet hq n p (start vals m)

/-- **C69** (derived fields).  If listeners assign only fields further up in some order, as for fields computed from others, no
`RecursionError` occurs, whatever the limit, and every listener of every field whose listeners do not raise knows its value. -/
theorem C69_derived (c : Cfg) (he : Exact c.env) (rank : Nat → Nat) (top : Nat) (ht : ∀ f, rank f ≤ top) (hlim : 1 ≤ c.limit)
    (hc : ∀ f, ∀ l ∈ c.listeners f, ∀ log, (l log).Sets (fun g => rank f < rank g)) (n : Nat) (hn : top < n) (p : Prog)
    (vals : Nat → Val) (m : EqMap) :
    (run c n p (start vals m)).2.limited = false ∧
    ∀ f, (∀ l ∈ c.listeners f, ∀ log, (l log).Quiet) → ∀ i < (c.listeners f).length,
      Leads (vals f) (told (run c n p (start vals m)).2.log f i) ((run c n p (start vals m)).2.vals f) := by
  have h := calm_runWith (rank := rank) (r := 0) (asg := assign c n)
    (fun f v h => calm_assign ht hlim hc n 0 f v h (by omega)) (p.sets_true.mono fun f _ => Nat.zero_le _) (start vals m)
    (fun g hg => absurd hg (by simp [start]))
  refine ⟨h.2.2, fun f hq i hi => ?_⟩
  exact C69_order_partial c he f n p vals m h.2.2 (C69_quiet c f n p vals m hq) (congrFun h.1 f) hi

/-- **C69** (refused).  When the setter raises, so does the assignment, whatever the listeners do; no field changes and nobody is told. -/
theorem C69_refused (c : Cfg) (he : Exact c.env) (n f : Nat) (v : Val) (k : Except Err Unit → Prog) (s : St) (h : c.conv f v = none) :
    ∃ s', s'.vals = s.vals ∧ s'.log = s.log ∧ s'.limited = s.limited ∧ s'.failed = s.failed ∧
      run c (n + 1) (.set f v k) s = run c (n + 1) (k (.error .setter)) s' := by
  have hs : store c f v s = (.error .setter, s) := by simp only [store, h]
  by_cases hl : (c.listeners f).isEmpty
  · refine ⟨s, rfl, rfl, rfl, rfl, ?_⟩
    simp only [run, runWith, assign, assignWith, hl, if_true, hs]
  · have hq : (DC.checkEq c.env s.eqmap f (s.vals f) (s.vals f)).1 = .ok true := by
      rw [he]; simp
    refine ⟨{ s with eqmap := (DC.checkEq c.env s.eqmap f (s.vals f) (s.vals f)).2 }, rfl, rfl, rfl, rfl, ?_⟩
    simp only [run, runWith, assign, assignWith, hl, hs, hq]
    rfl

/-! ## Cases -/

/-- Objects with `==` as identity. -/
def Ex.env : Env := ⟨fun _ a b => .ok (decide (a = b)), fun _ => .ok false, false⟩

theorem Ex.exact : Exact Ex.env := by
  intro m f a b
  unfold DC.checkEq
  split
  · rename_i h
    subst h
    by_cases hb : b = .null
    · simp [hb]
    · simp [hb, Ne.symm hb]
  · dsimp only
    unfold Env.run
    have hd : decide (b = a) = decide (a = b) := decide_eq_decide.mpr eq_comm
    cases ho : (m f).getD .eq <;> simp [Ex.env, hd]

/-- `obj.f = 0`, ignoring the outcome. -/
def Ex.set (f v : Nat) : Prog := .set f (.obj v) fun _ => .done

/-- A listener that assigns 10 to field `f` if it was just told something larger. -/
def Ex.clamp (f : Nat) (log : List Call) : Prog :=
  match log.getLast? with
  | some ⟨_, _, .obj v, _, _⟩ => if 10 < v then Ex.set f 10 else .done
  | _ => .done

/-- A listener that sets field 1 to a value computed from that of field 0. -/
def Ex.double : List Call → Prog := fun _ => .get 0 fun v => match v with
  | .obj x => Ex.set 1 (2 * x)
  | .null => .done

def Ex.vals : Nat → Val := fun _ => .obj 0

/-- Field 0 has a clamping listener between two others; field 1 is computed from it. -/
def Ex.cfg : Cfg where
  env := Ex.env
  conv := fun _ v => some v
  listeners := fun f => if f = 0 then [fun _ => .done, Ex.clamp 0, Ex.double] else if f = 1 then [fun _ => .done] else []
  limit := 300

/-- The hypotheses of `C69_first_partial` and `C69_all_partial`, with a nested assignment. -/
example : (run Ex.cfg 5 (Ex.set 0 20) (start Ex.vals fun _ => none)).2.limited = false ∧
    (run Ex.cfg 5 (Ex.set 0 20) (start Ex.vals fun _ => none)).2.failed 0 = false ∧
    told (run Ex.cfg 5 (Ex.set 0 20) (start Ex.vals fun _ => none)).2.log 0 0 = [(.obj 20, .obj 0), (.obj 10, .obj 20)] ∧
    told (run Ex.cfg 5 (Ex.set 0 20) (start Ex.vals fun _ => none)).2.log 1 0 = [(.obj 20, .obj 0)] := by
  decide +kernel

/-- Field 1 is computed from field 0. -/
def Ex.up : Cfg where
  env := Ex.env
  conv := fun _ v => some v
  listeners := fun f => if f = 0 then [Ex.double, fun _ => .done] else if f = 1 then [fun _ => .done] else []
  limit := 1

/-- The hypotheses of `C69_derived`. -/
example : (∀ f, ∀ l ∈ Ex.up.listeners f, ∀ log, (l log).Sets (fun g => min f 1 < min g 1)) ∧
    (∀ f, min f 1 ≤ 1) ∧ (∀ l ∈ Ex.up.listeners 0, ∀ log, (l log).Quiet) := by
  have hd : ∀ log, (Ex.double log).Sets (fun g => min 0 1 < min g 1) ∧ (Ex.double log).Quiet := by
    intro log
    refine ⟨.get _ _ fun v => ?_, .get _ _ fun v => ?_⟩
    · cases v
      · exact .done
      · exact .set _ _ _ (by decide) fun _ => .done
    · cases v
      · exact .done
      · exact .set _ _ _ fun _ => .done
  refine ⟨fun f l hl log => ?_, fun f => Nat.min_le_right _ _, fun l hl log => ?_⟩
  · by_cases h0 : f = 0
    · subst h0
      rcases List.mem_cons.mp hl with rfl | hl
      · exact (hd log).1
      · rcases List.mem_cons.mp hl with rfl | hl
        · exact .done
        · cases hl
    · by_cases h1 : f = 1
      · subst h1
        rcases List.mem_cons.mp hl with rfl | hl
        · exact .done
        · cases hl
      · simp [Ex.up, h0, h1] at hl
  · rcases List.mem_cons.mp hl with rfl | hl
    · exact (hd log).2
    · rcases List.mem_cons.mp hl with rfl | hl
      · exact .done
      · cases hl

example : (run Ex.up 2 (Ex.set 0 20) (start Ex.vals fun _ => none)).2.vals 1 = .obj 40 := by decide +kernel

/-- The hypotheses of `C69_refused`: field 0 refuses values above 15; the program catches the exception and assigns 12. -/
example : ∃ c : Cfg, Exact c.env ∧ c.conv 0 (.obj 20) = none ∧
    told (run c 5 (.set 0 (.obj 20) fun r => if r.isOk then .done else Ex.set 0 12) (start Ex.vals fun _ => none)).2.log 0 0 =
      [(.obj 12, .obj 0), (.obj 10, .obj 12)] :=
  ⟨{ Ex.cfg with conv := fun _ v => match v with
      | .obj x => if 15 < x then none else some v
      | .null => some v }, Ex.exact, rfl, by decide +kernel⟩

/-! ## What does not hold -/

/-- A listener connected after one that corrects the value is told the corrected value first and ends with the wrong one. -/
theorem C69_late_refuted : ∃ (c : Cfg) (p : Prog), Exact c.env ∧
    (run c 5 p (start Ex.vals fun _ => none)).1.isOk = true ∧
    told (run c 5 p (start Ex.vals fun _ => none)).2.log 0 2 = [(.obj 10, .obj 20), (.obj 20, .obj 0)] ∧
    (run c 5 p (start Ex.vals fun _ => none)).2.vals 0 = .obj 10 :=
  ⟨Ex.cfg, Ex.set 0 20, Ex.exact, by decide +kernel⟩

/-- A listener that assigns its own field at the limit of nesting: the value stays, the first listener is not told. -/
theorem C69_limit_refuted : ∃ (c : Cfg) (p : Prog), Exact c.env ∧ 1 ≤ c.limit ∧
    told (run c 5 p (start Ex.vals fun _ => none)).2.log 0 0 = [(.obj 20, .obj 0)] ∧
    (run c 5 p (start Ex.vals fun _ => none)).2.vals 0 = .obj 10 :=
  ⟨{ Ex.cfg with limit := 1 }, Ex.set 0 20, Ex.exact, by decide +kernel⟩

/-- After a listener that raises, the others are not told. -/
theorem C69_raise_refuted : ∃ (c : Cfg) (p : Prog), Exact c.env ∧
    (run c 5 p (start Ex.vals fun _ => none)).2.limited = false ∧
    told (run c 5 p (start Ex.vals fun _ => none)).2.log 0 1 = [] ∧ (c.listeners 0).length = 2 ∧
    (run c 5 p (start Ex.vals fun _ => none)).2.vals 0 = .obj 20 :=
  ⟨{ Ex.cfg with listeners := fun _ => [fun _ => .raise, fun _ => .done] }, Ex.set 0 20, Ex.exact, by decide +kernel⟩

end Psygnal.DCN
