import Verif.PatchLemmas
/-! # C61: assignments to fields of evented classes, in class hierarchies

For every program: class statements (any MRO, descriptors, `__setattr__` methods), instances, accesses of groups, connections, assignments. -/
namespace Psygnal.Pat

/-- **C61 (what an assignment does).**  The assignment changes at most that attribute of that object, to the value assigned or not at all;
all it reports are events of groups that have a listener for the field, with the old and the new value; and nothing if these are equal. -/
theorem C61_truth (ops : List Op) (o f v : Nat) (x : Obj) (hx : (run ops {}).objs[o]? = some x) :
    ∃ (w : Nat) (gs : List Nat), (w = v ∨ w = x.attrs f) ∧ (w = x.attrs f → gs = []) ∧ (∀ g ∈ gs, (g, f) ∈ x.heard) ∧
      (run (ops ++ [.set o f v]) {}).objs = (run ops {}).objs.set o { x with attrs := fun g => if g = f then w else x.attrs g } ∧
      (run (ops ++ [.set o f v]) {}).log = (run ops {}).log ++ gs.map (fun g => ⟨o, g, f, w, x.attrs f⟩) := by
  have hrun : ∀ (a : List Op) (s : St) (b : Op), run (a ++ [b]) s = step (run a s) b := by
    intro a
    induction a with
    | nil => intro s b; rfl
    | cons c a ih => intro s b; exact ih (step s c) b
  rw [hrun]
  obtain ⟨w, gs, he⟩ := set_eff (run_fine ops fine_empty) hx f v
  refine ⟨w, gs, ?_, ?_, ?_, ?_, ?_⟩
  · rw [← value_some hx]; exact he.val
  · rw [← value_some hx]; exact he.zero
  · intro g hg
    obtain ⟨y, hy, hyg⟩ := he.heard g hg
    rw [hx] at hy
    cases hy
    exact hyg
  · rw [he.objs, set_eq hx]
  · rw [he.log, value_some hx]

/-- **C61 (connecting).**  After `obj.n.f.connect(…)`, where a class in the MRO has a descriptor called `n` and the class a field `f`, the
field has a listener, whatever happens later. -/
theorem C61_connected (ops ops' : List Op) (o n f : Nat) (p : Bool) (x : Obj) (c : Cls) (hx : (run ops {}).objs[o]? = some x)
    (hd : (run ops {}).hasDesc x.cls n p) (hc : (run ops {}).classes[x.cls]? = some c) (hf : f ∈ c.sigs) :
    ∃ y, (run (ops ++ .connect o n f :: ops') {}).objs[o]? = some y ∧ y.cls = x.cls ∧ (n, f) ∈ y.heard := by
  have hrun : ∀ (a b : List Op) (s : St), run (a ++ b) s = run b (run a s) := by
    intro a
    induction a with
    | nil => intro b s; rfl
    | cons c a ih => intro b s; exact ih b (step s c)
  rw [hrun]
  exact connect_run (run_fine ops fine_empty) hx hd hc hf ops'

/-- **C61 (listeners hear).**  If all descriptors of all classes have one name and patch `__setattr__`, an assignment that changes a
field with a listener is reported, whatever `__setattr__` methods the classes have and whenever they were defined; possibly several
times. -/
theorem C61_reported (n : Nat) (ops : List Op)
    (hn : ∀ mro desc sigs body, Op.cls mro desc sigs body ∈ ops → ∀ p ∈ desc, p = (n, true))
    (o f v : Nat) (x : Obj) (hx : (run ops {}).objs[o]? = some x) (hf : f ≠ n) (hh : (n, f) ∈ x.heard) :
    ∃ (y : Obj) (k : Nat), (run (ops ++ [.set o f v]) {}).objs[o]? = some y ∧
      (y.attrs f ≠ x.attrs f → 0 < k) ∧ (y.attrs f = x.attrs f → k = 0) ∧
      (run (ops ++ [.set o f v]) {}).log = (run ops {}).log ++ List.replicate k ⟨o, n, f, y.attrs f, x.attrs f⟩ := by
  have hrun : ∀ (a : List Op) (s : St) (b : Op), run (a ++ [b]) s = step (run a s) b := by
    intro a
    induction a with
    | nil => intro s b; rfl
    | cons c a ih => intro s b; exact ih (step s c) b
  rw [hrun]
  have hg : Good n (run ops {}) := run_good ops (good_empty n) (fun op hop => by
    cases op with
    | cls m d g b => exact hn m d g b hop
    | _ => trivial)
  obtain ⟨d, l1, l2, w, gs, _, _, he⟩ := set_reported hg hx hh hf v
  refine ⟨{ x with attrs := fun g => if g = f then w else x.attrs g }, (if w ≠ x.attrs f then gs ++ [n] else gs).length, ?_, ?_, ?_, ?_⟩
  · have hlt : o < (run ops {}).objs.length := by
      false_or_by_contra
      rename_i hge
      rw [List.getElem?_eq_none (by omega)] at hx
      cases hx
    rw [he.objs, set_eq hx, List.getElem?_set]
    simp [hlt]
  · intro hw
    simp only [if_true] at hw
    rw [if_pos hw]
    simp
  · intro hw
    simp only [if_true] at hw
    rw [he.zero (by rw [value_some hx]; exact hw)]
    rfl
  · rw [he.log, value_some hx]
    congr 1
    simp only [if_true]
    have hall : ∀ g ∈ (if w ≠ x.attrs f then gs ++ [n] else gs), g = n := by
      intro g hgm
      obtain ⟨y, hy, hyg⟩ := he.heard g hgm
      exact (hg.heard y (List.mem_of_getElem? hy) _ hyg).1
    generalize (if w ≠ x.attrs f then gs ++ [n] else gs) = ks at hall
    induction ks with
    | nil => rfl
    | cons g ks ih =>
      rw [List.map_cons, ih (fun k hk => hall k (List.mem_cons_of_mem _ hk)), hall g List.mem_cons_self]
      rfl

/-- **C61 (exactly once), partial.**  As before, and no `__setattr__` method that calls `super()` has a class with a descriptor behind
it in an MRO: the change is reported exactly once.  Without that it may be reported twice (`C61_twice_refuted`). -/
theorem C61_once_partial (n : Nat) (ops : List Op)
    (hn : ∀ mro desc sigs body, Op.cls mro desc sigs body ∈ ops → ∀ p ∈ desc, p = (n, true))
    (hsuper : ∀ (t : Nat) (l1 : List Nat) (c : Nat) (l2 : List Nat) (k : Cls), t < (run ops {}).classes.length →
      (run ops {}).bases t = l1 ++ c :: l2 → (run ops {}).classes[c]? = some k → k.body = some .super →
      ∀ d ∈ l2, ∀ m, ¬ (run ops {}).hasDesc d m true)
    (o f v : Nat) (x : Obj) (hx : (run ops {}).objs[o]? = some x) (hf : f ≠ n) (hh : (n, f) ∈ x.heard) :
    ∃ (y : Obj), (run (ops ++ [.set o f v]) {}).objs[o]? = some y ∧
      (y.attrs f ≠ x.attrs f → (run (ops ++ [.set o f v]) {}).log = (run ops {}).log ++ [⟨o, n, f, y.attrs f, x.attrs f⟩]) ∧
      (y.attrs f = x.attrs f → (run (ops ++ [.set o f v]) {}).log = (run ops {}).log) := by
  have hrun : ∀ (a : List Op) (s : St) (b : Op), run (a ++ [b]) s = step (run a s) b := by
    intro a
    induction a with
    | nil => intro s b; rfl
    | cons c a ih => intro s b; exact ih (step s c) b
  rw [hrun]
  have hg : Good n (run ops {}) := run_good ops (good_empty n) (fun op hop => by
    cases op with
    | cls m d g b => exact hn m d g b hop
    | _ => trivial)
  generalize run ops {} = s at *
  have hlt := hg.objs x (List.mem_of_getElem? hx)
  obtain ⟨d, l1, l2, w, gs, hl, hin, he⟩ := set_reported hg hx hh hf v
  have hs := access_same s x.cls n
  have hx1 : (access s x.cls n).objs[o]? = some x := by rw [hs.objs]; exact hx
  have hgs : gs = [] := by
    have hlog := hin.log
    have hquiet : (callFn o f v (fun c r => callFrom o f v (after c (d :: l2)) r) (s.first (s.line d)) (access s x.cls n)).log
        = (access s x.cls n).log := by
      rcases first_spec s 0 0 (s.line d) with ⟨e1, _⟩ | ⟨c, b, e1, _, e3, _⟩
      · rw [e1]; rfl
      · rw [e1]
        cases b with
        | direct => rfl
        | ignore => rfl
        | super =>
          simp only [callFn]
          refine (callFrom_quiet _ _ (Nat.le_refl _) _ (access_own hg.own hlt n) ⟨x, hx1⟩ ?_).1
          intro e hemem m hde
          by_cases hc : c ∈ d :: l2
          · obtain ⟨m1, hm1⟩ := after_split c _ hc
            cases hcc : s.classes[c]? with
            | none => rw [hcc] at e3; cases e3
            | some k =>
              rw [hcc] at e3
              refine hsuper x.cls (l1 ++ m1) c _ k hlt ?_ hcc e3 e hemem m ?_
              · rw [bases_line, hl, List.append_assoc, ← hm1]
              · obtain ⟨a, ha, q, hq, hp⟩ := hde
                rw [bases_line, hs.line, ← bases_line] at ha
                cases hsa : s.classes[a]? with
                | none => rw [hs.none hsa] at hq; cases hq
                | some q' =>
                  obtain ⟨o', ho'⟩ := hs.cls a q' hsa
                  rw [ho'] at hq
                  cases hq
                  exact ⟨a, ha, q', hsa, hp⟩
          · rw [after_not c _ hc] at hemem
            cases hemem
    rw [hquiet] at hlog
    have : gs.length = 0 := by
      have := congrArg List.length hlog
      simp only [List.length_append, List.length_map] at this
      omega
    exact List.eq_nil_of_length_eq_zero this
  subst hgs
  refine ⟨{ x with attrs := fun g => if g = f then w else x.attrs g }, ?_, ?_, ?_⟩
  · have hlt : o < s.objs.length := by
      false_or_by_contra
      rename_i hge
      rw [List.getElem?_eq_none (by omega)] at hx
      cases hx
    rw [he.objs, set_eq hx, List.getElem?_set]
    simp [hlt]
  · intro hw
    simp only [if_true] at hw ⊢
    rw [he.log, value_some hx, if_pos hw]
    rfl
  · intro hw
    simp only [if_true] at hw
    rw [he.log, he.zero (by rw [value_some hx]; exact hw)]
    simp

/-- **C61 (the methods run), partial.**  With at most one base per class: the value after the assignment is the one that the
`__setattr__` methods of the classes make, as if there were no groups - for any descriptors and any order of definitions, accesses and
connections.  With several bases a method may be left out (`C61_hidden_refuted`). -/
theorem C61_transparent_partial (ops : List Op)
    (hs : ∀ (t : Nat) (c : Cls), (run ops {}).classes[t]? = some c → c.mro = [] ∨ ∃ b, c.mro = (run ops {}).bases b)
    (o f v : Nat) (x : Obj) (hx : (run ops {}).objs[o]? = some x) :
    ∃ y, (run (ops ++ [.set o f v]) {}).objs[o]? = some y ∧ y.cls = x.cls ∧
      y.attrs f = (run ops {}).plain (x.attrs f) v ((run ops {}).bases x.cls) := by
  have hrun : ∀ (a : List Op) (s : St) (b : Op), run (a ++ [b]) s = step (run a s) b := by
    intro a
    induction a with
    | nil => intro s b; rfl
    | cons c a ih => intro s b; exact ih (step s c) b
  rw [hrun]
  have hf := run_fine ops fine_empty
  generalize run ops {} = s at *
  obtain ⟨w, gs, he⟩ := set_eff hf hx f v
  have hval := eff_value he hx
  rw [step_set hx, callFrom_value _ _ (Nat.le_refl _) s hf ⟨x, hx⟩
    (chain_line hf.own (fun t c hc => by simpa only [← bases_line] using hs t c hc) _ _ (Nat.lt_succ_self _)), value_some hx] at hval
  have hlt : o < s.objs.length := by
    false_or_by_contra
    rename_i hge
    rw [List.getElem?_eq_none (by omega)] at hx
    cases hx
  refine ⟨{ x with attrs := fun g => if g = f then w else x.attrs g }, ?_, rfl, ?_⟩
  · rw [he.objs, set_eq hx, List.getElem?_set]
    simp [hlt]
  · rw [bases_line]
    simp only [if_true]
    exact hval.symm

/-- **C61 (other classes are left alone).**  In a class without a descriptor that patches in its MRO assignments do what the methods of the class
say and report nothing, whatever was done with other classes. -/
theorem C61_others (ops : List Op) (o f v : Nat) (x : Obj) (hx : (run ops {}).objs[o]? = some x)
    (hclosed : ∀ d ∈ (run ops {}).bases x.cls, ∀ e ∈ (run ops {}).bases d, e ∈ (run ops {}).bases x.cls)
    (hno : ∀ d ∈ (run ops {}).bases x.cls, ∀ c, (run ops {}).classes[d]? = some c → ∀ p ∈ c.desc, p.2 = false) :
    (run (ops ++ [.set o f v]) {}).log = (run ops {}).log ∧
    ∃ y, (run (ops ++ [.set o f v]) {}).objs[o]? = some y ∧ y.attrs f = (run ops {}).plain (x.attrs f) v ((run ops {}).bases x.cls) := by
  have hrun : ∀ (a : List Op) (s : St) (b : Op), run (a ++ [b]) s = step (run a s) b := by
    intro a
    induction a with
    | nil => intro s b; rfl
    | cons c a ih => intro s b; exact ih (step s c) b
  rw [hrun]
  have hf := run_fine ops fine_empty
  generalize run ops {} = s at *
  obtain ⟨w, gs, he⟩ := set_eff hf hx f v
  have hval := eff_value he hx
  have hq := callFrom_quiet (f := f) (v := v) _ (s.line x.cls) (Nat.le_refl _) s hf.own ⟨x, hx⟩ (by
    rintro d hd m ⟨e, h1, c, h2, h3⟩
    rw [← bases_line] at hd
    have := hno e (hclosed d hd e h1) c h2 _ h3
    cases this)
  refine ⟨by rw [step_set hx]; exact hq.1, ?_⟩
  rw [step_set hx, hq.2, value_some hx] at hval
  have hlt : o < s.objs.length := by
    false_or_by_contra
    rename_i hge
    rw [List.getElem?_eq_none (by omega)] at hx
    cases hx
  refine ⟨{ x with attrs := fun g => if g = f then w else x.attrs g }, ?_, ?_⟩
  · rw [he.objs, set_eq hx, List.getElem?_set]
    simp [hlt]
  · rw [bases_line]
    simp only [if_true]
    exact hval.symm

/-! ### Examples

Names: group 9; field 1. -/

/-- A class with a group and no method, a derived one that ignores assignments, a derived one that passes them on; an object of each, all
with listeners; a class without a group. -/
def family : List Op :=
  [.cls [] [(9, true)] [1] none, .cls [0] [] [1] (some .direct), .cls [0] [] [1] (some .ignore), .cls [] [] [] (some .direct),
   .new 0, .new 1, .new 2, .new 3, .access 0 9, .connect 1 9 1, .connect 0 9 1, .connect 2 9 1]

/-- The log after a program. -/
def logOf (ops : List Op) : List Ev := (run ops {}).log

/-- An attribute after a program. -/
def attr (ops : List Op) (o f : Nat) : Option Nat := ((run ops {}).objs[o]?).map (fun x => x.attrs f)

-- one event for each change; none when the value stays; none from the class that ignores the assignment, none from the class without a group
example : logOf (family ++ [.set 0 1 5, .set 0 1 5, .set 1 1 6, .set 2 1 7, .set 3 1 8]) = [⟨0, 9, 1, 5, 0⟩, ⟨1, 9, 1, 6, 0⟩] := by decide
example : (attr (family ++ [.set 2 1 7]) 2 1, attr (family ++ [.set 3 1 8]) 3 1) = (some 0, some 8) := by decide

-- the hypotheses of the theorems, for this program
example : ∀ mro desc sigs body, Op.cls mro desc sigs body ∈ family → ∀ p ∈ desc, p = (9, true) := by
  intro m d g b h
  simp only [family, List.mem_cons, List.not_mem_nil, or_false, reduceCtorEq, Op.cls.injEq] at h
  rcases h with h | h | h | h <;> (obtain ⟨_, rfl, _⟩ := h; simp)
example : ∃ x, (run family {}).objs[1]? = some x ∧ (9, 1) ∈ x.heard := ⟨_, rfl, by decide⟩
example : (run family {}).classes.all (fun k => k.body ≠ some .super) = true := by decide
example : ∀ (t : Nat) (c : Cls), (run family {}).classes[t]? = some c → c.mro = [] ∨ ∃ b, c.mro = (run family {}).bases b := by
  intro t c h
  have hl : (run family {}).classes.length = 4 := by decide
  match t with
  | 0 => left; cases h; rfl
  | 1 => right; cases h; exact ⟨0, rfl⟩
  | 2 => right; cases h; exact ⟨0, rfl⟩
  | 3 => left; cases h; rfl
  | t + 4 => rw [List.getElem?_eq_none (by omega)] at h; cases h

-- a descriptor with patch_setattr=False reports nothing
example : logOf [.cls [] [(9, false)] [1] none, .new 0, .connect 0 9 1, .set 0 1 4] = [] := by decide

-- a derived class that passes assignments on to a base that does them: one event each, as the base has no group
example : logOf [.cls [] [] [] (some .direct), .cls [0] [(9, true)] [1] (some .super), .new 1, .connect 0 9 1, .set 0 1 4] = [⟨0, 9, 1, 4, 0⟩] := by
  decide

/-! ### What does not hold -/

/-- An evented base class, whose group was accessed; a derived class with a `__setattr__` that calls `super().__setattr__`: every change
of an instance of the derived class is reported twice - but only once if no instance of the base class was ever asked for its group. -/
theorem C61_twice_refuted :
    logOf [.cls [] [(9, true)] [1] none, .cls [0] [] [1] (some .super), .new 0, .new 1, .access 0 9, .connect 1 9 1, .set 1 1 5]
      = [⟨1, 9, 1, 5, 0⟩, ⟨1, 9, 1, 5, 0⟩] ∧
    logOf [.cls [] [(9, true)] [1] none, .cls [0] [] [1] (some .super), .new 0, .new 1, .connect 1 9 1, .set 1 1 5] = [⟨1, 9, 1, 5, 0⟩] := by
  decide

/-- The same with a mixin: `class Mixin: def __setattr__(…): super().__setattr__(…)`, `class T(Mixin, Base)`. -/
theorem C61_mixin_refuted :
    logOf [.cls [] [(9, true)] [1] none, .cls [] [] [] (some .super), .cls [1, 0] [] [1] none, .new 0, .new 2, .access 0 9, .connect 1 9 1, .set 1 1 5]
      = [⟨1, 9, 1, 5, 0⟩, ⟨1, 9, 1, 5, 0⟩] := by
  decide

/-- `class T(A, E)`, where `A` has a group and `E` a `__setattr__` that rejects assignments: it is respected until the group of an
instance of `A` is accessed. -/
theorem C61_hidden_refuted :
    attr [.cls [] [(9, true)] [1] none, .cls [] [] [] (some .ignore), .cls [0, 1] [] [1] none, .new 0, .new 2, .set 1 1 5] 1 1 = some 0 ∧
    attr [.cls [] [(9, true)] [1] none, .cls [] [] [] (some .ignore), .cls [0, 1] [] [1] none, .new 0, .new 2, .access 0 9, .set 1 1 5] 1 1 = some 5 := by
  decide

/-- A derived class has a second group with another name: `__setattr__` counts as patched already, and the second group hears nothing if
the first was accessed before. -/
theorem C61_second_refuted :
    logOf [.cls [] [(9, true)] [1] none, .cls [0] [(8, true)] [1] none, .new 1, .access 0 9, .connect 0 8 1, .set 0 1 5] = [] ∧
    logOf [.cls [] [(9, true)] [1] none, .cls [0] [(8, true)] [1] none, .new 1, .connect 0 8 1, .set 0 1 5] = [⟨0, 8, 1, 5, 0⟩] := by
  decide

end Psygnal.Pat
