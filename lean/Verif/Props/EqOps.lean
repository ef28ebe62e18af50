import Verif.EqOpsLemmas

/-! # C91: which operator compares the values of a field -/
namespace Psygnal.EqO

open Psygnal.DC (Op Val EqMap Ty Field Env pickOp checkEq Answer)

/-- Nobody else has the operators of class `c`: no class in its MRO has `__eq_operators__`; or it has its own, and so have all classes derived from
it of which there are objects in the history. -/
def Alone (p : Prg) (c : Nat) (es : List Ev) : Prop :=
  (∀ b ∈ c :: (p.cls c).bases, (p.cls b).attr = none) ∨
  ((p.cls c).attr ≠ none ∧ ∀ e ∈ es, e.cls ≠ c → c ∈ (p.cls e.cls).bases → (p.cls e.cls).attr ≠ none)

theorem Alone.loc {p : Prg} {c : Nat} {es : List Ev} (h : Alone p c es) : ∀ e ∈ es, e.cls ≠ c → p.loc e.cls ≠ p.loc c := by
  intro e he hc hl
  rcases h with h | ⟨h1, h2⟩
  · rw [loc_none h] at hl
    exact hc (loc_entry hl)
  · rw [loc_own h1] at hl
    rcases loc_attr hl with h | ⟨h3, h4⟩
    · exact hc h
    · exact h2 e he hc h3 h4

/-- **C91 (the operators of a descriptor; partial).**  The values of a field of a class are compared, in any history of accesses, assignments and
comparisons on objects of any classes, beginning with the operator given for the field in `equality_operators`, and with that for the type of the
field if none is given; failing comparisons of this very field of this very class can change it, as C42 says, and nothing else.  This holds for
classes that inherit the descriptor as well.  Missing: several descriptors for one class (`C91_two_refuted`); classes that share `__eq_operators__`
(`C91_shared_refuted`). -/
theorem C91_descriptor_partial (p : Prg) (ha : p.env.Attrs) (es : List Ev) {c d name : Nat} {ty : Ty} (hs : Alone p c es)
    (hd : ∀ e ∈ es, e.cls = c → e.desc = some d) (hc : (p.desc d).collect = true)
    (hf : ∃ f ∈ (p.cls c).fields, f.name = name) (ht : ∀ f ∈ (p.cls c).fields, f.name = name → f.type = ty) :
    ∃ o, Chain p.env (((p.desc d).custom name).getD (pickOp p.env.numpy ty)) ((p.run es p.init).1.filterMap (Out.of c name)) o :=
  run_first ha hc hf ht es p.init hs.loc hd (fun h => by cases h)

/-- **C91 (`__eq_operators__`; partial).**  If a class has its own `__eq_operators__` (as evented models have), the values of its fields are
compared beginning with the operator it has for the field, `==` if it has none.  Missing: descriptors that collect the fields of the class
(`C91_attr_refuted`). -/
theorem C91_attr_partial (p : Prg) (ha : p.env.Attrs) (es : List Ev) {c name : Nat} {l : List (Nat × Op)} (hl : (p.cls c).attr = some l)
    (hn : (l.map Prod.fst).Nodup) (hs : Alone p c es) (hd : ∀ e ∈ es, e.cls = c → ∀ d, e.desc = some d → (p.desc d).collect = false) :
    (∀ o, (name, o) ∈ l → ∃ o', Chain p.env o ((p.run es p.init).1.filterMap (Out.of c name)) o') ∧
    (name ∉ l.map Prod.fst → ∃ o', Chain p.env .eq ((p.run es p.init).1.filterMap (Out.of c name)) o') := by
  have h := run_chain ha (name := name) es p.init hs.loc (fun e he hc d hd' => .inr (hd e he hc d hd'))
  have hloc : p.loc c = .attr c := loc_own (by rw [hl]; exact fun h => by cases h)
  obtain ⟨-, h2, h3⟩ := init_attr (p := p) hl hn
  rw [hloc] at h
  exact ⟨fun o hm => ⟨_, h2 name o hm ▸ h⟩, fun hm => ⟨_, h3 name hm ▸ h⟩⟩

/-- **C91 (evented models).**  Fields of evented models are compared beginning with identity if their type comes from dask, with `np.array_equal` if
it is that of an array and numpy is loaded, and else with `==`. -/
theorem C91_model (p : Prg) (ha : p.env.Attrs) (es : List Ev) {c : Nat} {fs : List Field} (hl : (p.cls c).attr = some (modelAttr p.env.numpy fs))
    (hn : (fs.map Field.name).Nodup) (hs : Alone p c es) (hd : ∀ e ∈ es, e.cls = c → e.desc = none) {f : Field} (hf : f ∈ fs) :
    ∃ o o', Chain p.env o ((p.run es p.init).1.filterMap (Out.of c f.name)) o' ∧
      (f.type.dask = true → o = .is) ∧ (f.type.dask = false → f.type.array = true → p.env.numpy = true → o = .arrayEqual) ∧
      (f.type.dask = false → f.type.array = false ∨ p.env.numpy = false → o = .eq) := by
  have hn' : ((modelAttr p.env.numpy fs).map Prod.fst).Nodup := by
    unfold modelAttr
    rw [List.map_map]
    exact hn
  have hm : (f.name, pickOp p.env.numpy f.type) ∈ modelAttr p.env.numpy fs := List.mem_map.mpr ⟨f, hf, rfl⟩
  obtain ⟨o', h⟩ := (C91_attr_partial p ha es hl hn' hs (fun e he hc d hd' => by rw [hd e he hc] at hd'; cases hd')).1 _ hm
  refine ⟨_, o', h, fun h1 => ?_, fun h1 h2 h3 => ?_, fun h1 h2 => ?_⟩
  · simp [pickOp, h1]
  · simp [pickOp, h1, h2, h3]
  · rcases h2 with h2 | h2 <;> simp [pickOp, h1, h2]

/-- What `a == b` looks at: the given names in their order, as long as both have them and they are equal. -/
inductive Looks (c : Nat) (a b : Nat → Option Val) : List Nat → List Out → Bool → Prop
  | nil : Looks c a b [] [] true
  | yes {n : Nat} {ns : List Nat} {x y : Val} {os : List Out} {r : Bool} : a n = some x → b n = some y → Looks c a b ns os r →
      Looks c a b (n :: ns) (.cmp c n x y (.ok true) :: os) r
  | no {n : Nat} {ns : List Nat} {x y : Val} : a n = some x → b n = some y → Looks c a b (n :: ns) [.cmp c n x y (.ok false)] false
  | missing {n : Nat} {ns : List Nat} : a n = none ∨ b n = none → Looks c a b (n :: ns) [] false

theorem looks_same {p : Prg} (ha : p.env.Attrs) (c : Nat) (a b : Nat → Option Val) : ∀ (ns : List Nat) (σ : St),
    ∃ r, (p.same c a b ns σ).2.1 = .ok r ∧ Looks c a b ns (p.same c a b ns σ).1 r
  | [], _ => ⟨true, rfl, .nil⟩
  | n :: ns, σ => by
    rw [Prg.same]
    split
    · rename_i x y hx hy
      obtain ⟨b1, hb⟩ : ∃ b1, (p.check c n x y σ).1 = .ok b1 := by
        by_cases hb : x = .null
        · subst hb
          exact ⟨_, congrArg Prod.fst (DC.C42_missing p.env (σ.dicts (p.loc c)).ops n y)⟩
        · obtain ⟨b1, o, h1, -⟩ := DC.C42_partial p.env ha (σ.dicts (p.loc c)).ops n (before := x) y hb
          exact ⟨b1, h1⟩
      split
      · rename_i σ' hc
        obtain ⟨r, h1, h2⟩ := looks_same ha c a b ns σ'
        exact ⟨r, h1, .yes hx hy h2⟩
      · rename_i r σ' hr hc
        rw [hc] at hb
        cases (show r = .ok b1 from hb)
        cases b1 with
        | true => exact (hr rfl).elim
        | false => exact ⟨false, rfl, .no hx hy⟩
    · rename_i h
      refine ⟨false, rfl, .missing ?_⟩
      cases hx : a n with
      | none => exact .inl rfl
      | some x =>
        cases hy : b n with
        | none => exact .inr rfl
        | some y => exact absurd hy (h x y hx)

/-- **C91 (`==` of models; partial).**  Two models are equal if the first one's fields are, as compared by the operators of its class
(`C91_attr_partial`): they are compared one after the other, up to the first difference, and nothing else is.  Missing: classes of which a property
was compared before (`C91_property_refuted`). -/
theorem C91_equal_partial (p : Prg) (ha : p.env.Attrs) (es : List Ev) {c : Nat} {l : List (Nat × Op)} (hl : (p.cls c).attr = some l)
    (hn : (l.map Prod.fst).Nodup) (hs : Alone p c es) (hd : ∀ e ∈ es, e.cls = c → e.desc = none)
    (hf : ∀ n x y, Ev.compare c n x y ∈ es → n ∈ l.map Prod.fst) (a b : Nat → Option Val) :
    ∃ os r, (p.step (p.run es p.init).2 (.same c a b)).1 = os ++ [.same c (.ok r)] ∧ Looks c a b (l.map Prod.fst) os r := by
  have hloc : p.loc c = .attr c := loc_own (by rw [hl]; exact fun h => by cases h)
  have hk : (p.init.dicts (p.loc c)).keys = l.map Prod.fst := by rw [hloc]; exact (init_attr hl hn).1
  have := run_keys es p.init hs.loc hd hf hk
  obtain ⟨r, h1, h2⟩ := looks_same ha c a b (l.map Prod.fst) (p.run es p.init).2
  refine ⟨_, r, ?_, h2⟩
  rw [Prg.step, this, h1]

/-! ## Cases -/

/-- Objects 1 and 2 are equal for `==`, comparing object 3 raises, operator 7 finds everything equal.  Class 1 inherits from class 0, class 3 from
class 2, which has `__eq_operators__ = {0: operator 7}`; class 4 is an evented model with field 0.  Descriptor 0 has no operators, descriptor 1 has
operator 7 for field 0, descriptor 2 is identity and descriptor 3 does not collect fields. -/
def exP : Prg where
  env := {
    apply := fun o x y => match o, x, y with
      | .custom 7, _, _ => .ok true
      | .eq, .obj 3, _ => .error ()
      | .eq, .obj 1, .obj 2 => .ok true
      | .eq, .obj 2, .obj 1 => .ok true
      | _, x, y => .ok (x = y)
    hasArray := fun _ => .ok false
    numpy := true }
  cls := fun
    | 0 => ⟨[], none, [⟨0, ⟨false, false⟩⟩, ⟨1, ⟨true, false⟩⟩]⟩
    | 1 => ⟨[0], none, [⟨0, ⟨false, false⟩⟩, ⟨1, ⟨true, false⟩⟩]⟩
    | 2 => ⟨[], some [(0, .custom 7)], [⟨0, ⟨false, false⟩⟩]⟩
    | 3 => ⟨[2], none, [⟨0, ⟨false, false⟩⟩]⟩
    | _ => ⟨[], some (modelAttr true [⟨0, ⟨false, false⟩⟩]), [⟨0, ⟨false, false⟩⟩]⟩
  desc := fun
    | 0 => ⟨fun _ => none, true⟩
    | 1 => ⟨fun n => if n = 0 then some (.custom 7) else none, true⟩
    | 2 => ⟨fun _ => some .is, true⟩
    | _ => ⟨fun _ => none, false⟩

theorem exAttrs : exP.env.Attrs := fun _ => ⟨false, rfl⟩

/-- Objects of class 0 through descriptor 1, of class 1 (which inherits from it) through descriptor 0. -/
def exEvs : List Ev := [.assign 0 1 0 (.obj 1) (.obj 3), .assign 1 0 0 (.obj 1) (.obj 3), .assign 0 1 0 (.obj 1) (.obj 2), .access 1 0,
  .assign 1 0 1 (.obj 1) (.obj 2)]

/-- A case for `C91_descriptor_partial`: operator 7 finds the values equal, although `==` would raise; in class 1 `==` has raised, and so identity
is used afterwards. -/
example : (∃ o, Chain exP.env (.custom 7) ((exP.run exEvs exP.init).1.filterMap (Out.of 0 0)) o) ∧
    (exP.run exEvs exP.init).1.filterMap (Out.of 0 0) = [(.obj 1, .obj 3, .ok true)] ∧
    (∃ o, Chain exP.env .eq ((exP.run exEvs exP.init).1.filterMap (Out.of 1 0)) o) ∧
    (exP.run exEvs exP.init).1.filterMap (Out.of 1 0) = [(.obj 1, .obj 3, .ok false), (.obj 1, .obj 2, .ok false)] := by
  refine ⟨C91_descriptor_partial exP exAttrs exEvs (c := 0) (d := 1) (name := 0) (ty := ⟨false, false⟩) (.inl ?_) ?_ rfl ⟨_, .head _, rfl⟩ ?_, rfl,
    C91_descriptor_partial exP exAttrs exEvs (c := 1) (d := 0) (name := 0) (ty := ⟨false, false⟩) (.inl ?_) ?_ rfl ⟨_, .head _, rfl⟩ ?_, rfl⟩
  · simp [exP]
  · simp [exEvs, Ev.cls, Ev.desc]
  · simp [exP]
  · simp [exP]
  · simp [exEvs, Ev.cls, Ev.desc]
  · simp [exP]

/-- A case for `C91_attr_partial`: descriptor 3 does not collect the fields. -/
example : (∃ o, Chain exP.env (.custom 7) ((exP.run [.assign 3 2 0 (.obj 1) (.obj 5), .assign 0 0 0 (.obj 1) (.obj 5)] exP.init).1.filterMap (Out.of 2 0)) o) ∧
    (exP.run [.assign 3 2 0 (.obj 1) (.obj 5), .assign 0 0 0 (.obj 1) (.obj 5)] exP.init).1.filterMap (Out.of 2 0) = [(.obj 1, .obj 5, .ok true)] := by
  refine ⟨(C91_attr_partial exP exAttrs _ (c := 2) (name := 0) (l := [(0, .custom 7)]) rfl (by decide) (.inr ⟨(by simp [exP]), ?_⟩) ?_).1 _ (.head _), rfl⟩
  · simp [exP, Ev.cls]
  · simp [exP, Ev.cls, Ev.desc]

/-- A case for `C91_model`. -/
example : ∃ o o', Chain exP.env o ((exP.run [.compare 4 0 (.obj 5) (.obj 3), .compare 4 0 (.obj 3) (.obj 3)] exP.init).1.filterMap (Out.of 4 0)) o' ∧
    (false = true → o = .is) ∧ (false = false → false = true → true = true → o = .arrayEqual) ∧ (false = false → false = false ∨ true = false → o = .eq) :=
  C91_model exP exAttrs [.compare 4 0 (.obj 5) (.obj 3), .compare 4 0 (.obj 3) (.obj 3)] (c := 4) (fs := [⟨0, ⟨false, false⟩⟩]) rfl (by decide)
    (.inr ⟨(by simp [exP]), by simp [exP, Ev.cls]⟩) (by simp [Ev.desc]) (f := ⟨0, ⟨false, false⟩⟩) (.head _)

/-- A case for `C91_equal_partial`. -/
example : ∃ os r, (exP.step (exP.run [.compare 4 0 (.obj 5) (.obj 6)] exP.init).2
      (.same 4 (fun n => if n = 0 then some (.obj 1) else none) (fun n => if n = 0 then some (.obj 2) else none))).1 = os ++ [.same 4 (.ok r)] ∧
    Looks 4 (fun n => if n = 0 then some (.obj 1) else none) (fun n => if n = 0 then some (.obj 2) else none) [0] os r :=
  C91_equal_partial exP exAttrs [.compare 4 0 (.obj 5) (.obj 6)] (c := 4) (l := [(0, .eq)]) rfl (by decide)
    (.inr ⟨(by simp [exP]), by simp [exP, Ev.cls]⟩) (by simp [Ev.desc]) (fun n x y h => by simp at h; simp [h.1]) _ _

/-! ## Where the code deviates -/

/-- **C91, refuted in general:** the documentation of `evented` says that a class can have `__eq_operators__` instead of the argument
`equality_operators`; but the operator it has for a field is replaced by that for the type of the field when the group of the class is made. -/
theorem C91_attr_refuted : exP.env.apply (.custom 7) (.obj 5) (.obj 1) = .ok true ∧ (exP.cls 2).attr = some [(0, .custom 7)] ∧
    (exP.run [.assign 0 2 0 (.obj 1) (.obj 5)] exP.init).1 = [.cmp 2 0 (.obj 1) (.obj 5) (.ok false)] := ⟨rfl, rfl, rfl⟩

/-- **C91, refuted in general:** a class that inherits `__eq_operators__` has the same dict: making a group for it changes how objects of the other
class are compared. -/
theorem C91_shared_refuted :
    (exP.run [.assign 3 2 0 (.obj 1) (.obj 5), .access 2 3, .assign 3 2 0 (.obj 1) (.obj 5)] exP.init).1 =
      [.cmp 2 0 (.obj 1) (.obj 5) (.ok true), .cmp 2 0 (.obj 1) (.obj 5) (.ok false)] := rfl

/-- **C91, refuted in general:** a second descriptor of the class replaces the operators of the first. -/
theorem C91_two_refuted :
    (exP.run [.assign 1 0 0 (.obj 1) (.obj 5), .access 0 0, .assign 1 0 0 (.obj 1) (.obj 5)] exP.init).1 =
      [.cmp 0 0 (.obj 1) (.obj 5) (.ok true), .cmp 0 0 (.obj 1) (.obj 5) (.ok false)] := rfl

/-- **C91, refuted in general:** two evented models with equal fields are equal, until a property (here 9) of some model of the class has been
compared because someone listens to it: from then on `==` compares this property, too. -/
theorem C91_property_refuted : ∃ a b : Nat → Option Val, a 0 = b 0 ∧
    (exP.run [.same 4 a b, .compare 4 9 (.obj 7) (.obj 8), .same 4 a b] exP.init).1 =
      [.cmp 4 0 (.obj 1) (.obj 1) (.ok true), .same 4 (.ok true), .cmp 4 9 (.obj 7) (.obj 8) (.ok false),
       .cmp 4 0 (.obj 1) (.obj 1) (.ok true), .cmp 4 9 (.obj 5) (.obj 6) (.ok false), .same 4 (.ok false)] :=
  ⟨fun n => if n = 0 then some (.obj 1) else some (.obj 5), fun n => if n = 0 then some (.obj 1) else some (.obj 6), rfl, rfl⟩

end Psygnal.EqO
