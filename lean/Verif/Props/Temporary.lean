import Verif.TemporaryLemmas

/-!
# C73: temporary settings are undone

`Managed b`: the program uses the settings only through `no_class_attributes` and `enums_as_values`, in any nesting, with exceptions and handlers.
`Flat b`: uses of `no_class_attributes` are not nested in each other.  `lexical b attr pyside own`: what the program does when each setting has the
value given by the innermost enclosing `with` statement, else the initial one.  With pydantic 2 no configuration has bases: `fun _ => []`.
-/
namespace Psygnal.Temp

/-- **C73.** With pydantic 2: after a program, however it ended, every configuration has the entry it had before. -/
theorem C73_enums (b : Body) (h : Managed b) (s : St) (c : Nat) : (exec (fun _ => []) b s).2.own c = s.own c := by
  rw [(managed_good b h s 0).1]

/-- **C73.** After a program, however it ended, `ClassAttribute` is the original object again, when it was in the beginning. -/
theorem C73_attr (b : Body) (h : Managed b) (s : St) (h0 : s.attr = 0) : (exec (fun _ => []) b s).2.attr = 0 :=
  (managed_good b h s 0).2.2.2.2 h0

/-- **C73.** With pydantic 2: every reading of a configuration gives the value of the innermost enclosing `enums_as_values` for it, and the program
raises exactly when it would without storing anything. -/
theorem C73_reads (b : Body) (h : Managed b) (s : St) :
    (exec (fun _ => []) b s).1 = (lexical b s.attr s.pyside s.own).1 ∧
    (exec (fun _ => []) b s).2.log.filter (· matches .read _ _)
      = s.log.filter (· matches .read _ _) ++ (lexical b s.attr s.pyside s.own).2.2.filter (· matches .read _ _) := by
  have hm := managed_good b h s s.attr
  refine ⟨hm.2.1, ?_⟩
  have he : (fun x : Seen => x matches .read _ _) = fun x => match x with | .read _ _ => true | .made _ => false := by
    funext x; cases x <;> rfl
  rw [he]
  exact hm.2.2.2.1

/-- **C73 (partial).** When uses of `no_class_attributes` are not nested, also the classes are created with the `ClassAttribute` of the enclosing statement. -/
theorem C73_scoped_partial (b : Body) (h : Managed b) (hf : Flat b) (s : St) (h0 : s.attr = 0) :
    exec (fun _ => []) b s
      = ((lexical b 0 s.pyside s.own).1,
         { s with pyside := (lexical b 0 s.pyside s.own).2.1, log := s.log ++ (lexical b 0 s.pyside s.own).2.2 }) := by
  have := good_flat b h hf s h0
  unfold Good at this
  rw [h0] at this
  rw [this, h0]

/-- Both context managers, one inside the other, an exception inside, readings inside and outside. -/
def sample : Body :=
  .enums 1 true
    (.noAttrs (.make (.enums 1 false (.read 1 fun _ => .raise) fun ok => .read 1 fun _ => if ok then .ret else .raise)) fun ok =>
      .make (if ok then .ret else .raise))
    fun _ => .read 1 fun _ => .ret

example : Managed sample ∧ Flat sample := by
  refine ⟨⟨⟨⟨fun _ => trivial, fun ok _ => ?_⟩, fun ok => ?_⟩, fun _ _ => trivial⟩, ⟨⟨⟨?_, fun ok _ => ?_⟩, fun ok => ?_⟩, fun _ _ => trivial⟩⟩
  · cases ok <;> trivial
  · cases ok <;> trivial
  · exact fun _ => trivial
  · cases ok <;> trivial
  · cases ok <;> trivial

example : (exec (fun _ => []) sample { pyside := true }).2.log
    = [.made 1, .read 1 (some false), .read 1 (some true), .made 0, .read 1 none] := by decide

/-- **C73, refuted when nested.** The end of an inner `no_class_attributes` undoes the outer one: a class created afterwards, still inside, is created with
the original `ClassAttribute`. -/
theorem C73_nested_refuted :
    ∃ b s, Managed b ∧ s.attr = 0 ∧ s.pyside = true ∧ (exec (fun _ => []) b s).2.log = [.made 0] ∧ (lexical b 0 true s.own).2.2 = [.made 1] :=
  ⟨.noAttrs (.noAttrs .ret fun _ => .make .ret) fun _ => .ret, { pyside := true }, ⟨⟨trivial, fun _ => trivial⟩, fun _ => trivial⟩, rfl, rfl, rfl, rfl⟩

/-- **C73, refuted for other patches.** An object that somebody else had put in the place of `ClassAttribute` is lost. -/
theorem C73_other_refuted :
    ∃ b s, Managed b ∧ s.attr = 5 ∧ (exec (fun _ => []) b s).2.attr = 0 :=
  ⟨.noAttrs .ret fun _ => .ret, { attr := 5, pyside := true }, ⟨trivial, fun _ => trivial⟩, rfl, rfl⟩

/-- **C73, refuted when the program removes the entry itself.** Leaving `enums_as_values` then raises. -/
theorem C73_removed_refuted :
    (exec (fun _ => []) (.enums 1 true (.setCfg 1 none .ret) fun ok => if ok then .ret else .raise) {}).1 = false ∧
    (exec (fun _ => []) (.setCfg 1 none .ret) {}).1 = true := by decide

/-- Programs that touch no configuration. -/
def Untouched : Body → Prop
  | .ret => True
  | .raise => True
  | .make k => Untouched k
  | .read _ k => ∀ v, Untouched (k v)
  | .setAttr _ k => Untouched k
  | .setCfg _ _ _ => False
  | .importPySide k => Untouched k
  | .noAttrs inner k => Untouched inner ∧ ∀ ok, Untouched (k ok)
  | .enums _ _ _ _ => False

theorem untouched_own (bases : Bases) : ∀ b, Untouched b → ∀ s, (exec bases b s).2.own = s.own := by
  intro b
  induction b with
  | ret => intro _ s; rfl
  | raise => intro _ s; rfl
  | make k ih => intro h s; rw [exec, ih h]
  | read c k ih => intro h s; rw [exec, ih _ (h _)]
  | setAttr v k ih => intro h s; rw [exec, ih h]
  | setCfg c v k ih => intro h; cases h
  | importPySide k ih => intro h s; rw [exec, ih h]
  | noAttrs inner k ih1 ih2 =>
    intro h s
    rw [exec, ih2 _ (h.2 _)]
    by_cases hp : s.pyside = true
    · rw [if_pos hp]; unfold unpatch; simp only; rw [ih1 h.1]
    · rw [if_neg hp, ih1 h.1]
  | enums c v inner k ih1 ih2 => intro h; cases h

/-- **C73 (partial).** With pydantic 1, where entries are inherited from other configurations: after one use the configuration has the value it had before. -/
theorem C73_inherited_partial (bases : Bases) (c : Nat) (v : Bool) (inner : Body) (h : Untouched inner) (s : St) :
    lookup bases (exec bases (.enums c v inner fun _ => .ret) s).2.own c = lookup bases s.own c := by
  rw [exec]
  simp only [exec]
  have ho := untouched_own bases inner h { s with own := setOwn s.own c (some v) }
  unfold restore
  cases hb : lookup bases s.own c with
  | some w =>
    simp only
    unfold lookup
    rw [List.findSome?_cons]
    simp [setOwn]
  | none =>
    have hn := hb
    unfold lookup at hn
    rw [List.findSome?_eq_none_iff] at hn
    have hc : setOwn s.own c (some v) c = some v := by simp [setOwn]
    simp only [ho, hc]
    have hs : setOwn (setOwn s.own c (some v)) c none = s.own := by
      funext d
      unfold setOwn
      by_cases hd : d = c
      · rw [if_pos hd, hd, hn c (List.mem_cons_self ..)]
      · rw [if_neg hd, if_neg hd]
    rw [hs, hb]

/-- Configuration 2 inherits from configuration 1. -/
def child : Bases := fun c => if c = 2 then [1] else []

example : Untouched (.read 2 fun _ => .raise) ∧
    (exec child (.enums 2 true (.read 2 fun _ => .raise) fun _ => .ret) { own := fun c => if c = 1 then some false else none }).2.log
      = [.read 2 (some true)] := ⟨fun _ => trivial, by decide⟩

/-- **C73, refuted for pydantic 1.** An inherited entry is copied into the configuration and stays there: later changes of the base have no effect any more. -/
theorem C73_inherited_refuted :
    ∃ s : St, s.own 2 = none ∧ lookup child s.own 2 = some false ∧
      (exec child (.enums 2 true .ret fun _ => .setCfg 1 (some true) (.read 2 fun _ => .ret)) s).2.log = [.read 2 (some false)] ∧
      (exec child (.setCfg 1 (some true) (.read 2 fun _ => .ret)) s).2.log = [.read 2 (some true)] :=
  ⟨{ own := fun c => if c = 1 then some false else none }, by decide⟩

/-- **C73, refuted for pydantic 1, nested.** The temporary value of a base becomes the lasting value of the inheriting configuration. -/
theorem C73_leak_refuted :
    ∃ b s, Managed b ∧ lookup child s.own 2 = some false ∧ lookup child (exec child b s).2.own 2 = some true :=
  ⟨.enums 1 true (.enums 2 false .ret fun _ => .ret) fun _ => .ret, { own := fun c => if c = 1 then some false else none },
    ⟨⟨trivial, fun _ => trivial⟩, fun _ => trivial⟩, by decide, by decide⟩

end Psygnal.Temp
