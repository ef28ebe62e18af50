import Verif.Py
import Verif.DataclassLemmas

/-! # C39, C41, C42: evented attributes -/
namespace Psygnal.DC

/-! ## C42: comparison -/

/-- `hasattr(x, "__array__")` does not raise. -/
def Env.Attrs (env : Env) : Prop := ∀ x, ∃ b, env.hasArray x = .ok b

/-- The answer of an operator that may raise: the field's own, then array equality, then
identity.  Independent of `checkEq`. -/
inductive Answer (env : Env) (before after : Val) : Op → Bool → Op → Prop
  /-- The field's operator works: it decides and stays. -/
  | works {o b} : env.run o after before = .ok b → Answer env before after o b o
  /-- It raises on something like an array: array equality decides from now on. -/
  | array {o e b} : env.run o after before = .error e → env.numpy = true → env.hasArray after = .ok true →
      o ≠ .arrayEqual → env.run .arrayEqual after before = .ok b → Answer env before after o b .arrayEqual
  /-- Nothing else works: identity decides from now on. -/
  | identity {o e} : env.run o after before = .error e →
      (env.numpy = false ∨ env.hasArray after = .ok false ∨ (∃ e, env.run .arrayEqual after before = .error e)) →
      Answer env before after o (decide (after = before)) .is

/-- **C42**: comparing the values of a field never raises, the answer is that of the first of the
field's operator, array equality and identity that works, and this operator is remembered for the
field; other fields are not affected.  Missing from the full claim: values for which
`hasattr(x, "__array__")` raises (`C42_hasattr_refuted`), and agreement with `==` after a
comparison of the same field has failed once (`C42_sticky_refuted`). -/
theorem C42_partial (env : Env) (ha : env.Attrs) (m : EqMap) (name : Nat) {before : Val} (after : Val)
    (hb : before ≠ .null) :
    ∃ b o, (checkEq env m name before after).1 = .ok b ∧ Answer env before after ((m name).getD .eq) b o ∧
      (checkEq env m name before after).2 name = some o ∧
      ∀ n, n ≠ name → (checkEq env m name before after).2 n = m n := by
  have hset : ∀ (m : EqMap) (o : Op) (n : Nat), n ≠ name → m.set name o n = m n := by
    intro m o n hn; simp [EqMap.set, hn]
  have hself : ∀ (m : EqMap) (o : Op), m.set name o name = some o := by
    intro m o; simp [EqMap.set]
  obtain ⟨h, hh⟩ := ha after
  unfold checkEq
  rw [if_neg hb]
  simp only
  rcases hr : env.run ((m name).getD .eq) after before with e | b
  · simp only [hh]
    by_cases hc : h = true ∧ env.numpy = true ∧ (m name).getD .eq ≠ .arrayEqual
    · rw [if_pos hc]
      obtain ⟨rfl, h2, h3⟩ := hc
      unfold checkArray
      simp only
      rcases hr2 : env.run .arrayEqual after before with e' | b
      · simp only [hh, checkIs]
        exact ⟨_, _, rfl, .identity hr (.inr (.inr ⟨_, hr2⟩)), hself _ _, fun n hn => by
          rw [hset _ _ _ hn, hset _ _ _ hn, hset _ _ _ hn]⟩
      · exact ⟨b, _, rfl, .array hr h2 hh h3 hr2, hself _ _, fun n hn => by
          show EqMap.set _ _ _ n = _
          rw [hset _ _ _ hn, hset _ _ _ hn]⟩
    · rw [if_neg hc]
      simp only [checkIs]
      refine ⟨_, _, rfl, .identity hr ?_, hself _ _, fun n hn => by rw [hset _ _ _ hn, hset _ _ _ hn]⟩
      rcases hn : env.numpy with _ | _
      · exact .inl rfl
      · rcases h with _ | _
        · exact .inr (.inl hh)
        · have : (m name).getD .eq = .arrayEqual := by
            apply Classical.byContradiction
            intro hne
            exact hc ⟨rfl, hn, hne⟩
          rw [this] at hr
          exact .inr (.inr ⟨_, hr⟩)
  · exact ⟨b, _, rfl, .works hr, hself _ _, fun n hn => hset _ _ _ hn⟩

/-- **C42**: as long as the field is compared with `==` and `==` works, it decides. -/
theorem C42_eq (env : Env) (m : EqMap) (name : Nat) {before after : Val} {b : Bool} (hb : before ≠ .null)
    (hm : m name = none ∨ m name = some .eq) (he : env.apply .eq after before = .ok b) :
    (checkEq env m name before after).1 = .ok b ∧ (checkEq env m name before after).2 name = some .eq := by
  have : (m name).getD .eq = .eq := by rcases hm with hm | hm <;> rw [hm] <;> rfl
  unfold checkEq
  rw [if_neg hb, this]
  simp [Env.run, he, EqMap.set]

/-- An attribute that did not exist has changed iff it exists now. -/
theorem C42_missing (env : Env) (m : EqMap) (name : Nat) (after : Val) :
    checkEq env m name .null after = (.ok (decide (after = .null)), m) := by
  simp [checkEq]

/-- Comparisons of one field, one after the other: from some point on the operator does not change
any more, whatever is compared. -/
theorem C42_settles (env : Env) {before after : Val} {o : Op} {b : Bool} {o' : Op}
    (h : Answer env before after o b o') : o' = o ∨ o' = .arrayEqual ∧ o ≠ .arrayEqual ∧ o ≠ .is ∨ o' = .is := by
  cases h with
  | works _ => exact .inl rfl
  | array h1 _ _ h3 _ =>
    refine .inr (.inl ⟨rfl, h3, ?_⟩)
    rintro rfl
    simp [Env.run] at h1
  | identity _ _ => exact .inr (.inr rfl)

/-- Objects 1 and 2 are equal for `==` but not identical; comparing with object 3 raises; object 4
is an array whose comparisons work with array equality only. -/
def Ex.env : Env where
  apply := fun o x y => match o, x, y with
    | .eq, .obj 3, _ => .error ()
    | .eq, _, .obj 3 => .error ()
    | .eq, .obj 4, _ => .error ()
    | .eq, _, .obj 4 => .error ()
    | .eq, .obj 1, .obj 2 => .ok true
    | .eq, .obj 2, .obj 1 => .ok true
    | .arrayEqual, .obj 3, _ => .error ()
    | _, x, y => .ok (x = y)
  hasArray := fun x => .ok (x = .obj 4)
  numpy := true

example : Ex.env.Attrs := fun _ => ⟨_, rfl⟩

example : (checkEq Ex.env (fun _ => none) 0 (.obj 1) (.obj 2)).1 = .ok true := rfl

example : (checkEq Ex.env (fun _ => none) 0 (.obj 1) (.obj 4)).1 = .ok false ∧
    (checkEq Ex.env (fun _ => none) 0 (.obj 1) (.obj 4)).2 0 = some .arrayEqual := ⟨rfl, rfl⟩

example : (checkEq Ex.env (fun _ => none) 0 (.obj 1) (.obj 3)).1 = .ok false ∧
    (checkEq Ex.env (fun _ => none) 0 (.obj 1) (.obj 3)).2 0 = some .is := ⟨rfl, rfl⟩

/-- A comparison that failed once changes the operator of the field for the class forever
(`_group_descriptor.py:112-119`): values that `==` can compare and finds equal are then taken to be
different. -/
theorem C42_sticky_refuted : ∃ (env : Env) (m : EqMap) (x y z : Val), env.Attrs ∧ m 0 = none ∧
    env.apply .eq y x = .ok true ∧
    (checkEq env (checkEq env m 0 x z).2 0 x y).1 = .ok false :=
  ⟨Ex.env, fun _ => none, .obj 1, .obj 2, .obj 3, fun _ => ⟨_, rfl⟩, rfl, rfl, rfl⟩

/-- A value whose `__getattr__` raises something else than `AttributeError` and whose comparison
raises: the exception escapes (`_group_descriptor.py:107-108`). -/
theorem C42_hasattr_refuted : ∃ (env : Env) (m : EqMap) (x y : Val),
    (checkEq env m 0 x y).1 = .error () :=
  ⟨⟨fun _ _ _ => .error (), fun _ => .error (), true⟩, fun _ => none, .obj 1, .obj 2, rfl⟩

/-! ## C39: setting an attribute -/

/-- **C39**: the object afterwards is exactly what the original `__setattr__` makes of it, with or
without listeners and whatever they do. -/
theorem C39_value (c : Cfg) (super : Setter) (name : Nat) (v : Val) (s : St) :
    (setattrAndEmit c super name v s).2.attrs = (super name v s).2.attrs := by
  unfold setattrAndEmit
  split
  · rfl
  · split
    · rfl
    · split
      · unfold changesEmitted
        simp only
        split
        · rfl
        · rfl
        · split <;> rfl
      · rfl

/-- **C39**: an attribute without a signal, or with a signal that nobody listens to, is set by the
original `__setattr__` and nothing else happens. -/
theorem C39_silent (c : Cfg) (super : Setter) (name : Nat) (v : Val) (s : St)
    (h : c.lookup name = none ∨ ∃ sig, c.lookup name = some sig ∧ c.listeners sig = false) :
    setattrAndEmit c super name v s = super name v s := by
  unfold setattrAndEmit
  split
  · rfl
  · rcases h with h | ⟨sig, h, hl⟩
    · rw [h]
    · rw [h]
      simp [hl]

/-- **C39**: a field with a signal that has listeners: after the assignment the signal is emitted
exactly once, with the new and the old value of the attribute, if the field's operator tells
them apart, and not at all otherwise.  Emissions made inside the original `__setattr__` come
first.  The assignment raises what the original `__setattr__` raises, unless a listener raises. -/
theorem C39_event (c : Cfg) (super : Setter) {name sig : Nat} (v : Val) (s : St) (hn : name ≠ c.groupName)
    (hs : c.lookup name = some sig) (hl : c.listeners sig = true) (hold : s.attrs name ≠ .null)
    {b : Bool} (hop : c.env.run (((super name v s).2.eqmap name).getD .eq)
      ((super name v s).2.attrs name) (s.attrs name) = .ok b) :
    (setattrAndEmit c super name v s).2.log = (super name v s).2.log ++
      (if b then [] else [(sig, (super name v s).2.attrs name, s.attrs name)]) ∧
    (setattrAndEmit c super name v s).1 =
      if b = false ∧ c.raises sig ((super name v s).2.attrs name) (s.attrs name) = true then .error .emitLoop
      else (super name v s).1 := by
  unfold setattrAndEmit
  rw [if_neg hn, hs]
  simp only [hl, if_true]
  unfold changesEmitted
  simp only
  have hq : (checkEq c.env (super name v s).2.eqmap name (s.attrs name) ((super name v s).2.attrs name)).1 = .ok b := by
    unfold checkEq
    rw [if_neg hold]
    simp only [hop]
  rw [hq]
  cases b with
  | true => simp
  | false =>
    simp only [emit, Bool.false_eq_true, if_false, true_and]
    by_cases hr : c.raises sig ((super name v s).2.attrs name) (s.attrs name) = true <;> simp [hr]

/-- **C39** for an attribute that did not exist before: emitted iff it exists afterwards; the old
value is the internal sentinel `_NULL`. -/
theorem C39_new (c : Cfg) (super : Setter) {name sig : Nat} (v : Val) (s : St) (hn : name ≠ c.groupName)
    (hs : c.lookup name = some sig) (hl : c.listeners sig = true) (hold : s.attrs name = .null) :
    (setattrAndEmit c super name v s).2.log = (super name v s).2.log ++
      (if (super name v s).2.attrs name = .null then [] else [(sig, (super name v s).2.attrs name, .null)]) := by
  unfold setattrAndEmit
  rw [if_neg hn, hs]
  simp only [hl, if_true]
  unfold changesEmitted
  simp only [hold, C42_missing]
  by_cases h : (super name v s).2.attrs name = .null
  · simp [h]
  · simp only [h, decide_false, emit, if_false]
    by_cases hr : c.raises sig ((super name v s).2.attrs name) .null = true <;> simp [hr]

/-- **C39** for operators that raise: the answer of C42 decides; there is still at most one
emission, with the new and the old value. -/
theorem C39_fallback (c : Cfg) (super : Setter) {name sig : Nat} (v : Val) (s : St) (hn : name ≠ c.groupName)
    (hs : c.lookup name = some sig) (hl : c.listeners sig = true) (hold : s.attrs name ≠ .null)
    (ha : c.env.Attrs) :
    ∃ b o, Answer c.env (s.attrs name) ((super name v s).2.attrs name)
        (((super name v s).2.eqmap name).getD .eq) b o ∧
      (setattrAndEmit c super name v s).2.log = (super name v s).2.log ++
        (if b then [] else [(sig, (super name v s).2.attrs name, s.attrs name)]) ∧
      (setattrAndEmit c super name v s).2.eqmap name = some o := by
  obtain ⟨b, o, h1, h2, h3, _⟩ := C42_partial c.env ha (super name v s).2.eqmap name
    ((super name v s).2.attrs name) hold
  refine ⟨b, o, h2, ?_⟩
  unfold setattrAndEmit
  rw [if_neg hn, hs]
  simp only [hl, if_true]
  unfold changesEmitted
  simp only
  rw [h1]
  cases b with
  | true => simpa using h3
  | false =>
    simp only [emit, Bool.false_eq_true, if_false]
    by_cases hr : c.raises sig ((super name v s).2.attrs name) (s.attrs name) = true <;> simp [hr, h3]

/-- **C39** with `object.__setattr__`: the attribute is the value, others are untouched. -/
theorem C39_plain (c : Cfg) (name : Nat) (v : Val) (s : St) (n : Nat) :
    (setattrAndEmit c plain name v s).2.attrs n = if n = name then v else s.attrs n := by
  rw [C39_value]; rfl

/-- A class with the fields 10 and 11, both with listeners; those of 11 raise. -/
def Ex.cfg : Cfg where
  env := Ex.env
  groupName := 99
  withAliases := false
  group := ⟨[10, 11, 12], []⟩
  listeners := fun s => s = 10 ∨ s = 11
  raises := fun s _ _ => s = 11

def Ex.st : St := ⟨fun n => if n = 10 ∨ n = 11 ∨ n = 12 then .obj 1 else .null, fun _ => none, []⟩

/-- The hypotheses of `C39_event` for field 10, and what happens: an equal value is stored without an
emission, another one is reported once. -/
example : 10 ≠ Ex.cfg.groupName ∧ Ex.cfg.lookup 10 = some 10 ∧ Ex.cfg.listeners 10 = true ∧
    Ex.st.attrs 10 ≠ .null := by decide

example : (setattrAndEmit Ex.cfg plain 10 (.obj 2) Ex.st).2.log = [] ∧
    (setattrAndEmit Ex.cfg plain 10 (.obj 2) Ex.st).2.attrs 10 = .obj 2 ∧
    (setattrAndEmit Ex.cfg plain 10 (.obj 5) Ex.st).2.log = [(10, .obj 5, .obj 1)] ∧
    (setattrAndEmit Ex.cfg plain 11 (.obj 5) Ex.st).1 = .error .emitLoop ∧
    (setattrAndEmit Ex.cfg plain 12 (.obj 5) Ex.st).2.log = [] := by decide

/-! ## C41: aliases -/

/-- **C41**: the signals of the group are those of the group class and, once each, the documented
names of the fields. -/
theorem C41_signals {reserved : Nat → Bool} {fields : List Field} {grp g : Group} {arg : AliasArg}
    (h : build reserved fields grp arg = some g) :
    (∀ s, s ∈ g.sigs ↔ s ∈ grp.sigs ∨ ∃ f ∈ fields, target arg grp f.name = some s) ∧
    (grp.sigs.Nodup → g.sigs.Nodup) := by
  unfold build at h
  simp only at h
  split at h
  · cases h
  · cases h
    have hok := build_ok fields grp arg
    refine ⟨fun s => ?_, fun hn => ?_⟩
    · simp only [List.mem_append, hok.sigs s]
      by_cases hs : s ∈ grp.sigs <;> simp [hs]
    · rw [List.nodup_append]
      refine ⟨hn, hok.nodup, ?_⟩
      intro x hx y hy e
      subst e
      exact ((hok.sigs x).mp hy).1 hx

/-- **C41**: the signal of a field is the documented one, in particular there is none exactly if
the alias is `None`. -/
theorem C41_field {reserved : Nat → Bool} {fields : List Field} {grp g : Group} {arg : AliasArg}
    (h : build reserved fields grp arg = some g) {f : Field} (hf : f ∈ fields) :
    g.signal f.name = target arg grp f.name := by
  have hs := (C41_signals h).1
  have hk : (g.aliases.get f.name).getD (some f.name) = target arg grp f.name := by
    unfold build at h
    simp only at h
    split at h
    · cases h
    · cases h
      exact (build_ok fields grp arg).known f.name ⟨f, hf, rfl⟩
  unfold Group.signal
  rw [hk]
  split
  · rename_i e; exact e.symm
  · rename_i s e
    rw [if_pos ((hs s).mpr (.inr ⟨f, hf, e⟩)), e]

/-- **C41**: building the group fails exactly if a signal would get a reserved name. -/
theorem C41_reserved (reserved : Nat → Bool) (fields : List Field) (grp : Group) (arg : AliasArg) :
    build reserved fields grp arg = none ↔
      ∃ s, reserved s = true ∧ s ∉ grp.sigs ∧ ∃ f ∈ fields, target arg grp f.name = some s := by
  have hok := build_ok fields grp arg
  unfold build
  simp only
  split
  · rename_i h
    rw [List.any_eq_true] at h
    obtain ⟨s, h1, h2⟩ := h
    exact ⟨fun _ => ⟨s, h2, (hok.sigs s).mp h1⟩, fun _ => rfl⟩
  · rename_i h
    refine ⟨(fun e => by cases e), ?_⟩
    rintro ⟨s, h1, h2⟩
    exact absurd (List.any_eq_true.mpr ⟨s, (hok.sigs s).mpr h2, h1⟩) h

/-- **C41**: setting field `f` reports to exactly the documented signal, if the class was patched
for its own group; `none`: it reports nothing. -/
theorem C41_emits_partial {reserved : Nat → Bool} {fields : List Field} {g grp : Group} {arg : AliasArg}
    (h : build reserved fields grp arg = some g) {f : Field} (hf : f ∈ fields) (c : Cfg) (hc : c.group = g)
    (hw : c.withAliases = doPatch none g) : c.lookup f.name = target arg grp f.name := by
  unfold Cfg.lookup
  rw [hw, hc, ← C41_field h hf]
  rcases ha : g.aliases with _ | ⟨e, l⟩
  · simp [doPatch, ha, Group.signal, Aliases.get]
  · simp [doPatch, ha]

/-- Fields 1, 2, 3, 4 with the mapping {1: 5, 2: None}, a group class with the signal 6 and the alias
{3: 6}. -/
def Ex.fields : List Field := [⟨1, ⟨false, false⟩⟩, ⟨2, ⟨false, false⟩⟩, ⟨3, ⟨false, false⟩⟩, ⟨4, ⟨false, false⟩⟩]

def Ex.grp : Group := ⟨[6], [(3, some 6)]⟩

example : (build (fun _ => false) Ex.fields Ex.grp (.mapping [(1, some 5), (2, none)])).map Group.sigs = some [6, 5, 4] ∧
    Ex.fields.map (fun f => target (.mapping [(1, some 5), (2, none)]) Ex.grp f.name) = [some 5, none, some 6, some 4] := by
  decide

/-- The operators of the fields are those given, else chosen by type. -/
theorem C41_operators (numpy : Bool) (custom : Nat → Option Op) (fields : List Field)
    (hn : (fields.map Field.name).Nodup) (m : EqMap) :
    (∀ f ∈ fields, operators numpy custom fields m f.name = some ((custom f.name).getD (pickOp numpy f.type))) ∧
    ∀ n, n ∉ fields.map Field.name → operators numpy custom fields m n = m n := by
  induction fields generalizing m with
  | nil => exact ⟨by simp, fun _ _ => rfl⟩
  | cons f fs ih =>
    rw [List.map_cons, List.nodup_cons] at hn
    obtain ⟨h1, h2⟩ := ih hn.2 (m.set f.name ((custom f.name).getD (pickOp numpy f.type)))
    refine ⟨?_, ?_⟩
    · intro x hx
      rcases List.mem_cons.mp hx with rfl | hx
      · show operators numpy custom fs _ x.name = _
        rw [h2 x.name hn.1]
        simp [EqMap.set]
      · exact h1 x hx
    · intro n hnn
      rw [List.map_cons, List.mem_cons, not_or] at hnn
      show operators numpy custom fs _ n = _
      rw [h2 n hnn.2]
      simp [EqMap.set, hnn.1]

/-- A subclass of a class without aliases inherits its `__setattr__`, which does not look at
aliases (`_group_descriptor.py:566-567`): with a callable for the aliases and a base class without
fields, no field of the subclass reports anything although it has a signal. -/
theorem C41_inherited_refuted : ∃ (arg : AliasArg) (base sub : List Field) (gb gs : Group),
    build (fun _ => false) base ⟨[], []⟩ arg = some gb ∧ build (fun _ => false) sub ⟨[], []⟩ arg = some gs ∧
    ∃ f ∈ sub, target arg ⟨[], []⟩ f.name = some 11 ∧
      ∀ c : Cfg, c.group = gs → c.withAliases = doPatch (some (doPatch none gb)) gs → c.lookup f.name = none := by
  refine ⟨.callable fun n => some (n + 10), [], [⟨1, ⟨false, false⟩⟩], ⟨[], []⟩, ⟨[11], [(1, some 11)]⟩, rfl, rfl,
    ⟨1, ⟨false, false⟩⟩, .head _, rfl, ?_⟩
  intro c h1 h2
  simp [Cfg.lookup, h1, h2, doPatch]

/-- An attribute that is not a field but is called like the signal of another field reports to that
signal (`_group_descriptor.py:300-303`). -/
theorem C41_other_attribute : ∃ (fields : List Field) (arg : AliasArg) (g : Group),
    build (fun _ => false) fields ⟨[], []⟩ arg = some g ∧ 5 ∉ fields.map Field.name ∧ g.signal 5 = some 5 :=
  ⟨[⟨1, ⟨false, false⟩⟩], .mapping [(1, some 5)], _, rfl, by decide, by decide⟩

end Psygnal.DC
