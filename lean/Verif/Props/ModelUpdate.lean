import Verif.ModelUpdateLemmas

/-! # C58: `update`, `reset` and `==` of evented models -/
namespace Psygnal
open Upd

/-- The environment of the examples.  Class 0 has the fields 0 and 1; class 1 has a field 0 (a model of class 0) and a field 1;
class 2 is derived from class 0 and has one more field, 2; field 1 of class 3 is frozen.  `==` compares dumps. -/
def c58Env : Env where
  decls := fun c => match c with
    | 0 => [⟨0, .value (.atom 1), none, false⟩, ⟨1, .value (.atom 2), none, false⟩]
    | 1 => [⟨0, .value (.model 90 0 (.cons 0 (.atom 1) (.cons 1 (.atom 2) .nil))), some 0, false⟩, ⟨1, .value (.atom 5), none, false⟩]
    | 2 => [⟨0, .value (.atom 1), none, false⟩, ⟨1, .value (.atom 2), none, false⟩, ⟨2, .value (.atom 3), none, false⟩]
    | 3 => [⟨0, .value (.atom 1), none, false⟩, ⟨1, .value (.atom 2), none, true⟩]
    | 4 => [⟨0, .value (.model 91 0 (.cons 0 (.atom 7) (.cons 1 (.atom 2) .nil))), some 0, false⟩]
    | 5 => [⟨0, .factory (.atom 4), none, false⟩]
    | 6 => [⟨0, .factory (.model 92 0 (.cons 0 (.atom 1) (.cons 1 (.atom 2) .nil))), some 0, false⟩]
    | 7 => [⟨0, .required, none, false⟩]
    | 8 => [⟨0, .value .none, some 8, false⟩]
    | _ => []
  frozen := fun _ => false
  eq := fun a b => a.dump.beq b.dump

/-- Fields 0 and 1. -/
def c58Two (x y : Val) : Flds := .cons 0 x (.cons 1 y .nil)

theorem c58Env_faithful : Faithful c58Env := fun _ _ _ _ h => beq_eq.mpr h

/-! ## `update` -/

/-- **C58 (when `update` succeeds).**  `update(values)` raises no exception exactly if every name in `values` is that of a field and,
where that holds a model (and `recurse`), updating this model succeeds, otherwise the field is not frozen. -/
theorem C58_succeeds {e : Env} {r : Bool} {i c : Nat} {fs vs : Flds} (hn : vs.names.Nodup) :
    (update e r i c fs (.dict vs)).err = none ↔ ∀ k v, vs.get k = some v → ∃ x, fs.get k = some x ∧ match x, r with
      | .model j c' gs, true => (update e true j c' gs v).err = none
      | _, _ => e.fixed c k = false := by
  unfold update
  simp only [upd]
  rw [loop_err_none hn]
  have : ∀ k x v, (cellErr e r false c k x v = none ↔ match x, r with
      | .model j c' gs, true => (upd e true false j c' gs v).err = none
      | _, _ => e.fixed c k = false) := by
    intro k x v
    unfold cellErr
    cases x <;> cases r <;> simp
  simp only [this]

/-- **C58 (which fields can be assigned).**  `update` with one value for a field, without `recurse`, raises pydantic's exception exactly
if the class is frozen or the field is declared as frozen (and does nothing then); otherwise the field has the value. -/
theorem C58_assignable {e : Env} {i c k : Nat} {fs : Flds} {x : Val} (v : Val) (hk : fs.get k = some x)
    (hn : ((e.decls c).map Decl.name).Nodup) :
    ((update e false i c fs (.dict (.cons k v .nil))).err = some .frozen ↔
      e.frozen c = true ∨ ∃ d ∈ e.decls c, d.name = k ∧ d.frozen = true) ∧
    ((update e false i c fs (.dict (.cons k v .nil))).err = some .frozen →
      (update e false i c fs (.dict (.cons k v .nil))).fs = fs ∧ (update e false i c fs (.dict (.cons k v .nil))).log = []) ∧
    ((update e false i c fs (.dict (.cons k v .nil))).err ≠ some .frozen →
      (update e false i c fs (.dict (.cons k v .nil))).err = none ∧
      (update e false i c fs (.dict (.cons k v .nil))).fs = fs.set k v) := by
  have hf : e.fixed c k = true ↔ e.frozen c = true ∨ ∃ d ∈ e.decls c, d.name = k ∧ d.frozen = true := by
    unfold Env.fixed Env.decl
    rw [Bool.or_eq_true]
    refine or_congr Iff.rfl ?_
    generalize e.decls c = ds at hn
    induction ds with
    | nil => simp
    | cons d ds ih =>
      rw [List.map_cons, List.nodup_cons] at hn
      rw [List.find?_cons]
      by_cases hd : d.name = k
      · simp only [hd, beq_self_eq_true, Option.map_some, Option.getD_some]
        constructor
        · exact fun h => ⟨d, .head _, hd, h⟩
        · rintro ⟨d', hd', h1, h2⟩
          rcases List.mem_cons.mp hd' with rfl | h
          · exact h2
          · exact absurd (List.mem_map.mpr ⟨d', h, h1.trans hd.symm⟩) hn.1
      · simp only [beq_eq_false_iff_ne.mpr hd]
        rw [ih hn.2]
        constructor
        · rintro ⟨d', h, h'⟩
          exact ⟨d', .tail _ h, h'⟩
        · rintro ⟨d', h, h1, h2⟩
          rcases List.mem_cons.mp h with rfl | h
          · exact absurd h1 hd
          · exact ⟨d', h, h1, h2⟩
  rw [← hf]
  have hr : update e false i c fs (.dict (.cons k v .nil)) = (let a := assign e i c k x v fs
      match a.err with
      | some x => ⟨a.fs, a.log, some x⟩
      | Option.none => ⟨a.fs, a.log ++ [], none⟩) := by
    unfold update
    simp only [upd, loop, hk, Bool.false_eq_true, if_false]
    rfl
  rw [hr]
  unfold assign
  cases hx : e.fixed c k with
  | true => simp
  | false => cases pyeq e x v <;> simp

/-- A case for `C58_assignable`: field 0 of class 3 can be assigned, field 1, which is frozen, cannot. -/
example : (update c58Env false 7 3 (c58Two (.atom 1) (.atom 2)) (.dict (.cons 1 (.atom 5) .nil))).err = some .frozen ∧
    (update c58Env false 7 3 (c58Two (.atom 1) (.atom 2)) (.dict (.cons 0 (.atom 5) .nil))).err = none :=
  ⟨(C58_assignable (e := c58Env) (c := 3) (k := 1) (x := .atom 2) _ rfl (by decide)).1.mpr (.inr ⟨_, .tail _ (.head _), rfl, rfl⟩),
    ((C58_assignable (e := c58Env) (c := 3) (k := 0) (x := .atom 1) _ rfl (by decide)).2.2 (by decide)).1⟩

/-- **C58 (what `update` does).**  After a successful `update(values)` every field that is not named in `values` is as before, a
field that held a model (with `recurse`) holds the same model, updated in the same way, every other field holds the value. -/
theorem C58_fields {e : Env} {r : Bool} {i c : Nat} {fs vs : Flds} (hn : vs.names.Nodup) (h : (update e r i c fs (.dict vs)).err = none) (k : Nat) :
    (update e r i c fs (.dict vs)).fs.get k = match vs.get k, fs.get k with
      | some v, some (.model j c' gs) => if r then some (.model j c' (update e true j c' gs v).fs) else some v
      | some v, some _ => some v
      | _, y => y := by
  unfold update at h ⊢
  simp only [upd] at h ⊢
  rw [loop_get hn h k]
  cases vs.get k with
  | none => rfl
  | some v =>
    cases fs.get k with
    | none => rfl
    | some x => cases x <;> cases r <;> simp [cell]

/-- **C58 (what listeners are told by `update`).**  During a successful `update(values)`, in the order of `values`: for each field
that held a model (with `recurse`) what updating this model tells, for every other one its new value once if that is not equal to
the old one, nothing otherwise. -/
theorem C58_events {e : Env} {r : Bool} {i c : Nat} {fs vs : Flds} (hn : vs.names.Nodup) (h : (update e r i c fs (.dict vs)).err = none) :
    (update e r i c fs (.dict vs)).log.map (fun ev => (ev.i, ev.k, ev.v)) = vs.list.flatMap fun (k, v) => match fs.get k, r with
      | some (.model j c' gs), true => (update e true j c' gs v).log.map (fun ev => (ev.i, ev.k, ev.v))
      | some x, _ => if pyeq e x v then [] else [(i, k, v)]
      | none, _ => [] := by
  unfold update at h ⊢
  simp only [upd] at h ⊢
  rw [show (fun ev : Ev => (ev.i, ev.k, ev.v)) = Ev.key from rfl, loop_told hn h]
  congr 1
  funext ⟨k, v⟩
  simp only
  cases fs.get k with
  | none => cases r <;> rfl
  | some x => cases x <;> cases r <;> simp [told]

/-- **C58 (what listeners see).**  When a listener is told about a field, the field of the model has the value it is told. -/
theorem C58_seen {e : Env} {r : Bool} {i c : Nat} {fs : Flds} {v : Val} : ∀ ev ∈ (update e r i c fs v).log, ev.seen.get ev.k = some ev.v :=
  upd_seen e r false v i c fs

/-- **C58 (an exception in `update`).**  If `update(values)` raises an exception, then at a name `k` of `values` before which all
went well: what was assigned before stays and listeners have been told; nothing after `k` is assigned; field `k` itself keeps its
value if it is not an updated model.  The exception is `AttributeError` if there is no such field and that of pydantic if it is frozen. -/
theorem C58_stops {e : Env} {r : Bool} {i c : Nat} {fs vs : Flds} {er : Err} (h : (update e r i c fs (.dict vs)).err = some er) :
    ∃ vs1 k v vs2, vs = vs1.app (.cons k v vs2) ∧ (update e r i c fs (.dict vs1)).err = none ∧
      (update e r i c fs (.dict vs1)).log <+: (update e r i c fs (.dict vs)).log ∧
      (∀ m, m ≠ k → (update e r i c fs (.dict vs)).fs.get m = (update e r i c fs (.dict vs1)).fs.get m) ∧
      (∀ x, (update e r i c fs (.dict vs1)).fs.get k = some x → (∀ j c' gs, x = .model j c' gs → r = false) →
        e.fixed c k = true ∧ er = .frozen ∧ (update e r i c fs (.dict vs)).fs.get k = some x) ∧
      ((update e r i c fs (.dict vs1)).fs.get k = none → er = .attr) := by
  unfold update at h ⊢
  simp only [upd] at h ⊢
  exact loop_stops h

/-- **C58 (values given as a model).**  `a.update(b)` is `a.update(b.model_dump())`; anything that is neither a dict nor a model
raises `TypeError` and does nothing. -/
theorem C58_model {e : Env} {r : Bool} {i c : Nat} {fs : Flds} :
    (∀ j c' vs, update e r i c fs (.model j c' vs) = update e r i c fs (.dict vs.dump)) ∧
    (∀ v : Val, v.isModel = false → (∀ vs, v ≠ .dict vs) → update e r i c fs v = ⟨fs, [], some .type⟩) := by
  constructor
  · intro j c' vs
    unfold update
    simp only [upd]
    exact loop_dump e r vs i c fs
  · intro v h1 h2
    cases v with
    | dict vs => exact absurd rfl (h2 vs)
    | model _ _ _ => simp [Val.isModel] at h1
    | _ => rfl

/-- **C58 (`a.update(b)`).**  If `a` and `b` have the same structure (models of the same classes at the same places, fields that are
not models not frozen), `a.update(b)` succeeds; afterwards the dumps of `a` and `b` are the same, the models in `a` are the same
objects as before and `a == b`, `b == a`. -/
theorem C58_copy {e : Env} {i c : Nat} {fs : Flds} {b : Val} (h : (Val.model i c fs).like e b = true) :
    (update e true i c fs b).err = none ∧ (Val.model i c (update e true i c fs b).fs).dump = b.dump ∧
    (Val.model i c (update e true i c fs b).fs).skel = (Val.model i c fs).skel ∧
    (Faithful e → pyeq e (.model i c (update e true i c fs b).fs) b = true ∧ pyeq e b (.model i c (update e true i c fs b).fs) = true) := by
  have hb : ∃ j c' vs, b = .model j c' vs := by
    apply model_of
    rw [← like_nonmodel h]
    rfl
  obtain ⟨j, c', vs, rfl⟩ := hb
  have h1 := follows e (.model j c' vs) i c fs h
  have h2 : update e true i c fs (.model j c' vs) = upd e true true i c fs (.model j c' vs) := by
    unfold update
    simp only [upd]
  rw [h2]
  refine ⟨h1.1, h1.2.1, h1.2.2, fun he => ?_⟩
  have h3 := like_skel (Nat.le_refl _) h1.2.2.symm h
  exact ⟨pyeq_of_dump he h3 h1.2.1, pyeq_of_dump he (like_symm (Nat.le_refl _) h3) h1.2.1.symm⟩

/-- **C58 (nothing new).**  `a.update(b)` tells nobody if the dumps are the same already: in particular `a.update(a)`, and
`a.update(b)` the second time. -/
theorem C58_quiet {e : Env} (he : Faithful e) {i c : Nat} {fs : Flds} {b : Val} (h : (Val.model i c fs).like e b = true) :
    ((Val.model i c fs).dump = b.dump → (update e true i c fs b).log = []) ∧
    (update e true i c (update e true i c fs b).fs b).log = [] := by
  have hb : ∃ j c' vs, b = .model j c' vs := by
    apply model_of
    rw [← like_nonmodel h]
    rfl
  obtain ⟨j, c', vs, rfl⟩ := hb
  have h2 : ∀ fs, update e true i c fs (.model j c' vs) = upd e true true i c fs (.model j c' vs) := by
    intro fs
    unfold update
    simp only [upd]
  have h1 := C58_copy h
  refine ⟨fun hd => ?_, ?_⟩
  · rw [h2]
    exact quiet he _ i c fs h hd
  · rw [h2]
    exact quiet he _ i c _ (like_skel (Nat.le_refl _) h1.2.2.1.symm h) h1.2.1

/-- Names and values are as they were, an event is told, an error raised. -/
def c58See (u : Res) (fs : Flds) (log : List (Nat × Nat × Val)) (err : Option Err) : Bool :=
  u.fs.beq fs && (u.log.map (fun ev => (ev.i, ev.k)) == log.map (fun p => (p.1, p.2.1))) &&
    ((u.log.zip log).all fun p => p.1.v.beq p.2.2.2) && decide (u.err = err)

/-- A case for `C58_succeeds`, `C58_fields`, `C58_events`, `C58_seen`: model 10 holds model 11; both are updated, the unchanged field
1 of model 11 is not told. -/
example : c58See (update c58Env true 10 1 (c58Two (.model 11 0 (c58Two (.atom 1) (.atom 2))) (.atom 5))
      (.dict (c58Two (.dict (c58Two (.atom 8) (.atom 2))) (.atom 9))))
    (c58Two (.model 11 0 (c58Two (.atom 8) (.atom 2))) (.atom 9)) [(11, 0, .atom 8), (10, 1, .atom 9)] none = true := by decide

/-- A case for `C58_stops`: field 7 does not exist. -/
example : c58See (update c58Env true 10 0 (c58Two (.atom 1) (.atom 2)) (.dict (.cons 1 (.atom 6) (.cons 7 (.atom 0) (.cons 0 (.atom 9) .nil)))))
    (c58Two (.atom 1) (.atom 6)) [(10, 1, .atom 6)] (some .attr) = true := by decide

/-- A case for `C58_copy` and `C58_quiet`: two models of class 1 with different values. -/
example : (Val.model 10 1 (c58Two (.model 11 0 (c58Two (.atom 1) (.atom 2))) (.atom 5))).like c58Env
      (.model 20 1 (c58Two (.model 21 0 (c58Two (.atom 8) (.atom 2))) (.atom 9))) = true ∧
    c58See (update c58Env true 10 1 (c58Two (.model 11 0 (c58Two (.atom 1) (.atom 2))) (.atom 5))
      (.model 20 1 (c58Two (.model 21 0 (c58Two (.atom 8) (.atom 2))) (.atom 9))))
      (c58Two (.model 11 0 (c58Two (.atom 8) (.atom 2))) (.atom 9)) [(11, 0, .atom 8), (10, 1, .atom 9)] none = true ∧
    Faithful c58Env := ⟨by decide, by decide, c58Env_faithful⟩

/-- **C58, refuted in general:** `update` is not all or nothing: with a frozen field after another one, the first is changed and told
although `update` raises an exception. -/
theorem C58_atomic_refuted : ¬ ∀ (e : Env) (r : Bool) (i c : Nat) (fs : Flds) (v : Val), (update e r i c fs v).err ≠ none →
    (update e r i c fs v).fs = fs ∧ (update e r i c fs v).log = [] := by
  intro h
  have h1 := (h c58Env true 10 3 (c58Two (.atom 1) (.atom 2)) (.dict (c58Two (.atom 6) (.atom 7))) (by decide)).1
  rw [← beq_eqF] at h1
  exact absurd h1 (by decide)

/-- **C58, refuted in general:** listeners are not told after the update is complete: those of the first field (and of the group,
see `C21_pause_ineffective`) still see the old value of the second. -/
theorem C58_together_refuted : ¬ ∀ (e : Env) (r : Bool) (i c : Nat) (fs : Flds) (v : Val), (update e r i c fs v).err = none →
    ∀ ev ∈ (update e r i c fs v).log, ev.i = i → ev.seen = (update e r i c fs v).fs := by
  intro h
  have h1 := h c58Env true 10 0 (c58Two (.atom 1) (.atom 2)) (.dict (c58Two (.atom 6) (.atom 7))) (by decide)
    ⟨10, 0, .atom 6, c58Two (.atom 6) (.atom 2)⟩ List.mem_cons_self rfl
  rw [← beq_eqF] at h1
  exact absurd h1 (by decide)

/-- **C58, refuted in general:** `a.update(b)` does not always take over the models of `b`: without `recurse`, and if the field of `a`
is `None`, the field becomes a dict (which compares equal to the model). -/
theorem C58_dict_refuted :
    c58See (update c58Env false 10 1 (c58Two (.model 11 0 (c58Two (.atom 1) (.atom 2))) (.atom 5))
        (.model 20 1 (c58Two (.model 21 0 (c58Two (.atom 8) (.atom 2))) (.atom 5))))
      (c58Two (.dict (c58Two (.atom 8) (.atom 2))) (.atom 5)) [(10, 0, .dict (c58Two (.atom 8) (.atom 2)))] none = true ∧
    c58See (update c58Env true 10 1 (c58Two .none (.atom 5)) (.model 20 1 (c58Two (.model 21 0 (c58Two (.atom 8) (.atom 2))) (.atom 5))))
      (c58Two (.dict (c58Two (.atom 8) (.atom 2))) (.atom 5)) [(10, 0, .dict (c58Two (.atom 8) (.atom 2)))] none = true ∧
    pyeq c58Env (.model 10 1 (c58Two (.dict (c58Two (.atom 8) (.atom 2))) (.atom 5)))
      (.model 20 1 (c58Two (.model 21 0 (c58Two (.atom 8) (.atom 2))) (.atom 5))) = true := by decide

/-- **C58, refuted in general:** `a.update(b)` of two models of one class can raise `TypeError`: a field is a model in `a` and `None`
in `b`. -/
theorem C58_none_refuted :
    c58See (update c58Env true 10 1 (c58Two (.model 11 0 (c58Two (.atom 1) (.atom 2))) (.atom 5)) (.model 20 1 (c58Two .none (.atom 6))))
      (c58Two (.model 11 0 (c58Two (.atom 1) (.atom 2))) (.atom 5)) [] (some .type) = true := by decide

/-! ## `==` -/

/-- **C58 (`==`).**  Among models of the same structure, `==` is reflexive, symmetric and transitive if it is so for other values. -/
theorem C58_eq {e : Env} {a b c : Val} (h : a.like e b = true) (h' : b.like e c = true) :
    (Faithful e → pyeq e a a = true) ∧ ((∀ x y, e.eq x y = e.eq y x) → pyeq e a b = pyeq e b a) ∧
    ((∀ x y z, e.eq x y = true → e.eq y z = true → e.eq x z = true) → pyeq e a b = true → pyeq e b c = true → pyeq e a c = true) :=
  ⟨fun he => pyeq_of_dump he (like_trans (Nat.le_refl _) h (like_symm (Nat.le_refl _) h)) rfl, fun he => pyeq_symm he h,
    fun he => pyeq_trans he h h'⟩

/-- **C58 (`==` is decided by the fields).**  Two models of the same structure are equal exactly if, field by field, the values are. -/
theorem C58_eq_fields {e : Env} {i j c : Nat} {fs gs : Flds} (h : (Val.model i c fs).like e (.model j c gs) = true) :
    pyeq e (.model i c fs) (.model j c gs) = true ↔ ∀ k a b, fs.get k = some a → gs.get k = some b → pyeq e b a = true := by
  simp only [Val.like, Bool.and_eq_true] at h
  have hi := like_iff.mp h.2
  have h1 : pyeq e (.model i c fs) (.model j c gs) = feq (veq e (fs.depth + gs.depth)) gs fs := by
    rw [pyeq_at (n := (fs.depth + gs.depth + 1) + 1) (by simp only [Val.depth]; omega)]
    simp only [veq]
    rw [Bool.eq_iff_iff, feq_iff hi.2.1, feq_iff hi.2.1]
    have : ∀ k a b, fs.get k = some a → gs.get k = some b → veq e (fs.depth + gs.depth + 1) b a = veq e (fs.depth + gs.depth) b a := by
      intro k a b ha hb
      have := get_depth ha
      have := get_depth hb
      exact veq_more (by omega) (by omega) (by omega)
    constructor
    · intro h k a ha
      obtain ⟨b, hb, h2⟩ := h k a ha
      exact ⟨b, hb, by rw [← this k a b ha hb]; exact h2⟩
    · intro h k a ha
      obtain ⟨b, hb, h2⟩ := h k a ha
      exact ⟨b, hb, by rw [this k a b ha hb]; exact h2⟩
  rw [h1, feq_iff hi.2.1]
  constructor
  · intro h2 k a b ha hb
    obtain ⟨b', hb', h3⟩ := h2 k a ha
    rw [hb] at hb'; cases hb'
    have := get_depth ha
    have := get_depth hb
    rw [pyeq_at (n := fs.depth + gs.depth) (by omega)]
    exact h3
  · intro h2 k a ha
    obtain ⟨b, hb, _⟩ := like_get h.2 ha
    have := get_depth ha
    have := get_depth hb
    refine ⟨b, hb, ?_⟩
    rw [← pyeq_at (n := fs.depth + gs.depth) (by omega)]
    exact h2 k a b ha hb

/-- A case for `C58_eq` and `C58_eq_fields`. -/
example : (Val.model 10 1 (c58Two (.model 11 0 (c58Two (.atom 1) (.atom 2))) (.atom 5))).like c58Env
      (.model 20 1 (c58Two (.model 21 0 (c58Two (.atom 1) (.atom 2))) (.atom 5))) = true ∧
    pyeq c58Env (.model 10 1 (c58Two (.model 11 0 (c58Two (.atom 1) (.atom 2))) (.atom 5)))
      (.model 20 1 (c58Two (.model 21 0 (c58Two (.atom 1) (.atom 2))) (.atom 5))) = true ∧
    pyeq c58Env (.model 10 1 (c58Two (.model 11 0 (c58Two (.atom 1) (.atom 2))) (.atom 5)))
      (.model 20 1 (c58Two (.model 21 0 (c58Two (.atom 1) (.atom 3))) (.atom 5))) = false := by decide

/-- **C58, refuted in general:** `==` is not symmetric: a model of a base class is equal to one of a derived class with more fields,
but not the other way round. -/
theorem C58_symm_refuted : ¬ ∀ (e : Env), (∀ x y, e.eq x y = e.eq y x) → ∀ a b, pyeq e a b = pyeq e b a := by
  intro h
  have hs : ∀ x y, c58Env.eq x y = c58Env.eq y x := by
    intro x y
    show x.dump.beq y.dump = y.dump.beq x.dump
    rw [Bool.eq_iff_iff, beq_eq, beq_eq]
    exact eq_comm
  exact absurd (h c58Env hs (.model 10 0 (c58Two (.atom 1) (.atom 2)))
    (.model 20 2 (.cons 0 (.atom 1) (.cons 1 (.atom 2) (.cons 2 (.atom 3) .nil))))) (by decide)

/-! ## `reset` -/

/-- **C58 (when `reset` succeeds).**  If the defaults can be computed, `reset()` raises no exception exactly if every field whose
default is a model holds a model whose `reset()` succeeds. -/
theorem C58_reset_succeeds {e : Env} {n i c : Nat} {fs : Flds} (hn : fs.names.Nodup) (hd : ∀ d ∈ e.decls c, (default e n d).isSome = true) :
    (resetV e n (.model i c fs)).2.2 = none ↔ ∀ k x, fs.get k = some x → ∀ d j c' ws, e.decl c k = some d →
      default e n d = some (.model j c' ws) → (resetV e n x).2.2 = none := by
  rw [resetV, if_pos (List.all_eq_true.mpr hd)]
  simp only
  rw [(resetF_spec hn (fun _ _ h => h)).1]
  have : ∀ k x, rerr e n c k x = none ↔ ∀ d j c' ws, e.decl c k = some d → default e n d = some (.model j c' ws) → (resetV e n x).2.2 = none := by
    intro k x
    unfold rerr
    cases hk : e.decl c k with
    | none => simp
    | some d =>
      simp only [Option.bind_some]
      constructor
      · intro h d' j c' ws hd' hv
        cases hd'
        rw [hv] at h
        exact h
      · intro h
        split
        · rename_i j c' ws hv
          exact h d j c' ws rfl hv
        · rfl
  simp only [this]

/-- **C58 (what `reset` does).**  After a successful `reset()` a field whose default is a model holds the same model, reset; every
other field that is not frozen holds its default. -/
theorem C58_reset_fields {e : Env} {n i c : Nat} {fs : Flds} (hn : fs.names.Nodup) (hd : ∀ d ∈ e.decls c, (default e n d).isSome = true)
    (h : (resetV e n (.model i c fs)).2.2 = none) :
    ∃ fs', (resetV e n (.model i c fs)).1 = .model i c fs' ∧ fs'.names = fs.names ∧
      ∀ k x d v, fs.get k = some x → e.decl c k = some d → default e n d = some v →
        fs'.get k = some (if v.isModel then (resetV e n x).1 else if e.fixed c k then x else v) := by
  rw [resetV, if_pos (List.all_eq_true.mpr hd)] at h ⊢
  simp only at h ⊢
  refine ⟨_, rfl, resetF_names, fun k x d v hx hk hv => ?_⟩
  rw [((resetF_spec hn (fun _ _ h => h)).2 h).1 k, hx]
  simp only [Option.some.injEq]
  unfold rval
  rw [hk, Option.bind_some, hv]
  cases v <;> simp [Val.isModel]

/-- **C58 (what listeners are told by `reset`).**  In the order of the fields: where the default is a model, what the reset of the model
in the field tells, for every other field its default once if that is not equal to the old value and the field is not frozen; and
when they are told, the field has that value. -/
theorem C58_reset_events {e : Env} {n i c : Nat} {fs : Flds} (hn : fs.names.Nodup) (hd : ∀ d ∈ e.decls c, (default e n d).isSome = true)
    (h : (resetV e n (.model i c fs)).2.2 = none) :
    (resetV e n (.model i c fs)).2.1.map (fun ev => (ev.i, ev.k, ev.v)) = (fs.list.flatMap fun (k, x) =>
      match (e.decl c k).bind (default e n) with
      | some v => if v.isModel then (resetV e n x).2.1.map (fun ev => (ev.i, ev.k, ev.v))
        else if e.fixed c k || pyeq e x v then [] else [(i, k, v)]
      | none => []) ∧
    ∀ ev ∈ (resetV e n (.model i c fs)).2.1, ev.seen.get ev.k = some ev.v := by
  refine ⟨?_, resetV_seen e n _⟩
  rw [resetV, if_pos (List.all_eq_true.mpr hd)] at h ⊢
  simp only at h ⊢
  rw [show (fun ev : Ev => (ev.i, ev.k, ev.v)) = Ev.key from rfl, ((resetF_spec hn (fun _ _ h => h)).2 h).2]
  congr 1
  funext ⟨k, x⟩
  simp only
  unfold rtold
  cases (e.decl c k).bind (default e n) with
  | none => rfl
  | some v => cases v <;> simp [Val.isModel]

/-- **C58 (`reset` restores the defaults; partial).**  If nothing is frozen, every default is a value, and every default that is a
model is as its class makes it and sits at a field that holds a model of that class (`Val.plain`), then `reset()` succeeds, and
afterwards the model dumps as a new one of its class; a second `reset()` tells nobody. Missing: the other cases, where it is false
(see below). -/
theorem C58_reset_partial {e : Env} {n i c : Nat} {fs : Flds} (h : (Val.model i c fs).plain e = true) (g : Nat → Val) :
    (resetV e (n + 1) (.model i c fs)).2.2 = none ∧ ∃ fs', (resetV e (n + 1) (.model i c fs)).1 = .model i c fs' ∧
      fs'.dump = (fresh e c g).dump ∧ (Faithful e → (resetV e (n + 1) (.model i c fs')).2.1 = []) := by
  obtain ⟨h1, ⟨fs', h2, h3, h4⟩, _⟩ := back e n _ i c fs rfl h g
  exact ⟨h1, fs', h2, h3, fun he => (back e n _ i c fs' rfl h4 g).2.2 he h3⟩

/-- What is observed of a reset. -/
def c58Reset (n : Nat) (m : Val) (m' : Val) (log : List (Nat × Nat)) (err : Option Err) : Bool :=
  (resetV c58Env n m).1.beq m' && ((resetV c58Env n m).2.1.map (fun ev => (ev.i, ev.k)) == log) && decide ((resetV c58Env n m).2.2 = err)

/-- A case for the four theorems above: a model with a model in it, both changed. -/
example : (Val.model 10 1 (c58Two (.model 11 0 (c58Two (.atom 8) (.atom 2))) (.atom 9))).plain c58Env = true ∧
    c58Reset 3 (.model 10 1 (c58Two (.model 11 0 (c58Two (.atom 8) (.atom 2))) (.atom 9)))
      (.model 10 1 (c58Two (.model 11 0 (c58Two (.atom 1) (.atom 2))) (.atom 5))) [(11, 0), (10, 1)] none = true ∧
    ∀ d ∈ c58Env.decls 1, (default c58Env 3 d).isSome = true := by
  refine ⟨by decide, by decide, ?_⟩
  intro d hd
  simp [c58Env] at hd
  rcases hd with rfl | rfl <;> rfl

/-- **C58, refuted in general:** `reset` does not restore what a new model has.  The default of a field is a model other than its class
makes it (7 instead of 1); a `default_factory` is not called: the field becomes `None`, or a dict of defaults if the annotation is a
model class; a field without default becomes pydantic's marker `PydanticUndefined`. -/
theorem C58_defaults_refuted :
    (c58Reset 3 (.model 10 4 (fresh c58Env 4 (fun _ => .undef))) (.model 10 4 (.cons 0 (.model 91 0 (c58Two (.atom 1) (.atom 2))) .nil)) [(91, 0)] none = true ∧
      (fresh c58Env 4 (fun _ => .undef)).beq (.cons 0 (.model 91 0 (c58Two (.atom 7) (.atom 2))) .nil) = true) ∧
    (c58Reset 3 (.model 10 5 (fresh c58Env 5 (fun _ => .undef))) (.model 10 5 (.cons 0 .none .nil)) [(10, 0)] none = true ∧
      (fresh c58Env 5 (fun _ => .undef)).beq (.cons 0 (.atom 4) .nil) = true) ∧
    (c58Reset 3 (.model 10 6 (fresh c58Env 6 (fun _ => .undef))) (.model 10 6 (.cons 0 (.dict (c58Two (.atom 1) (.atom 2))) .nil)) [] none = true ∧
      (fresh c58Env 6 (fun _ => .undef)).beq (.cons 0 (.model 92 0 (c58Two (.atom 1) (.atom 2))) .nil) = true) ∧
    c58Reset 3 (.model 10 7 (fresh c58Env 7 (fun _ => .atom 3))) (.model 10 7 (.cons 0 .undef .nil)) [(10, 0)] none = true := by decide

/-- **C58, refuted in general:** `reset` can fail: with `AttributeError` if a field whose default is a model is `None` now (fields
before it have been reset), and with `RecursionError`, whatever the recursion limit, if a field with default `None` is annotated with
its own class. -/
theorem C58_reset_fails_refuted :
    c58Reset 3 (.model 10 1 (c58Two .none (.atom 9))) (.model 10 1 (c58Two .none (.atom 9))) [] (some .attr) = true ∧
    ∀ n, (resetV c58Env n (.model 10 8 (.cons 0 .none .nil))).2.2 = some .recursion := by
  refine ⟨by decide, fun n => ?_⟩
  have h : ∀ n, default c58Env n ⟨0, .value .none, some 8, false⟩ = none := by
    intro n
    induction n with
    | zero => rfl
    | succ n ih =>
      rw [Upd.default]
      show Option.map Val.dict (List.foldr _ (some .nil) [(⟨0, .value .none, some 8, false⟩ : Decl)]) = none
      rw [List.foldr_cons, List.foldr_nil, ih]
      rfl
  have h1 : ((c58Env.decls 8).all fun d => (default c58Env n d).isSome) = false := by
    show ([(⟨0, .value .none, some 8, false⟩ : Decl)].all fun d => (default c58Env n d).isSome) = false
    simp [h]
  rw [resetV, h1]
  rfl

end Psygnal
