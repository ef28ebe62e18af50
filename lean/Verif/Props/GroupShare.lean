import Verif.GroupShareLemmas
/-! # C62: group classes given to descriptors

For every program: `SignalGroup` classes with aliases, descriptors with `signal_group_class`, `collect_fields` and `signal_aliases`, classes
that have them, instances, accesses, connections, assignments. -/
namespace Psygnal.Sha

/-- **C62 (what an assignment does).**  The attribute gets the value; at most one event is reported, on a signal that has a listener, with
the old and the new value, and only if they differ. -/
theorem C62_truth (ops : List Op) (o f v : Nat) (x : Obj) (hx : (run ops {}).objs[o]? = some x) :
    (run (ops ++ [.set o f v]) {}).objs = (run ops {}).objs.set o { x with attrs := fun g => if g = f then v else x.attrs g } ∧
    ((run (ops ++ [.set o f v]) {}).log = (run ops {}).log ∨
      ∃ g ∈ x.heard, v ≠ x.attrs f ∧ (run (ops ++ [.set o f v]) {}).log = (run ops {}).log ++ [⟨o, g, v, x.attrs f⟩]) := by
  rw [run_append]
  generalize run ops {} = s at *
  have hs : run [.set o f v] s = assign s o f v x := by simp only [run, step, hx]
  rw [hs]
  refine ⟨(assign_rest s o f v x).2.2.2, ?_⟩
  unfold assign
  simp only
  split
  · exact .inl rfl
  · split
    · exact .inl rfl
    · rename_i g _
      split
      · rename_i hc
        exact .inr ⟨g, hc.1, hc.2, rfl⟩
      · exact .inl rfl

/-- **C62 (the documented signal), partial.**  If the group classes used by non-collecting descriptors with aliases serve one descriptor
each and have no subclasses: an assignment to the field `f` is reported on the signal that the aliases of the descriptor, then those of
its group class, then the name of the field say; on no other, and not at all if they say `None`.  In general other descriptors change
the aliases (`C62_leak_refuted`). -/
theorem C62_documented_partial (ops : List Op) (hfair : Fair (run ops {})) (o f v : Nat) (x : Obj) (ow : Owner) (d : Desc) (b : GCls)
    (hx : (run ops {}).objs[o]? = some x) (how : (run ops {}).owners[x.cls]? = some ow) (hd : (run ops {}).descs[ow.desc]? = some d)
    (hb : (run ops {}).classes[d.base]? = some b) :
    (∀ g, ((d.aliases ++ b.stated).lookup f).getD (some f) = some g → g ∈ x.heard → v ≠ x.attrs f →
      (run (ops ++ [.set o f v]) {}).log = (run ops {}).log ++ [⟨o, g, v, x.attrs f⟩]) ∧
    ((∀ g, ((d.aliases ++ b.stated).lookup f).getD (some f) = some g → g ∈ x.heard → v = x.attrs f) →
      (run (ops ++ [.set o f v]) {}).log = (run ops {}).log) := by
  have hbas := run_basic ops basic_empty
  have hinv := run_inv ops basic_empty inv_empty hfair
  rw [run_append]
  generalize run ops {} = s at *
  have hs : run [.set o f v] s = assign s o f v x := by simp only [run, step, hx]
  rw [hs]
  unfold assign
  simp only
  cases hgrp : s.groupOf x.cls with
  | none =>
    refine ⟨?_, fun _ => rfl⟩
    intro g _ hg
    obtain ⟨c, wa, hc, _⟩ := hbas.heard o x hx g hg
    rw [hgrp] at hc
    cases hc
  | some p =>
    obtain ⟨c, wa⟩ := p
    obtain ⟨ow', k, q1, q2, q3⟩ := of_group hgrp
    rw [how] at q1
    cases q1
    obtain ⟨h1, h2, _⟩ := hinv.group x.cls ow k wa d b c how q2 hd hb q3
    have hsig : signalFor c wa f = (((d.aliases ++ b.stated).lookup f).getD (some f)).bind (fun g => if g ∈ c.sigs then some g else none) := by
      unfold signalFor
      rw [← h1 f]
      cases wa with
      | true =>
        simp only [if_true]
        cases (c.aliases.lookup f).getD (some f) <;> rfl
      | false =>
        rw [h2 rfl]
        simp
    simp only [hsig]
    refine ⟨?_, ?_⟩
    · intro g hg hgh hv
      obtain ⟨c', wa', hc', hgs⟩ := hbas.heard o x hx g hgh
      rw [hgrp] at hc'
      cases hc'
      simp only [hg, Option.bind_some, hgs, if_true, hgh, ne_eq, hv, not_false_eq_true, and_self]
    · intro hno
      cases ht : ((d.aliases ++ b.stated).lookup f).getD (some f) with
      | none => rfl
      | some g =>
        rw [Option.bind_some]
        by_cases hgs : g ∈ c.sigs
        · rw [if_pos hgs]
          simp only
          rw [if_neg]
          rintro ⟨h3, h4⟩
          exact h4 (hno g ht h3)
        · rw [if_neg hgs]

/-- **C62 (the signals), partial.**  Under the same condition the group of an object has exactly the signals of its group class and, if the
descriptor collects, one for every field, under its documented name: connecting to one of these works and the listener stays, connecting
to another does nothing. -/
theorem C62_signals_partial (ops ops' : List Op) (hfair : Fair (run ops {})) (o g : Nat) (x : Obj) (ow : Owner) (d : Desc) (b : GCls)
    (hx : (run ops {}).objs[o]? = some x) (how : (run ops {}).owners[x.cls]? = some ow) (hd : (run ops {}).descs[ow.desc]? = some d)
    (hb : (run ops {}).classes[d.base]? = some b) :
    ((g ∈ b.sigs ∨ (d.collect = true ∧ ∃ f ∈ ow.fields, ((d.aliases ++ b.stated).lookup f).getD (some f) = some g)) →
      ∃ y, (run (ops ++ .connect o g :: ops') {}).objs[o]? = some y ∧ y.cls = x.cls ∧ g ∈ y.heard) ∧
    (¬ (g ∈ b.sigs ∨ (d.collect = true ∧ ∃ f ∈ ow.fields, ((d.aliases ++ b.stated).lookup f).getD (some f) = some g)) →
      (run (ops ++ [.connect o g]) {}).objs = (run ops {}).objs) := by
  have hbas := run_basic ops basic_empty
  have hinv := run_inv ops basic_empty inv_empty hfair
  rw [run_append, run_append]
  generalize run ops {} = s at *
  have hext := access_ext s x.cls
  have hbas' := access_basic hbas x.cls
  have hinv' := access_inv hbas hinv hfair x.cls
  obtain ⟨ow', k, wa, q1, q2, q3, q4⟩ := access_made hbas how
  obtain ⟨d', c, p1, p2, _⟩ := hbas'.groups x.cls ow' k wa q1 q2
  have hd' := hext.descs _ d hd
  rw [← q3, p1] at hd'
  cases hd'
  obtain ⟨b', r1, _, r2, r3, _⟩ := hext.classes _ b hb
  obtain ⟨_, _, h3⟩ := hinv'.group x.cls ow' k wa d b' c q1 q2 p1 r1 p2
  have h3 := h3 g
  rw [r2, r3, q4] at h3
  have hgrp := group_of q1 q2 p2
  have hobjs := (access_rest s x.cls).1
  refine ⟨?_, ?_⟩
  · intro hg
    have hstep : (step s (.connect o g)).objs[o]? = some { x with heard := g :: x.heard } := by
      simp only [step, hx, hgrp]
      rw [if_pos (h3.mpr hg)]
      simp only [hobjs]
      rw [List.getElem?_set, if_pos rfl, if_pos (lt_of_some hx)]
    obtain ⟨y, t1, t2, t3⟩ := run_heard ops' hstep
    exact ⟨y, t1, t2, t3 g List.mem_cons_self⟩
  · intro hg
    simp only [run, step, hx, hgrp]
    rw [if_neg (fun h => hg (h3.mp h))]
    exact hobjs

/-- **C62 (what changes a group class).**  In every program an existing group class changes only when an instance of a class with a
non-collecting descriptor for it is asked for its group, for the first time in that class; then the aliases of the descriptor go before
those it has. -/
theorem C62_effect (ops : List Op) (op : Op) (k : Nat) (c : GCls) (hk : (run ops {}).classes[k]? = some c) :
    (run (ops ++ [op]) {}).classes[k]? = some c ∨
    ∃ o x ow d, (op = .access o ∨ ∃ g, op = .connect o g) ∧ (run ops {}).objs[o]? = some x ∧ (run ops {}).owners[x.cls]? = some ow ∧
      ow.group = none ∧ (run ops {}).descs[ow.desc]? = some d ∧ d.collect = false ∧ d.base = k ∧
      (run (ops ++ [op]) {}).classes[k]? = some { c with aliases := d.aliases ++ c.aliases } := by
  rw [run_append]
  generalize run ops {} = s at *
  have acc : ∀ w : Nat, (access s w).classes[k]? = some c ∨
      ∃ ow d, s.owners[w]? = some ow ∧ ow.group = none ∧ s.descs[ow.desc]? = some d ∧ d.collect = false ∧ d.base = k ∧
        (access s w).classes[k]? = some { c with aliases := d.aliases ++ c.aliases } := by
    intro w
    have ha := access_accessed s w
    generalize access s w = s' at ha
    cases ha with
    | same => exact .inl hk
    | made ow d b _ h1 h2 h3 h4 h5 =>
      cases h5 with
      | new => exact .inl (append_some hk)
      | use hc =>
        by_cases he : d.base = k
        · refine .inr ⟨ow, d, h1, h2, h3, hc, he, ?_⟩
          simp only
          rw [List.getElem?_set, if_pos he, if_pos (by rw [he]; exact lt_of_some hk)]
          rw [he, hk] at h4
          cases h4
          rfl
        · left
          simp only
          rw [List.getElem?_set_ne he]
          exact hk
  simp only [run]
  cases op with
  | group p sigs aliases =>
    left
    cases p with
    | none => exact append_some hk
    | some p =>
      simp only [step]
      split
      · exact hk
      · exact append_some hk
  | desc base col al => left; simp only [step]; split <;> exact hk
  | owner d fs => left; simp only [step]; split <;> exact hk
  | new w => left; simp only [step]; split <;> exact hk
  | access o =>
    cases hx : s.objs[o]? with
    | none => left; simp only [step, hx]; exact hk
    | some x =>
      simp only [step, hx]
      rcases acc x.cls with h | ⟨ow, d, h1, h2, h3, h4, h5, h6⟩
      · exact .inl h
      · exact .inr ⟨o, x, ow, d, .inl rfl, hx, h1, h2, h3, h4, h5, h6⟩
  | connect o g =>
    have hcl : ∀ x, s.objs[o]? = some x → (step s (.connect o g)).classes = (access s x.cls).classes := by
      intro x hx
      simp only [step, hx]
      split
      · rfl
      · split <;> rfl
    cases hx : s.objs[o]? with
    | none => left; simp only [step, hx]; exact hk
    | some x =>
      rw [hcl x hx]
      rcases acc x.cls with h | ⟨ow, d, h1, h2, h3, h4, h5, h6⟩
      · exact .inl h
      · exact .inr ⟨o, x, ow, d, .inr ⟨g, rfl⟩, hx, h1, h2, h3, h4, h5, h6⟩
  | set o f v =>
    left
    cases hx : s.objs[o]? with
    | none => simp only [step, hx]; exact hk
    | some x => simp only [step, hx]; rw [(assign_rest s o f v x).1]; exact hk

/-- **C62 (class statements).**  A `SignalGroup` class has the signals of its base and its own, and the aliases of its base except where
its statement gives others. -/
theorem C62_statement (ops : List Op) (p : Nat) (sigs : List Nat) (aliases : Aliases) (c : GCls)
    (hp : (run ops {}).classes[p]? = some c) (hu : c.made = false) :
    ∃ c', (run (ops ++ [.group (some p) sigs aliases]) {}).classes[(run ops {}).classes.length]? = some c' ∧
      (∀ g, g ∈ c'.sigs ↔ g ∈ c.sigs ∨ g ∈ sigs) ∧
      ∀ f, c'.aliases.lookup f = ((aliases.lookup f).map some).getD (c.aliases.lookup f) := by
  rw [run_append]
  generalize run ops {} = s at *
  have hus : s.user p = some c := by
    simp only [St.user, hp, Option.bind_some, hu]
    rfl
  refine ⟨⟨c.sigs ++ sigs, aliases ++ c.aliases, aliases ++ c.stated, some p, false⟩, ?_, ?_, ?_⟩
  · simp only [run, step, hus]
    rw [List.getElem?_append_right (Nat.le_refl _)]
    simp
  · intro g
    exact List.mem_append
  · intro f
    rw [lookup_append]
    cases aliases.lookup f <;> rfl

/-! ### Examples

Fields 1, 2, 3; signals 1, 2, 3, 7. -/

/-- The log after a program. -/
def logOf (ops : List Op) : List Ev := (run ops {}).log

/-- A group class with the signal 7 and an alias for field 3; a collecting descriptor with it and an alias for field 2; a group class with
signals 1 and 7, used by a non-collecting descriptor with aliases. -/
def program : List Op :=
  [.group none [7] [(3, some 7)], .group none [1, 7] [(3, none)], .desc 0 true [(2, none)], .desc 1 false [(2, some 7)],
   .owner 0 [1, 2, 3], .owner 1 [1, 2, 3], .new 0, .new 1, .connect 0 1, .connect 0 2, .connect 0 7, .connect 1 1, .connect 1 7]

-- object 0: field 1 on its signal, field 2 nowhere, field 3 on signal 7; object 1: field 1 on its signal, field 2 on 7, field 3 nowhere
example : logOf (program ++ [.set 0 1 5, .set 0 2 5, .set 0 3 5, .set 1 1 6, .set 1 2 6, .set 1 3 6, .set 1 1 6])
    = [⟨0, 1, 5, 0⟩, ⟨0, 7, 5, 0⟩, ⟨1, 1, 6, 0⟩, ⟨1, 7, 6, 0⟩] := by decide

-- the condition of the partial theorems holds for this program
example : Fair (run program {}) := by
  intro i d hd hc ha
  have hi : i < 2 := lt_of_some hd
  match i, hi with
  | 0, _ => cases hd; cases hc
  | 1, _ =>
    cases hd
    refine ⟨?_, ?_⟩
    · intro j e he hb
      have hj : j < 2 := lt_of_some he
      match j, hj with
      | 0, _ => cases he; cases hb
      | 1, _ => rfl
    · intro k c hk
      have hkl : k < 3 := lt_of_some hk
      match k, hkl with
      | 0, _ => cases hk; decide
      | 1, _ => cases hk; decide
      | 2, _ => cases hk; decide
example : ∃ x, (run program {}).objs[1]? = some x ∧ 7 ∈ x.heard := ⟨_, rfl, by decide⟩

-- a subclass of a group class
example : ∃ c, (run program {}).classes[1]? = some c ∧ c.made = false ∧ c.sigs = [1, 7] := ⟨_, rfl, rfl, rfl⟩
example : ((run (program ++ [.group (some 1) [2] [(2, none)]]) {}).classes[3]?).map GCls.sigs = some [1, 7, 2] := by decide

/-! ### What does not hold -/

/-- Two descriptors with one group class and `collect_fields=False`: the aliases of the second become those of the first, as soon as a
group of the second class is made (`copy.deepcopy` of a class copies nothing). -/
theorem C62_leak_refuted :
    logOf [.group none [1, 7] [], .desc 0 false [(9, some 7)], .desc 0 false [(1, some 7)], .owner 0 [], .owner 1 [], .new 0, .new 1,
      .connect 0 1, .connect 0 7, .set 0 1 5] = [⟨0, 1, 5, 0⟩] ∧
    logOf [.group none [1, 7] [], .desc 0 false [(9, some 7)], .desc 0 false [(1, some 7)], .owner 0 [], .owner 1 [], .new 0, .new 1,
      .connect 0 1, .connect 0 7, .access 1, .set 0 1 5] = [⟨0, 7, 5, 0⟩] := by
  decide

/-- Which aliases count depends on which of two classes made its group last: both have an alias for field 1. -/
theorem C62_last_refuted :
    logOf [.group none [1, 7] [], .desc 0 false [(1, some 7)], .desc 0 false [(1, some 1)], .owner 0 [], .owner 1 [], .new 0, .new 1,
      .connect 0 1, .connect 0 7, .access 1, .set 0 1 5] = [⟨0, 1, 5, 0⟩] ∧
    logOf [.group none [1, 7] [], .desc 0 false [(1, some 7)], .desc 0 false [(1, some 1)], .owner 0 [], .owner 1 [], .new 0, .new 1,
      .access 1, .connect 0 1, .connect 0 7, .set 0 1 5] = [⟨0, 7, 5, 0⟩] := by
  decide

/-- A descriptor that collects, or a subclass of the group class, made later inherits the aliases: the field 1 of the second class has no
signal of its own. -/
theorem C62_inherit_refuted :
    logOf [.group none [7] [], .desc 0 false [(1, some 7)], .desc 0 true [], .owner 0 [], .owner 1 [1], .new 0, .new 1,
      .access 0, .connect 1 1, .connect 1 7, .set 1 1 5] = [⟨1, 7, 5, 0⟩] ∧
    logOf [.group none [7] [], .desc 0 false [(1, some 7)], .desc 0 true [], .owner 0 [], .owner 1 [1], .new 0, .new 1,
      .connect 1 1, .connect 1 7, .access 0, .set 1 1 5] = [⟨1, 1, 5, 0⟩] := by
  decide

/-- Whether a class looks at aliases at all is decided when its group is made: an alias that comes later is ignored. -/
theorem C62_flag_refuted :
    logOf [.group none [1, 7] [], .desc 0 false [], .desc 0 false [(1, some 7)], .owner 0 [], .owner 1 [], .new 0, .new 1,
      .connect 0 1, .connect 0 7, .access 1, .set 0 1 5] = [⟨0, 1, 5, 0⟩] ∧
    logOf [.group none [1, 7] [], .desc 0 false [], .desc 0 false [(1, some 7)], .owner 0 [], .owner 1 [], .new 0, .new 1,
      .access 1, .connect 0 1, .connect 0 7, .set 0 1 5] = [⟨0, 7, 5, 0⟩] := by
  decide

end Psygnal.Sha
