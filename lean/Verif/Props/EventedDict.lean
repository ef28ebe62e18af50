import Verif.EventedDictEvents
import Verif.EventedDictRef

/-!
# `EventedDict`: C30
-/

namespace Psygnal.ED
open Psygnal.Py (M Err)

variable {K V : Type} [DecidableEq K] [DecidableEq V] {c : Cfg K V} [c.Passive]

/-- **C30**, first part (partial).  For every sequence of operations other than `popitem` and `reversed`, starting with
an empty dict (the constructor is an `update`): with listeners that do not raise, an `EventedDict` gives the same
results and raises the same errors as a built-in dict (that takes only values passing the check of the base types),
operation by operation, and holds the same items in the same order.  Missing, and false: `popitem`, `reversed`. -/
theorem C30_run_partial (hq : c.Quiet) (ops : List (Op K V)) (h1 : Op.popItem ∉ ops) (h2 : Op.reversed ∉ ops) :
    (run c ops { dict := [] }).1 = (pyRun c.hashable c.okType ops []).1 ∧
    (run c ops { dict := [] }).2.dict = (pyRun c.hashable c.okType ops []).2 := by
  suffices ∀ (ops : List (Op K V)) (s : St K V), Op.popItem ∉ ops → Op.reversed ∉ ops → Good c s.dict →
      (run c ops s).1 = (pyRun c.hashable c.okType ops s.dict).1 ∧
      (run c ops s).2.dict = (pyRun c.hashable c.okType ops s.dict).2 from
    this ops { dict := [] } h1 h2 ⟨by simp, by simp, by simp⟩
  intro ops
  induction ops with
  | nil => exact fun _ _ _ _ => ⟨rfl, rfl⟩
  | cons op ops ih =>
    intro s h1 h2 hg
    simp only [List.mem_cons, not_or] at h1 h2
    obtain ⟨h3, h4⟩ := step_quiet hq hg op (Ne.symm h1.1) (Ne.symm h2.1)
    obtain ⟨h5, h6⟩ := ih (step c op s).2 h1.2 h2.2 (by rw [h4]; exact pyStep_good op hg)
    rw [h4] at h5 h6
    simp [run, pyRun, h3, h5, h6]

/-- **C30**, first part (partial), against a description of dicts that shares nothing with the model: the values are a function of the
keys, and the keys are in the order of insertion.  Same conditions and same exceptions as for `C30_run_partial`. -/
theorem C30_reference_partial (hq : c.Quiet) (ops : List (Op K V)) (h1 : Op.popItem ∉ ops) (h2 : Op.reversed ∉ ops) :
    (run c ops { dict := [] }).1 = (refRun c.hashable c.okType ops ⟨fun _ => none, []⟩).1 ∧
    (run c ops { dict := [] }).2.dict.map Prod.fst = (refRun c.hashable c.okType ops ⟨fun _ => none, []⟩).2.order ∧
    ∀ k v, (k, v) ∈ (run c ops { dict := [] }).2.dict ↔ (refRun c.hashable c.okType ops ⟨fun _ => none, []⟩).2.val k = some v := by
  obtain ⟨e1, e2⟩ := C30_run_partial hq ops h1 h2
  obtain ⟨e3, e4⟩ := Rep.run (h := c.hashable) (ok := c.okType) ops (r := ⟨fun _ => none, []⟩) (d := []) ⟨rfl, by simp, fun _ => rfl⟩
  refine ⟨e1.trans e3, by rw [e2, e4.order], fun k v => ?_⟩
  rw [e2, ← e4.items]
  simp only [Ref.items, List.mem_filterMap, Option.map_eq_some_iff, Prod.mk.injEq]
  constructor
  · rintro ⟨k', -, v', h, rfl, rfl⟩
    exact h
  · intro h
    refine ⟨k, ?_, v, h, rfl, rfl⟩
    rw [← e4.order, ← lookup_isSome, e4.val, h]
    rfl

/-- The value last assigned to a key is the one found there, and keys stay where they were inserted: a run of the reference. -/
example : (refRun (fun k => decide (k < 100)) (fun v => decide (v < 50))
    [.setItem 1 10, .setItem 2 20, .setItem 1 11, .update [(3, 30), (4, 99), (5, 5)], .delItem 2, .setItem 2 21, .popItem, .pop 3 none,
      .setDefault 6 60, .setItem 100 1, .items] ⟨fun _ => none, []⟩).1.map Except.toOption =
    [some .unit, some .unit, some .unit, none, some .unit, some .unit, some (.item 2 21), some (.val 30), none, none, some (.items [(1, 11)])] := by
  decide

/-- The keys of an `EventedDict` are always distinct, whatever the listeners do. -/
theorem C30_keys_distinct (ops : List (Op K V)) : ((run c ops { dict := [] }).2.dict.map Prod.fst).Nodup := by
  have h := (run_told ops Eff.refl : Told [] (run c ops { dict := [] }).2)
  have key : ∀ log d', Eff ([] : List (K × V)) log d' → (d'.map Prod.fst).Nodup := by
    intro log d' h
    induction h with
    | refl => simp
    | adding k _ ih | removing k _ ih | changing k _ ih => exact ih
    | @added _ d1 k v _ hl ih =>
      rw [put_new (lookup_none.1 hl), List.map_append, List.nodup_append]
      refine ⟨ih, by simp, ?_⟩
      intro a ha b hb e
      simp only [List.map_cons, List.map_nil, List.mem_singleton] at hb
      exact lookup_none.1 hl (hb ▸ e ▸ ha)
    | @changed _ d1 k old v _ hl _ ih =>
      rw [put_keys, if_pos]
      · exact ih
      · exact List.mem_map.2 ⟨_, lookup_mem hl, rfl⟩
    | removed _ _ ih => exact ih.sublist ((del_sublist _ _).map _)
  exact key _ _ h

/-- **C30**: refusing a value of the wrong type does not change the dict. -/
theorem C30_rejects (s : St K V) {k : K} {v : V} (hv : c.okType v = false) (hn : lookup s.dict k ≠ some v) :
    (setItem c k v s).2.dict = s.dict ∧ (∃ e, (setItem c k v s).1 = .error e) := by
  simp only [setItem, M.bind_eq, M.bind_app, hash]
  cases hk : c.hashable k
  · exact ⟨rfl, _, rfl⟩
  · simp only [if_true, M.pure_eq, M.pure_app, M.get_app]
    rcases hl : lookup s.dict k with _ | old
    · simp only [M.bind_app]
      rcases emit_cases (c := c) (.adding k) s with h | h <;> simp only [h]
      · exact ⟨trivial, _, rfl⟩
      · simp only [baseSet, hv]
        exact ⟨rfl, _, rfl⟩
    · simp only
      have he : ¬ v = old := fun e => hn (by rw [hl, e])
      simp only [if_neg he, M.bind_app]
      rcases emit_cases (c := c) (.changing k) s with h | h <;> simp only [h]
      · exact ⟨trivial, _, rfl⟩
      · simp only [baseSet, hv]
        exact ⟨rfl, _, rfl⟩

/-- **C30**, second part.  For every initial dict, every sequence of operations (all of them, successful or not) and all
listeners (which may raise): applying the `added`, `changed` and `removed` events to a copy gives the dict, after the
sequence and after each single event. -/
theorem C30_observer (ops : List (Op K V)) (d : List (K × V)) :
    replay d (run c ops { dict := d }).2.log = (run c ops { dict := d }).2.dict ∧
    ∀ pre e post, (run c ops { dict := d }).2.log = pre ++ e :: post → replay d (pre ++ [e]) = e.2 :=
  (run_told ops Eff.refl : Told d (run c ops { dict := d }).2).story

/-- **C30**, third part: the event right before an `added`, `changed` or `removed` is the announcement for the same
key, emitted when the dict was as before the change; `added` is for keys that were absent, `changed` and `removed` report
the value that was there, and `changed` is not emitted without a change. -/
theorem C30_announced (ops : List (Op K V)) (d : List (K × V)) {pre post : List (Ev K V × List (K × V))} {e : Ev K V}
    {after : List (K × V)} (h : (run c ops { dict := d }).2.log = pre ++ (e, after) :: post) :
    (∀ k v, e = .added k v → ∃ pre' before, pre = pre' ++ [(.adding k, before)] ∧ replay d pre' = before ∧
      lookup before k = none ∧ after = put before k v) ∧
    (∀ k old v, e = .changed k old v → ∃ pre' before, pre = pre' ++ [(.changing k, before)] ∧ replay d pre' = before ∧
      lookup before k = some old ∧ v ≠ old ∧ after = put before k v) ∧
    (∀ k v, e = .removed k v → ∃ pre' before, pre = pre' ++ [(.removing k, before)] ∧ replay d pre' = before ∧
      lookup before k = some v ∧ after = del before k) := by
  have ht := (run_told ops Eff.refl : Told d (run c ops { dict := d }).2)
  have ha := ht.announced _ _ _ _ h
  refine ⟨?_, ?_, ?_⟩
  · rintro k v rfl
    obtain ⟨pre', d0, rfl, h2, h3⟩ := ha
    refine ⟨pre', d0, rfl, ?_, h2, h3⟩
    have := ht.story.2 pre' (.adding k, d0) ((.added k v, after) :: post) (by simp [h])
    rwa [replay_snoc] at this
  · rintro k old v rfl
    obtain ⟨pre', d0, rfl, h2, h3, h4⟩ := ha
    refine ⟨pre', d0, rfl, ?_, h2, h3, h4⟩
    have := ht.story.2 pre' (.changing k, d0) ((.changed k old v, after) :: post) (by simp [h])
    rwa [replay_snoc] at this
  · rintro k v rfl
    obtain ⟨pre', d0, rfl, h2, h3⟩ := ha
    refine ⟨pre', d0, rfl, ?_, h2, h3⟩
    have := ht.story.2 pre' (.removing k, d0) ((.removed k v, after) :: post) (by simp [h])
    rwa [replay_snoc] at this

/-- A configuration for the examples: keys below 100 are hashable, values below 50 have the right type. -/
def exCfg (fails : List (Ev Nat Nat × List (Nat × Nat)) → Bool := fun _ => false) : Cfg Nat Nat where
  hashable k := decide (k < 100)
  okType v := decide (v < 50)
  fails := fails

instance (f : List (Ev Nat Nat × List (Nat × Nat)) → Bool) : (exCfg f).Passive := ⟨rfl, rfl⟩

/-- A run that meets the hypotheses of `C30_run_partial`, with a rejected value, an unhashable key, a missing key, an
update that stops half-way, and `clear`. -/
example : (exCfg).Quiet ∧
    run exCfg [.update [(1, 10), (2, 20)], .setItem 1 11, .setItem 3 99, .contains 100, .pop 7 none, .setDefault 2 5,
      .update [(4, 40), (5, 99), (6, 6)], .pop 1 (some 0), .copy, .items, .clear, .len] { dict := [] } =
    ([.ok .unit, .ok .unit, .error .type, .error .type, .error .key, .ok (.val 20), .error .type, .ok (.val 11),
      .ok (.items [(2, 20), (4, 40)]), .ok (.items [(2, 20), (4, 40)]), .ok .unit, .ok (.int 0)],
      (run exCfg [.update [(1, 10), (2, 20)], .setItem 1 11, .setItem 3 99, .contains 100, .pop 7 none, .setDefault 2 5,
      .update [(4, 40), (5, 99), (6, 6)], .pop 1 (some 0), .copy, .items, .clear, .len] { dict := [] }).2) :=
  ⟨fun _ => rfl, rfl⟩

/-- A log that `C30_observer` and `C30_announced` speak of: a listener raises at the third event. -/
example : (run (exCfg fun l => l.length == 3) [.setItem 1 10, .setItem 2 20, .setItem 2 21, .setItem 1 11, .popItem]
      { dict := [] }).2.log =
    [(.adding 1, []), (.added 1 10, [(1, 10)]), (.adding 2, [(1, 10)]), (.adding 2, [(1, 10)]),
     (.added 2 21, [(1, 10), (2, 21)]), (.changing 1, [(1, 10), (2, 21)]), (.changed 1 10 11, [(1, 11), (2, 21)]),
     (.removing 1, [(1, 11), (2, 21)]), (.removed 1 11, [(2, 21)])] :=
  rfl

/-- A value is rejected as in `C30_rejects`. -/
example : (exCfg).okType 99 = false ∧ lookup [(1, 10)] 1 ≠ some 99 ∧
    (setItem exCfg 1 99 { dict := [(1, 10)] }).2.log = [(.changing 1, [(1, 10)])] :=
  ⟨rfl, by decide, rfl⟩

/-- **C30 is false** for `popitem`: a built-in dict removes the last item, an `EventedDict` the first. -/
theorem C30_popitem_refuted :
    (run exCfg [.popItem] { dict := [(1, 10), (2, 20)] }).1 = [.ok (.item 1 10)] ∧
    (pyRun (exCfg).hashable (exCfg).okType [.popItem] [(1, 10), (2, 20)]).1 = [.ok (.item 2 20)] :=
  ⟨rfl, rfl⟩

/-- **C30 is false** for `reversed(d)`, which an `EventedDict` does not support. -/
theorem C30_reversed_refuted :
    (run exCfg [.reversed] { dict := [(1, 10), (2, 20)] }).1 = [.error .type] ∧
    (pyRun (exCfg).hashable (exCfg).okType [.reversed] [(1, 10), (2, 20)]).1 = [.ok (.keys [2, 1])] :=
  ⟨rfl, rfl⟩

end Psygnal.ED
