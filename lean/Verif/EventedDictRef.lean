import Verif.EventedDictEvents

/-!
# Dicts in another way, for C30

The specification of C30 in `EventedDictSpec.lean` uses `put`, `del` and `lookup` of the model.  Here is one that does not: the values are
a function of the keys, and the keys are kept by the time since when they are in the dict.
-/

namespace Psygnal.ED
open Psygnal.Py (M Err)

/-- A dict: a partial function, and the keys in the order of their insertion. -/
structure Ref (K V : Type) where
  val : K → Option V
  order : List K

variable {K V : Type} [DecidableEq K]

/-- The items in order. -/
def Ref.items (r : Ref K V) : List (K × V) := r.order.filterMap fun k => (r.val k).map fun v => (k, v)

/-- `d[k] = v`. -/
def Ref.set (r : Ref K V) (k : K) (v : V) : Ref K V where
  val k' := if k' = k then some v else r.val k'
  order := if (r.val k).isSome then r.order else r.order ++ [k]

/-- `del d[k]`. -/
def Ref.unset (r : Ref K V) (k : K) : Ref K V where
  val k' := if k' = k then none else r.val k'
  order := r.order.filter (· ≠ k)

/-- `d.update(items)`, with a check of keys and values. -/
def Ref.sets (h : K → Bool) (ok : V → Bool) : List (K × V) → Ref K V → Except Err (Res K V) × Ref K V
  | [], r => (.ok .unit, r)
  | p :: l, r => if h p.1 = true ∧ ok p.2 = true then Ref.sets h ok l (r.set p.1 p.2) else (.error .type, r)

/-- One operation, according to the documentation of `dict`. -/
def refStep (h : K → Bool) (ok : V → Bool) (o : Op K V) (r : Ref K V) : Except Err (Res K V) × Ref K V :=
  match o with
  | .len => (.ok (.int r.order.length), r)
  | .items | .copy => (.ok (.items r.items), r)
  | .reversed => (.ok (.keys r.order.reverse), r)
  | .clear => (.ok .unit, ⟨fun _ => none, []⟩)
  | .update l => r.sets h ok l
  | .popItem => match r.order.getLast? with
    | none => (.error .key, r)
    | some k => match r.val k with
      | none => (.error .key, r)
      | some v => (.ok (.item k v), r.unset k)
  | .setItem k v => if h k = true ∧ ok v = true then (.ok .unit, r.set k v) else (.error .type, r)
  | .delItem k => if h k = false then (.error .type, r) else match r.val k with
    | none => (.error .key, r)
    | some _ => (.ok .unit, r.unset k)
  | .getItem k => if h k = false then (.error .type, r) else match r.val k with
    | none => (.error .key, r)
    | some v => (.ok (.val v), r)
  | .contains k => if h k = false then (.error .type, r) else (.ok (.bool (r.val k).isSome), r)
  | .get k dflt => if h k = false then (.error .type, r) else match r.val k with
    | none => (.ok (.val dflt), r)
    | some v => (.ok (.val v), r)
  | .pop k dflt => if h k = false then (.error .type, r) else match r.val k with
    | some v => (.ok (.val v), r.unset k)
    | none => match dflt with
      | some v => (.ok (.val v), r)
      | none => (.error .key, r)
  | .setDefault k dflt => if h k = false then (.error .type, r) else match r.val k with
    | some v => (.ok (.val v), r)
    | none => if ok dflt = true then (.ok (.val dflt), r.set k dflt) else (.error .type, r)

/-- A sequence of operations. -/
def refRun (h : K → Bool) (ok : V → Bool) : List (Op K V) → Ref K V → List (Except Err (Res K V)) × Ref K V
  | [], r => ([], r)
  | o :: ops, r => ((refStep h ok o r).1 :: (refRun h ok ops (refStep h ok o r).2).1, (refRun h ok ops (refStep h ok o r).2).2)

/-! ## Both specifications agree -/

/-- A list of items represents a reference dict. -/
structure Rep (r : Ref K V) (d : List (K × V)) : Prop where
  order : d.map Prod.fst = r.order
  nodup : r.order.Nodup
  val : ∀ k, lookup d k = r.val k

theorem Rep.items {r : Ref K V} {d : List (K × V)} (h : Rep r d) : r.items = d := by
  have key : ∀ d : List (K × V), (d.map Prod.fst).Nodup → (∀ p ∈ d, r.val p.1 = some p.2) →
      (d.map Prod.fst).filterMap (fun k => (r.val k).map fun v => (k, v)) = d := by
    intro d
    induction d with
    | nil => simp
    | cons p d ih =>
      intro hn hv
      rw [List.map_cons] at hn ⊢
      rw [List.filterMap_cons, hv p (by simp)]
      simp only [Option.map_some]
      rw [ih (List.nodup_cons.1 hn).2 fun p h => hv p (by simp [h])]
  have hl : ∀ (d : List (K × V)), (d.map Prod.fst).Nodup → ∀ p ∈ d, lookup d p.1 = some p.2 := by
    intro d
    induction d with
    | nil => simp
    | cons q d ih =>
      intro hn p hp
      rw [List.map_cons, List.nodup_cons] at hn
      rw [lookup]
      rcases List.mem_cons.1 hp with rfl | hp
      · rw [if_pos rfl]
      · rw [if_neg, ih hn.2 p hp]
        rintro e
        exact hn.1 (e ▸ List.mem_map_of_mem hp)
  have hn := h.order ▸ h.nodup
  rw [Ref.items, ← h.order]
  exact key d hn fun p hp => (h.val p.1).symm.trans (hl d hn p hp)

theorem lookup_isSome {d : List (K × V)} {k : K} : (lookup d k).isSome = true ↔ k ∈ d.map Prod.fst := by
  induction d with
  | nil => simp [lookup]
  | cons p d ih =>
    rw [lookup]
    by_cases h : p.1 = k
    · simp [h]
    · rw [if_neg h, ih]
      simp [Ne.symm h]

theorem Rep.put {r : Ref K V} {d : List (K × V)} (h : Rep r d) (k : K) (v : V) : Rep (r.set k v) (ED.put d k v) := by
  have hl : ∀ (d : List (K × V)) (k' : K), lookup (ED.put d k v) k' = if k' = k then some v else lookup d k' := by
    intro d k'
    induction d with
    | nil => simp [ED.put, lookup, eq_comm]
    | cons p d ih =>
      rw [ED.put]
      by_cases hp : p.1 = k
      · simp only [if_pos hp, lookup, hp]
        by_cases hk : k' = k
        · simp [hk, lookup]
        · simp [hk, Ne.symm hk, lookup]
      · simp only [if_neg hp, lookup, ih]
        by_cases hk : k' = k
        · subst hk; simp [hp]
        · simp [hk]
  have ho : (ED.put d k v).map Prod.fst = if (lookup d k).isSome then d.map Prod.fst else d.map Prod.fst ++ [k] := by
    clear h hl
    induction d with
    | nil => simp [ED.put, lookup]
    | cons p d ih =>
      rw [ED.put, lookup]
      by_cases hp : p.1 = k
      · simp [hp]
      · simp only [if_neg hp, List.map_cons, ih]
        split <;> simp
  refine ⟨?_, ?_, fun k' => ?_⟩
  · rw [ho, h.val, h.order]
    rfl
  · show (if (r.val k).isSome then r.order else r.order ++ [k]).Nodup
    split
    · exact h.nodup
    · rename_i hk
      refine List.nodup_append.2 ⟨h.nodup, by simp, ?_⟩
      rintro a ha b hb rfl
      rw [List.mem_singleton.1 hb, ← h.order, ← lookup_isSome, h.val] at ha
      exact hk ha
  · rw [hl, h.val]
    rfl

theorem Rep.del {r : Ref K V} {d : List (K × V)} (h : Rep r d) (k : K) : Rep (r.unset k) (ED.del d k) := by
  have hn : (d.map Prod.fst).Nodup := h.order ▸ h.nodup
  have key : (ED.del d k).map Prod.fst = (d.map Prod.fst).filter (· ≠ k) ∧
      ∀ k', lookup (ED.del d k) k' = if k' = k then none else lookup d k' := by
    clear h
    induction d with
    | nil => simp [ED.del, lookup]
    | cons p d ih =>
      rw [List.map_cons, List.nodup_cons] at hn
      obtain ⟨i1, i2⟩ := ih hn.2
      rw [ED.del]
      by_cases hp : p.1 = k
      · subst hp
        rw [if_pos rfl]
        constructor
        · rw [List.map_cons, List.filter_cons_of_neg (by simp), List.filter_eq_self.2]
          rintro a ha
          simpa using fun e : a = p.1 => hn.1 (e ▸ ha)
        · intro k'
          rw [lookup]
          by_cases hk : k' = p.1
          · subst hk
            rw [if_pos rfl]
            cases hv : lookup d p.1
            · rfl
            · exact absurd (lookup_isSome.1 (by rw [hv]; rfl)) hn.1
          · simp [hk, Ne.symm hk]
      · rw [if_neg hp]
        constructor
        · rw [List.map_cons, i1, List.map_cons, List.filter_cons_of_pos (by simpa using hp)]
        · intro k'
          rw [lookup, lookup, i2]
          by_cases hk : k' = k
          · subst hk; simp [hp]
          · simp [hk]
  refine ⟨?_, ?_, fun k' => ?_⟩
  · rw [key.1, h.order]
    rfl
  · exact h.nodup.filter _
  · rw [key.2, h.val]
    rfl

theorem Rep.popItem {r : Ref K V} {d : List (K × V)} (h : Rep r d) :
    match d.getLast? with
    | none => r.order.getLast? = none
    | some p => r.order.getLast? = some p.1 ∧ r.val p.1 = some p.2 ∧ Rep (r.unset p.1) d.dropLast := by
  cases hd : d.getLast? with
  | none =>
    rw [List.getLast?_eq_none_iff] at hd
    subst hd
    simp [← h.order]
  | some p =>
    obtain ⟨d0, rfl⟩ := List.getLast?_eq_some_iff.1 hd
    have hn : ((d0 ++ [p]).map Prod.fst).Nodup := h.order ▸ h.nodup
    rw [List.map_append, List.nodup_append] at hn
    have hk : p.1 ∉ d0.map Prod.fst := fun hm => hn.2.2 _ hm p.1 (by simp) rfl
    have hdel : ED.del (d0 ++ [p]) p.1 = d0 := by
      clear h hd hn
      induction d0 with
      | nil => simp [ED.del]
      | cons q d0 ih =>
        simp only [List.map_cons, List.mem_cons, not_or] at hk
        rw [List.cons_append, ED.del, if_neg (Ne.symm hk.1), ih hk.2]
    have hlk : lookup (d0 ++ [p]) p.1 = some p.2 := by
      clear h hd hn hdel
      induction d0 with
      | nil => simp [lookup]
      | cons q d0 ih =>
        simp only [List.map_cons, List.mem_cons, not_or] at hk
        rw [List.cons_append, lookup, if_neg (Ne.symm hk.1), ih hk.2]
    refine ⟨by rw [← h.order]; simp, (h.val p.1).symm.trans hlk, ?_⟩
    have := h.del p.1
    rw [hdel] at this
    simpa using this

theorem Rep.update {h : K → Bool} {ok : V → Bool} : ∀ (l : List (K × V)) {r : Ref K V} {d : List (K × V)}, Rep r d →
    (pyUpdate h ok l d).1 = (r.sets h ok l).1 ∧ Rep (r.sets h ok l).2 (pyUpdate h ok l d).2
  | [], _, _, hr => ⟨rfl, hr⟩
  | p :: l, r, d, hr => by
    rw [pyUpdate, Ref.sets]
    by_cases hp : h p.1 = true ∧ ok p.2 = true
    · rw [if_pos hp, if_pos (by simp [hp.1, hp.2])]
      exact Rep.update l (hr.put p.1 p.2)
    · rw [if_neg hp, if_neg (by simpa using hp)]
      exact ⟨rfl, hr⟩

theorem Rep.step {h : K → Bool} {ok : V → Bool} {r : Ref K V} {d : List (K × V)} (hr : Rep r d) (o : Op K V) :
    (pyStep h ok o d).1 = (refStep h ok o r).1 ∧ Rep (refStep h ok o r).2 (pyStep h ok o d).2 := by
  cases o with
  | len => exact ⟨by rw [pyStep, refStep, ← hr.order, List.length_map], hr⟩
  | items | copy => exact ⟨by rw [pyStep, refStep, hr.items], hr⟩
  | reversed => exact ⟨by rw [pyStep, refStep, hr.order], hr⟩
  | clear => exact ⟨rfl, ⟨rfl, by simp [refStep], fun _ => rfl⟩⟩
  | update l => exact Rep.update l hr
  | popItem =>
    have := hr.popItem
    rw [pyStep, refStep]
    cases hd : d.getLast? with
    | none =>
      rw [hd] at this
      simp only at this
      rw [this]
      exact ⟨rfl, hr⟩
    | some p =>
      rw [hd] at this
      simp only at this
      rw [this.1]
      simp only [this.2.1]
      exact ⟨trivial, this.2.2⟩
  | setItem k v =>
    rw [pyStep, refStep]
    by_cases hp : h k = true ∧ ok v = true
    · rw [if_pos hp, if_pos (by simp [hp.1, hp.2])]
      exact ⟨rfl, hr.put k v⟩
    · rw [if_neg hp, if_neg (by simpa using hp)]
      exact ⟨rfl, hr⟩
  | delItem k =>
    rw [pyStep, refStep]
    cases h k with
    | false => exact ⟨rfl, hr⟩
    | true =>
      simp only [if_true, hr.val, Bool.true_eq_false, if_false]
      cases r.val k with
      | none => exact ⟨rfl, hr⟩
      | some v => exact ⟨rfl, hr.del k⟩
  | getItem k =>
    rw [pyStep, refStep]
    cases h k with
    | false => exact ⟨rfl, hr⟩
    | true =>
      simp only [if_true, hr.val, Bool.true_eq_false, if_false]
      cases r.val k with
      | none => exact ⟨rfl, hr⟩
      | some v => exact ⟨rfl, hr⟩
  | contains k =>
    rw [pyStep, refStep]
    cases h k with
    | false => exact ⟨rfl, hr⟩
    | true =>
      simp only [if_true, hr.val, Bool.true_eq_false, if_false]
      exact ⟨trivial, hr⟩
  | get k v =>
    rw [pyStep, refStep]
    cases h k with
    | false => exact ⟨rfl, hr⟩
    | true =>
      simp only [if_true, hr.val, Bool.true_eq_false, if_false]
      cases r.val k with
      | none => exact ⟨rfl, hr⟩
      | some v => exact ⟨rfl, hr⟩
  | pop k v =>
    simp only [pyStep, refStep]
    cases h k with
    | false => exact ⟨rfl, hr⟩
    | true =>
      simp only [if_true, hr.val, Bool.true_eq_false, if_false]
      cases r.val k with
      | none => cases v <;> exact ⟨rfl, hr⟩
      | some w => cases v <;> exact ⟨rfl, hr.del k⟩
  | setDefault k v =>
    rw [pyStep, refStep]
    cases h k with
    | false => exact ⟨rfl, hr⟩
    | true =>
      simp only [if_true, hr.val, Bool.true_eq_false, if_false]
      cases r.val k with
      | none =>
        cases ok v with
        | false => exact ⟨rfl, hr⟩
        | true => exact ⟨rfl, hr.put k v⟩
      | some w => exact ⟨rfl, hr⟩

theorem Rep.run {h : K → Bool} {ok : V → Bool} : ∀ (ops : List (Op K V)) {r : Ref K V} {d : List (K × V)}, Rep r d →
    (pyRun h ok ops d).1 = (refRun h ok ops r).1 ∧ Rep (refRun h ok ops r).2 (pyRun h ok ops d).2
  | [], _, _, hr => ⟨rfl, hr⟩
  | o :: ops, _, _, hr => by
    have h1 := hr.step (h := h) (ok := ok) o
    have h2 := Rep.run (h := h) (ok := ok) ops h1.2
    refine ⟨?_, h2.2⟩
    rw [pyRun, refRun, h1.1, h2.1]

end Psygnal.ED
