import Verif.EventedDictSpec

/-!
# `EventedDict`: lemmas for C30
-/

namespace Psygnal.ED
open Psygnal.Py (M Err)

variable {K V : Type} [DecidableEq K] [DecidableEq V] {c : Cfg K V}

/-! ## Association lists -/

omit [DecidableEq V] in
theorem put_same {d : List (K × V)} {k : K} {v : V} (h : lookup d k = some v) : put d k v = d := by
  induction d with
  | nil => simp [lookup] at h
  | cons p d ih =>
    simp only [lookup, put] at h ⊢
    split
    · rename_i e
      simp only [e, if_true, Option.some.injEq] at h
      rw [← h]
    · rename_i e
      rw [if_neg e] at h
      rw [ih h]

omit [DecidableEq V] in
theorem lookup_none {d : List (K × V)} {k : K} : lookup d k = none ↔ k ∉ d.map Prod.fst := by
  induction d with
  | nil => simp [lookup]
  | cons p d ih =>
    simp only [lookup, List.map_cons, List.mem_cons, not_or]
    split
    · rename_i e
      simp [e]
    · rename_i e
      rw [ih]
      simp [Ne.symm e]

omit [DecidableEq V] in
theorem lookup_mem {d : List (K × V)} {k : K} {v : V} (h : lookup d k = some v) : (k, v) ∈ d := by
  induction d with
  | nil => simp [lookup] at h
  | cons p d ih =>
    simp only [lookup] at h
    split at h
    · rename_i e
      simp only [Option.some.injEq] at h
      subst h
      subst e
      simp
    · simp [ih h]

omit [DecidableEq V] in
theorem put_new {d : List (K × V)} {k : K} {v : V} (h : k ∉ d.map Prod.fst) : put d k v = d ++ [(k, v)] := by
  induction d with
  | nil => rfl
  | cons p d ih =>
    simp only [List.map_cons, List.mem_cons, not_or] at h
    rw [put, if_neg (Ne.symm h.1), ih h.2]
    rfl

omit [DecidableEq V] in
theorem put_keys {d : List (K × V)} {k : K} {v : V} :
    (put d k v).map Prod.fst = if k ∈ d.map Prod.fst then d.map Prod.fst else d.map Prod.fst ++ [k] := by
  induction d with
  | nil => simp [put]
  | cons p d ih =>
    simp only [put]
    split
    · rename_i e
      simp [e]
    · rename_i e
      simp only [List.map_cons, ih, List.mem_cons, Ne.symm e, false_or]
      split <;> simp

omit [DecidableEq V] in
theorem put_mem {d : List (K × V)} {k : K} {v : V} {q : K × V} (h : q ∈ put d k v) : q ∈ d ∨ q = (k, v) := by
  induction d with
  | nil => simpa [put] using h
  | cons p d ih =>
    simp only [put] at h
    split at h
    · rename_i e
      rcases List.mem_cons.1 h with rfl | h
      · simp [e]
      · simp [h]
    · rcases List.mem_cons.1 h with rfl | h
      · simp
      · rcases ih h with h | h <;> simp [h]

omit [DecidableEq V] in
theorem del_sublist (d : List (K × V)) (k : K) : (del d k).Sublist d := by
  induction d with
  | nil => exact .slnil
  | cons p d ih =>
    simp only [del]
    split
    · exact List.sublist_cons_self _ _
    · exact ih.cons_cons _

/-- What holds of every dict built by operations: keys are distinct and hashable, values have the right type. -/
structure Good (c : Cfg K V) (d : List (K × V)) : Prop where
  nodup : (d.map Prod.fst).Nodup
  keys : ∀ p ∈ d, c.hashable p.1 = true
  vals : ∀ p ∈ d, c.okType p.2 = true

omit [DecidableEq V] in
theorem Good.put {d : List (K × V)} (h : Good c d) {k : K} {v : V} (hk : c.hashable k = true) (hv : c.okType v = true) :
    Good c (ED.put d k v) := by
  refine ⟨?_, ?_, ?_⟩
  · rw [put_keys]
    split
    · exact h.nodup
    · rename_i e
      rw [List.nodup_append]
      refine ⟨h.nodup, by simp, ?_⟩
      intro a ha b hb
      simp only [List.mem_singleton] at hb
      subst hb
      intro e2
      exact e (e2 ▸ ha)
  · intro p hp
    rcases put_mem hp with hp | rfl
    · exact h.keys p hp
    · exact hk
  · intro p hp
    rcases put_mem hp with hp | rfl
    · exact h.vals p hp
    · exact hv

omit [DecidableEq K] [DecidableEq V] in
theorem Good.sublist {d d' : List (K × V)} (h : Good c d) (hs : d'.Sublist d) : Good c d' :=
  ⟨h.nodup.sublist (hs.map _), fun p hp => h.keys p (hs.subset hp), fun p hp => h.vals p (hs.subset hp)⟩

omit [DecidableEq V] in
theorem pyUpdate_good {l d : List (K × V)} (h : Good c d) : Good c (pyUpdate c.hashable c.okType l d).2 := by
  induction l generalizing d with
  | nil => exact h
  | cons p l ih =>
    simp only [pyUpdate]
    split
    · rename_i e
      rw [Bool.and_eq_true] at e
      exact ih (h.put e.1 e.2)
    · exact h

omit [DecidableEq V] in
theorem pyStep_good (op : Op K V) {d : List (K × V)} (h : Good c d) : Good c (pyStep c.hashable c.okType op d).2 := by
  cases op <;> simp only [pyStep]
  case setItem k v =>
    split
    · rename_i e
      rw [Bool.and_eq_true] at e
      exact h.put e.1 e.2
    · exact h
  case update l => exact pyUpdate_good h
  case clear => exact ⟨by simp, by simp, by simp⟩
  case getItem k => split <;> (try split) <;> exact h
  case len | items | copy | reversed => exact h
  case delItem k =>
    split <;> (try split)
    · exact h.sublist (del_sublist _ _)
    all_goals exact h
  case contains k | get k v => split <;> exact h
  case pop k v =>
    split <;> (try split)
    · exact h.sublist (del_sublist _ _)
    all_goals exact h
  case popItem =>
    split
    · exact h.sublist (List.dropLast_sublist _)
    · exact h
  case setDefault k v =>
    split
    · rename_i e
      split
      · exact h
      · split
        · rename_i e2
          exact h.put e e2
        · exact h
    · exact h

/-! ## The evented dict, with listeners that do not raise -/

variable [c.Passive]

omit [DecidableEq K] [DecidableEq V] in
theorem emit_quiet (hq : c.Quiet) (e : Ev K V) (s : St K V) :
    emit c e s = (.ok (), { s with log := s.log ++ [(e, s.dict)] }) := by
  simp [emit, hq _, Cfg.Passive.react (c := c), Cfg.Passive.early (c := c)]

theorem setItem_quiet (hq : c.Quiet) {s : St K V} (hg : Good c s.dict) (k : K) (v : V) :
    ∃ log, setItem c k v s = (if c.hashable k && c.okType v then (.ok (), ⟨put s.dict k v, log⟩)
      else (.error .type, ⟨s.dict, log⟩)) := by
  simp only [setItem, M.bind_eq, M.bind_app, hash]
  by_cases hk : c.hashable k = true
  · simp only [hk, if_true, M.pure_eq, M.pure_app, M.get_app, Bool.true_and]
    rcases hl : lookup s.dict k with _ | old
    · simp only [M.bind_app, emit_quiet hq, baseSet]
      by_cases hv : c.okType v = true
      · simp only [hv, if_true, M.modify_app]
        exact ⟨_, rfl⟩
      · simp only [hv]
        exact ⟨_, rfl⟩
    · simp only
      by_cases he : v = old
      · subst he
        simp only [if_true, M.pure_app, hg.vals _ (lookup_mem hl), put_same hl]
        exact ⟨s.log, rfl⟩
      · simp only [if_neg he, M.bind_app, emit_quiet hq, baseSet]
        by_cases hv : c.okType v = true
        · simp only [hv, if_true, M.modify_app]
          exact ⟨_, rfl⟩
        · simp only [hv]
          exact ⟨_, rfl⟩
  · simp only [hk]
    exact ⟨s.log, rfl⟩

omit [DecidableEq V] in
omit [c.Passive] in
theorem getItem_app (k : K) (s : St K V) :
    getItem c k s = (if c.hashable k then (match lookup s.dict k with | some v => .ok v | none => .error .key)
      else .error .type, s) := by
  simp only [getItem, M.bind_eq, M.bind_app, hash]
  by_cases hk : c.hashable k = true
  · simp only [hk, if_true, M.pure_eq, M.pure_app, M.get_app]
    rcases lookup s.dict k with _ | v <;> rfl
  · simp only [hk]
    rfl

omit [DecidableEq V] in
theorem delItem_quiet (hq : c.Quiet) (k : K) (s : St K V) :
    ∃ log, delItem c k s = (if c.hashable k then (if (lookup s.dict k).isSome then (.ok (), ⟨del s.dict k, log⟩)
      else (.error .key, ⟨s.dict, log⟩)) else (.error .type, ⟨s.dict, log⟩)) := by
  simp only [delItem, M.bind_eq, M.bind_app, getItem_app]
  by_cases hk : c.hashable k = true
  · simp only [hk, if_true]
    rcases hl : lookup s.dict k with _ | v
    · exact ⟨s.log, rfl⟩
    · simp only [emit_quiet hq, baseDel, M.bind_eq, M.bind_app, M.get_app, hl, M.modify_app]
      exact ⟨_, rfl⟩
  · simp only [hk]
    exact ⟨s.log, rfl⟩

theorem update_quiet (hq : c.Quiet) (l : List (K × V)) {s : St K V} (hg : Good c s.dict) :
    ((update c l s).1 = (pyUpdate c.hashable c.okType l s.dict).1.map fun _ => ()) ∧
    (update c l s).2.dict = (pyUpdate c.hashable c.okType l s.dict).2 := by
  induction l generalizing s with
  | nil => exact ⟨rfl, rfl⟩
  | cons p l ih =>
    obtain ⟨log, h⟩ := setItem_quiet hq hg p.1 p.2
    simp only [update, M.forEach, pyUpdate]
    by_cases hb : (c.hashable p.1 && c.okType p.2) = true
    · simp only [hb, if_true] at h
      rw [M.bind_ok h, if_pos hb]
      rw [Bool.and_eq_true] at hb
      exact ih (s := ⟨put s.dict p.1 p.2, log⟩) (hg.put hb.1 hb.2)
    · simp only [hb] at h
      rw [M.bind_err h, if_neg hb]
      exact ⟨rfl, rfl⟩

omit [DecidableEq V] in
omit [c.Passive] in
theorem pyUpdate_fresh {l d : List (K × V)} (hn : ((d ++ l).map Prod.fst).Nodup) (hk : ∀ p ∈ l, c.hashable p.1 = true)
    (hv : ∀ p ∈ l, c.okType p.2 = true) : pyUpdate c.hashable c.okType l d = (.ok .unit, d ++ l) := by
  induction l generalizing d with
  | nil => simp [pyUpdate]
  | cons p l ih =>
    rw [pyUpdate, hk p (by simp), hv p (by simp)]
    have hp : p.1 ∉ d.map Prod.fst := by
      rw [List.map_append, List.nodup_append] at hn
      intro h
      exact hn.2.2 _ h p.1 (by simp) rfl
    simp only [Bool.and_self, if_true, put_new hp]
    have e : d ++ [(p.1, p.2)] ++ l = d ++ p :: l := by simp
    have := ih (d := d ++ [(p.1, p.2)]) (by rwa [e]) (fun q hq => hk q (by simp [hq])) (fun q hq => hv q (by simp [hq]))
    rwa [e] at this

instance copy_passive : ({ c with fails := fun _ => false, react := fun _ => M.pure (), early := true } : Cfg K V).Passive :=
  ⟨rfl, rfl⟩

omit [c.Passive] in
theorem copy_quiet {s : St K V} (hg : Good c s.dict) : copy c s = (.ok s.dict, s) := by
  have h := update_quiet (c := { c with fails := fun _ => false, react := fun _ => M.pure (), early := true }) (fun _ => rfl) s.dict (s := { dict := [] })
    ⟨by simp, by simp, by simp⟩
  have h2 := pyUpdate_fresh (c := c) (l := s.dict) (d := []) (by simpa using hg.nodup) hg.keys hg.vals
  simp only [h2] at h
  simp only [copy]
  generalize update { c with fails := fun _ => false, react := fun _ => M.pure (), early := true } s.dict { dict := [] } = r at h
  obtain ⟨r1, r2⟩ := r
  obtain ⟨h3, h4⟩ := h
  simp only at h3 h4
  subst h3
  simp only [Except.map, h4, List.nil_append]

omit [DecidableEq V] in
theorem popItem_quiet (hq : c.Quiet) {s : St K V} (hg : Good c s.dict) :
    ∃ log, popItem c s = (match s.dict with
      | [] => (.error .key, ⟨s.dict, log⟩)
      | p :: d => (.ok p, ⟨d, log⟩)) := by
  simp only [popItem, M.bind_eq, M.bind_app, M.get_app]
  rcases hs : s.dict with _ | ⟨p, d⟩
  · obtain ⟨d, log⟩ := s
    simp only at hs
    subst hs
    exact ⟨log, rfl⟩
  · have hl : lookup s.dict p.1 = some p.2 := by rw [hs]; simp [lookup]
    obtain ⟨log, h⟩ := delItem_quiet hq p.1 s
    have hk := hg.keys p (by simp [hs])
    simp only [M.bind_app, getItem_app, hk, if_true, hl, Option.isSome_some] at h ⊢
    rw [h]
    refine ⟨log, ?_⟩
    simp [hs, del, M.pure]

omit [DecidableEq V] in
theorem clearLoop_quiet (hq : c.Quiet) (n : Nat) {s : St K V} (hg : Good c s.dict) (hn : s.dict.length < n) :
    ∃ log, clearLoop c n s = (.ok (), ⟨[], log⟩) := by
  induction n generalizing s with
  | zero => omega
  | succ n ih =>
    obtain ⟨log, h⟩ := popItem_quiet hq hg
    simp only [clearLoop, h]
    rcases hs : s.dict with _ | ⟨p, d⟩
    · exact ⟨log, rfl⟩
    · rw [hs] at hg hn
      simp only
      exact ih (s := ⟨d, log⟩) (hg.sublist (List.sublist_cons_self _ _)) (by simpa using hn)

theorem step_quiet (hq : c.Quiet) {s : St K V} (hg : Good c s.dict) (op : Op K V) (h1 : op ≠ .popItem)
    (h2 : op ≠ .reversed) :
    (step c op s).1 = (pyStep c.hashable c.okType op s.dict).1 ∧
    (step c op s).2.dict = (pyStep c.hashable c.okType op s.dict).2 := by
  cases op with
  | popItem => exact absurd rfl h1
  | reversed => exact absurd rfl h2
  | len | items => exact ⟨rfl, rfl⟩
  | getItem k =>
    simp only [step, pyStep, M.bind_eq, M.bind_app, getItem_app]
    cases c.hashable k
    · exact ⟨rfl, rfl⟩
    · rcases lookup s.dict k with _ | v <;> exact ⟨rfl, rfl⟩
  | setItem k v =>
    obtain ⟨log, h⟩ := setItem_quiet hq hg k v
    simp only [step, pyStep, M.bind_eq, M.bind_app, h]
    cases (c.hashable k && c.okType v) <;> exact ⟨rfl, rfl⟩
  | delItem k =>
    obtain ⟨log, h⟩ := delItem_quiet hq k s
    simp only [step, pyStep, M.bind_eq, M.bind_app, h]
    cases c.hashable k
    · exact ⟨rfl, rfl⟩
    · cases (lookup s.dict k).isSome <;> exact ⟨rfl, rfl⟩
  | contains k =>
    simp only [step, pyStep, M.bind_eq, M.bind_app, contains, getItem_app]
    cases c.hashable k
    · exact ⟨rfl, rfl⟩
    · rcases lookup s.dict k with _ | v <;> exact ⟨rfl, rfl⟩
  | get k v =>
    simp only [step, pyStep, M.bind_eq, M.bind_app, get, getItem_app]
    cases c.hashable k
    · exact ⟨rfl, rfl⟩
    · rcases lookup s.dict k with _ | v <;> exact ⟨rfl, rfl⟩
  | pop k v =>
    obtain ⟨log, h⟩ := delItem_quiet hq k s
    simp only [step, pyStep, M.bind_eq, M.bind_app, pop, getItem_app]
    by_cases hk : c.hashable k = true
    · simp only [hk, if_true] at h ⊢
      rcases hl : lookup s.dict k with _ | w
      · cases v <;> exact ⟨rfl, rfl⟩
      · simp only [hl, Option.isSome_some, if_true] at h
        simp only [h]
        exact ⟨rfl, rfl⟩
    · simp only [hk]
      exact ⟨rfl, rfl⟩
  | clear =>
    obtain ⟨log, h⟩ := clearLoop_quiet hq (s.dict.length + 1 + c.rounds) hg (by omega)
    simp only [step, pyStep, M.bind_eq, M.bind_app, clear, h]
    exact ⟨rfl, rfl⟩
  | update l =>
    obtain ⟨h3, h4⟩ := update_quiet hq l hg
    simp only [step, pyStep, M.bind_eq, M.bind_app]
    have hu : ∀ (l d : List (K × V)) r, (pyUpdate c.hashable c.okType l d).1 = .ok r → r = .unit := by
      intro l
      induction l with
      | nil => intro d r h; simpa [pyUpdate, eq_comm] using h
      | cons p l ih =>
        intro d r h
        simp only [pyUpdate] at h
        split at h
        · exact ih _ _ h
        · simp at h
    have := hu l s.dict
    generalize update c l s = r at h3 h4
    obtain ⟨r1, r2⟩ := r
    simp only at h3 h4
    subst h3
    rw [← h4]
    rcases hr : (pyUpdate c.hashable c.okType l s.dict).1 with e | x
    · exact ⟨rfl, rfl⟩
    · rw [this x hr]
      exact ⟨rfl, rfl⟩
  | setDefault k v =>
    obtain ⟨log, h⟩ := setItem_quiet hq hg k v
    simp only [step, pyStep, M.bind_eq, M.bind_app, setDefault, getItem_app]
    by_cases hk : c.hashable k = true
    · simp only [hk, if_true, Bool.true_and] at h ⊢
      rcases hl : lookup s.dict k with _ | w
      · simp only [h]
        cases c.okType v <;> exact ⟨rfl, rfl⟩
      · exact ⟨rfl, rfl⟩
    · simp only [hk]
      exact ⟨rfl, rfl⟩
  | copy =>
    simp only [step, pyStep, M.bind_eq, M.bind_app, copy_quiet hg]
    exact ⟨rfl, rfl⟩

end Psygnal.ED
