import Verif.EventedDictEvents

/-!
# The events of each operation of `EventedDict`: specification and lemmas for C66
-/

namespace Psygnal.ED
open Psygnal.Py (M Err)

variable {K V : Type} [DecidableEq K] [DecidableEq V]

/-- The events of an assignment (specification of `/repo/src/psygnal/containers/_evented_dict.py:176-186`). -/
def setEvents (d : List (K × V)) (k : K) (v : V) : List (Ev K V) := match lookup d k with
  | none => [.adding k, .added k v]
  | some old => if v = old then [] else [.changing k, .changed k old v]

/-- The events of assignments one after the other
(specification of `/repo/src/psygnal/containers/_evented_dict.py:27-195`). -/
def updateEvents : List (K × V) → List (K × V) → List (Ev K V)
  | _, [] => []
  | d, p :: l => setEvents d p.1 p.2 ++ updateEvents (put d p.1 p.2) l

/-- The events that an operation emits if it succeeds on a dict with the items `d`
(specification of `/repo/src/psygnal/containers/_evented_dict.py:27-195`). -/
def expected (d : List (K × V)) : Op K V → List (Ev K V)
  | .setItem k v => setEvents d k v
  | .setDefault k v => if (lookup d k).isSome then [] else [.adding k, .added k v]
  | .update l => updateEvents d l
  | .delItem k | .pop k _ => match lookup d k with
    | some v => [.removing k, .removed k v]
    | none => []
  | .popItem => match d with
    | [] => []
    | p :: _ => [.removing p.1, .removed p.1 p.2]
  | .clear => d.flatMap fun p => [.removing p.1, .removed p.1 p.2]
  | _ => []

/-- Operations whose values are accepted, and `update` whose keys can be hashed. -/
def Op.Fine (c : Cfg K V) : Op K V → Prop
  | .setItem _ v | .setDefault _ v => c.okType v = true
  | .update l => ∀ p ∈ l, c.hashable p.1 = true ∧ c.okType p.2 = true
  | _ => True

variable {c : Cfg K V} [c.Passive]

omit [DecidableEq K] [DecidableEq V] [c.Passive] in
/-- What a step did: the right events, or none if it raised. -/
def Right {β : Type} (evs : List (Ev K V)) (s : St K V) (r : Except Err β × St K V) : Prop :=
  (∃ x s', r = (.ok x, s') ∧ s'.log.map Prod.fst = s.log.map Prod.fst ++ evs) ∨ ∃ e s', r = (.error e, s') ∧ s'.log = s.log

theorem setItem_says (hq : c.Quiet) {k : K} {v : V} (hv : c.okType v = true) (s : St K V) :
    (c.hashable k = true ∧ ∃ s', setItem c k v s = (.ok (), s') ∧ s'.dict = put s.dict k v ∧
      s'.log.map Prod.fst = s.log.map Prod.fst ++ setEvents s.dict k v) ∨
    (c.hashable k = false ∧ setItem c k v s = (.error .type, s)) := by
  simp only [setItem, M.bind_eq, M.bind_app, hash]
  cases hk : c.hashable k
  · exact .inr ⟨rfl, rfl⟩
  · refine .inl ⟨rfl, ?_⟩
    simp only [if_true, M.pure_eq, M.pure_app, M.get_app, setEvents]
    rcases hl : lookup s.dict k with _ | old
    · simp only [M.bind_app, emit_quiet hq, baseSet, hv, if_true, M.modify_app]
      exact ⟨_, rfl, rfl, by simp⟩
    · simp only
      by_cases e : v = old
      · subst e
        simp only [if_true, M.pure_app]
        exact ⟨s, rfl, (put_same hl).symm, by simp⟩
      · simp only [e, if_false, M.bind_app, emit_quiet hq, baseSet, hv, if_true, M.modify_app]
        exact ⟨_, rfl, rfl, by simp⟩

theorem update_says (hq : c.Quiet) (l : List (K × V)) (h : ∀ p ∈ l, c.hashable p.1 = true ∧ c.okType p.2 = true)
    (s : St K V) : ∃ s', update c l s = (.ok (), s') ∧
      s'.log.map Prod.fst = s.log.map Prod.fst ++ updateEvents s.dict l := by
  induction l generalizing s with
  | nil => exact ⟨s, rfl, by simp [updateEvents]⟩
  | cons p l ih =>
    obtain ⟨hk, hv⟩ := h p (by simp)
    rcases setItem_says hq (k := p.1) hv s with ⟨-, s1, h1, h2, h3⟩ | ⟨h1, -⟩
    · obtain ⟨s2, h4, h5⟩ := ih (fun q hq => h q (by simp [hq])) s1
      refine ⟨s2, ?_, ?_⟩
      · rw [update, M.forEach, M.bind_ok h1]
        exact h4
      · rw [h5, h3, h2, updateEvents, List.append_assoc]
    · simp [hk] at h1

omit [DecidableEq V] in
theorem delItem_says (hq : c.Quiet) (k : K) (s : St K V) :
    (∃ v s', lookup s.dict k = some v ∧ c.hashable k = true ∧ delItem c k s = (.ok (), s') ∧ s'.dict = del s.dict k ∧
      s'.log.map Prod.fst = s.log.map Prod.fst ++ [.removing k, .removed k v]) ∨
    ∃ e, delItem c k s = (.error e, s) := by
  simp only [delItem, M.bind_eq, M.bind_app, getItem_app]
  cases hk : c.hashable k
  · exact .inr ⟨_, rfl⟩
  · rcases hl : lookup s.dict k with _ | v
    · exact .inr ⟨_, rfl⟩
    · simp only [if_true, emit_quiet hq, baseDel, M.bind_eq, M.bind_app, M.get_app, hl, M.modify_app]
      exact .inl ⟨v, _, rfl, trivial, rfl, rfl, by simp⟩

omit [DecidableEq V] in
theorem popItem_says (hq : c.Quiet) {s : St K V} {p : K × V} {d : List (K × V)} (hs : s.dict = p :: d)
    (hk : c.hashable p.1 = true) : ∃ s', popItem c s = (.ok p, s') ∧ s'.dict = d ∧
      s'.log.map Prod.fst = s.log.map Prod.fst ++ [.removing p.1, .removed p.1 p.2] := by
  have hl : lookup s.dict p.1 = some p.2 := by simp [hs, lookup]
  rcases delItem_says hq p.1 s with ⟨v, s', h1, -, h2, h3, h4⟩ | ⟨e, h1⟩
  · rw [hl] at h1
    cases h1
    refine ⟨s', ?_, by rw [h3, hs]; simp [del], h4⟩
    simp only [popItem, M.bind_eq, M.bind_app, M.get_app]
    rw [hs]
    simp only [M.bind_app, getItem_app, hk, if_true, hl, h2, M.pure_eq, M.pure_app]
  · simp only [delItem, M.bind_eq, M.bind_app, getItem_app, hk, if_true, hl, emit_quiet hq, baseDel, M.get_app,
      M.modify_app] at h1
    cases h1

omit [DecidableEq V] in
theorem clearLoop_says (hq : c.Quiet) (n : Nat) {s : St K V} (hk : ∀ p ∈ s.dict, c.hashable p.1 = true)
    (hn : s.dict.length < n) : ∃ s', clearLoop c n s = (.ok (), s') ∧
      s'.log.map Prod.fst = s.log.map Prod.fst ++ s.dict.flatMap fun p => [.removing p.1, .removed p.1 p.2] := by
  induction n generalizing s with
  | zero => omega
  | succ n ih =>
    rcases hd : s.dict with _ | ⟨p, d⟩
    · refine ⟨s, ?_, by simp⟩
      simp only [clearLoop, popItem, M.bind_eq, M.bind_app, M.get_app]
      rw [hd]
      rfl
    · obtain ⟨s1, h1, h2, h3⟩ := popItem_says hq hd (hk p (by simp [hd]))
      obtain ⟨s2, h4, h5⟩ := ih (s := s1) (fun q h => hk q (by rw [hd]; rw [h2] at h; simp [h])) (by
        rw [h2]
        rw [hd, List.length_cons] at hn
        omega)
      refine ⟨s2, by simp only [clearLoop, h1]; exact h4, ?_⟩
      rw [h5, h3, h2, List.append_assoc]
      rfl

theorem step_says (hq : c.Quiet) {s : St K V} (hk : ∀ p ∈ s.dict, c.hashable p.1 = true) (op : Op K V) (ho : op.Fine c) :
    Right (expected s.dict op) s (step c op s) := by
  have quiet : ∀ {r : Except Err (Res K V) × St K V}, r.2 = s → Right [] s r := by
    rintro ⟨_ | x, s'⟩ (rfl : s' = s)
    · exact .inr ⟨_, _, rfl, rfl⟩
    · exact .inl ⟨_, _, rfl, by simp⟩
  cases op with
  | getItem k =>
    refine quiet ?_
    simp only [step, M.bind_eq, M.bind_app, getItem_app]
    split <;> simp_all
  | setItem k v =>
    simp only [step, M.bind_eq, M.bind_app]
    rcases setItem_says hq (k := k) ho s with ⟨-, s', h1, -, h2⟩ | ⟨-, h1⟩
    · rw [h1]
      exact .inl ⟨.unit, s', rfl, h2⟩
    · rw [h1]
      exact .inr ⟨_, s, rfl, rfl⟩
  | delItem k =>
    simp only [step, M.bind_eq, M.bind_app]
    rcases delItem_says hq k s with ⟨v, s', h0, -, h1, -, h2⟩ | ⟨e, h1⟩
    · rw [h1]
      exact .inl ⟨.unit, s', rfl, by simp [expected, h0, h2]⟩
    · rw [h1]
      exact .inr ⟨e, s, rfl, rfl⟩
  | len | items => exact quiet rfl
  | reversed => exact quiet rfl
  | contains k =>
    refine quiet ?_
    simp only [step, contains, M.bind_eq, M.bind_app, getItem_app]
    cases c.hashable k
    · rfl
    · rcases lookup s.dict k with _ | v <;> rfl
  | get k v =>
    refine quiet ?_
    simp only [step, get, M.bind_eq, M.bind_app, getItem_app]
    cases c.hashable k
    · rfl
    · rcases lookup s.dict k with _ | v <;> rfl
  | pop k dflt =>
    simp only [step, pop, M.bind_eq, M.bind_app, getItem_app]
    cases hh : c.hashable k
    · exact .inr ⟨.type, s, rfl, rfl⟩
    · simp only [if_true]
      rcases hl : lookup s.dict k with _ | v
      · cases dflt with
        | none => exact .inr ⟨.key, s, rfl, rfl⟩
        | some w => exact .inl ⟨.val w, s, rfl, by simp [expected, hl]⟩
      · simp only
        rcases delItem_says hq k s with ⟨v', s', h0, -, h1, -, h2⟩ | ⟨e, h1⟩
        · simp only [h1, M.pure_app]
          exact .inl ⟨.val v, s', rfl, by simp [expected, h0, h2]⟩
        · simp only [h1]
          exact .inr ⟨e, s, rfl, rfl⟩
  | popItem =>
    simp only [step, M.bind_eq, M.bind_app]
    rcases hd : s.dict with _ | ⟨p, d⟩
    · have : popItem c s = (.error .key, s) := by
        simp only [popItem, M.bind_eq, M.bind_app, M.get_app]
        rw [hd]
        rfl
      rw [this]
      exact .inr ⟨.key, s, rfl, rfl⟩
    · obtain ⟨s1, h1, h2, h3⟩ := popItem_says hq hd (hk p (by simp [hd]))
      rw [h1]
      exact .inl ⟨.item p.1 p.2, s1, rfl, h3⟩
  | clear =>
    obtain ⟨s1, h1, h2⟩ := clearLoop_says hq (s.dict.length + 1 + c.rounds) hk (by omega)
    simp only [step, clear, M.bind_eq, M.bind_app, h1]
    exact .inl ⟨.unit, s1, rfl, h2⟩
  | update l =>
    obtain ⟨s1, h1, h2⟩ := update_says hq l ho s
    simp only [step, M.bind_eq, M.bind_app, h1]
    exact .inl ⟨.unit, s1, rfl, h2⟩
  | setDefault k v =>
    simp only [step, setDefault, M.bind_eq, M.bind_app, getItem_app]
    cases hh : c.hashable k
    · exact .inr ⟨.type, s, rfl, rfl⟩
    · simp only [if_true]
      rcases hl : lookup s.dict k with _ | w
      · simp only
        rcases setItem_says hq (k := k) ho s with ⟨-, s', h1, -, h2⟩ | ⟨-, h1⟩
        · simp only [h1, M.pure_app]
          exact .inl ⟨.val v, s', rfl, by rw [h2]; simp [setEvents, expected, hl]⟩
        · simp only [h1]
          exact .inr ⟨.type, s, rfl, rfl⟩
      · exact .inl ⟨.val w, s, rfl, by simp [expected, hl]⟩
  | copy =>
    refine quiet ?_
    simp only [step, M.bind_eq, M.bind_app, copy]
    split <;> rename_i h <;> split at h <;> cases h <;> rfl

/-- All keys can be hashed. -/
def Hashed (c : Cfg K V) (s : St K V) : Prop := ∀ p ∈ s.dict, c.hashable p.1 = true

theorem setItem_hk (k : K) (v : V) : M.Keeps (Hashed c) (setItem c k v) := by
  intro s hs
  have hp : c.hashable k = true → ∀ p ∈ put s.dict k v, c.hashable p.1 = true := by
    intro hk p hp
    have : p.1 ∈ (put s.dict k v).map Prod.fst := List.mem_map_of_mem hp
    rw [put_keys] at this
    split at this
    · obtain ⟨q, h1, h2⟩ := List.mem_map.1 this
      exact h2 ▸ hs q h1
    · rcases List.mem_append.1 this with h | h
      · obtain ⟨q, h1, h2⟩ := List.mem_map.1 h
        exact h2 ▸ hs q h1
      · rw [List.mem_singleton.1 h]
        exact hk
  simp only [setItem, M.bind_eq, M.bind_app, hash]
  by_cases hk : c.hashable k = true
  · simp only [hk, if_true, M.pure_eq, M.pure_app, M.get_app]
    rcases hl : lookup s.dict k with _ | old
    · simp only [M.bind_app]
      rcases emit_cases (c := c) (.adding k) s with h | h <;> simp only [h]
      · exact hs
      · simp only [baseSet]
        by_cases hv : c.okType v = true
        · simp only [hv, if_true, M.modify_app, emit_state]
          exact hp hk
        · simp only [hv]
          exact hs
    · simp only
      by_cases he : v = old
      · simp only [if_pos he]
        exact hs
      · simp only [if_neg he, M.bind_app]
        rcases emit_cases (c := c) (.changing k) s with h | h <;> simp only [h]
        · exact hs
        · simp only [baseSet]
          by_cases hv : c.okType v = true
          · simp only [hv, if_true, M.modify_app, emit_state]
            exact hp hk
          · simp only [hv]
            exact hs
  · simp only [hk]
    exact hs

omit [DecidableEq V] in
theorem delItem_hk (k : K) : M.Keeps (Hashed c) (delItem c k) := by
  intro s hs
  simp only [delItem, M.bind_eq, M.bind_app, getItem_app]
  by_cases hk : c.hashable k = true
  · simp only [hk, if_true]
    rcases hl : lookup s.dict k with _ | v
    · exact hs
    · simp only
      rcases emit_cases (c := c) (.removing k) s with h | h <;> simp only [h]
      · exact hs
      · simp only [baseDel, M.bind_eq, M.bind_app, M.get_app, hl, M.modify_app, emit_state]
        exact fun p hp => hs p ((del_sublist _ _).subset hp)
  · simp only [hk]
    exact hs

omit [DecidableEq V] in
omit [c.Passive] in
theorem getItem_hk (k : K) : M.Keeps (Hashed c) (getItem c k) := by
  intro s hs
  rw [getItem_app]
  exact hs

omit [DecidableEq V] in
theorem popItem_hk : M.Keeps (Hashed c) (popItem c) := by
  refine M.Keeps.get.seq fun s => ?_
  rcases s.dict with _ | ⟨p, d'⟩
  · exact M.Keeps.raise _
  · exact (getItem_hk _).seq fun _ => (delItem_hk _).seq fun _ => M.Keeps.pure' _

omit [DecidableEq V] in
theorem clearLoop_hk (n : Nat) : M.Keeps (Hashed c) (clearLoop c n) := by
  induction n with
  | zero => exact M.Keeps.pure _
  | succ n ih =>
    intro s hs
    have := popItem_hk (c := c) s hs
    simp only [clearLoop]
    rcases hp : popItem c s with ⟨e | r, s'⟩ <;> rw [hp] at this
    · cases e <;> exact this
    · exact ih s' this

theorem update_hk (l : List (K × V)) : M.Keeps (Hashed c) (update c l) :=
  M.Keeps.forEach _ fun _ => setItem_hk _ _

theorem step_hk (op : Op K V) : M.Keeps (Hashed c) (step c op) := by
  cases op with
  | getItem k => exact (getItem_hk k).seq fun _ => M.Keeps.pure' _
  | setItem k v => exact (setItem_hk k v).seq fun _ => M.Keeps.pure' _
  | delItem k => exact (delItem_hk k).seq fun _ => M.Keeps.pure' _
  | len | items => exact fun _ h => h
  | contains k =>
    refine M.Keeps.seq (fun s hs => ?_) fun _ => M.Keeps.pure' _
    simp only [contains, getItem_app]
    split <;> simp_all
  | get k v =>
    refine M.Keeps.seq (fun s hs => ?_) fun _ => M.Keeps.pure' _
    simp only [get, getItem_app]
    split <;> simp_all
  | pop k v =>
    refine M.Keeps.seq (fun s hs => ?_) fun _ => M.Keeps.pure' _
    have h0 := getItem_hk (c := c) k s hs
    simp only [pop]
    split
    · rename_i s' e
      rw [e] at h0
      split <;> exact h0
    · rename_i s' e
      rw [e] at h0
      exact h0
    · rename_i s' e
      rw [e] at h0
      exact ((delItem_hk k).bind fun _ => M.Keeps.pure _) s' h0
  | popItem => exact popItem_hk.seq fun _ => M.Keeps.pure' _
  | clear => exact M.Keeps.seq (fun s hs => clearLoop_hk _ s hs) fun _ => M.Keeps.pure' _
  | update l => exact (update_hk l).seq fun _ => M.Keeps.pure' _
  | setDefault k v =>
    refine M.Keeps.seq (fun s hs => ?_) fun _ => M.Keeps.pure' _
    have h0 := getItem_hk (c := c) k s hs
    simp only [setDefault]
    split
    · rename_i s' e
      rw [e] at h0
      exact ((setItem_hk k v).bind fun _ => M.Keeps.pure _) s' h0
    · exact h0
  | copy =>
    refine M.Keeps.seq (fun s hs => ?_) fun _ => M.Keeps.pure' _
    simp only [copy]
    split <;> exact hs
  | reversed => exact M.Keeps.raise _

theorem run_hk (ops : List (Op K V)) {s : St K V} (h : Hashed c s) : Hashed c (run c ops s).2 := by
  induction ops generalizing s with
  | nil => exact h
  | cons op ops ih => exact ih (step_hk op s h)


end Psygnal.ED
