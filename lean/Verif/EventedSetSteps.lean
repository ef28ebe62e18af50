import Verif.EventedSetLemmas

/-!
# Sets: every operation (lemmas for C31 and C32)
-/

namespace Psygnal.ES
open Psygnal.Py (M Err)

variable {α : Type} [DecidableEq α] {c : Cfg α} [c.Passive]

omit [DecidableEq α] in
theorem Story.trans {d1 d2 d3 : List α} {e1 e2 : List ((List α × List α) × List α)} (h1 : Story d1 e1 d2)
    (h2 : Story d2 e2 d3) : Story d1 (e1 ++ e2) d3 := by
  induction h1 with
  | nil h =>
    cases h2 with
    | nil h' => exact .nil fun y => (h y).trans (h' y)
    | cons he hs =>
      refine .cons ⟨he.added_nodup, he.removed_nodup, fun y => ?_, fun y => ?_, he.change⟩ hs
      · rw [he.added, h y]
      · rw [he.removed, h y]
  | cons he _ ih => exact .cons he (ih h2)

/-- What an operation reports, event by event. -/
def Tells (c : Cfg α) (s s' : St α) : Prop :=
  (c.evented = true → ∃ es, s'.log = s.log ++ es ∧ Story s.data es s'.data) ∧ (c.evented = false → s'.log = s.log)

omit [DecidableEq α] in
omit [c.Passive] in
theorem Reports.tells {s s' : St α} (h : Reports c s s') : Tells c s s' :=
  ⟨fun he => match h.1 he with
    | .inl h => ⟨[], by simp [h.1], .nil h.2⟩
    | .inr ⟨e, h1, h2⟩ => ⟨[(e, s'.data)], h1, .cons h2 (.nil fun _ => Iff.rfl)⟩, h.2⟩

omit [DecidableEq α] in
omit [c.Passive] in
theorem Tells.refl (s : St α) : Tells c s s := ⟨fun _ => ⟨[], by simp, .nil (by simp)⟩, fun _ => rfl⟩

omit [DecidableEq α] in
omit [c.Passive] in
theorem Tells.trans {s1 s2 s3 : St α} (h1 : Tells c s1 s2) (h2 : Tells c s2 s3) : Tells c s1 s3 := by
  refine ⟨fun he => ?_, fun he => (h2.2 he).trans (h1.2 he)⟩
  obtain ⟨e1, h3, h4⟩ := h1.1 he
  obtain ⟨e2, h5, h6⟩ := h2.1 he
  exact ⟨e1 ++ e2, by rw [h5, h3, List.append_assoc], h4.trans h6⟩

theorem ior_quiet (hf : c.Fair) (hq : c.Quiet) (xs : List α) {s : St α} (hs : Clean s) :
    ∃ s', ior c xs s = (.ok (), s') ∧ Clean s' ∧ Tells c s s' ∧ (∀ y, y ∈ s'.data ↔ y ∈ s.data ∨ y ∈ xs) := by
  simp only [ior]
  induction xs generalizing s with
  | nil => exact ⟨s, rfl, hs, Tells.refl s, by simp⟩
  | cons x xs ih =>
    obtain ⟨s1, h1, h2, h3, h4⟩ := add_quiet hf hq hs x
    obtain ⟨s2, h5, h6, h7, h8⟩ := ih h2
    refine ⟨s2, ?_, h6, h3.tells.trans h7, ?_⟩
    · rw [M.forEach, M.bind_ok h1, h5]
    · intro y
      rw [h8, h4, List.mem_cons]
      grind

theorem discards_quiet (hq : c.Quiet) (xs : List α) {s : St α} (hs : Clean s) :
    ∃ s', M.forEach xs (discard c) s = (.ok (), s') ∧ Clean s' ∧ Tells c s s' ∧
      (∀ y, y ∈ s'.data ↔ y ∈ s.data ∧ y ∉ xs) := by
  induction xs generalizing s with
  | nil => exact ⟨s, rfl, hs, Tells.refl s, by simp⟩
  | cons x xs ih =>
    obtain ⟨s1, h1, h2, h3, h4⟩ := discard_quiet hq hs x
    obtain ⟨s2, h5, h6, h7, h8⟩ := ih h2
    refine ⟨s2, ?_, h6, h3.tells.trans h7, ?_⟩
    · rw [M.forEach, M.bind_ok h1, h5]
    · intro y
      rw [h8, h4, List.mem_cons]
      grind

theorem ixor_quiet (hf : c.Fair) (hq : c.Quiet) {xs : List α} (hn : xs.Nodup) {s : St α} (hs : Clean s) :
    ∃ s', ixor c xs s = (.ok (), s') ∧ Clean s' ∧ Tells c s s' ∧
      (∀ y, y ∈ s'.data ↔ (y ∈ s.data ∧ y ∉ xs) ∨ (y ∉ s.data ∧ y ∈ xs)) := by
  simp only [ixor]
  induction xs generalizing s with
  | nil => exact ⟨s, rfl, hs, Tells.refl s, by simp⟩
  | cons x xs ih =>
    rw [List.nodup_cons] at hn
    have key : ∃ s1, toggle c x s = (.ok (), s1) ∧ Clean s1 ∧ Tells c s s1 ∧
        (∀ y, y ∈ s1.data ↔ (y ∈ s.data ∧ y ≠ x) ∨ (y = x ∧ y ∉ s.data)) := by
      simp only [toggle, M.bind_eq, M.bind_app, M.get_app]
      by_cases hx : x ∈ s.data
      · obtain ⟨s1, h1, h2, h3, h4⟩ := discard_quiet hq hs x
        simp only [hx, if_true]
        refine ⟨s1, h1, h2, h3.tells, ?_⟩
        intro y
        rw [h4]
        grind
      · obtain ⟨s1, h1, h2, h3, h4⟩ := add_quiet hf hq hs x
        simp only [hx, if_false]
        refine ⟨s1, h1, h2, h3.tells, ?_⟩
        intro y
        rw [h4]
        grind
    obtain ⟨s1, h1, h2, h3, h4⟩ := key
    obtain ⟨s2, h5, h6, h7, h8⟩ := ih hn.2 h2
    refine ⟨s2, ?_, h6, h3.trans h7, ?_⟩
    · rw [M.forEach, M.bind_ok h1, h5]
    · intro y
      rw [h8, h4, List.mem_cons]
      grind

/-! ## Comparisons -/

theorem setLe_iff {d xs : List α} (hd : d.Nodup) : setLe d xs = true ↔ ∀ y ∈ d, y ∈ xs := by
  simp only [setLe, Bool.and_eq_true, Bool.not_eq_true', decide_eq_false_iff_not, List.all_eq_true, decide_eq_true_eq]
  constructor
  · exact And.right
  · intro h
    exact ⟨by have := hd.length_le_of_subset h; omega, h⟩

theorem setGe_iff {d xs : List α} (hx : xs.Nodup) : setGe d xs = true ↔ ∀ y ∈ xs, y ∈ d := by
  simp only [setGe, Bool.and_eq_true, Bool.not_eq_true', decide_eq_false_iff_not, List.all_eq_true, decide_eq_true_eq]
  constructor
  · exact And.right
  · intro h
    exact ⟨by have := hx.length_le_of_subset h; omega, h⟩

omit [DecidableEq α] in
/-- A set inside another is smaller just if the other has more elements. -/
theorem length_lt_iff {a b : List α} (ha : a.Nodup) (hb : b.Nodup) (h : ∀ y ∈ a, y ∈ b) :
    a.length < b.length ↔ ∃ y ∈ b, y ∉ a := by
  constructor
  · intro hl
    refine Classical.byContradiction fun hn => ?_
    have := hb.length_le_of_subset (l₂ := a) fun y hy => Classical.byContradiction fun hy' => hn ⟨y, hy, hy'⟩
    omega
  · rintro ⟨y, hy, hy'⟩
    have := (List.nodup_cons.2 ⟨hy', ha⟩).length_le_of_subset (l₂ := b) (by
      intro z hz
      rcases List.mem_cons.1 hz with rfl | hz
      · exact hy
      · exact h z hz)
    simp only [List.length_cons] at this
    omega

/-! ## All operations -/

/-- What C31 says about one operation. -/
structure Good (c : Cfg α) (op : Op α) (s : St α) (r : Except Err (Res α) × St α) : Prop where
  clean : Clean r.2
  set : PySet s.data r.1 r.2.data op
  tells : Tells c s r.2
  once : ¬ op.InPlace → Reports c s r.2

omit [DecidableEq α] in
omit [c.Passive] in
theorem Reports.rfl' {s : St α} : Reports c s s := ⟨fun _ => .inl ⟨rfl, fun _ => Iff.rfl⟩, fun _ => rfl⟩

theorem step_good (hf : c.Fair) (hq : c.Quiet) (op : Op α) (hp : op.Plain) {s : St α} (hs : Clean s) :
    Good c op s (step c op s) := by
  have query : ∀ {r : Except Err (Res α)} {P : Prop}, P → step c op s = (r, s) → (P → PySet s.data r s.data op) →
      Good c op s (step c op s) := fun hP he h => he ▸ ⟨hs, h hP, Tells.refl s, fun _ => Reports.rfl'⟩
  have same : Holds s.data (· ∈ s.data) := fun y => Iff.rfl
  have new : ∀ {l : List α} {P : α → Prop}, (∀ y, y ∈ l ↔ P y) → NewSet (.ok (.set (mk c l))) P :=
    fun {l P} h => ⟨mk c l, rfl, mk_nodup hf l, fun y => (mk_mem hf l).trans (h y)⟩
  have truth : ∀ {b : Bool} {P : Prop}, (b = true ↔ P) → Truth (.ok (.bool b) : Except Err (Res α)) P :=
    fun {b P} h => ⟨b, rfl, h⟩
  cases op with
  | add x =>
    obtain ⟨s', h1, h2, h3, h4⟩ := add_quiet hf hq hs x
    simp only [step, M.bind_eq, M.bind_app, h1]
    exact ⟨h2, ⟨rfl, h4⟩, h3.tells, fun _ => h3⟩
  | discard x =>
    obtain ⟨s', h1, h2, h3, h4⟩ := discard_quiet hq hs x
    simp only [step, M.bind_eq, M.bind_app, h1]
    exact ⟨h2, ⟨rfl, h4⟩, h3.tells, fun _ => h3⟩
  | remove x =>
    by_cases hx : x ∈ s.data
    · obtain ⟨s', h1, h2, h3, h4⟩ := discard_quiet hq hs x
      simp only [step, remove, M.bind_eq, M.bind_app, M.get_app, hx, if_true, h1]
      exact ⟨h2, ⟨fun _ => ⟨rfl, h4⟩, fun h => absurd hx h⟩, h3.tells, fun _ => h3⟩
    · have e : step c (.remove x) s = (.error .key, s) := by
        simp only [step, remove, M.bind_eq, M.bind_app, M.get_app, hx, if_false]
        rfl
      rw [e]
      exact ⟨hs, ⟨fun h => absurd h hx, fun _ => ⟨rfl, same⟩⟩, Tells.refl s, fun _ => Reports.rfl'⟩
  | pop =>
    rcases hd : s.data with _ | ⟨x, d⟩
    · have e : step c .pop s = (.error .key, s) := by
        simp only [step, pop, M.bind_eq, M.bind_app, M.get_app, hd]
        rfl
      rw [e]
      exact ⟨hs, ⟨fun h => absurd hd h, fun _ => ⟨rfl, hd⟩⟩, Tells.refl s, fun _ => Reports.rfl'⟩
    · obtain ⟨s', h1, h2, h3, h4⟩ := discard_quiet hq hs x
      simp only [step, pop, M.bind_eq, M.bind_app, M.get_app, hd, h1]
      refine ⟨h2, ⟨fun _ => ⟨x, by simp [hd], rfl, h4⟩, fun h => ?_⟩, h3.tells, fun _ => h3⟩
      rw [hd] at h
      exact absurd h (by simp)
  | clear | isubSelf | ixorSelf =>
    obtain ⟨s', h1, h2, h3, h4⟩ := clear_quiet hq hs
    simp only [step, M.bind_eq, M.bind_app, h1]
    exact ⟨h2, ⟨rfl, h4⟩, h3.tells, fun _ => h3⟩
  | update o =>
    obtain ⟨s', h1, h2, h3, h4⟩ := update_quiet hf hq hs o
    simp only [step, M.bind_eq, M.bind_app, h1]
    exact ⟨h2, ⟨rfl, fun y => (h4 y).trans (by rw [List.mem_flatten])⟩, h3.tells, fun _ => h3⟩
  | differenceUpdate o =>
    obtain ⟨s', h1, h2, h3, h4⟩ := differenceUpdate_quiet hq hs o
    simp only [step, M.bind_eq, M.bind_app, h1]
    exact ⟨h2, ⟨rfl, fun y => (h4 y).trans (by rw [List.mem_flatten]; grind)⟩, h3.tells, fun _ => h3⟩
  | differenceUpdateSelf | symmetricDifferenceUpdateSelf => exact absurd hp id
  | intersectionUpdate o =>
    obtain ⟨s', h1, h2, h3, h4⟩ := intersectionUpdate_quiet hq hs hp
    simp only [step, M.bind_eq, M.bind_app, h1]
    exact ⟨h2, ⟨rfl, h4⟩, h3.tells, fun _ => h3⟩
  | symmetricDifferenceUpdate xs =>
    obtain ⟨s', h1, h2, h3, h4⟩ := symmetricDifferenceUpdate_quiet hf hq hs hp
    simp only [step, M.bind_eq, M.bind_app, h1]
    exact ⟨h2, ⟨rfl, h4⟩, h3.tells, fun _ => h3⟩
  | ior xs =>
    obtain ⟨s', h1, h2, h3, h4⟩ := ior_quiet hf hq xs hs
    simp only [step, M.bind_eq, M.bind_app, h1]
    exact ⟨h2, ⟨rfl, h4⟩, h3, fun h => absurd trivial h⟩
  | isub xs =>
    obtain ⟨s', h1, h2, h3, h4⟩ := discards_quiet hq xs hs
    simp only [step, isub, M.bind_eq, M.bind_app, h1]
    exact ⟨h2, ⟨rfl, h4⟩, h3, fun h => absurd trivial h⟩
  | iand xs =>
    obtain ⟨s', h1, h2, h3, h4⟩ := discards_quiet hq (mk c (s.data.filter (· ∉ xs))) hs
    simp only [step, iand, M.bind_eq, M.bind_app, M.get_app, h1]
    refine ⟨h2, ⟨rfl, fun y => (h4 y).trans ?_⟩, h3, fun h => absurd trivial h⟩
    rw [mk_mem hf]
    simp
    grind
  | ixor xs =>
    obtain ⟨s', h1, h2, h3, h4⟩ := ixor_quiet hf hq hp hs
    simp only [step, M.bind_eq, M.bind_app, h1]
    exact ⟨h2, ⟨rfl, h4⟩, h3, fun h => absurd trivial h⟩
  | contains x => exact query trivial rfl fun _ => ⟨truth (by simp), same⟩
  | len => exact query trivial rfl fun _ => ⟨rfl, same⟩
  | items => exact query trivial rfl fun _ => ⟨⟨s.data, rfl, hs.nodup, fun y => Iff.rfl⟩, same⟩
  | copy => exact query trivial rfl fun _ => ⟨new fun y => Iff.rfl, same⟩
  | difference o => exact query trivial rfl fun _ => ⟨new fun y => by simp, same⟩
  | intersection o =>
    refine query (r := .ok (.set (mk c (s.data.filter fun x => o.all (x ∈ ·))))) trivial ?_
      fun _ => ⟨new fun y => by simp, same⟩
    have hp' : o ≠ [] := hp
    simp only [step, hp', if_false]
    rfl
  | symmetricDifference xs => exact query trivial rfl fun _ => ⟨new fun y => by simp; grind, same⟩
  | union o =>
    refine query trivial rfl fun _ => ⟨⟨_, rfl, foldl_ins_nodup hf _ (mk_nodup hf _), fun y => ?_⟩, same⟩
    rw [foldl_ins_mem hf, mk_mem hf, List.mem_flatten]
  | issubset xs => exact query trivial rfl fun _ => ⟨truth (by simp), same⟩
  | issuperset xs => exact query trivial rfl fun _ => ⟨truth (by simp), same⟩
  | isdisjoint xs => exact query trivial rfl fun _ => ⟨truth (by simp), same⟩
  | and xs => exact query trivial rfl fun _ => ⟨new fun y => by simp [and_comm], same⟩
  | or xs => exact query trivial rfl fun _ => ⟨new fun y => by simp, same⟩
  | sub xs => exact query trivial rfl fun _ => ⟨new fun y => by simp, same⟩
  | xor xs =>
    refine query trivial rfl fun _ => ⟨new fun y => ?_, same⟩
    rw [List.mem_append, mk_mem hf, mk_mem hf]
    simp
    grind
  | le xs => exact query trivial rfl fun _ => ⟨truth (setLe_iff hs.nodup), same⟩
  | ge xs => exact query trivial rfl fun _ => ⟨truth (setGe_iff hp), same⟩
  | lt xs =>
    refine query trivial rfl fun _ => ⟨truth ?_, same⟩
    rw [Bool.and_eq_true, setLe_iff hs.nodup, decide_eq_true_eq, and_comm]
    exact and_congr_right fun h => length_lt_iff hs.nodup hp h
  | gt xs =>
    refine query trivial rfl fun _ => ⟨truth ?_, same⟩
    rw [Bool.and_eq_true, setGe_iff hp, decide_eq_true_eq, and_comm]
    exact and_congr_right fun h => length_lt_iff hp hs.nodup h
  | eq xs =>
    refine query trivial rfl fun _ => ⟨truth ?_, same⟩
    rw [Bool.and_eq_true, setLe_iff hs.nodup, decide_eq_true_eq]
    constructor
    · rintro ⟨h1, h2⟩ y
      refine ⟨h2 y, fun hy => Classical.byContradiction fun hn => ?_⟩
      have := (length_lt_iff hs.nodup hp h2).2 ⟨y, hy, hn⟩
      omega
    · intro h
      have h1 := hs.nodup.length_le_of_subset (l₂ := xs) fun y => (h y).1
      have h2 := List.Nodup.length_le_of_subset (l₁ := xs) (l₂ := s.data) hp fun y => (h y).2
      exact ⟨by omega, fun y => (h y).1⟩

omit [c.Passive] in
theorem new_clean (hf : c.Fair) (xs : List α) : Clean (new c xs) := ⟨mk_nodup hf xs, rfl, rfl, rfl⟩

omit [c.Passive] in
theorem run_append (l1 l2 : List (Op α)) (s : St α) :
    run c (l1 ++ l2) s = ((run c l1 s).1 ++ (run c l2 (run c l1 s).2).1, (run c l2 (run c l1 s).2).2) := by
  induction l1 generalizing s with
  | nil => simp [run]
  | cons o l ih => simp [run, ih]

/-- Every sequence of operations leaves a clean state; listeners never raise. -/
theorem run_clean (hf : c.Fair) (hq : c.Quiet) (ops : List (Op α)) (hp : ∀ op ∈ ops, op.Plain) {s : St α} (hs : Clean s) :
    Clean (run c ops s).2 ∧ Tells c s (run c ops s).2 := by
  induction ops generalizing s with
  | nil => exact ⟨hs, Tells.refl s⟩
  | cons op ops ih =>
    have h := step_good hf hq op (hp op (by simp)) hs
    obtain ⟨h1, h2⟩ := ih (fun o ho => hp o (by simp [ho])) h.clean
    exact ⟨h1, h.tells.trans h2⟩

end Psygnal.ES
