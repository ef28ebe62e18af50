import Verif.Conc

/-! # Lemmas for `Verif/Conc.lean` -/
namespace Psygnal.Conc

@[simp] theorem set_same {α : Type} (f : Nat → α) (n : Nat) (v : α) : set f n v n = v := by simp [set]

theorem set_other {α : Type} {f : Nat → α} {n m : Nat} {v : α} (h : m ≠ n) : set f n v m = f m := by simp [set, h]

/-! ## Which locks a thread has taken -/

/-- Is the thread in an emission of `s`, before the lock is given back? -/
def loopC (s : Nat) : Ctl → Nat
  | .readPrev s' => if s' = s then 1 else 0
  | .writeCur s' _ => if s' = s then 1 else 0
  | .start s' _ => if s' = s then 1 else 0
  | .next s' _ _ => if s' = s then 1 else 0
  | .restore s' _ _ => if s' = s then 1 else 0
  | .cleanup s' _ => if s' = s then 1 else 0
  | _ => 0

/-- How often does what the thread does next hold the lock of `s`? -/
def heldC (s : Nat) : Ctl → Nat
  | .locked s' _ => if s' = s then 1 else 0
  | .release s' _ => if s' = s then 1 else 0
  | .unhold s' _ => if s' = s then 1 else 0
  | c => loopC s c

/-- The frame is a loop of `s`. -/
def loopF (s : Nat) : Frame → Nat
  | .loop s' _ _ => if s' = s then 1 else 0
  | _ => 0

/-- The frame holds the lock of `s`. -/
def heldF (s : Nat) : Frame → Nat
  | .hold s' => if s' = s then 1 else 0
  | f => loopF s f

/-- How often a stack holds the lock of `s`. -/
def heldS (s : Nat) (st : List Frame) : Nat := (st.map (heldF s)).sum

/-- How many loops of `s` are on a stack. -/
def loopS (s : Nat) (st : List Frame) : Nat := (st.map (loopF s)).sum

/-- How often a thread holds the lock of `s`. -/
def held (s : Nat) (th : Thread) : Nat := heldC s th.ctl + heldS s th.stack

/-- How many emissions of `s` a thread is in. -/
def loops (s : Nat) (th : Thread) : Nat := loopC s th.ctl + loopS s th.stack

@[simp] theorem heldS_nil (s : Nat) : heldS s [] = 0 := rfl
@[simp] theorem heldS_cons (s : Nat) (f : Frame) (st : List Frame) : heldS s (f :: st) = heldF s f + heldS s st := by
  simp [heldS]
@[simp] theorem loopS_nil (s : Nat) : loopS s [] = 0 := rfl
@[simp] theorem loopS_cons (s : Nat) (f : Frame) (st : List Frame) : loopS s (f :: st) = loopF s f + loopS s st := by
  simp [loopS]

theorem looping_iff (s : Nat) (st : List Frame) : looping s st = true ↔ 0 < loopS s st := by
  induction st with
  | nil => simp [looping]
  | cons f st ih =>
    cases f with
    | cont k => simpa [looping, loopF] using ih
    | hold s' => simpa [looping, loopF] using ih
    | loop s' p l =>
      by_cases h : s' = s <;> simp [looping, loopF, h, ih]
      omega

theorem loopS_le_held (s : Nat) (st : List Frame) : loopS s st ≤ heldS s st := by
  induction st with
  | nil => exact Nat.le_refl _
  | cons f st ih => cases f <;> simp [heldF, loopF] <;> omega

theorem loopC_le_held (s : Nat) (c : Ctl) : loopC s c ≤ heldC s c := by
  cases c <;> simp [heldC, loopC]

theorem loops_le_held (s : Nat) (th : Thread) : loops s th ≤ held s th :=
  Nat.add_le_add (loopC_le_held s _) (loopS_le_held s _)

/-- The effect of a step of thread `t` on locks. -/
structure LockStep (t : Nat) (σ σ' : St) : Prop where
  others : ∀ t', t' ≠ t → σ'.thr t' = σ.thr t'
  locks : ∀ s, (σ'.locks s = σ.locks s ∧ held s (σ'.thr t) = held s (σ.thr t))
    ∨ (∃ l, acquire t (σ.locks s) = some l ∧ σ'.locks s = some l ∧ held s (σ'.thr t) = held s (σ.thr t) + 1)
    ∨ (σ'.locks s = unlock (σ.locks s) ∧ held s (σ.thr t) = held s (σ'.thr t) + 1)

theorem lockStep_step {e : Env} {t : Nat} {σ σ' : St} (h : step e t σ = some σ') : LockStep t σ σ' := by
  unfold step at h
  simp only at h
  refine ⟨fun t' ht => ?_, fun s => ?_⟩
  · repeat' split at h
    all_goals (first | cases h | skip)
    all_goals simp [set_other ht]
  · rcases hth : σ.thr t with ⟨c, st⟩
    simp only [hth] at h ⊢
    cases c <;> try simp only at h
    case run c =>
      cases c <;> simp only at h <;> cases h <;> simp [held, heldC, loopC, heldF, loopF]
    case fin ok =>
      cases st with
      | nil => cases h
      | cons f st =>
        cases f <;> simp only at h
        case loop => split at h <;> cases h <;> simp [held, heldC, loopC, heldF, loopF]
        all_goals cases h; simp [held, heldC, loopC, heldF, loopF]
    case check s' a => split at h <;> cases h <;> simp [held, heldC, loopC]
    case wait s' a =>
      split at h
      · cases h
      · rename_i l hl
        cases h
        by_cases hs : s' = s
        · subst hs; refine .inr (.inl ⟨l, hl, ?_, ?_⟩) <;> simp [held, heldC, loopC]; omega
        · refine .inl ⟨?_, ?_⟩ <;> simp [held, heldC, loopC, set_other (Ne.symm hs), hs]
    case waitHold s' c =>
      split at h
      · cases h
      · rename_i l hl
        cases h
        by_cases hs : s' = s
        · subst hs; refine .inr (.inl ⟨l, hl, ?_, ?_⟩) <;> simp [held, heldC, loopC, heldF]; omega
        · refine .inl ⟨?_, ?_⟩ <;> simp [held, heldC, loopC, heldF, set_other (Ne.symm hs), hs]
    case locked s' a => split at h <;> cases h <;> simp [held, heldC, loopC]
    case readPrev s' => cases h; simp [held, heldC, loopC]
    case writeCur s' p => cases h; simp [held, heldC, loopC]
    case start s' p => repeat' split at h
                       all_goals cases h; simp [held, heldC, loopC]
    case next s' p l =>
      rcases l with ⟨a, j, i⟩
      simp only at h
      repeat' split at h
      all_goals cases h; simp [held, heldC, loopC, heldF, loopF]
    case restore s' p ok => cases h; simp [held, heldC, loopC]
    case cleanup s' ok => cases h; simp [held, heldC, loopC]
    case release s' ok =>
      cases h
      by_cases hs : s' = s
      · subst hs; refine .inr (.inr ⟨?_, ?_⟩) <;> simp [held, heldC, loopC]; omega
      · refine .inl ⟨?_, ?_⟩ <;> simp [held, heldC, loopC, set_other (Ne.symm hs), hs]
    case unhold s' ok =>
      cases h
      by_cases hs : s' = s
      · subst hs; refine .inr (.inr ⟨?_, ?_⟩) <;> simp [held, heldC, loopC]; omega
      · refine .inl ⟨?_, ?_⟩ <;> simp [held, heldC, loopC, set_other (Ne.symm hs), hs]

/-- Locks say who is in what. -/
def Locks (σ : St) : Prop := ∀ s,
  match σ.locks s with
  | none => ∀ t, held s (σ.thr t) = 0
  | some (o, n) => held s (σ.thr o) = n ∧ 0 < n ∧ ∀ t, t ≠ o → held s (σ.thr t) = 0

theorem locks_step {e : Env} {t : Nat} {σ σ' : St} (h : step e t σ = some σ') (hl : Locks σ) : Locks σ' := by
  have hs := lockStep_step h
  intro s
  have hl := hl s
  have ho := hs.others
  rcases hs.locks s with ⟨h1, h2⟩ | ⟨l, h1, h2, h3⟩ | ⟨h1, h2⟩
  · rw [h1]
    have key : ∀ t', held s (σ'.thr t') = held s (σ.thr t') := by
      intro t'
      by_cases ht : t' = t
      · subst ht; exact h2
      · rw [ho t' ht]
    split <;> rename_i heq <;> simp only [heq] at hl
    · intro t'; rw [key]; exact hl t'
    · exact ⟨by rw [key]; exact hl.1, hl.2.1, fun t' ht => by rw [key]; exact hl.2.2 t' ht⟩
  · rw [h2]
    cases hq : σ.locks s with
    | none =>
      rw [hq] at hl h1
      simp only [acquire, Option.some.injEq] at h1
      subst h1
      exact ⟨by rw [h3, hl t], Nat.one_pos, fun t' ht => by rw [ho t' ht]; exact hl t'⟩
    | some on =>
      obtain ⟨o, n⟩ := on
      rw [hq] at hl h1
      simp only [acquire] at h1
      split at h1
      · rename_i ho'; subst ho'
        simp only [Option.some.injEq] at h1
        subst h1
        exact ⟨by rw [h3, hl.1], Nat.succ_pos _, fun t' ht => by rw [ho t' ht]; exact hl.2.2 t' ht⟩
      · cases h1
  · rw [h1]
    cases hq : σ.locks s with
    | none => rw [hq] at hl; have := hl t; omega
    | some on =>
      obtain ⟨o, n⟩ := on
      rw [hq] at hl
      have hto : t = o := by
        by_cases hto : t = o
        · exact hto
        · have := hl.2.2 t hto; omega
      subst hto
      have h3 := hl.1
      match n, h3 with
      | 0, h3 => omega
      | 1, h3 =>
        intro t'
        by_cases ht : t' = t
        · subst ht; omega
        · rw [ho t' ht]; exact hl.2.2 t' ht
      | n + 2, h3 =>
        exact ⟨by omega, Nat.succ_pos _, fun t' ht => by rw [ho t' ht]; exact hl.2.2 t' ht⟩

theorem locks_init (e : Env) (prog : Nat → Code) : Locks (init e prog) := fun _ _ => rfl

/-- Only one thread holds a lock. -/
theorem Locks.one {σ : St} (h : Locks σ) {s t t' : Nat} (h1 : 0 < held s (σ.thr t)) (h2 : 0 < held s (σ.thr t')) : t = t' := by
  have h := h s
  split at h
  · have := h t; omega
  · rename_i o n _
    have a : t = o := Classical.byContradiction fun ne => by have := h.2.2 t ne; omega
    have b : t' = o := Classical.byContradiction fun ne => by have := h.2.2 t' ne; omega
    rw [a, b]

/-- Invariants of steps hold after every schedule. -/
theorem run_inv {e : Env} {P : St → Prop} (hs : ∀ t σ σ', step e t σ = some σ' → P σ → P σ') :
    ∀ (l : List Nat) (σ : St), P σ → P (run e l σ)
  | [], _, h => h
  | t :: l, σ, h => by
    unfold run
    apply run_inv hs
    cases hq : step e t σ with
    | none => exact h
    | some σ' => exact hs t σ σ' hq h

/-! ## What is logged -/

/-- The thread is in an emission of `s` until it has given the lock back. -/
def act (s : Nat) (th : Thread) : Nat :=
  loops s th + match th.ctl with
    | .release s' _ => if s' = s then 1 else 0
    | _ => 0

theorem act_le_held (s : Nat) (th : Thread) : act s th ≤ held s th := by
  rcases th with ⟨c, st⟩
  have := loopS_le_held s st
  cases c <;> simp [act, loops, held, heldC, loopC] <;> omega

/-- The effect of a step on the log. -/
theorem log_step {e : Env} {t : Nat} {σ σ' : St} (h : step e t σ = some σ') :
    ∃ evs, σ'.log = σ.log ++ evs ∧
      (∀ s, 0 < act s (σ.thr t) → 0 < act s (σ'.thr t) ∨ evs = [.done t s]) ∧
      (evs = []
        ∨ (∃ v, evs = [.saw t (innermost (σ.thr t).stack) v] ∧ v = σ.cur)
        ∨ (∃ s x a, evs = [.call t s x a] ∧ 0 < act s (σ'.thr t) ∧ 0 < act s (σ.thr t))
        ∨ (∃ s, evs = [.done t s] ∧ 0 < act s (σ.thr t))) := by
  unfold step at h
  rcases hth : σ.thr t with ⟨c, st⟩
  simp only [hth] at h ⊢
  cases c <;> try simp only at h
  case run c =>
    cases c <;> simp only at h <;> cases h
    case see k => exact ⟨_, rfl, by simp [act, loops, loopC], .inr (.inl ⟨_, rfl, rfl⟩)⟩
    all_goals exact ⟨[], by simp, by simp [act, loops, loopC, loopF], .inl rfl⟩
  case fin ok =>
    cases st with
    | nil => cases h
    | cons f st =>
      cases f <;> simp only at h
      case loop => split at h <;> cases h <;> exact ⟨[], by simp, by simp [act, loops, loopC, loopF], .inl rfl⟩
      all_goals cases h; exact ⟨[], by simp, by simp [act, loops, loopC, loopF], .inl rfl⟩
  case release s' ok =>
    cases h
    by_cases hlo : looping s' st = true
    · refine ⟨[], by simp [hlo], ?_, .inl rfl⟩
      have := (looping_iff _ _).mp hlo
      intro s
      simp only [act, loops, loopC, set_same]
      by_cases hs : s' = s
      · subst hs; intro _; left; omega
      · simp [hs]
    · refine ⟨[.done t s'], by simp [hlo], ?_, .inr (.inr (.inr ⟨_, rfl, by simp [act]⟩))⟩
      intro s
      simp only [act, loops, loopC, set_same]
      by_cases hs : s' = s
      · subst hs; intro _; right; rfl
      · simp [hs]
  case next s' p l =>
    rcases l with ⟨a, j, i⟩
    simp only at h
    split at h
    rotate_left
    · repeat' split at h
      all_goals cases h; exact ⟨[], by simp, by simp [act, loops, loopC], .inl rfl⟩
    · rename_i x _
      split at h
      · cases h; exact ⟨[], by simp, by simp [act, loops, loopC], .inl rfl⟩
      · cases h
        refine ⟨_, rfl, ?_, .inr (.inr (.inl ⟨s', x, a, rfl, ?_, ?_⟩))⟩
        · intro s; simp only [act, loops, loopC, loopS_cons, loopF, set_same]; intro _; left; omega
        · simp [act, loops, loopF]; omega
        · simp [act, loops, loopC]; omega
  all_goals repeat' split at h
  all_goals cases h
  all_goals refine ⟨[], by simp, ?_, .inl rfl⟩
  all_goals simp [act, loops, loopC]
  all_goals grind

/-- Which thread has called callbacks of `s` and has not left its outermost emission of `s`. -/
def opened (s : Nat) (log : List Ev) : Option Nat :=
  log.foldl (fun o ev => match ev with
    | .call t s' _ _ => if s' = s then some t else o
    | .done _ s' => if s' = s then none else o
    | .saw .. => o) none

/-- The event is of an emission of `s` by thread `t`. -/
def Ev.of (s t : Nat) : Ev → Prop
  | .call t' s' _ _ => t' = t ∧ s' = s
  | .done t' s' => t' = t ∧ s' = s
  | .saw .. => False

/-- Every call, and every end, is by the thread that has the emission open, if there is one. -/
def Coherent (log : List Ev) : Prop :=
  ∀ l1 l2 ev s t, log = l1 ++ ev :: l2 → ev.of s t → opened s l1 = none ∨ opened s l1 = some t

theorem coherent_append {log : List Ev} {ev : Ev} (h : Coherent log)
    (hev : ∀ s t, ev.of s t → opened s log = none ∨ opened s log = some t) : Coherent (log ++ [ev]) := by
  intro l1 l2 ev' s t heq hof
  rcases List.eq_nil_or_concat l2 with rfl | ⟨l2', y, rfl⟩
  · have := List.append_inj' heq rfl
    obtain ⟨rfl, h2⟩ := this
    simp only [List.cons.injEq, and_true] at h2
    subst h2
    exact hev s t hof
  · have heq' : log ++ [ev] = (l1 ++ ev' :: l2') ++ [y] := by
      rw [heq]; simp
    obtain ⟨h1, _⟩ := List.append_inj' heq' rfl
    exact h l1 l2' ev' s t h1 hof

theorem opened_append (s : Nat) (l : List Ev) (ev : Ev) : opened s (l ++ [ev]) =
    match ev with
    | .call t s' _ _ => if s' = s then some t else opened s l
    | .done _ s' => if s' = s then none else opened s l
    | .saw .. => opened s l := by
  simp only [opened, List.foldl_append, List.foldl_cons, List.foldl_nil]

/-- The invariant behind C45. -/
structure Serial (σ : St) : Prop where
  locks : Locks σ
  open_act : ∀ s t, opened s σ.log = some t → 0 < act s (σ.thr t)
  coh : Coherent σ.log

theorem serial_step {e : Env} (t : Nat) (σ σ' : St) (h : step e t σ = some σ') (hi : Serial σ) : Serial σ' := by
  have hl := locks_step h hi.locks
  have hs := lockStep_step h
  obtain ⟨evs, h1, h2, h3⟩ := log_step h
  have hact : ∀ s t', 0 < act s (σ.thr t') → evs ≠ [.done t s] → 0 < act s (σ'.thr t') := by
    intro s t' ha hne
    by_cases ht : t' = t
    · subst ht; exact (h2 s ha).resolve_right hne
    · rw [hs.others t' ht]; exact ha
  refine ⟨hl, ?_, ?_⟩
  · intro s t' ho
    rw [h1] at ho
    rcases h3 with rfl | ⟨v, rfl, _⟩ | ⟨s1, x, a, rfl, h4, _⟩ | ⟨s1, rfl, _⟩
    · rw [List.append_nil] at ho
      exact hact s t' (hi.open_act s t' ho) (by simp)
    · rw [opened_append] at ho
      exact hact s t' (hi.open_act s t' ho) (by simp)
    · rw [opened_append] at ho
      simp only at ho
      split at ho
      · rename_i hq; subst hq
        simp only [Option.some.injEq] at ho
        subst ho; exact h4
      · exact hact s t' (hi.open_act s t' ho) (by simp)
    · rw [opened_append] at ho
      simp only at ho
      split at ho
      · cases ho
      · rename_i hq
        refine hact s t' (hi.open_act s t' ho) ?_
        intro h; simp only [List.cons.injEq, Ev.done.injEq, and_true, true_and] at h; exact hq h
  · rw [h1]
    have key : ∀ s1, 0 < act s1 (σ.thr t) → opened s1 σ.log = none ∨ opened s1 σ.log = some t := by
      intro s1 h4
      cases ho : opened s1 σ.log with
      | none => exact .inl rfl
      | some t' =>
        have h5 := hi.open_act s1 t' ho
        have h6 := act_le_held s1 (σ.thr t')
        have h7 := act_le_held s1 (σ.thr t)
        exact .inr (by rw [hi.locks.one (s := s1) (t := t') (t' := t) (by omega) (by omega)])
    rcases h3 with rfl | ⟨v, rfl, _⟩ | ⟨s1, x, a, rfl, _, h4⟩ | ⟨s1, rfl, h4⟩
    · rw [List.append_nil]; exact hi.coh
    · exact coherent_append hi.coh (by intro _ _ h; cases h)
    · refine coherent_append hi.coh ?_
      rintro s' t' ⟨rfl, rfl⟩
      exact key _ h4
    · refine coherent_append hi.coh ?_
      rintro s' t' ⟨rfl, rfl⟩
      exact key _ h4

theorem serial_init (e : Env) (prog : Nat → Code) : Serial (init e prog) where
  locks := locks_init e prog
  open_act := by intro s t h; cases h
  coh := by intro l1 l2 ev s t h; cases l1 <;> cases h

/-- While thread `t` has `s` open, it stays open until `t` is done. -/
theorem Coherent.stays {log : List Ev} (h : Coherent log) {s t : Nat} :
    ∀ (m pre post : List Ev), log = pre ++ m ++ post → opened s pre = some t → Ev.done t s ∉ m →
      opened s (pre ++ m) = some t
  | [], pre, _, _, ho, _ => by rw [List.append_nil]; exact ho
  | ev :: m, pre, post, heq, ho, hd => by
    have h1 : opened s (pre ++ [ev]) = some t := by
      have h2 := h pre (m ++ post) ev s
      rw [opened_append]
      cases ev with
      | saw => exact ho
      | call u s' x a =>
        simp only; split
        · rename_i hs
          have := h2 u (by rw [heq]; simp) ⟨rfl, hs⟩
          rw [ho] at this
          rcases this with h | h
          · cases h
          · exact h.symm
        · exact ho
      | done u s' =>
        simp only; split
        · rename_i hs
          have := h2 u (by rw [heq]; simp) ⟨rfl, hs⟩
          rw [ho] at this
          rcases this with h | h
          · cases h
          · cases h; subst hs; exact absurd (List.mem_cons_self ..) hd
        · exact ho
    have h2 := Coherent.stays h m (pre ++ [ev]) post (by rw [heq]; simp) h1 (fun h => hd (List.mem_cons_of_mem _ h))
    simpa using h2

/-- Coherent logs do not interleave. -/
theorem Coherent.serial {log : List Ev} (h : Coherent log) {l1 l2 l3 : List Ev} {s t t' x a x' a' : Nat}
    (heq : log = l1 ++ .call t s x a :: (l2 ++ .call t' s x' a' :: l3)) (hd : Ev.done t s ∉ l2) : t' = t := by
  have h0 : opened s (l1 ++ [.call t s x a]) = some t := by rw [opened_append]; simp
  have h1 := h.stays l2 (l1 ++ [.call t s x a]) (.call t' s x' a' :: l3) (by rw [heq]; simp) h0 hd
  have h2 := h (l1 ++ [.call t s x a] ++ l2) l3 (.call t' s x' a') s t' (by rw [heq]; simp) ⟨rfl, rfl⟩
  rw [h1] at h2
  rcases h2 with h | h
  · cases h
  · cases h; rfl

/-! ## Steps as a relation -/

/-- The steps, one constructor for each branch of `step`; `st` is the stack. -/
inductive Step (e : Env) (t : Nat) (σ : St) : Ctl → List Frame → St → Prop
  | ret {st} : Step e t σ (.run .ret) st { σ with thr := set σ.thr t ⟨.fin true, st⟩ }
  | raise {st} : Step e t σ (.run .raise) st { σ with thr := set σ.thr t ⟨.fin false, st⟩ }
  | see {st k} : Step e t σ (.run (.see k)) st
      { σ with log := σ.log ++ [.saw t (innermost st) σ.cur], thr := set σ.thr t ⟨.run (k σ.cur), st⟩ }
  | emit {st s a k} : Step e t σ (.run (.emit s a k)) st { σ with thr := set σ.thr t ⟨.check s a, .cont k :: st⟩ }
  | hold {st s c k} : Step e t σ (.run (.hold s c k)) st { σ with thr := set σ.thr t ⟨.waitHold s c, .cont k :: st⟩ }
  | slots {st s f k} : Step e t σ (.run (.slots s f k)) st
      { σ with slots := set σ.slots s (f (σ.slots s)), thr := set σ.thr t ⟨.run k, st⟩ }
  | limit {st s a} : e.limit ≤ σ.depth s → Step e t σ (.check s a) st { σ with thr := set σ.thr t ⟨.fin false, st⟩ }
  | check {st s a} : σ.depth s < e.limit → Step e t σ (.check s a) st { σ with thr := set σ.thr t ⟨.wait s a, st⟩ }
  | wait {st s a l} : acquire t (σ.locks s) = some l →
      Step e t σ (.wait s a) st { σ with locks := set σ.locks s (some l), thr := set σ.thr t ⟨.locked s a, st⟩ }
  | waitHold {st s c l} : acquire t (σ.locks s) = some l →
      Step e t σ (.waitHold s c) st { σ with locks := set σ.locks s (some l), thr := set σ.thr t ⟨.run c, .hold s :: st⟩ }
  | queue {st s a} : σ.queue s ≠ [] → Step e t σ (.locked s a) st
      { σ with queue := set σ.queue s (σ.queue s ++ [a]), acc := set σ.acc s (σ.acc s ++ [(t, a)]),
               thr := set σ.thr t ⟨.release s true, st⟩ }
  | enter {st s a} : σ.queue s = [] → Step e t σ (.locked s a) st
      { σ with queue := set σ.queue s [a], depth := set σ.depth s (σ.depth s + 1),
               maxd := set σ.maxd s (max (σ.maxd s) (σ.depth s + 1)), acc := set σ.acc s (σ.acc s ++ [(t, a)]),
               thr := set σ.thr t ⟨.readPrev s, st⟩ }
  | readPrev {st s} : Step e t σ (.readPrev s) st { σ with thr := set σ.thr t ⟨.writeCur s σ.cur, st⟩ }
  | writeCur {st s p} : Step e t σ (.writeCur s p) st { σ with cur := some s, thr := set σ.thr t ⟨.start s p, st⟩ }
  | none {st s p} : σ.queue s = [] → Step e t σ (.start s p) st
      { σ with lost := set σ.lost s true, thr := set σ.thr t ⟨.restore s p false, st⟩ }
  | startQ {st s p a q} : σ.queue s = a :: q → e.mode s = .queued →
      Step e t σ (.start s p) st { σ with thr := set σ.thr t ⟨.next s p ⟨a, 0, 0⟩, st⟩ }
  | start {st s p a q} : σ.queue s = a :: q → e.mode s ≠ .queued →
      Step e t σ (.start s p) st
        { σ with queue := set σ.queue s q, thr := set σ.thr t ⟨.next s p ⟨a, 0, 0⟩, st⟩ }
  | call {st s p a x j i} : (σ.slots s)[j]? = some x → Step e t σ (.next s p ⟨a, j, i⟩) st
      { σ with log := σ.log ++ [.call t s x a],
               thr := set σ.thr t ⟨.run (e.body s x a), .loop s p ⟨a, j + 1, i⟩ :: st⟩ }
  | nextQ {st s p a b j i} : e.mode s = .queued → (σ.slots s)[j]? = none → (σ.queue s)[i + 1]? = some b →
      Step e t σ (.next s p ⟨a, j, i⟩) st { σ with thr := set σ.thr t ⟨.next s p ⟨b, 0, i + 1⟩, st⟩ }
  | endLoop {st s p l} : (e.mode s = .queued → (σ.slots s)[l.j]? = none ∧ (σ.queue s)[l.i + 1]? = none) →
      Step e t σ (.next s p l) st { σ with thr := set σ.thr t ⟨.restore s p true, st⟩ }
  | restore {st s p ok} : Step e t σ (.restore s p ok) st { σ with cur := p, thr := set σ.thr t ⟨.cleanup s ok, st⟩ }
  | cleanup {st s ok} : Step e t σ (.cleanup s ok) st
      { σ with depth := set σ.depth s (σ.depth s - 1), maxd := set σ.maxd s (if σ.depth s - 1 = 0 then 0 else σ.maxd s),
               queue := set σ.queue s [], thr := set σ.thr t ⟨.release s ok, st⟩ }
  | release {st s ok l} : (l = σ.log ∧ 0 < loopS s st ∨ l = σ.log ++ [.done t s]) → Step e t σ (.release s ok) st
      { σ with locks := set σ.locks s (unlock (σ.locks s)), log := l, thr := set σ.thr t ⟨.fin ok, st⟩ }
  | unhold {st s ok} : Step e t σ (.unhold s ok) st
      { σ with locks := set σ.locks s (unlock (σ.locks s)), thr := set σ.thr t ⟨.fin ok, st⟩ }
  | finCont {st ok k} : Step e t σ (.fin ok) (.cont k :: st) { σ with thr := set σ.thr t ⟨.run (k ok), st⟩ }
  | finHold {st ok s} : Step e t σ (.fin ok) (.hold s :: st) { σ with thr := set σ.thr t ⟨.unhold s ok, st⟩ }
  | finRaise {st ok s p l} : (ok = false ∨ e.mode s = .queued ∧ e.limit < (σ.queue s).length) →
      Step e t σ (.fin ok) (.loop s p l :: st)
      { σ with lost := set σ.lost s true, thr := set σ.thr t ⟨.restore s p false, st⟩ }
  | finNext {st s p l} : Step e t σ (.fin true) (.loop s p l :: st) { σ with thr := set σ.thr t ⟨.next s p l, st⟩ }

theorem step_rel {e : Env} {t : Nat} {σ σ' : St} (h : step e t σ = some σ') :
    Step e t σ (σ.thr t).ctl (σ.thr t).stack σ' := by
  unfold step at h
  rcases hth : σ.thr t with ⟨c, st⟩
  simp only [hth] at h ⊢
  cases c <;> try simp only at h
  case run c => cases c <;> simp only at h <;> cases h <;> constructor
  case fin ok =>
    cases st with
    | nil => cases h
    | cons f st =>
      cases f <;> simp only at h
      case loop =>
        split at h
        · rename_i hc; cases h; exact .finRaise hc
        · rename_i hc
          cases h
          have : ok = true := by cases ok <;> simp_all
          subst this; exact .finNext
      all_goals cases h; constructor
  case check => split at h <;> cases h
                · rename_i hl; exact .limit hl
                · exact .check (by omega)
  case wait => split at h
               · cases h
               · rename_i hl; cases h; exact .wait hl
  case waitHold => split at h
                   · cases h
                   · rename_i hl; cases h; exact .waitHold hl
  case locked s a =>
    split at h
    · rename_i hl
      cases h
      exact .queue (fun h0 => by simp [h0] at hl)
    · rename_i hl
      cases h
      have h0 : σ.queue s = [] := by
        cases hq : σ.queue s with
        | nil => rfl
        | cons x xs => simp [hq] at hl
      simp only [h0, List.nil_append]
      exact .enter h0
  case start s p =>
    split at h
    · rename_i h0; cases h; exact .none h0
    · rename_i h0
      split at h
      · rename_i hm; cases h; exact .startQ h0 hm
      · rename_i hm; cases h; exact .start h0 hm
  case next s p l =>
    rcases l with ⟨a, j, i⟩
    simp only at h
    split at h
    · rename_i hx
      split at h <;> cases h
      · rename_i hm; exact .endLoop (fun h => by rw [h] at hm; cases hm.1)
      · exact .call hx
    · rename_i hx
      split at h
      · rename_i hm
        split at h
        · rename_i hb; cases h; exact .nextQ hm hx hb
        · rename_i hb; cases h; exact .endLoop (fun _ => ⟨hx, hb⟩)
      · rename_i hm; cases h; exact .endLoop (fun h => absurd h hm)
  case release s ok =>
    cases h
    by_cases hlo : looping s st = true
    · exact .release (.inl ⟨by simp [hlo], (looping_iff _ _).mp hlo⟩)
    · exact .release (.inr (by simp [hlo]))
  all_goals cases h; constructor

/-- A step of thread `t` leaves the others alone. -/
theorem Step.others {e : Env} {t : Nat} {σ σ' : St} {c : Ctl} {st : List Frame} (h : Step e t σ c st σ') {t' : Nat}
    (ht : t' ≠ t) : σ'.thr t' = σ.thr t' := by
  cases h <;> simp [set_other ht]

/-! ## Queues -/

/-- Something is in the queue of a signal only while a thread is in an emission of it. -/
def Queues (σ : St) : Prop := ∀ s, σ.queue s ≠ [] → ∃ t, 0 < loops s (σ.thr t)

theorem set_apply {α : Type} (f : Nat → α) (n : Nat) (v : α) (m : Nat) : set f n v m = if m = n then v else f m := rfl

theorem queues_step {e : Env} (t : Nat) (σ σ' : St) (h : step e t σ = some σ') (hq : Queues σ) : Queues σ' := by
  have h := step_rel h
  have key : ∀ s, σ'.queue s = [] ∨ (σ.queue s ≠ [] ∧ (0 < loops s (σ.thr t) → 0 < loops s (σ'.thr t)))
      ∨ 0 < loops s (σ'.thr t) := by
    intro s
    have hqs : σ.queue s = [] ∨ σ.queue s ≠ [] := by cases σ.queue s <;> simp
    rcases hth : σ.thr t with ⟨c, st⟩
    rw [hth] at h
    simp only at h
    cases h <;> simp only [loops, loopC, loopF, set_same, set_apply, loopS_cons] <;> grind
  intro s hs
  rcases key s with h0 | ⟨h0, h1⟩ | h0
  · exact absurd h0 hs
  · obtain ⟨t', ht'⟩ := hq s h0
    by_cases htt : t' = t
    · subst htt; exact ⟨t', h1 ht'⟩
    · exact ⟨t', by rw [h.others htt]; exact ht'⟩
  · exact ⟨t, h0⟩

end Psygnal.Conc
