import Verif.ConcDepth

/-! # Queued signals with several threads -/
namespace Psygnal.Conc

/-- The callbacks called for signal `s`, by whichever thread. -/
def calls (s : Nat) (l : List Ev) : List (Nat × Nat) :=
  l.filterMap fun ev => match ev with
    | .call _ s' x a => if s' = s then some (x, a) else none
    | _ => none

/-- What emissions with these arguments call, one after the other. -/
def whole (S : List Nat) (as : List Nat) : List (Nat × Nat) := as.flatMap fun a => S.map fun x => (x, a)

/-- Where a thread is in an emission of a signal. -/
inductive Pos
  | start
  | mid (a j i : Nat)
  | over
  deriving DecidableEq

/-- The same, from what it does next. -/
def posC (s : Nat) : Ctl → Option Pos
  | .readPrev s' => if s' = s then some .start else none
  | .writeCur s' _ => if s' = s then some .start else none
  | .start s' _ => if s' = s then some .start else none
  | .next s' _ l => if s' = s then some (.mid l.args l.j l.i) else none
  | .restore s' _ _ => if s' = s then some .over else none
  | .cleanup s' _ => if s' = s then some .over else none
  | _ => none

/-- The same, from its stack. -/
def posS (s : Nat) : List Frame → Option Pos
  | [] => none
  | .loop s' _ l :: st => if s' = s then some (.mid l.args l.j l.i) else posS s st
  | _ :: st => posS s st

/-- Where a thread is in its innermost emission of `s`. -/
def pos (s : Nat) (th : Thread) : Option Pos := (posC s th.ctl).or (posS s th.stack)

theorem posC_loop (s : Nat) (c : Ctl) : posC s c = none ↔ loopC s c = 0 := by
  cases c <;> simp [posC, loopC]

theorem posS_loop (s : Nat) (st : List Frame) : posS s st = none ↔ loopS s st = 0 := by
  induction st with
  | nil => simp [posS]
  | cons f st ih => cases f <;> simp [posS, loopF, ih] <;> split <;> simp_all

theorem posS_at {s : Nat} {st : List Frame} {p : Pos} (h : posS s st = some p) : ∃ a j i, p = .mid a j i := by
  induction st with
  | nil => cases h
  | cons f st ih =>
    cases f with
    | loop s' q l =>
      simp only [posS] at h
      split at h
      · cases h; exact ⟨_, _, _, rfl⟩
      · exact ih h
    | _ => exact ih h

theorem pos_loops (s : Nat) (th : Thread) : pos s th = none ↔ loops s th = 0 := by
  unfold pos loops
  rw [Option.or_eq_none_iff, posC_loop, posS_loop]
  omega

theorem loops_pos {s : Nat} {th : Thread} (h : pos s th ≠ none) : 0 < loops s th := by
  rw [Ne, pos_loops] at h; omega

/-- What matters of a signal: queue, emissions, whether something was lost, calls. -/
structure Data where
  queue : List Nat
  acc : List Nat
  lost : Bool
  calls : List (Nat × Nat)

/-- Of signal `s`. -/
def St.data (σ : St) (s : Nat) : Data := ⟨σ.queue s, (σ.acc s).map (·.2), σ.lost s, Conc.calls s σ.log⟩

/-- What a step does to a queued signal with callbacks `S`. -/
inductive Act (S : List Nat) : Option Pos → Data → Option Pos → Data → Prop
  | silent {p d} : Act S p d p d
  | enter {d : Data} {a : Nat} : d.queue = [] → Act S none d (some .start) { d with queue := [a], acc := d.acc ++ [a] }
  | queue {d : Data} {a b j i : Nat} :
      Act S (some (.mid b j i)) d (some (.mid b j i)) { d with queue := d.queue ++ [a], acc := d.acc ++ [a] }
  | none {d : Data} : d.queue = [] → Act S (some .start) d (some .over) { d with lost := true }
  | start {d : Data} {a : Nat} {q : List Nat} : d.queue = a :: q → Act S (some .start) d (some (.mid a 0 0)) d
  | call {d : Data} {a j i x : Nat} : S[j]? = some x →
      Act S (some (.mid a j i)) d (some (.mid a (j + 1) i)) { d with calls := d.calls ++ [(x, a)] }
  | next {d : Data} {a j i b : Nat} : S[j]? = none → d.queue[i + 1]? = some b → Act S (some (.mid a j i)) d (some (.mid b 0 (i + 1))) d
  | over {d : Data} {a j i : Nat} : S[j]? = none → d.queue[i + 1]? = none → Act S (some (.mid a j i)) d (some .over) d
  | lose {d : Data} {a j i : Nat} : Act S (some (.mid a j i)) d (some .over) { d with lost := true }
  | cleanup {d : Data} : Act S (some .over) d none { d with queue := [] }

theorem calls_append (s : Nat) (l l' : List Ev) : calls s (l ++ l') = calls s l ++ calls s l' := by simp [calls]

theorem act_step {e : Env} {t : Nat} {σ σ' : St} (h : step e t σ = some σ') (hl : Locks σ) (hq : Queues σ) {s : Nat}
    {S : List Nat} (hm : e.mode s = .queued) (hS : σ.slots s = S) (h1 : loops s (σ.thr t) ≤ 1)
    (hne : 0 < loops s (σ.thr t) → σ.queue s ≠ []) :
    Act S (pos s (σ.thr t)) (σ.data s) (pos s (σ'.thr t)) (σ'.data s) := by
  have hown : ∀ {a : Nat}, (σ.thr t).ctl = .locked s a → σ.queue s ≠ [] → pos s (σ.thr t) ≠ none := by
    intro a hc hqs
    obtain ⟨t', ht'⟩ := hq s hqs
    have g1 : 0 < held s (σ.thr t) := by simp [held, hc, heldC]; omega
    have g2 := loops_le_held s (σ.thr t')
    have g3 := hl.one g1 (show 0 < held s (σ.thr t') by omega)
    subst g3
    rw [Ne, pos_loops]
    omega
  have h := step_rel h
  rcases hth : σ.thr t with ⟨c, st⟩
  rw [hth] at h h1 hne hown
  have hsil : ∀ {p p' : Option Pos} {d d' : Data}, p = p' → d = d' → Act S p d p' d' := by
    rintro p _ d _ rfl rfl; exact .silent
  cases h with
  | ret => exact hsil (by simp [pos, posC]) rfl
  | raise => exact hsil (by simp [pos, posC]) rfl
  | see => exact hsil (by simp [pos, posC]) (by simp [St.data, calls])
  | emit => exact hsil (by simp [pos, posC, posS]) rfl
  | hold => exact hsil (by simp [pos, posC, posS]) rfl
  | slots => exact hsil (by simp [pos, posC]) rfl
  | limit => exact hsil (by simp [pos, posC]) rfl
  | check => exact hsil (by simp [pos, posC]) rfl
  | wait => exact hsil (by simp [pos, posC]) rfl
  | waitHold => exact hsil (by simp [pos, posC, posS]) rfl
  | queue hq0 =>
    rename_i s' a
    by_cases hs : s' = s
    · subst hs
      have hp := hown rfl hq0
      have he : pos s' ⟨.locked s' a, st⟩ = pos s' ⟨.release s' true, st⟩ := by simp [pos, posC]
      simp only [set_same, St.data, List.map_append, List.map_cons, List.map_nil]
      rw [← he]
      cases hpp : pos s' ⟨.locked s' a, st⟩ with
      | none => exact absurd hpp hp
      | some p =>
        obtain ⟨b, j, i, rfl⟩ := posS_at (s := s') (st := st) (p := p) (by simpa [pos, posC] using hpp)
        exact .queue (d := σ.data s')
    · exact hsil (by simp [pos, posC]) (by simp [St.data, set_other (Ne.symm hs)])
  | enter hq0 =>
    rename_i s' a
    by_cases hs : s' = s
    · subst hs
      have : loops s' ⟨.locked s' a, st⟩ = 0 := by
        refine Classical.byContradiction fun h => ?_
        exact hne (by omega) hq0
      rw [(pos_loops _ _).mpr this]
      simp only [set_same, St.data, pos, posC, if_true, Option.some_or, List.map_append, List.map_cons, List.map_nil]
      exact .enter (d := σ.data s') hq0
    · exact hsil (by simp [pos, posC, hs]) (by simp [St.data, set_other (Ne.symm hs)])
  | readPrev => exact hsil (by simp [pos, posC]) rfl
  | writeCur => exact hsil (by simp [pos, posC]) rfl
  | none hq0 =>
    rename_i s' p
    by_cases hs : s' = s
    · subst hs
      simp only [set_same, St.data, pos, posC, if_true, Option.some_or]
      exact .none (d := σ.data s') hq0
    · exact hsil (by simp [pos, posC, hs]) (by simp [St.data, set_other (Ne.symm hs)])
  | startQ hq0 hm' =>
    rename_i s' p a q
    by_cases hs : s' = s
    · subst hs
      simp only [set_same, pos, posC, if_true, Option.some_or]
      exact .start (d := σ.data s') hq0
    · exact hsil (by simp [pos, posC, hs]) rfl
  | start hq0 hm' =>
    rename_i s' p a q
    by_cases hs : s' = s
    · subst hs; exact absurd hm hm'
    · exact hsil (by simp [pos, posC, hs]) (by simp [St.data, set_other (Ne.symm hs)])
  | call hx =>
    rename_i s' p a x j i
    by_cases hs : s' = s
    · subst hs
      rw [hS] at hx
      simp only [set_same, pos, posC, posS, if_true, Option.some_or, Option.none_or, St.data, calls_append]
      have : calls s' [.call t s' x a] = [(x, a)] := by simp [calls]
      rw [this]
      exact .call (d := σ.data s') hx
    · exact hsil (by simp [pos, posC, posS, hs]) (by simp [St.data, calls, hs])
  | nextQ hm' hx hb =>
    rename_i s' p a b j i
    by_cases hs : s' = s
    · subst hs
      rw [hS] at hx
      simp only [set_same, pos, posC, if_true, Option.some_or]
      exact .next (d := σ.data s') hx hb
    · exact hsil (by simp [pos, posC, hs]) rfl
  | endLoop hx =>
    rename_i s' p l
    by_cases hs : s' = s
    · subst hs
      obtain ⟨h3, h4⟩ := hx hm
      rw [hS] at h3
      simp only [set_same, pos, posC, if_true, Option.some_or]
      exact .over (d := σ.data s') h3 h4
    · exact hsil (by simp [pos, posC, hs]) rfl
  | restore =>
    rename_i s' p ok
    exact hsil (by simp [pos, posC]) rfl
  | cleanup =>
    rename_i s' ok
    by_cases hs : s' = s
    · subst hs
      have : posS s' st = none := by
        rw [posS_loop]
        simp [loops, loopC] at h1
        omega
      simp only [set_same, pos, posC, if_true, Option.some_or, Option.none_or, this]
      simp only [St.data, set_same]
      exact .cleanup (d := σ.data s')
    · exact hsil (by simp [pos, posC, hs]) (by simp [St.data, set_other (Ne.symm hs)])
  | release hlog =>
    refine hsil (by simp [pos, posC]) ?_
    rcases hlog with ⟨rfl, _⟩ | rfl
    · rfl
    · simp [St.data, calls]
  | unhold => exact hsil (by simp [pos, posC]) rfl
  | finCont => exact hsil (by simp [pos, posC, posS]) rfl
  | finHold => exact hsil (by simp [pos, posC, posS]) rfl
  | finRaise hf =>
    rename_i st' ok s' p l
    by_cases hs : s' = s
    · subst hs
      simp only [set_same, pos, posC, posS, if_true, Option.some_or, Option.none_or, St.data]
      exact .lose (d := σ.data s')
    · exact hsil (by simp [pos, posC, posS, hs]) (by simp [St.data, set_other (Ne.symm hs)])
  | finNext =>
    rename_i st' s' p l
    exact hsil (by by_cases hs : s' = s <;> simp [pos, posC, posS, hs]) rfl

/-- The calls so far: all of these unless something was lost, and in any case in this order. -/
def Made (d : Data) (l : List (Nat × Nat)) : Prop := d.calls.Sublist l ∧ (d.lost = false → d.calls = l)

/-- What is known of a queued signal. -/
def Good (S : List Nat) (d : Data) : Option Pos → Prop
  | none => d.queue = [] ∧ Made d (whole S d.acc)
  | some .start => d.queue ≠ [] ∧ ∃ A, d.acc = A ++ d.queue ∧ Made d (whole S A)
  | some (.mid a j i) => d.queue[i]? = some a ∧
      ∃ A, d.acc = A ++ d.queue ∧ Made d (whole S (A ++ d.queue.take i) ++ (S.take j).map fun x => (x, a))
  | some .over => d.queue ≠ [] ∧ Made d (whole S d.acc)

theorem whole_append (S a b : List Nat) : whole S (a ++ b) = whole S a ++ whole S b := by simp [whole]

theorem made_sub {d d' : Data} {l l' : List (Nat × Nat)} (h : Made d l) (hc : d'.calls = d.calls) (hl : d'.lost = true)
    (hs : l.Sublist l') : Made d' l' := ⟨by rw [hc]; exact h.1.trans hs, by simp [hl]⟩

theorem good_ne {S : List Nat} {d : Data} {p : Option Pos} (h : Good S d p) (hp : p ≠ none) : d.queue ≠ [] := by
  cases p with
  | none => exact absurd rfl hp
  | some p =>
    cases p with
    | start => exact h.1
    | mid a j i => intro h0; have := h.1; rw [h0] at this; simp at this
    | over => exact h.1

theorem good_act {S : List Nat} {p p' : Option Pos} {d d' : Data} (h : Act S p d p' d') (hg : Good S d p) :
    Good S d' p' := by
  cases h with
  | silent => exact hg
  | enter hq => exact ⟨by simp, d.acc, rfl, hg.2⟩
  | queue =>
    obtain ⟨h0, A, h1, h2⟩ := hg
    have hi := (List.getElem?_eq_some_iff.mp h0).1
    refine ⟨by simp only; rw [List.getElem?_append_left hi]; exact h0, A, by simp [h1], ?_⟩
    simp only
    rw [List.take_append_of_le_length (Nat.le_of_lt hi)]
    exact h2
  | none hq => exact absurd hq hg.1
  | start hq =>
    rename_i a q
    obtain ⟨_, A, h1, h2⟩ := hg
    exact ⟨by simp [hq], A, h1, by simpa using h2⟩
  | call hx =>
    rename_i a j i x
    obtain ⟨h0, A, h1, h2, h3⟩ := hg
    have : (S.take (j + 1)).map (fun x => (x, a)) = (S.take j).map (fun x => (x, a)) ++ [(x, a)] := by
      rw [List.take_add_one, hx]; simp
    refine ⟨h0, A, h1, ?_⟩
    rw [this, ← List.append_assoc]
    exact ⟨h2.append_right _, fun hl => by simp only; rw [h3 hl]⟩
  | next hx hb =>
    rename_i a j i b
    obtain ⟨h0, A, h1, h2⟩ := hg
    refine ⟨hb, A, h1, ?_⟩
    have hj : S.take j = S := List.take_of_length_le (List.getElem?_eq_none_iff.mp hx)
    have : d.queue.take (i + 1) = d.queue.take i ++ [a] := by rw [List.take_add_one, h0]; rfl
    rw [this, ← List.append_assoc, whole_append]
    rw [hj] at h2
    simpa [whole] using h2
  | over hx hb =>
    rename_i a j i
    obtain ⟨h0, A, h1, h2⟩ := hg
    refine ⟨good_ne (S := S) (d := d) (p := some (.mid a j i)) ⟨h0, A, h1, h2⟩ (by simp), ?_⟩
    have hj : S.take j = S := List.take_of_length_le (List.getElem?_eq_none_iff.mp hx)
    have hlen : d.queue.length ≤ i + 1 := List.getElem?_eq_none_iff.mp hb
    have : d.queue = d.queue.take i ++ [a] := by
      have h3 : d.queue.take (i + 1) = d.queue.take i ++ [a] := by rw [List.take_add_one, h0]; rfl
      rw [← h3, List.take_of_length_le hlen]
    rw [h1, this, ← List.append_assoc, whole_append]
    rw [hj] at h2
    simpa [whole] using h2
  | lose =>
    rename_i a j i
    obtain ⟨h0, A, h1, h2⟩ := hg
    refine ⟨good_ne (S := S) (d := d) (p := some (.mid a j i)) ⟨h0, A, h1, h2⟩ (by simp), ?_⟩
    refine made_sub h2 rfl rfl ?_
    have h3 : d.queue = d.queue.take i ++ a :: d.queue.drop (i + 1) := by
      have hi := List.getElem?_eq_some_iff.mp h0
      rw [← hi.2, List.getElem_cons_drop, List.take_append_drop]
    simp only
    conv => rhs; rw [h1, h3, ← List.append_assoc, whole_append]
    refine List.Sublist.append_left ?_ _
    show List.Sublist _ ((a :: d.queue.drop (i + 1)).flatMap _)
    rw [List.flatMap_cons]
    exact ((List.take_sublist j S).map _).trans (List.sublist_append_left _ _)
  | cleanup => exact ⟨rfl, hg.2⟩

/-- What is known of a queued signal `s` whose callbacks are `S`. -/
structure QInv (S : List Nat) (s : Nat) (σ : St) : Prop where
  locks : Locks σ
  depth : Depth σ
  queues : Queues σ
  one : ∀ t, loops s (σ.thr t) ≤ 1
  busy : ∀ t p, pos s (σ.thr t) = some p → Good S (σ.data s) (some p)
  idle : (∀ t, pos s (σ.thr t) = none) → Good S (σ.data s) none

theorem qinv_step {e : Env} {t : Nat} {σ σ' : St} (h : step e t σ = some σ') {s : Nat} {S : List Nat}
    (hm : e.mode s = .queued) (hS : σ.slots s = S) (hi : QInv S s σ) : QInv S s σ' := by
  have hne : 0 < loops s (σ.thr t) → σ.queue s ≠ [] := by
    intro hp
    cases hpp : pos s (σ.thr t) with
    | none => have := (pos_loops _ _).mp hpp; omega
    | some p => exact good_ne (S := S) (d := σ.data s) (hi.busy t p hpp) (by simp)
  have ho := (lockStep_step h).others
  have ha := act_step h hi.locks hi.queues hm hS (hi.one t) hne
  have huniq : ∀ t', 0 < loops s (σ.thr t) → t' ≠ t → pos s (σ.thr t') = none := by
    intro t' hp ht'
    obtain ⟨t0, _, h2⟩ := hi.depth.eq s
    rw [pos_loops]
    have : t = t0 := Classical.byContradiction fun hn => by have := h2 t hn; omega
    exact h2 t' (this ▸ ht')
  have hd := depth_step h hi.locks hi.depth
  have hlk := locks_step h hi.locks
  have huniq' : ∀ t', 0 < loops s (σ'.thr t) → t' ≠ t → pos s (σ'.thr t') = none := by
    intro t' hp ht'
    obtain ⟨t0, _, h2⟩ := hd.eq s
    rw [pos_loops]
    have : t = t0 := Classical.byContradiction fun hn => by have := h2 t hn; omega
    exact h2 t' (this ▸ ht')
  refine ⟨hlk, hd, queues_step t σ σ' h hi.queues, ?_, ?_, ?_⟩
  · intro u
    by_cases hu : u = t
    · subst hu
      have h1 := hi.one u
      have h := step_rel h
      rcases hth : σ.thr u with ⟨c, st⟩
      rw [hth] at h h1 hne
      cases h <;> simp only [loops, loopC, loopF, set_same, loopS_cons] at h1 hne ⊢ <;> grind
    · rw [ho u hu]; exact hi.one u
  · intro u p hp
    by_cases hu : u = t
    · subst hu
      rw [hp] at ha
      refine good_act ha ?_
      cases hpp : pos s (σ.thr u) with
      | some q => exact hi.busy u q hpp
      | none =>
        refine hi.idle fun v => ?_
        by_cases hv : v = u
        · rw [hv]; exact hpp
        · rw [← ho v hv]
          refine huniq' v ?_ hv
          exact loops_pos (by rw [hp]; simp)
    · have hp' := hp
      rw [ho u hu] at hp
      have hn : pos s (σ.thr t) = none := by
        refine Classical.byContradiction fun hn => ?_
        have := huniq u (loops_pos hn) hu
        rw [hp] at this; cases this
      have hn' : pos s (σ'.thr t) = none := by
        refine Classical.byContradiction fun hn => ?_
        have := huniq' u (loops_pos hn) hu
        rw [hp'] at this; cases this
      rw [hn, hn'] at ha
      have hg := hi.busy u p hp
      generalize σ'.data s = d' at ha ⊢
      cases ha
      exact hg
  · intro hall
    have hg : Good S (σ.data s) (pos s (σ.thr t)) := by
      cases hpp : pos s (σ.thr t) with
      | some q => exact hi.busy t q hpp
      | none =>
        refine hi.idle fun v => ?_
        by_cases hv : v = t
        · rw [hv]; exact hpp
        · rw [← ho v hv]; exact hall v
    rw [← hall t]
    exact good_act ha hg

theorem qinv_init (e : Env) (prog : Nat → Code) (S : List Nat) (s : Nat) : QInv S s (init e prog) where
  locks := locks_init e prog
  depth := depth_init e prog
  queues := fun _ h => absurd rfl h
  one _ := Nat.zero_le _
  busy _ _ h := by cases h
  idle _ := ⟨rfl, List.Sublist.refl _, fun _ => rfl⟩

theorem qinv_run {e : Env} {s : Nat} {S : List Nat} (hm : e.mode s = .queued) : ∀ (sched : List Nat) (σ : St), QInv S s σ →
    (∀ pre, pre <+: sched → (run e pre σ).slots s = S) → QInv S s (run e sched σ)
  | [], _, hi, _ => hi
  | t :: sched, σ, hi, hS => by
    have h0 : σ.slots s = S := hS [] (List.nil_prefix)
    have h1 : QInv S s ((step e t σ).getD σ) := by
      cases hq : step e t σ with
      | none => exact hi
      | some σ' => exact qinv_step hq hm h0 hi
    exact qinv_run hm sched _ h1 fun pre hp => hS (t :: pre) (List.cons_prefix_cons.mpr ⟨rfl, hp⟩)

end Psygnal.Conc
