import Verif.ConnConcHist

/-! # C90: connecting and disconnecting in several threads -/
namespace Psygnal.CoC

/-- No callback dies while a thread is between getting and giving back the lock of the signal. -/
def Calm : List Who → St → Prop
  | [], _ => True
  | .thr t :: s, σ => Calm s (step t σ)
  | .gc f :: s, σ => σ.owner = none ∧ Calm s (die f σ)

theorem inv_run : ∀ (s : List Who) {σ : St}, Inv σ → Calm s σ → Inv (run s σ)
  | [], _, h, _ => h
  | .thr t :: s, _, h, hc => inv_run s (inv_step h t) hc
  | .gc f :: s, _, h, hc => inv_run s (inv_die h hc.1 f) hc.2

theorem calm_threads : ∀ (s : List Who) (σ : St), (∀ f, Who.gc f ∉ s) → Calm s σ
  | [], _, _ => trivial
  | .thr t :: s, σ, h => calm_threads s (step t σ) (fun f hf => h f (.tail _ hf))
  | .gc f :: _, _, h => absurd (.head _) (h f)

/-- **C90 (one after the other; partial).**  Whatever threads do at the same time: at every moment the callbacks are those that the calls make
which had their effects so far, each as if it were alone - `connect` puts the callback behind those of the same and higher priorities
(`unique=True` and `'raise'` refuse one that is there), `disconnect` removes the first one equal to it, `in` and `len` say what is connected,
`emit` has called exactly the connected callbacks in their order.  Missing: deaths of callbacks during a call (see the refutations). -/
theorem C90_linear_partial (prog : Nat → Code) (sched : List Who) (hc : Calm sched (init prog)) :
    Legal (run sched (init prog)).log (run sched (init prog)).slots :=
  (inv_run sched (inv_init prog) hc).legal

/-- **C90 (when calls have their effect).**  A call that has returned `r` has had the effect with the result `r` after it was made, and between
that and its return its thread has done nothing else; an emission has called just the callbacks that it says, in this order, after it was made
and before that moment, other calls call none.  (For all schedules, also with deaths.) -/
theorem C90_moment (prog : Nat → Code) (sched : List Who) {l1 l2 : List Ev} {t : Nat} {o : Op} {r : Res}
    (h : (run sched (init prog)).log = l1 ++ .ret t o r :: l2) :
    ∃ m1 m2 m3, l1 = m1 ++ .call t o :: (m2 ++ .effect t o r :: m3) ∧
      m2.filter (Ev.of t) = (match o, r with
        | .emit a, .calls fs => fs.map (fun f => .called t f a)
        | _, _ => []) ∧ m3.filter (Ev.of t) = [] := by
  obtain ⟨m1, m2, m3, h1, h2, h3⟩ := (hist_run prog sched).rets l1 l2 t o r h
  refine ⟨m1, m2, m3, h1, ?_, h3⟩
  rw [h2]
  cases o <;> cases r <;> rfl

/-- **C90 (order; partial).**  Callbacks are in the order of their priorities at every moment.  Missing: deaths during a call
(`C90_priority_refuted`). -/
theorem C90_sorted_partial (prog : Nat → Code) (sched : List Who) (hc : Calm sched (init prog)) :
    (run sched (init prog)).slots.Pairwise (fun a b => b.p ≤ a.p) :=
  (inv_run sched (inv_init prog) hc).sorted.1

/-- **C90 (unique; partial).**  If all connections are made with `unique=True` or `unique='raise'`, no callback is connected twice, however
many threads connect it at the same time.  Missing: deaths during a call (`C90_unique_refuted`). -/
theorem C90_unique_partial (prog : Nat → Code) (sched : List Who) (hc : Calm sched (init prog))
    (hu : ∀ t f p r, Ev.effect t (.conn f .no p) r ∉ (run sched (init prog)).log) :
    ((run sched (init prog)).slots.map Slot.f).Nodup := by
  have h := C90_linear_partial prog sched hc
  generalize (run sched (init prog)).log = L at h hu
  generalize (run sched (init prog)).slots = l at h
  induction h with
  | nil => exact .nil
  | @effect L l t o h ih =>
    have ih := ih (fun t f p r hm => hu t f p r (List.mem_append.mpr (.inl hm)))
    cases o with
    | conn f u p =>
      simp only [Op.alone]
      split
      · exact ih
      · rename_i hn
        have hu' : u ≠ .no := fun e => by
          subst e
          exact hu t f p _ (List.mem_append.mpr (.inr (.head _)))
        have hf : f ∉ l.map Slot.f := fun hm => hn ⟨hu', hm⟩
        have hp : (l.filter (fun s => decide (p ≤ s.p)) ++ ⟨f, p⟩ :: l.filter (fun s => decide (s.p < p))).Perm (⟨f, p⟩ :: l) := by
          refine List.perm_middle.trans (List.Perm.cons _ ?_)
          have e : (fun s : Slot => decide (s.p < p)) = fun s => !decide (p ≤ s.p) := by
            funext s
            by_cases h : p ≤ s.p
            · simp [h]
            · simp [h]; omega
          rw [e]
          exact List.filter_append_perm _ _
        rw [(hp.map Slot.f).nodup_iff, List.map_cons, List.nodup_cons]
        exact ⟨hf, ih⟩
    | disc f ok =>
      simp only [Op.alone]
      split
      · exact ih.sublist (List.Sublist.map _ List.eraseP_sublist)
      · exact ih
    | discAll => exact .nil
    | has f => exact ih
    | len => exact ih
    | emit a => exact ih
  | died f _ ih => exact (ih (fun t f p r hm => hu t f p r (List.mem_append.mpr (.inl hm)))).sublist (List.Sublist.map _ List.eraseP_sublist)
  | call _ _ _ ih => exact ih (fun t f p r hm => hu t f p r (List.mem_append.mpr (.inl hm)))
  | called _ _ _ _ ih => exact ih (fun t f p r hm => hu t f p r (List.mem_append.mpr (.inl hm)))
  | ret _ _ _ _ ih => exact ih (fun t f p r hm => hu t f p r (List.mem_append.mpr (.inl hm)))

/-- **C90 (kept).**  For all schedules, also with deaths at any time: a connected callback that does not die stays connected as long as no
`disconnect` - of any callback - has its effect. -/
theorem C90_kept (prog : Nat → Code) (s1 s2 : List Who) {f : Nat} (h : f ∈ (run s1 (init prog)).slots.map Slot.f)
    {es : List Ev} (he : (run (s1 ++ s2) (init prog)).log = (run s1 (init prog)).log ++ es) (h1 : Ev.died f ∉ es)
    (h2 : ∀ t g ok r, Ev.effect t (.disc g ok) r ∉ es) (h3 : ∀ t r, Ev.effect t .discAll r ∉ es) :
    f ∈ (run (s1 ++ s2) (init prog)).slots.map Slot.f := by
  have hr : run (s1 ++ s2) (init prog) = run s2 (run s1 (init prog)) := by unfold run; rw [List.foldl_append]
  rw [hr] at he ⊢
  clear hr
  generalize run s1 (init prog) = σ at h he
  induction s2 generalizing σ es with
  | nil => exact h
  | cons w s ih =>
    obtain ⟨e1, h4⟩ := log_act σ w
    obtain ⟨e2, h5⟩ := log_run s (act σ w)
    have he' : es = e1 ++ e2 := by
      have : (run s (act σ w)).log = σ.log ++ es := he
      rw [h5, h4, List.append_assoc] at this
      exact (List.append_cancel_left this).symm
    subst he'
    refine ih (es := e2) (fun hm => h1 (List.mem_append.mpr (.inr hm))) (fun t g ok r hm => h2 t g ok r (List.mem_append.mpr (.inr hm)))
      (fun t r hm => h3 t r (List.mem_append.mpr (.inr hm))) (act σ w) ?_ h5
    rcases slots_act σ w with hs | ⟨t, g, u, p, i, _, hs⟩ | ⟨t, g, ok, i, hl, _⟩ | ⟨t, hl, _⟩ | ⟨g, rfl, hl, hs⟩
    · rw [hs]; exact h
    · rw [hs]
      obtain ⟨s', hm, e⟩ := List.mem_map.mp h
      refine List.mem_map.mpr ⟨s', ?_, e⟩
      rw [← List.take_append_drop i σ.slots] at hm
      rcases List.mem_append.mp hm with hm | hm
      · exact List.mem_append.mpr (.inl hm)
      · exact List.mem_append.mpr (.inr (.tail _ hm))
    · rw [h4] at hl
      have := List.append_cancel_left hl
      exact absurd (List.mem_append.mpr (.inl (by rw [this]; exact .head _))) (h2 t g ok .ok)
    · rw [h4] at hl
      have := List.append_cancel_left hl
      exact absurd (List.mem_append.mpr (.inl (by rw [this]; exact .head _))) (h3 t .ok)
    · rw [h4] at hl
      have := List.append_cancel_left hl
      have hg : g ≠ f := fun e => h1 (List.mem_append.mpr (.inl (by rw [this, e]; exact .head _)))
      rw [hs]
      obtain ⟨s', hm, e⟩ := List.mem_map.mp h
      refine List.mem_map.mpr ⟨s', ?_, e⟩
      exact (List.mem_eraseP_of_neg (by simpa [e] using fun e' => hg e'.symm)).mpr hm

/-- **C90 (nothing foreign).**  For all schedules: what is connected has been connected, with this priority. -/
theorem C90_own (prog : Nat → Code) (sched : List Who) {s : Slot} (h : s ∈ (run sched (init prog)).slots) :
    ∃ t u, Ev.effect t (.conn s.f u s.p) .ok ∈ (run sched (init prog)).log := by
  have key : ∀ (sched : List Who) (σ : St), (∀ s ∈ σ.slots, ∃ t u, Ev.effect t (.conn s.f u s.p) .ok ∈ σ.log) →
      ∀ s ∈ (run sched σ).slots, ∃ t u, Ev.effect t (.conn s.f u s.p) .ok ∈ (run sched σ).log := by
    intro sched
    induction sched with
    | nil => exact fun _ h => h
    | cons w sched ih =>
      intro σ h
      refine ih (act σ w) ?_
      obtain ⟨e1, h4⟩ := log_act σ w
      have old : ∀ s ∈ σ.slots, ∃ t u, Ev.effect t (.conn s.f u s.p) .ok ∈ (act σ w).log := fun s hs => by
        obtain ⟨t, u, hm⟩ := h s hs
        exact ⟨t, u, by rw [h4]; exact List.mem_append.mpr (.inl hm)⟩
      rcases slots_act σ w with hs | ⟨t, g, u, p, i, hl, hs⟩ | ⟨t, g, ok, i, _, hs⟩ | ⟨t, _, hs⟩ | ⟨g, rfl, _, hs⟩
      · rw [hs]; exact old
      · rw [hs]
        intro s hm
        rcases List.mem_append.mp hm with hm | hm
        · exact old s (List.mem_of_mem_take hm)
        · rcases List.mem_cons.mp hm with rfl | hm
          · exact ⟨t, u, by rw [hl]; exact List.mem_append.mpr (.inr (.head _))⟩
          · exact old s (List.mem_of_mem_drop hm)
      · rw [hs]; exact fun s hm => old s ((List.eraseIdx_sublist _ _).subset hm)
      · rw [hs]; exact fun s hm => by cases hm
      · rw [hs]; exact fun s hm => old s (List.eraseP_sublist.subset hm)
  exact key sched (init prog) (fun s hs => by cases hs) s h

/-- **C90 (no deadlock).**  For all schedules: as long as some thread has not finished, some thread can go on. -/
theorem C90_progress (prog : Nat → Code) (sched : List Who) {t : Nat} (ht : (run sched (init prog)).thr t ≠ .run .ret) :
    ∃ u, (step u (run sched (init prog))).thr u ≠ (run sched (init prog)).thr u := by
  have h := lock_run prog sched
  generalize run sched (init prog) = σ at ht h
  cases ho : σ.owner with
  | none => exact ⟨t, (does_step t σ).moves (fun _ _ _ => ho) ht⟩
  | some u =>
    have hu := (h u).mpr ho
    exact ⟨u, (does_step u σ).moves (fun o k e => by rw [e] at hu; cases hu) (fun e => by rw [e] at hu; cases hu)⟩

/-- **C90 (the lock is given back).**  For all schedules: a thread that has the lock gives it back after at most `2 n + 5` steps of its own, if `n`
callbacks are connected, whatever the other threads and the garbage collector do. -/
theorem C90_released (prog : Nat → Code) (sched s : List Who) {t : Nat} (ho : (run sched (init prog)).owner = some t)
    (hs : 2 * (run sched (init prog)).slots.length + 5 ≤ s.countP (· = .thr t)) :
    ∃ s1 s2, s = s1 ++ s2 ∧ (run (sched ++ s1) (init prog)).owner ≠ some t := by
  obtain ⟨s1, s2, e, h⟩ := released s (lock_run prog sched) ho (Nat.le_trans (pot_le _ _) (by omega))
  refine ⟨s1, s2, e, ?_⟩
  have : run (sched ++ s1) (init prog) = run s1 (run sched (init prog)) := by unfold run; rw [List.foldl_append]
  rw [this]
  exact h

/-! ## Cases -/

/-- Calls one after the other. -/
def seq : List Op → Code
  | [] => .ret
  | o :: l => .op o (fun _ => seq l)

/-- Thread 0 connects, thread 1 does one call. -/
def two (l : List Op) (o : Op) (t : Nat) : Code := if t = 0 then seq l else if t = 1 then seq [o] else .ret

/-- `n` steps of thread `t`. -/
def times (n t : Nat) : List Who := List.replicate n (.thr t)

/-- Two threads that connect the same callback with `unique=True`, in turns; then one dies between the calls. -/
def exSched : List Who := times 12 0 ++ [.thr 1, .thr 0, .thr 1, .thr 0, .thr 0] ++ times 8 1 ++ times 5 0 ++ [.gc 1] ++ times 20 0

/-- See `exSched`. -/
def exProg : Nat → Code := two [.conn 1 .no 0, .conn 2 .no 3, .conn 5 .yes 0, .emit 7] (.conn 5 .yes 2)

theorem exCalm : Calm exSched (init exProg) := by
  unfold exSched times
  simp only [List.replicate, List.cons_append, List.nil_append, Calm]
  exact ⟨by decide +kernel, trivial⟩

/-- A case for `C90_linear_partial`, `C90_sorted_partial` and `C90_moment`: one of the two connections has been made, where its priority
belongs, and the emission calls the two callbacks that are left. -/
example : Legal (run exSched (init exProg)).log (run exSched (init exProg)).slots ∧ (run exSched (init exProg)).slots = [⟨2, 3⟩, ⟨5, 2⟩] ∧
    Ev.ret 0 (.emit 7) (.calls [2, 5]) ∈ (run exSched (init exProg)).log ∧ Ev.died 1 ∈ (run exSched (init exProg)).log :=
  ⟨C90_linear_partial exProg exSched exCalm, by decide +kernel, by decide +kernel, by decide +kernel⟩

/-- A case for `C90_unique_partial`. -/
example : ((run (times 20 0 ++ times 20 1) (init (two [.conn 5 .yes 0, .conn 6 .raise 1] (.conn 5 .raise 0)))).slots.map Slot.f).Nodup ∧
    Ev.ret 1 (.conn 5 .raise 0) .value ∈ (run (times 20 0 ++ times 20 1) (init (two [.conn 5 .yes 0, .conn 6 .raise 1] (.conn 5 .raise 0)))).log := by
  refine ⟨C90_unique_partial _ _ (calm_threads _ _ (fun f hf => ?_)) ?_, by decide +kernel⟩
  · rcases List.mem_append.mp hf with h | h <;> cases (List.eq_of_mem_replicate h)
  · have : ∀ e ∈ (run (times 20 0 ++ times 20 1) (init (two [.conn 5 .yes 0, .conn 6 .raise 1] (.conn 5 .raise 0)))).log,
        (match e with | .effect _ (.conn _ .no _) _ => false | _ => true) = true := by decide +kernel
    intro t f p r hm
    cases this _ hm

/-- See the next example. -/
def exKept : Nat → Code := two [.conn 1 .no 0, .conn 2 .no 0, .conn 3 .no 1] .len

/-- See the next example. -/
def exMore : List Ev := [.died 1, .effect 0 (.conn 3 .no 1) .ok, .ret 0 (.conn 3 .no 1) .ok]

/-- A case for `C90_kept`: callback 1 dies while callback 3 is being connected; callback 2 stays. -/
example : (2 : Nat) ∈ (run (times 13 0 ++ (.gc 1 :: times 5 0)) (init exKept)).slots.map Slot.f :=
  @C90_kept exKept (times 13 0) (.gc 1 :: times 5 0) 2 (by decide +kernel) exMore (by decide +kernel) (by decide)
    (fun t g ok r hm => by unfold exMore at hm; simp at hm) (fun t r hm => by unfold exMore at hm; simp at hm)

/-- A case for `C90_progress` and `C90_released`: thread 1 waits, thread 0 has the lock. -/
example : (run (times 2 0 ++ times 4 1) (init (two [.conn 1 .no 0] (.conn 2 .no 0)))).owner = some 0 ∧
    (∃ u, (step u (run (times 2 0 ++ times 4 1) (init (two [.conn 1 .no 0] (.conn 2 .no 0))))).thr u ≠
      (run (times 2 0 ++ times 4 1) (init (two [.conn 1 .no 0] (.conn 2 .no 0)))).thr u) ∧
    ∃ s1 s2, times 9 0 = s1 ++ s2 ∧ (run ((times 2 0 ++ times 4 1) ++ s1) (init (two [.conn 1 .no 0] (.conn 2 .no 0)))).owner ≠ some 0 :=
  ⟨rfl, C90_progress _ _ (t := 1) (fun h => by cases h), C90_released _ _ _ rfl (by decide)⟩

/-! ## Where the code deviates: the garbage collector does not ask for the lock -/

/-- **C90, refuted in general:** `disconnect(2)` has found callback 2 when an earlier one dies: the callback behind it is disconnected instead,
and callback 2 stays. -/
theorem C90_wrong_refuted :
    (run (times 15 0 ++ times 4 1 ++ [.gc 1] ++ times 3 1) (init (two [.conn 1 .no 0, .conn 2 .no 0, .conn 3 .no 0] (.disc 2 false)))).slots = [⟨2, 0⟩] ∧
    Ev.ret 1 (.disc 2 false) .ok ∈
      (run (times 15 0 ++ times 4 1 ++ [.gc 1] ++ times 3 1) (init (two [.conn 1 .no 0, .conn 2 .no 0, .conn 3 .no 0] (.disc 2 false)))).log := by
  decide +kernel

/-- **C90, refuted in general:** or, if there is none behind it, `disconnect` raises `IndexError`, although `missing_ok=True`. -/
theorem C90_index_refuted :
    (run (times 10 0 ++ times 4 1 ++ [.gc 1] ++ times 3 1) (init (two [.conn 1 .no 0, .conn 2 .no 0] (.disc 2 true)))).slots = [⟨2, 0⟩] ∧
    Ev.ret 1 (.disc 2 true) .index ∈
      (run (times 10 0 ++ times 4 1 ++ [.gc 1] ++ times 3 1) (init (two [.conn 1 .no 0, .conn 2 .no 0] (.disc 2 true)))).log := by
  decide +kernel

/-- **C90, refuted in general:** `connect` has found the place for priority 2 when a callback before it dies: it is put behind one of
priority 1. -/
theorem C90_priority_refuted :
    (run (times 30 0 ++ times 6 1 ++ [.gc 2] ++ times 3 1) (init (two [.conn 1 .no 5, .conn 2 .no 3, .conn 3 .no 1] (.conn 4 .no 2)))).slots =
      [⟨1, 5⟩, ⟨3, 1⟩, ⟨4, 2⟩] := by
  decide +kernel

/-- **C90, refuted in general:** a callback dies after its turn in an emission: the next one, which is connected all the time, is not called. -/
theorem C90_skipped_refuted :
    Ev.ret 1 (.emit 9) (.calls [1, 3]) ∈
      (run (times 15 0 ++ times 3 1 ++ [.gc 1] ++ times 5 1) (init (two [.conn 1 .no 0, .conn 2 .no 0, .conn 3 .no 0] (.emit 9)))).log ∧
    (run (times 15 0 ++ times 3 1 ++ [.gc 1] ++ times 5 1) (init (two [.conn 1 .no 0, .conn 2 .no 0, .conn 3 .no 0] (.emit 9)))).slots =
      [⟨2, 0⟩, ⟨3, 0⟩] := by
  decide +kernel

/-- **C90, refuted in general:** in the same way `2 in sig` is false although callback 2 is connected all the time. -/
theorem C90_in_refuted :
    Ev.ret 1 (.has 2) (.bool false) ∈
      (run (times 10 0 ++ times 3 1 ++ [.gc 1] ++ times 5 1) (init (two [.conn 1 .no 0, .conn 2 .no 0] (.has 2)))).log ∧
    (run (times 10 0 ++ times 3 1 ++ [.gc 1] ++ times 5 1) (init (two [.conn 1 .no 0, .conn 2 .no 0] (.has 2)))).slots = [⟨2, 0⟩] := by
  decide +kernel

/-- **C90, refuted in general:** in the same way `connect(2, unique=True)` connects callback 2 once more. -/
theorem C90_unique_refuted :
    (run (times 20 0 ++ times 3 1 ++ [.gc 1] ++ times 5 1) (init (two [.conn 1 .yes 0, .conn 2 .yes 0] (.conn 2 .yes 0)))).slots =
      [⟨2, 0⟩, ⟨2, 0⟩] := by
  decide +kernel

end Psygnal.CoC
