import Verif.LoopLemmas

/-!
# What one emission delivers (helper lemmas for C04, C06, C09, C10, C11, C14)
-/
namespace Psygnal

theorem surfaces_wrapErr (s : SigId) (e : Exc) : Surfaces s e (wrapErr s e) := by
  cases e <;> first | constructor <;> simp | skip

theorem Surfaces.eq {s : SigId} {e e' : Exc} (h : Surfaces s e e') : e' = wrapErr s e := by
  cases h with
  | ordinary h1 h2 h3 => cases e <;> simp_all [wrapErr]
  | _ => rfl

/-- What `emit` does when no debug hook is installed. -/
theorem emit_cases {env : Env} {s args chk w w' r} (h : Runs env (.emit s args chk) w w' r)
    (hh : w.hook = none) :
    ((w.sig s).blocked = true ∧ w' = w ∧ r = .ok ()) ∨
    (chk = true ∧ bindsPos (env.decl s).sig args.length = false ∧ w' = w ∧ r = .error .typeError) ∨
    ((w.sig s).paused = true ∧ w' = w.collect s args ∧ r = .ok ()) ∨
    ((w.sig s).blocked = false ∧ (w.sig s).paused = false ∧ Runs env (.runLoop s args) w w' r) := by
  rw [runs_iff] at h
  simp only [body] at h
  split at h
  · exact .inl ⟨by assumption, h.1, h.2⟩
  · split at h
    · rename_i hc
      exact .inr (.inl ⟨hc.1, hc.2, h.1, h.2⟩)
    · split at h
      · exact .inr (.inr (.inl ⟨by assumption, h.1, h.2⟩))
      · rw [hh] at h
        obtain ⟨w1, r1, h1, rfl, rfl⟩ := h
        exact .inr (.inr (.inr ⟨by simp_all, by simp_all, h1⟩))

theorem fast_cases {env : Env} {s args w w' r} (h : Runs env (.emitFast s args) w w' r) :
    ((w.sig s).blocked = true ∧ w' = w ∧ r = .ok ()) ∨
    ((w.sig s).paused = true ∧ w' = w.collect s args ∧ r = .ok ()) ∨
    ((w.sig s).depth ≥ LIMIT ∧ w' = w ∧ r = .error .recursion) ∨
    ((w.sig s).blocked = false ∧ (w.sig s).paused = false ∧ (w.sig s).depth < LIMIT ∧
      ∃ w1 r1, Runs env (.forSlots s w.nextEm args 0) (w.startFast s args) w1 r1 ∧
        w' = w1.endFast s ∧ r = wrapRes s r1) := by
  rw [runs_iff] at h
  simp only [body] at h
  split at h
  · exact .inl ⟨by assumption, h.1, h.2⟩
  · split at h
    · exact .inr (.inl ⟨by assumption, h.1, h.2⟩)
    · split at h
      · exact .inr (.inr (.inl ⟨by assumption, h.1, h.2⟩))
      · obtain ⟨w1, r1, h1, rfl, rfl⟩ := h
        exact .inr (.inr (.inr ⟨by simp_all, by simp_all, by omega, w1, r1, h1, rfl, rfl⟩))

/-- From the shape of the log to the two halves of C06. -/
theorem FailShape.summary {stop : Prop} {s em l r0} (h : FailShape stop s em l r0) :
    (∀ src b e, .ret (some em) src b (.error e) ∈ l → src = some s ∧
      (∃ l₁, l = l₁ ++ [.ret (some em) src b (.error e)]) ∧
      ∃ e', Surfaces s e e' ∧ wrapRes s r0 = .error e') ∧
    (∀ e', wrapRes s r0 = .error e' →
      (stop ∧ e' = .recursion) ∨
      ∃ b e l₁, l = l₁ ++ [.ret (some em) (some s) b (.error e)] ∧ Surfaces s e e') := by
  cases r0 with
  | ok u =>
    exact ⟨fun src b e hm => absurd hm (h src b e), fun e' he => by simp [wrapRes] at he⟩
  | error x =>
    rcases h with ⟨l₁, b0, rfl, hf⟩ | ⟨hs, rfl, hf⟩
    · refine ⟨fun src b e hm => ?_, fun e' he => ?_⟩
      · rcases List.mem_append.1 hm with hm | hm
        · exact absurd hm (hf src b e)
        · obtain ⟨rfl, rfl, rfl⟩ : src = some s ∧ b = b0 ∧ e = x := by simpa using hm
          exact ⟨rfl, ⟨l₁, rfl⟩, _, surfaces_wrapErr s e, rfl⟩
      · cases he
        exact .inr ⟨b0, x, l₁, rfl, surfaces_wrapErr s x⟩
    · refine ⟨fun src b e hm => absurd hm (hf src b e), fun e' he => ?_⟩
      cases he
      exact .inl ⟨hs, rfl⟩

theorem callsBy_append (em : Nat) (l l' : List Ev) : callsBy em (l ++ l') = callsBy em l ++ callsBy em l' := by
  simp [callsBy]

theorem callsBy_foreign {em : Nat} {l : List Ev} (h : ∀ v ∈ l, v.em? ≠ some em) : callsBy em l = [] := by
  simp only [callsBy, List.filterMap_eq_nil_iff]
  intro v hv
  have := h v hv
  split
  · rw [if_neg]
    rintro rfl
    simp [Ev.em?] at this
  · rfl

theorem putsBy_append (em : Nat) (l l' : List Ev) : putsBy em (l ++ l') = putsBy em l ++ putsBy em l' := by
  simp [putsBy]

theorem putsBy_foreign {em : Nat} {l : List Ev} (h : ∀ v ∈ l, v.em? ≠ some em) : putsBy em l = [] := by
  simp only [putsBy, List.filterMap_eq_nil_iff]
  intro v hv
  have := h v hv
  split
  · rw [if_neg]
    rintro rfl
    simp [Ev.em?] at this
  · rfl

/-- The invocations and queue entries made by an emit loop with this log. -/
theorem Deliveries.calls {s em th args} : ∀ {xs l}, Deliveries s em th args xs l →
    callsBy em l = (xs.filter (Slot.isLocal th)).map (fun x => (x.base, x.receives args)) ∧
    putsBy em l = xs.filterMap fun x => match x.thread with
      | none => none
      | some t => if t = th then none else some (t, x.base, args)
  | [], _, h => by
    cases h
    exact ⟨rfl, rfl⟩
  | x :: xs, _, ⟨seg, rest, rfl, h1, h2⟩ => by
    obtain ⟨i1, i2⟩ := Deliveries.calls h2
    rw [callsBy_append, putsBy_append, i1, i2]
    rcases h1 with ⟨ht, d, e, inner, rfl, hf⟩ | ⟨t, ht, hne, -, rfl⟩
    · have hlocal : x.isLocal th = true := by simpa [Slot.isLocal] using ht
      constructor
      · rw [List.filter_cons_of_pos hlocal]
        simp only [callsBy, List.cons_append, List.filterMap_cons, if_true]
        rw [← callsBy.eq_def, callsBy_append, callsBy_foreign hf]
        rfl
      · simp only [putsBy, List.cons_append, List.filterMap_cons]
        rw [← putsBy.eq_def, putsBy_append, putsBy_foreign hf]
        rcases ht with ht | ht <;> simp [putsBy, ht]
    · have hlocal : x.isLocal th = false := by simp [Slot.isLocal, ht, hne]
      constructor
      · rw [List.filter_cons_of_neg (by simp [hlocal])]
        rfl
      · simp [putsBy, ht, hne]

theorem runLoop_slots {env : Env} {s args w w' t1} {r : Res} (hm : (env.decl s).mode = .immediate)
    (h : Runs env (.runLoop s args) w w' r) (hw : Within env t1 w (.runLoop s args) w)
    (hq : (w.sig s).emitQueue.length = 0) (hok : r = .ok ()) (hdead : DeadInv w)
    {xs : List Slot} (hk : ∀ t2 w2, Within env t1 w t2 w2 → (w2.sig s).slots = xs) :
    ∃ l, w'.log = w.log ++ .req s args :: l ∧ Deliveries s w.nextEm w.thread args xs l := by
  have hwithin : ∀ {t2 w2}, Within env (.runLoop s args) w t2 w2 → Within env t1 w t2 w2 := by
    intro t2 w2 h2
    induction h2 with
    | refl => exact hw
    | step _ hr ih => exact .step ih hr
  have hq0 : (w.sig s).emitQueue = [] := List.length_eq_zero_iff.1 hq
  have hqe : ((w.enqueue s args).sig s).emitQueue = [args] := by simp [hq0]
  rw [runs_iff] at h
  have hb : body env (.runLoop s args) w = body env (.runLoop s args) w := rfl
  conv at hb => rhs; simp only [body]
  rw [hb] at h
  split at h
  · obtain ⟨-, rfl⟩ := h
    simp at hok
  · rename_i hd
    rw [if_neg hd] at hb
    split at h
    · rename_i hlen
      rw [hqe] at hlen
      simp at hlen
    · rename_i hlen
      rw [if_neg hlen] at hb
      obtain ⟨w1, r1, h1, rfl, rfl⟩ := h
      have hw1 : Within env t1 w (.inner s w.nextEm) ((w.enqueue s args).startLoop s) :=
        .step hw (by rw [hb]; exact .inl ⟨rfl, rfl⟩)
      have hqs : (((w.enqueue s args).startLoop s).sig s).emitQueue = [args] := by
        simp [hq0]
      have hbi : body env (.inner s w.nextEm) ((w.enqueue s args).startLoop s) =
          .call (.forSlots s w.nextEm args 0) (((w.enqueue s args).startLoop s).popQueue s) .done := by
        simp only [body, hm, hqs]
      rw [runs_iff, hbi] at h1
      obtain ⟨w2, r2, h2, rfl, rfl⟩ := h1
      have hw2 : Within env t1 w (.forSlots s w.nextEm args 0)
          (((w.enqueue s args).startLoop s).popQueue s) :=
        .step hw1 (by rw [hbi]; exact .inl ⟨rfl, rfl⟩)
      have hd : DeadInv (((w.enqueue s args).startLoop s).popQueue s) :=
        ConnEq.deadInv (by simp [ConnEq]) hdead
      obtain ⟨ys, l, hlog, hle, hys⟩ := forSlots_log h2 s w.nextEm args 0 rfl (by simp) hd
      have hr2 : r1 = .ok () := by
        cases r1 with
        | ok u => rfl
        | error e => simp [wrapRes] at hok
      have hys := (hys xs (fun t3 w3 h3 => hk t3 w3 (by
        induction h3 with
        | refl => exact hw2
        | step _ hr ih => exact .step ih hr))).2 hr2
      simp only [List.drop_zero] at hys
      subst hys
      refine ⟨l, by simp [hlog], ?_⟩
      rcases hle with ⟨-, h⟩ | ⟨e, -, -, -, -, h, -⟩ | ⟨h, -, -⟩
      · simpa using h
      · simp [hr2] at h
      · exact h.elim

theorem split_around {α : Type} {o : α} {L₁ L₂ A M B : List α} (h : L₁ ++ o :: L₂ = A ++ (M ++ B))
    (ho : o ∉ M) : (∃ A', A = L₁ ++ o :: A' ∧ L₂ = A' ++ (M ++ B)) ∨
      (∃ B', B = B' ++ o :: L₂ ∧ L₁ = A ++ (M ++ B')) := by
  rcases List.append_eq_append_iff.1 h with ⟨c, rfl, hc⟩ | ⟨c, rfl, hc⟩
  · cases c with
    | nil =>
      simp only [List.nil_append] at hc
      cases M with
      | nil => exact .inr ⟨[], by simpa using hc.symm, by simp⟩
      | cons m0 m' =>
        simp only [List.cons_append, List.cons.injEq] at hc
        simp [hc.1] at ho
    | cons c0 c' =>
      simp only [List.cons_append, List.cons.injEq] at hc
      obtain ⟨rfl, rfl⟩ := hc
      exact .inl ⟨c', rfl, rfl⟩
  · rcases List.append_eq_append_iff.1 hc with ⟨d, rfl, hd⟩ | ⟨d, rfl, hd⟩
    · exact .inr ⟨d, hd, rfl⟩
    · cases d with
      | nil => exact .inr ⟨[], by simpa using hd.symm, by simp⟩
      | cons d0 d' =>
        simp only [List.cons_append, List.cons.injEq] at hd
        simp [hd.1] at ho

/-- A contiguous piece of events of others inside the log of an emit loop lies inside one
invocation. -/
theorem Deliveries.inside {s em th args} : ∀ {xs : List Slot} {l a m b : List Ev},
    Deliveries s em th args xs l → l = a ++ (m ++ b) → m ≠ [] → (∀ v ∈ m, v.em? ≠ some em) →
    ∃ ys x zs la lb i₁ i₂ d e, xs = ys ++ x :: zs ∧ Deliveries s em th args ys la ∧
      Deliveries s em th args zs lb ∧
      a = la ++ .call (some em) (some s) d e th x.base (x.receives args) :: i₁ ∧
      b = i₂ ++ .ret (some em) (some s) x.base (.ok ()) :: lb
  | [], l, a, m, b, h, he, hm, _ => by
    cases h
    simp_all
  | x :: xs, l, a, m, b, ⟨seg, rest, hl, h1, h2⟩, he, hm, hf => by
    subst hl
    have again : ∀ c, rest = c ++ (m ++ b) → a = seg ++ c →
        ∃ ys x' zs la lb i₁ i₂ d e, x :: xs = ys ++ x' :: zs ∧
        Deliveries s em th args ys la ∧ Deliveries s em th args zs lb ∧
        a = la ++ .call (some em) (some s) d e th x'.base (x'.receives args) :: i₁ ∧
        b = i₂ ++ .ret (some em) (some s) x'.base (.ok ()) :: lb := fun c hc ha => by
      obtain ⟨ys, x', zs, la, lb, i₁, i₂, d, e, rfl, g1, g2, rfl, rfl⟩ :=
        Deliveries.inside (a := c) (m := m) (b := b) h2 hc hm hf
      exact ⟨x :: ys, x', zs, seg ++ la, lb, i₁, i₂, d, e, rfl, ⟨_, _, rfl, h1, g1⟩, g2,
        by simp [ha], rfl⟩
    rcases id h1 with ⟨-, d, e, inner, rfl, -⟩ | ⟨t, -, -, -, rfl⟩
    · rcases split_around (L₁ := []) (by simpa using he) (fun h => hf _ h rfl) with
        ⟨a', rfl, h3⟩ | ⟨b', -, h3⟩
      · rcases split_around (L₁ := inner) (by simpa using h3) (fun h => hf _ h rfl) with
          ⟨a'', rfl, h4⟩ | ⟨b', rfl, rfl⟩
        · exact again a'' h4 (by simp)
        · exact ⟨[], x, xs, [], rest, a', b', d, e, rfl, rfl, h2, rfl, rfl⟩
      · exact absurd (List.append_eq_nil_iff.1 (List.append_eq_nil_iff.1 h3.symm).2).1 hm
    · rcases split_around (L₁ := []) (by simpa using he) (fun h => hf _ h rfl) with
        ⟨a', rfl, h3⟩ | ⟨b', -, h3⟩
      · exact again a' h3 (by simp)
      · exact absurd (List.append_eq_nil_iff.1 (List.append_eq_nil_iff.1 h3.symm).2).1 hm

theorem live_within {env : Env} {Q : Act → Prop} {t w t1 w1} (hl : Live env Q t w)
    (h : Within env t w t1 w1) : Live env Q t1 w1 := by
  induction h with
  | refl => exact hl
  | step _ hr ih => exact .sub ih hr

theorem reaches_mono {env : Env} {t w t1 w1} (h : (body env t w).Reaches (Runs env) t1 w1) :
    w.nextEm ≤ w1.nextEm ∧ w.log <+: w1.log := by
  have nm := @nextEm_mono env
  have lp := @log_prefix env
  have tr : ∀ {a b c : List Ev}, a <+: b → b <+: c → a <+: c := fun h g => h.trans g
  have rf : ∀ {a : List Ev}, a <+: a := List.prefix_rfl
  have ap2 : ∀ {a : List Ev} {x : Ev}, a <+: a ++ [x] := List.prefix_append _ _
  cases t using Task.splitProg
  all_goals simp only [body] at h
  all_goals repeat' split at h
  all_goals simp only [Comp.Reaches] at h
  all_goals grind [Comp.Reaches]

theorem within_mono {env : Env} {t w t1 w1} (h : Within env t w t1 w1) :
    w.nextEm ≤ w1.nextEm ∧ w.log <+: w1.log := by
  induction h with
  | refl => exact ⟨Nat.le_refl _, List.prefix_rfl⟩
  | step _ hr ih =>
    obtain ⟨h1, h2⟩ := reaches_mono hr
    exact ⟨Nat.le_trans ih.1 h1, ih.2.trans h2⟩

/-- What runs within an emission runs before its emit loop started, or after that. -/
theorem within_started {env : Env} {s args chk w t1 w1} (hh : w.hook = none)
    (h : Within env (.emit s args chk) w t1 w1) :
    w1 = w ∨ (w.nextEm < w1.nextEm ∧ w.log ++ [.req s args] <+: w1.log) := by
  suffices ((t1 = .emit s args chk ∨ t1 = .runLoop s args) ∧ w1 = w) ∨
      (w.nextEm < w1.nextEm ∧ w.log ++ [.req s args] <+: w1.log) by
    rcases this with h | h
    · exact .inl h.2
    · exact .inr h
  induction h with
  | refl => exact .inl ⟨.inl rfl, rfl⟩
  | step _ hr ih =>
    rename_i ta tb wa wb _
    have mono := reaches_mono hr
    rcases ih with ⟨rfl | rfl, rfl⟩ | ih
    · simp only [body, hh] at hr
      repeat' split at hr
      all_goals simp [Comp.Reaches] at hr
      exact .inl ⟨.inr hr.1, hr.2⟩
    · simp only [body] at hr
      repeat' split at hr
      all_goals simp only [Comp.Reaches] at hr
      rcases hr with ⟨rfl, rfl⟩ | ⟨_, _, _, h⟩
      · right; simp
      · exact h.elim
    · exact .inr ⟨by omega, ih.2.trans mono.2⟩

theorem Within.trans {env : Env} {t w t1 w1 t2 w2} (h : Within env t w t1 w1)
    (h2 : Within env t1 w1 t2 w2) : Within env t w t2 w2 := by
  induction h2 with
  | refl => exact h
  | step _ hr ih => exact .step ih hr

/-- `emit` reaching its emit loop. -/
theorem emit_loop {env : Env} {s args chk w w'} (h : Runs env (.emit s args chk) w w' (.ok ()))
    (hh : w.hook = none) (hb : (w.sig s).blocked = false) (hp : (w.sig s).paused = false) :
    Runs env (.runLoop s args) w w' (.ok ()) ∧ Within env (.emit s args chk) w (.runLoop s args) w := by
  have hbody : body env (.emit s args chk) w =
      if chk ∧ bindsPos (env.decl s).sig args.length = false then .done w (.error .typeError)
      else .call (.runLoop s args) w .done := by
    simp [body, hb, hp, hh]
  rw [runs_iff, hbody] at h
  split at h
  · simp [Comp.Via] at h
  · rename_i hc
    obtain ⟨w1, r1, h1, rfl, rfl⟩ := h
    exact ⟨h1, .step .refl (by rw [hbody, if_neg hc]; exact .inl ⟨rfl, rfl⟩)⟩

/-- `_run_emit_loop` with an empty queue runs the inner loop. -/
theorem runLoop_inner {env : Env} {s args w w' r} (h : Runs env (.runLoop s args) w w' r)
    (hq : (w.sig s).emitQueue = []) :
    ((w.sig s).depth ≥ LIMIT ∧ w' = w ∧ r = .error .recursion) ∨
    ((w.sig s).depth < LIMIT ∧ ∃ w1 r1,
      Runs env (.inner s w.nextEm) ((w.enqueue s args).startLoop s) w1 r1 ∧
      w' = w1.endLoop s w.emitter ∧ r = wrapRes s r1 ∧
      Within env (.runLoop s args) w (.inner s w.nextEm) ((w.enqueue s args).startLoop s)) := by
  have hbody : body env (.runLoop s args) w =
      if (w.sig s).depth ≥ LIMIT then .done w (.error .recursion) else
      .call (.inner s w.nextEm) ((w.enqueue s args).startLoop s) fun w' r =>
        .done (w'.endLoop s w.emitter) (wrapRes s r) := by
    simp [body, hq]
  rw [runs_iff, hbody] at h
  split at h
  · exact .inl ⟨by assumption, h.1, h.2⟩
  · rename_i hd
    obtain ⟨w1, r1, h1, rfl, rfl⟩ := h
    exact .inr ⟨by omega, w1, r1, h1, rfl, rfl,
      .step .refl (by rw [hbody, if_neg hd]; exact .inl ⟨rfl, rfl⟩)⟩

theorem wrapRes_ok {s : SigId} {r : Res} (h : Except.ok () = wrapRes s r) : r = .ok () := by
  cases r with
  | ok u => rfl
  | error e => simp [wrapRes] at h

theorem queue_head {env : Env} {s : SigId} {a : Args} (hm : (env.decl s).mode = .queued) {t w w' r}
    (h : Runs env t w w' r) : (w.sig s).emitQueue.head? = some a →
      (w'.sig s).emitQueue.head? = some a := by
  refine Runs.induct (P := fun t w w' _ => (w.sig s).emitQueue.head? = some a →
      (w'.sig s).emitQueue.head? = some a) ?_ h
  clear h
  have hlen : ∀ w : World, (w.sig s).emitQueue.head? = some a → 0 < (w.sig s).emitQueue.length := by
    intro w h
    cases hq : (w.sig s).emitQueue <;> simp_all
  intro t w w' r h
  unfold_body t h
  case runLoop.isFalse.isFalse s' a' _ hl =>
    obtain ⟨w1, r1, ⟨-, ih⟩, rfl, rfl⟩ := h
    intro hq
    by_cases hs : s' = s
    · subst hs
      have := hlen w hq
      have he : ((w.enqueue s' a').sig s').emitQueue = (w.sig s').emitQueue ++ [a'] := by grind
      rw [he, List.length_append] at hl
      simp only [List.length_cons, List.length_nil] at hl
      omega
    · have h1 : (((w.enqueue s' a').startLoop s').sig s).emitQueue = (w.sig s).emitQueue := by
        grind
      have h2 : ((w1.endLoop s' w.emitter).sig s).emitQueue = (w1.sig s).emitQueue := by
        grind
      rw [h2]
      exact ih (by rw [h1]; exact hq)
  all_goals grind [Comp.Via]

theorem queue_head_reaches {env : Env} {s : SigId} {a : Args} (hm : (env.decl s).mode = .queued)
    {t w t1 w1} (h : (body env t w).Reaches (Runs env) t1 w1) (hq : (w.sig s).emitQueue.head? = some a) :
    (w1.sig s).emitQueue.head? = some a := by
  have qh := @queue_head env s a hm
  cases t using Task.splitProg
  all_goals simp only [body] at h
  all_goals repeat' split at h
  all_goals simp only [Comp.Reaches] at h
  case runLoop.isFalse.isFalse s' a' _ hl =>
    rcases h with ⟨rfl, rfl⟩ | ⟨_, _, _, h⟩
    · by_cases hs : s' = s
      · subst hs
        have : 0 < (w.sig s').emitQueue.length := by
          cases hq' : (w.sig s').emitQueue <;> simp_all
        have he : ((w.enqueue s' a').sig s').emitQueue = (w.sig s').emitQueue ++ [a'] := by grind
        rw [he, List.length_append] at hl
        simp only [List.length_cons, List.length_nil] at hl
        omega
      · have h1 : (((w.enqueue s' a').startLoop s').sig s).emitQueue = (w.sig s).emitQueue := by
          grind
        rw [h1]
        exact hq
    · exact h.elim
  all_goals grind [Comp.Reaches]

end Psygnal
