import Verif.Termination
import Verif.Death

/-!
# The log of one emit loop (helper lemmas for C04, C06, C09, C10, C11, C14)
-/
namespace Psygnal

theorem Within.reaches {env : Env} {t t1 t' : Task} {w w1 w' : World}
    (hr : (body env t w).Reaches (Runs env) t1 w1) (h : Within env t1 w1 t' w') :
    Within env t w t' w' := by
  induction h with
  | refl => exact .step .refl hr
  | step _ h ih => exact .step ih h

theorem receives_eq (x : Slot) (args : Args) : x.callArgs args = x.receives args := by
  obtain ⟨b, bd, m, p, t, n⟩ := x
  cases b <;> cases m <;> simp [Slot.callArgs, Slot.receives] <;> rfl

/-- The part of a log that belongs to emit loop `em`. -/
def byEm (em : Nat) (l : List Ev) : List Ev := l.filter fun e => e.em? == some em

@[grind =] theorem byEm_append (em : Nat) (l : List Ev) (e : Ev) :
    byEm em (l ++ [e]) = if e.em? = some em then byEm em l ++ [e] else byEm em l := by
  simp only [byEm, List.filter_append, List.filter_cons, List.filter_nil]
  split <;> simp_all

theorem byEm_nil {em : Nat} {l : List Ev} : byEm em l = [] ↔ ∀ e ∈ l, e.em? ≠ some em := by
  simp [byEm]

/-- Only its own procedures add events to an emit loop. -/
theorem byEm_const {env : Env} {em : Nat} {t w w' r} (h : Runs env t w w' r) :
    t.em? ≠ some em → em < w.nextEm → byEm em w'.log = byEm em w.log := by
  refine Runs.induct (P := fun t w w' _ => t.em? ≠ some em → em < w.nextEm →
    byEm em w'.log = byEm em w.log) ?_ h
  clear h
  have nm := @nextEm_mono env
  intro t w w' r h
  unfold_body t h
  all_goals grind [Comp.Via]

/-- New events of other procedures do not belong to emit loop `em`. -/
theorem inner_foreign {env : Env} {em : Nat} {t w w' r} (h : Runs env t w w' r) (ht : t.em? ≠ some em)
    (hn : em < w.nextEm) : ∃ l, w'.log = w.log ++ l ∧ ∀ e ∈ l, e.em? ≠ some em := by
  obtain ⟨l, hl⟩ := log_prefix h
  refine ⟨l, hl.symm, byEm_nil.1 ?_⟩
  have := byEm_const h ht hn
  rw [← hl] at this
  simpa [byEm] using this

theorem direct_log {env : Env} {em : Nat} {s x args w w' r}
    (h : Runs env (.direct (some em) (some s) x args) w w' r) (hn : em < w.nextEm) :
    (w' = w ∧ x.base.isDead w = true ∧ r = .error .referenceError) ∨
    ∃ d e inner, w'.log = w.log ++ (.call (some em) (some s) d e w.thread x.base (x.receives args) ::
      inner ++ [.ret (some em) (some s) x.base r]) ∧ ∀ v ∈ inner, v.em? ≠ some em := by
  rw [runs_iff] at h
  simp only [body] at h
  split at h
  · exact .inl ⟨h.1, by assumption, h.2⟩
  · right
    have key : ∀ t, t.em? = none → Comp.Via (Runs env) (.call t
        (w.logCall (some em) (some s) x.base (x.callArgs args))
        fun w' res => .done (w'.logRet (some em) (some s) x.base res) res) w' r →
        ∃ d e inner, w'.log = w.log ++ (.call (some em) (some s) d e w.thread x.base
          (x.receives args) :: inner ++ [.ret (some em) (some s) x.base r]) ∧
          ∀ v ∈ inner, v.em? ≠ some em := by
      rintro t ht ⟨w1, r1, h1, rfl, rfl⟩
      obtain ⟨l, hl, hf⟩ := inner_foreign (em := em) h1 (by simp [ht]) hn
      rw [← receives_eq]
      exact ⟨(w.sig s).depth, w.emitter, l, by
        show w1.log ++ _ = _
        rw [hl]
        simp [World.logCall, World.ev], hf⟩
    split at h
    · exact key _ rfl h
    · exact key _ rfl h

theorem deadInv_runs {env : Env} {t w w' r} (h : Runs env t w w' r) (hd : DeadInv w) : DeadInv w' :=
  conn_inv (Q := anyAct) DeadInv (fun w a _ => deadInv_run w a) (fun _ _ he => he.deadInv)
    (env_only_true env) h (task_only_true _) hd

theorem cb_log {env : Env} {em : Nat} {s x args w w' r}
    (h : Runs env (.cb (some em) (some s) x args) w w' r) (hn : em < w.nextEm)
    (hx : x.base.isDead w = false) :
    ∃ seg, w'.log = w.log ++ seg ∧ Delivery s em w.thread args x seg r := by
  rw [runs_iff] at h
  simp only [body] at h
  split at h
  · obtain ⟨w1, r1, h1, rfl, rfl⟩ := h
    rcases direct_log h1 hn with h | ⟨d, e, inner, h, hf⟩
    · simp [hx] at h
    · exact ⟨_, h, .inl ⟨.inl (by assumption), _, _, _, rfl, hf⟩⟩
  · split at h
    · obtain ⟨w1, r1, h1, rfl, rfl⟩ := h
      rcases direct_log h1 hn with h | ⟨d, e, inner, h, hf⟩
      · simp [hx] at h
      · exact ⟨_, h, .inl ⟨.inr (by simp [*]), _, _, _, rfl, hf⟩⟩
    · obtain ⟨rfl, rfl⟩ := h
      exact ⟨_, rfl, .inr ⟨_, by assumption, fun h => by simp_all, rfl, rfl⟩⟩

/-- How an emit loop over slots can end, having logged `l`, `ys` being the slots served; `stop` tells
whether it may also end with a recursion error of its own. -/
def LoopEnd (stop : Prop) (s : SigId) (em : Nat) (th : ThreadId) (args : Args) (ys : List Slot)
    (l : List Ev) (r : Res) : Prop :=
  (r = .ok () ∧ Deliveries s em th args ys l) ∨
  (∃ e l1 seg ys1 x, r = .error e ∧ ys = ys1 ++ [x] ∧ l = l1 ++ seg ∧ Deliveries s em th args ys1 l1 ∧
    Delivery s em th args x seg (.error e)) ∨
  (stop ∧ r = .error .recursion ∧ Deliveries s em th args ys l)

theorem LoopEnd.cons {stop : Prop} {s em th args ys l r x seg} (hd : Delivery s em th args x seg (.ok ()))
    (h : LoopEnd stop s em th args ys l r) : LoopEnd stop s em th args (x :: ys) (seg ++ l) r := by
  rcases h with ⟨rfl, h⟩ | ⟨e, l1, sg, ys1, y, rfl, rfl, rfl, h1, h2⟩ | ⟨hs, rfl, h⟩
  · exact .inl ⟨rfl, _, _, rfl, hd, h⟩
  · exact .inr (.inl ⟨e, seg ++ l1, sg, x :: ys1, y, rfl, rfl, by simp, ⟨_, _, rfl, hd, h1⟩, h2⟩)
  · exact .inr (.inr ⟨hs, rfl, _, _, rfl, hd, h⟩)

theorem forSlots_log {env : Env} {t w w' r} (h : Runs env t w w' r) : ∀ s em args i,
    t = .forSlots s em args i → em < w.nextEm → DeadInv w → ∃ ys l, w'.log = w.log ++ l ∧
      LoopEnd False s em w.thread args ys l r ∧
      ∀ xs, (∀ t1 w1, Within env t w t1 w1 → (w1.sig s).slots = xs) →
        ys <+: xs.drop i ∧ (r = .ok () → ys = xs.drop i) := by
  refine Runs.induct (P := fun t w w' r => ∀ s em args i,
    t = .forSlots s em args i → em < w.nextEm → DeadInv w → ∃ ys l, w'.log = w.log ++ l ∧
      LoopEnd False s em w.thread args ys l r ∧
      ∀ xs, (∀ t1 w1, Within env t w t1 w1 → (w1.sig s).slots = xs) →
        ys <+: xs.drop i ∧ (r = .ok () → ys = xs.drop i)) ?_ h
  clear h
  rintro t w w' r h s em args i rfl hn hdead
  simp only [body] at h
  split at h
  · rename_i hx
    obtain ⟨rfl, rfl⟩ := h
    refine ⟨[], [], by simp, .inl ⟨rfl, rfl⟩, fun xs hs => ?_⟩
    rw [hs _ _ .refl, List.getElem?_eq_none_iff] at hx
    simp [List.drop_eq_nil_of_le hx]
  · rename_i x hx
    have hdrop : ∀ xs, (∀ t1 w1, Within env (.forSlots s em args i) w t1 w1 → (w1.sig s).slots = xs) →
        xs.drop i = x :: xs.drop (i + 1) := by
      intro xs hs
      rw [hs _ _ .refl, List.getElem?_eq_some_iff] at hx
      obtain ⟨hi, rfl⟩ := hx
      exact List.drop_eq_getElem_cons hi
    obtain ⟨w1, r1, ⟨h1, -⟩, h2⟩ := h
    dsimp only at h2
    obtain ⟨seg, hl, hd⟩ := cb_log h1 hn (hdead s x (List.mem_of_getElem? hx))
    cases r1 with
    | error e =>
      obtain ⟨rfl, rfl⟩ := h2
      refine ⟨[x], seg, hl, .inr (.inl ⟨e, [], seg, [], x, rfl, rfl, rfl, rfl, hd⟩), fun xs hs => ?_⟩
      rw [hdrop xs hs]
      simp
    | ok u =>
      obtain ⟨w2, r2, ⟨h3, ih⟩, rfl, rfl⟩ := h2
      · have nm := nextEm_mono h1
        obtain ⟨ys, l, hl2, hle, hys⟩ := ih s em args (i + 1) rfl (by omega) (deadInv_runs h1 hdead)
        rw [thread_const h1] at hle
        refine ⟨x :: ys, seg ++ l, by rw [hl2, hl]; simp, hle.cons hd, fun xs hs => ?_⟩
        have := hys xs (fun t2 w2 h2 => hs t2 w2 (.reaches (by
          simp only [body, hx]
          exact .inr ⟨w1, _, h1, .inl ⟨rfl, rfl⟩⟩) h2))
        rw [hdrop xs hs]
        simp only [List.cons_prefix_cons, true_and, List.cons.injEq]
        exact this

theorem forLatest_log {env : Env} {t w w' r} (h : Runs env t w w' r) : ∀ s em args i,
    t = .forLatest s em args i → em < w.nextEm → DeadInv w → ∃ ys l, w'.log = w.log ++ l ∧
      LoopEnd False s em w.thread args ys l r ∧
      ∀ xs, (∀ t1 w1, Within env t w t1 w1 → (w1.sig s).slots = xs) →
        ys <+: xs.drop i := by
  refine Runs.induct (P := fun t w w' r => ∀ s em args i,
    t = .forLatest s em args i → em < w.nextEm → DeadInv w → ∃ ys l, w'.log = w.log ++ l ∧
      LoopEnd False s em w.thread args ys l r ∧
      ∀ xs, (∀ t1 w1, Within env t w t1 w1 → (w1.sig s).slots = xs) →
        ys <+: xs.drop i) ?_ h
  clear h
  rintro t w w' r h s em args i rfl hn hdead
  simp only [body] at h
  split at h
  · rename_i hx
    obtain ⟨rfl, rfl⟩ := h
    refine ⟨[], [], by simp, .inl ⟨rfl, rfl⟩, fun xs hs => ?_⟩
    rw [hs _ _ .refl, List.getElem?_eq_none_iff] at hx
    simp [List.drop_eq_nil_of_le hx]
  · rename_i x hx
    split at h
    · obtain ⟨rfl, rfl⟩ := h
      exact ⟨[], [], by simp, .inl ⟨rfl, rfl⟩, fun xs hs => by simp⟩
    rename_i hmd
    have hdrop : ∀ xs, (∀ t1 w1, Within env (.forLatest s em args i) w t1 w1 → (w1.sig s).slots = xs) →
        xs.drop i = x :: xs.drop (i + 1) := by
      intro xs hs
      rw [hs _ _ .refl, List.getElem?_eq_some_iff] at hx
      obtain ⟨hi, rfl⟩ := hx
      exact List.drop_eq_getElem_cons hi
    obtain ⟨w1, r1, ⟨h1, -⟩, h2⟩ := h
    dsimp only at h2
    obtain ⟨seg, hl, hd⟩ := cb_log h1 hn (hdead s x (List.mem_of_getElem? hx))
    cases r1 with
    | error e =>
      obtain ⟨rfl, rfl⟩ := h2
      refine ⟨[x], seg, hl, .inr (.inl ⟨e, [], seg, [], x, rfl, rfl, rfl, rfl, hd⟩), fun xs hs => ?_⟩
      rw [hdrop xs hs]
      simp
    | ok u =>
      obtain ⟨w2, r2, ⟨h3, ih⟩, rfl, rfl⟩ := h2
      · have nm := nextEm_mono h1
        obtain ⟨ys, l, hl2, hle, hys⟩ := ih s em args (i + 1) rfl (by omega) (deadInv_runs h1 hdead)
        rw [thread_const h1] at hle
        refine ⟨x :: ys, seg ++ l, by rw [hl2, hl]; simp, hle.cons hd, fun xs hs => ?_⟩
        have := hys xs (fun t2 w2 h2 => hs t2 w2 (.reaches (by
          simp only [body, hx, hmd, if_false]
          exact .inr ⟨w1, _, h1, .inl ⟨rfl, rfl⟩⟩) h2))
        rw [hdrop xs hs]
        simp only [List.cons_prefix_cons, true_and]
        exact this

theorem forQueued_log {env : Env} {t w w' r} (h : Runs env t w w' r) : ∀ s em args i,
    t = .forQueued s em args i → em < w.nextEm → DeadInv w → ∃ ys l, w'.log = w.log ++ l ∧
      LoopEnd True s em w.thread args ys l r ∧
      ∀ xs, (∀ t1 w1, Within env t w t1 w1 → (w1.sig s).slots = xs) →
        ys <+: xs.drop i ∧ (r = .ok () → ys = xs.drop i) := by
  refine Runs.induct (P := fun t w w' r => ∀ s em args i,
    t = .forQueued s em args i → em < w.nextEm → DeadInv w → ∃ ys l, w'.log = w.log ++ l ∧
      LoopEnd True s em w.thread args ys l r ∧
      ∀ xs, (∀ t1 w1, Within env t w t1 w1 → (w1.sig s).slots = xs) →
        ys <+: xs.drop i ∧ (r = .ok () → ys = xs.drop i)) ?_ h
  clear h
  rintro t w w' r h s em args i rfl hn hdead
  simp only [body] at h
  split at h
  · rename_i hx
    obtain ⟨rfl, rfl⟩ := h
    refine ⟨[], [], by simp, .inl ⟨rfl, rfl⟩, fun xs hs => ?_⟩
    rw [hs _ _ .refl, List.getElem?_eq_none_iff] at hx
    simp [List.drop_eq_nil_of_le hx]
  · rename_i x hx
    have hdrop : ∀ xs, (∀ t1 w1, Within env (.forQueued s em args i) w t1 w1 → (w1.sig s).slots = xs) →
        xs.drop i = x :: xs.drop (i + 1) := by
      intro xs hs
      rw [hs _ _ .refl, List.getElem?_eq_some_iff] at hx
      obtain ⟨hi, rfl⟩ := hx
      exact List.drop_eq_getElem_cons hi
    obtain ⟨w1, r1, ⟨h1, -⟩, h2⟩ := h
    dsimp only at h2
    obtain ⟨seg, hl, hd⟩ := cb_log h1 hn (hdead s x (List.mem_of_getElem? hx))
    cases r1 with
    | error e =>
      obtain ⟨rfl, rfl⟩ := h2
      refine ⟨[x], seg, hl, .inr (.inl ⟨e, [], seg, [], x, rfl, rfl, rfl, rfl, hd⟩), fun xs hs => ?_⟩
      rw [hdrop xs hs]
      simp
    | ok u =>
      dsimp only at h2
      split at h2
      · obtain ⟨rfl, rfl⟩ := h2
        refine ⟨[x], seg, hl, .inr (.inr ⟨trivial, rfl, seg, [], by simp, hd, rfl⟩), fun xs hs => ?_⟩
        rw [hdrop xs hs]
        simp
      · rename_i hlen
        obtain ⟨w2, r2, ⟨h3, ih⟩, rfl, rfl⟩ := h2
        have nm := nextEm_mono h1
        obtain ⟨ys, l, hl2, hle, hys⟩ := ih s em args (i + 1) rfl (by omega) (deadInv_runs h1 hdead)
        rw [thread_const h1] at hle
        refine ⟨x :: ys, seg ++ l, by rw [hl2, hl]; simp, hle.cons hd, fun xs hs => ?_⟩
        have := hys xs (fun t2 w2 h2 => hs t2 w2 (.reaches (by
          simp only [body, hx]
          exact .inr ⟨w1, _, h1, by simp only [hlen, if_false]; exact .inl ⟨rfl, rfl⟩⟩) h2))
        rw [hdrop xs hs]
        simp only [List.cons_prefix_cons, true_and, List.cons.injEq]
        exact this

/-! ## Failing callbacks -/

/-- No callback invoked by emit loop `em` raised. -/
def NoFail (em : Nat) (l : List Ev) : Prop := ∀ src b e, .ret (some em) src b (.error e) ∉ l

theorem NoFail.append {em : Nat} {l l' : List Ev} (h : NoFail em l) (h' : NoFail em l') :
    NoFail em (l ++ l') := fun src b e hm => by
  rcases List.mem_append.1 hm with hm | hm
  · exact h _ _ _ hm
  · exact h' _ _ _ hm

theorem NoFail.foreign {em : Nat} {l : List Ev} (h : ∀ v ∈ l, v.em? ≠ some em) : NoFail em l :=
  fun _ _ _ hm => h _ hm rfl

theorem Delivery.noFail {s em th args x seg} (h : Delivery s em th args x seg (.ok ())) :
    NoFail em seg := by
  rcases h with ⟨-, d, e, inner, rfl, hf⟩ | ⟨t, -, -, -, rfl⟩
  · intro src b e hm
    simp only [List.cons_append, List.mem_cons, List.mem_append, reduceCtorEq, List.not_mem_nil,
      or_false, false_or] at hm
    rcases hm with hm | hm
    · exact hf _ hm rfl
    · simp at hm
  · intro src b e hm
    simp at hm

theorem Deliveries.noFail {s em th args} : ∀ {xs l}, Deliveries s em th args xs l → NoFail em l
  | [], _, h => by
    cases h
    exact fun _ _ _ hm => by simp at hm
  | _ :: _, _, ⟨_, _, e, h1, h2⟩ => by
    subst e
    exact h1.noFail.append (Deliveries.noFail h2)

/-- How emit loop `em` of `s` ends with result `r`: if it fails because a callback raised, then the
log ends there. -/
def FailShape (stop : Prop) (s : SigId) (em : Nat) (l : List Ev) : Res → Prop
  | .ok () => NoFail em l
  | .error e => (∃ l₁ b, l = l₁ ++ [.ret (some em) (some s) b (.error e)] ∧ NoFail em l₁) ∨
      (stop ∧ e = .recursion ∧ NoFail em l)

theorem FailShape.append {stop : Prop} {s em l l' r} (h : NoFail em l) (h' : FailShape stop s em l' r) :
    FailShape stop s em (l ++ l') r := by
  cases r with
  | ok u => exact h.append h'
  | error e =>
    rcases h' with ⟨l₁, b, rfl, hf⟩ | ⟨hs, he, hf⟩
    · exact .inl ⟨l ++ l₁, b, by simp, h.append hf⟩
    · exact .inr ⟨hs, he, h.append hf⟩

theorem Delivery.fail {stop : Prop} {s em th args x seg e} (h : Delivery s em th args x seg (.error e)) :
    FailShape stop s em seg (.error e) := by
  rcases h with ⟨-, d, m, inner, rfl, hf⟩ | ⟨t, -, -, h, -⟩
  · refine .inl ⟨_ :: inner, x.base, rfl, ?_⟩
    exact NoFail.append (l := [_]) (fun src b e hm => by simp at hm) (.foreign hf)
  · simp at h

theorem LoopEnd.fail {stop : Prop} {s em th args ys l r} (h : LoopEnd stop s em th args ys l r) :
    FailShape stop s em l r := by
  rcases h with ⟨rfl, h⟩ | ⟨e, l1, sg, ys1, y, rfl, rfl, rfl, h1, h2⟩ | ⟨hs, rfl, h⟩
  · exact h.noFail
  · exact .append h1.noFail h2.fail
  · exact .inr ⟨hs, rfl, h.noFail⟩

theorem FailShape.noFail {stop : Prop} {s em l} (h : FailShape stop s em l (.ok ())) : NoFail em l := h

theorem whileQueued_fail {env : Env} {t w w' r} (h : Runs env t w w' r) : ∀ s em i,
    t = .whileQueued s em i → em < w.nextEm → DeadInv w → ∃ l, w'.log = w.log ++ l ∧
      FailShape True s em l r := by
  refine Runs.induct (P := fun t w w' r => ∀ s em i,
    t = .whileQueued s em i → em < w.nextEm → DeadInv w → ∃ l, w'.log = w.log ++ l ∧
      FailShape True s em l r) ?_ h
  clear h
  rintro t w w' r h s em i rfl hn hdead
  simp only [body] at h
  split at h
  · obtain ⟨rfl, rfl⟩ := h
    exact ⟨[], by simp, fun _ _ _ hm => by simp at hm⟩
  · obtain ⟨w1, r1, ⟨h1, -⟩, h2⟩ := h
    obtain ⟨ys, l, hl, hle, -⟩ := forQueued_log h1 s em _ 0 rfl hn hdead
    have hf := hle.fail
    cases r1 with
    | error e =>
      obtain ⟨rfl, rfl⟩ := h2
      exact ⟨l, hl, hf⟩
    | ok u =>
      obtain ⟨w2, r2, ⟨h3, ih⟩, rfl, rfl⟩ := h2
      have nm := nextEm_mono h1
      obtain ⟨l2, hl2, hf2⟩ := ih s em _ rfl (by omega) (deadInv_runs h1 hdead)
      exact ⟨l ++ l2, by rw [hl2, hl]; simp, .append hf hf2⟩

theorem inner_fail {env : Env} {s em w w' r} (h : Runs env (.inner s em) w w' r) (hn : em < w.nextEm)
    (hdead : DeadInv w) (hq : (w.sig s).emitQueue ≠ []) : ∃ l, w'.log = w.log ++ l ∧
      FailShape ((env.decl s).mode = .queued) s em l r := by
  have hp : DeadInv (w.popQueue s) := ConnEq.deadInv (by simp [ConnEq]) hdead
  rw [runs_iff] at h
  simp only [body] at h
  split at h
  · obtain ⟨w1, r1, h1, rfl, rfl⟩ := h
    obtain ⟨ys, l, hl, hle, -⟩ := forSlots_log h1 s em _ 0 rfl hn hp
    exact ⟨l, hl, by simpa [*] using hle.fail⟩
  · obtain ⟨w1, r1, h1, rfl, rfl⟩ := h
    obtain ⟨ys, l, hl, hle, -⟩ := forLatest_log h1 s em _ 0 rfl hn hp
    exact ⟨l, hl, by simpa [*] using hle.fail⟩
  · obtain ⟨w1, r1, h1, rfl, rfl⟩ := h
    obtain ⟨l, hl, hf⟩ := whileQueued_fail h1 s em 0 rfl hn hdead
    exact ⟨l, hl, by simp_all⟩
  · exact absurd ‹_› hq

/-- The result of `_run_emit_loop` in terms of the new part of the log. -/
theorem runLoop_fail {env : Env} {s args w w' r} (h : Runs env (.runLoop s args) w w' r)
    (hdead : DeadInv w) : ∃ l r0, w'.log = w.log ++ l ∧ r = wrapRes s r0 ∧
      (FailShape ((env.decl s).mode = .queued) s w.nextEm l r0 ∨
        ((w.sig s).depth ≥ LIMIT ∧ r = .error .recursion ∧ l = [])) := by
  rw [runs_iff] at h
  simp only [body] at h
  split at h
  · obtain ⟨rfl, rfl⟩ := h
    exact ⟨[], .error .recursion, by simp, rfl, .inr ⟨by assumption, rfl, rfl⟩⟩
  · split at h
    · obtain ⟨rfl, rfl⟩ := h
      exact ⟨[.req s args], .ok (), rfl, rfl, .inl fun _ _ _ hm => by simp at hm⟩
    · obtain ⟨w1, r1, h1, rfl, rfl⟩ := h
      have hd : DeadInv ((w.enqueue s args).startLoop s) := ConnEq.deadInv (by simp [ConnEq]) hdead
      obtain ⟨l, hl, hf⟩ := inner_fail h1 (by simp) hd (by simp)
      refine ⟨.req s args :: l, r1, ?_, rfl, .inl ?_⟩
      · simp [hl]
      · exact FailShape.append (l := [_]) (fun _ _ _ hm => by simp at hm) hf

/-! ## The queue of a queued signal -/

@[grind =] theorem accepted_append (s : SigId) (l : List Ev) (e : Ev) :
    accepted s (l ++ [e]) = accepted s l ++ accepted s [e] := by
  simp [accepted]
@[simp, grind =] theorem accepted_req (s s' a) :
    accepted s [.req s' a] = if s' = s then [a] else [] := by
  simp only [accepted, List.filterMap_cons, List.filterMap_nil]
  split <;> rename_i h <;> split at h <;> simp_all
@[simp, grind =] theorem accepted_fast (s s' a e) : accepted s [.fast s' a e] = [] := rfl
@[simp, grind =] theorem accepted_call (s e s' d m t b a) : accepted s [.call e s' d m t b a] = [] := rfl
@[simp, grind =] theorem accepted_ret (s e s' b r) : accepted s [.ret e s' b r] = [] := rfl
@[simp, grind =] theorem accepted_put (s t b a e) : accepted s [.put t b a e] = [] := rfl
@[simp, grind =] theorem accepted_get (s t b a) : accepted s [.get t b a] = [] := rfl

/-- While the queue of a queued signal is in use, it collects exactly the accepted emissions. -/
theorem queue_collects {env : Env} {s : SigId} (hm : (env.decl s).mode = .queued) {t w w' r}
    (h : Runs env t w w' r) : (w.sig s).emitQueue ≠ [] → ∀ pre,
      accepted s w.log = pre ++ (w.sig s).emitQueue →
      accepted s w'.log = pre ++ (w'.sig s).emitQueue ∧ (w'.sig s).emitQueue ≠ [] := by
  refine Runs.induct (P := fun t w w' _ => (w.sig s).emitQueue ≠ [] → ∀ pre,
      accepted s w.log = pre ++ (w.sig s).emitQueue →
      accepted s w'.log = pre ++ (w'.sig s).emitQueue ∧ (w'.sig s).emitQueue ≠ []) ?_ h
  clear h
  have hlen : ∀ w : World, (w.sig s).emitQueue ≠ [] → 0 < (w.sig s).emitQueue.length :=
    fun w h => List.length_pos_iff.2 h
  intro t w w' r h
  unfold_body t h
  case runLoop.isFalse.isFalse s' a _ hl =>
    obtain ⟨w1, r1, ⟨-, ih⟩, rfl, rfl⟩ := h
    intro hq pre hp
    by_cases hs : s' = s
    · subst hs
      have := hlen w hq
      have he : ((w.enqueue s' a).sig s').emitQueue = (w.sig s').emitQueue ++ [a] := by grind
      rw [he, List.length_append] at hl
      simp only [List.length_cons, List.length_nil] at hl
      omega
    · have h1 : (((w.enqueue s' a).startLoop s').sig s).emitQueue = (w.sig s).emitQueue := by
        grind
      have h2 : ((w1.endLoop s' w.emitter).sig s).emitQueue = (w1.sig s).emitQueue := by
        grind
      have := ih (by rw [h1]; exact hq) pre (by rw [h1, ← hp]; simp [accepted_append, hs])
      rw [h2]
      exact this
  all_goals grind [Comp.Via]

end Psygnal
