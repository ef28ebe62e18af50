import Verif.LoopShape

/-!
# More about emit loops (helper lemmas for C04, C09, C10, C11)
-/
namespace Psygnal

/-! ## When connections do not change -/

theorem keeps_run {env : Env} {s : SigId} (w : World) (a : Act) (h : Keeps env s a) :
    ((a.run env w).1.sig s).slots = (w.sig s).slots := by
  have hap : ∀ (w : World) s' x, s' ≠ s → (env.decl s').isRelay = false →
      ((w.appendSlot env s' x).sig s).slots = (w.sig s).slots := by
    intro w s' x hs hr
    simp only [World.appendSlot, hr, Bool.false_eq_true, false_and, if_false]
    rw [plainAppend_ne _ _ _ _ (Ne.symm hs)]
  have hrm : ∀ (w : World) s' ss, s' ≠ s → (env.decl s').isRelay = false →
      ((w.setSlotsRemoved env s' ss).sig s).slots = (w.sig s).slots := by
    intro w s' ss hs hr
    simp only [World.setSlotsRemoved, hr, Bool.false_eq_true, false_and, if_false]
    rw [upd_sig_ne _ _ (Ne.symm hs)]
  cases a <;> simp only [Act.run]
  case connect s' c o =>
    split
    · rfl
    · unfold World.connect
      split
      · split <;> rfl
      · dsimp only
        split
        · rfl
        · exact hap _ _ _ h.1 h.2
  case connectRaw s' b m p =>
    split
    · rfl
    · exact hap _ _ _ h.1 h.2
  case disconnect s' c m =>
    simp only [World.disconnect, h.2, Bool.false_eq_true, if_false, World.disconnect1]
    split
    · exact hrm _ _ _ h.1 h.2
    · split
      · exact hrm _ _ _ h.1 h.2
      · split <;> rfl
  case discard s' b m =>
    simp only [World.discard]
    split
    · exact hrm _ _ _ h.1 h.2
    · split <;> rfl
  case block => exact (connEq_block _ _ _ _).1 _
  case unblock => exact (connEq_unblock _ _ _).1 _
  case pause => simp
  case kill => exact h.elim

/-- If callbacks leave the connections of `s` alone, they never change during the emission. -/
theorem keeps_within {env : Env} {s : SigId} (he : env.Only (Keeps env s)) {t w t1 w1}
    (ht : t.Only (Keeps env s)) (h : Within env t w t1 w1) :
    t1.Only (Keeps env s) ∧ (w1.sig s).slots = (w.sig s).slots := by
  induction h with
  | refl => exact ⟨ht, rfl⟩
  | step _ hr ih =>
    exact conn_reaches (fun w1 => (w1.sig s).slots = (w.sig s).slots)
      (fun w1 a ha h => (keeps_run w1 a ha).trans h) (fun w1 w2 hc h => (hc.1 s).trans h) he hr ih.1 ih.2

/-! ## The re-emission queue outside of the queued mode -/

/-- The signal whose `_run_emit_loop_inner` this is. -/
def Task.inner? : Task → Option SigId
  | .inner s _ => some s
  | _ => none

@[simp, grind =] theorem inner?_inner (s em) : Task.inner? (.inner s em) = some s := rfl
@[simp, grind =] theorem inner?_prog (p) : Task.inner? (.prog p) = none := rfl
@[simp, grind =] theorem inner?_emit (s a c) : Task.inner? (.emit s a c) = none := rfl
@[simp, grind =] theorem inner?_emitFast (s a) : Task.inner? (.emitFast s a) = none := rfl
@[simp, grind =] theorem inner?_runLoop (s a) : Task.inner? (.runLoop s a) = none := rfl
@[simp, grind =] theorem inner?_forSlots (s e a i) : Task.inner? (.forSlots s e a i) = none := rfl
@[simp, grind =] theorem inner?_forLatest (s e a i) : Task.inner? (.forLatest s e a i) = none := rfl
@[simp, grind =] theorem inner?_forQueued (s e a i) : Task.inner? (.forQueued s e a i) = none := rfl
@[simp, grind =] theorem inner?_whileQueued (s e i) : Task.inner? (.whileQueued s e i) = none := rfl
@[simp, grind =] theorem inner?_cb (e s x a) : Task.inner? (.cb e s x a) = none := rfl
@[simp, grind =] theorem inner?_direct (e s x a) : Task.inner? (.direct e s x a) = none := rfl
@[simp, grind =] theorem inner?_slotRelay (s a) : Task.inner? (.slotRelay s a) = none := rfl
@[simp, grind =] theorem inner?_resume (s a) : Task.inner? (.resume s a) = none := rfl
@[simp, grind =] theorem inner?_replay (s a) : Task.inner? (.replay s a) = none := rfl
@[simp, grind =] theorem inner?_drain (t) : Task.inner? (.drain t) = none := rfl

@[grind →] theorem task?_inner {a : Act} {w : World} {t : Task} (h : a.task? w = some t) :
    t.inner? = none := by
  cases a with
  | emitQueued o => cases o <;> simp_all [Act.task?] <;> subst h <;> simp
  | _ => simp_all [Act.task?] <;> subst h <;> simp

/-- Outside the queued mode the queue holds one value, between being accepted and being processed. -/
def QueuePre (env : Env) (t : Task) (w : World) : Prop :=
  ∀ s, (env.decl s).mode ≠ .queued →
    (t.inner? = some s → (w.sig s).emitQueue.length = 1) ∧
    (t.inner? ≠ some s → (w.sig s).emitQueue.length = 0)

def QueuePost (env : Env) (w : World) : Prop :=
  ∀ s, (env.decl s).mode ≠ .queued → (w.sig s).emitQueue.length = 0

theorem queuePre_ok (env : Env) : ∀ t w, QueuePre env t w →
    (body env t w).Ok env (QueuePre env) (fun _ _ w' _ => QueuePost env w')
      (fun w' _ => QueuePost env w') := by
  intro t w h
  unfold_goal t
  all_goals grind [Comp.Ok, QueuePre, QueuePost]

theorem queuePre_live {env : Env} {Q : Act → Prop} {t w} (h : Live env Q t w) : QueuePre env t w :=
  hoare_live (QueuePre env) (fun _ _ w' _ => QueuePost env w') (queuePre_ok env)
    (QueuePost env) (fun s _ => rfl) (fun _ _ h => h)
    (fun w p _ h s hs => ⟨by simp, fun _ => h s hs⟩) (fun _ _ _ _ _ h => h) h

/-! ## Nested procedures finish first -/

theorem reaches_log {env : Env} {t w w' r t1 w1} (h : Runs env t w w' r)
    (hr : (body env t w).Reaches (Runs env) t1 w1) :
    ∃ w1' r1, Runs env t1 w1 w1' r1 ∧ w1'.log <+: w'.log := by
  have lp := @log_prefix env
  have det : ∀ {t w w1 r1 w2 r2}, Runs env t w w1 r1 → Runs env t w w2 r2 → w1 = w2 ∧ r1 = r2 :=
    fun h g => Runs.det h g
  have tr : ∀ {a b c : List Ev}, a <+: b → b <+: c → a <+: c := fun h g => h.trans g
  have rf : ∀ {a : List Ev}, a <+: a := List.prefix_rfl
  have ap2 : ∀ {a : List Ev} {x : Ev}, a <+: a ++ [x] := List.prefix_append _ _
  rw [runs_iff] at h
  cases t using Task.splitProg
  all_goals simp only [body] at h hr
  all_goals repeat' split at h
  all_goals simp only [Comp.Via] at h
  all_goals simp only [Comp.Reaches, *, if_true, if_false] at hr
  all_goals grind [Comp.Via, Comp.Reaches]

/-- Every procedure started within a finished one has finished before it. -/
theorem within_log {env : Env} {t w w' r t1 w1} (h : Runs env t w w' r) (hw : Within env t w t1 w1) :
    ∃ w1' r1, Runs env t1 w1 w1' r1 ∧ w1'.log <+: w'.log := by
  induction hw with
  | refl => exact ⟨w', r, h, List.prefix_rfl⟩
  | step _ hr ih =>
    obtain ⟨w1', r1, h1, hp⟩ := ih
    obtain ⟨w2', r2, h2, hp2⟩ := reaches_log h1 hr
    exact ⟨w2', r2, h2, hp2.trans hp⟩

/-! ## Queued mode -/

theorem whileQueued_rounds {env : Env} {t w w' r} (h : Runs env t w w' r) : ∀ s em i xs,
    t = .whileQueued s em i → em < w.nextEm → DeadInv w → r = .ok () →
    (∀ t1 w1, Within env t w t1 w1 → (w1.sig s).slots = xs) →
    ∃ l, w'.log = w.log ++ l ∧ Rounds s em w.thread xs ((w'.sig s).emitQueue.drop i) l := by
  refine Runs.induct (P := fun t w w' r => ∀ s em i xs,
    t = .whileQueued s em i → em < w.nextEm → DeadInv w → r = .ok () →
    (∀ t1 w1, Within env t w t1 w1 → (w1.sig s).slots = xs) →
    ∃ l, w'.log = w.log ++ l ∧ Rounds s em w.thread xs ((w'.sig s).emitQueue.drop i) l) ?_ h
  clear h
  rintro t w w' r h s em i xs rfl hn hdead hok hxs
  simp only [body] at h
  split at h
  · rename_i hq
    obtain ⟨rfl, rfl⟩ := h
    rw [List.getElem?_eq_none_iff] at hq
    exact ⟨[], by simp, by simp [List.drop_eq_nil_of_le hq, Rounds]⟩
  · rename_i a ha
    obtain ⟨w1, r1, ⟨h1, -⟩, h2⟩ := h
    cases r1 with
    | error e =>
      obtain ⟨rfl, rfl⟩ := h2
      simp at hok
    | ok u =>
      obtain ⟨w2, r2, ⟨h3, ih⟩, rfl, rfl⟩ := h2
      obtain ⟨ys, l, hl, hle, hys⟩ := forQueued_log h1 s em a 0 rfl hn hdead
      have hw1 := hys xs (fun t1 w1 hw => hxs t1 w1 (.reaches (by
        simp only [body, ha]; exact .inl ⟨rfl, rfl⟩) hw))
      have hys' : ys = xs := by simpa using hw1.2 rfl
      subst hys'
      have nm := nextEm_mono h1
      obtain ⟨l2, hl2, hr⟩ := ih s em (i + 1) ys rfl (by omega) (deadInv_runs h1 hdead) hok
        (fun t1 w2 hw => hxs t1 w2 (.reaches (by
          simp only [body, ha]; exact .inr ⟨w1, _, h1, .inl ⟨rfl, rfl⟩⟩) hw))
      have hpre : (w.sig s).emitQueue <+: (w'.sig s).emitQueue :=
        (emitQueue_inv h1 s (by simp)).1.trans (emitQueue_inv h3 s (by simp)).1
      have hdr : (w'.sig s).emitQueue.drop i = a :: (w'.sig s).emitQueue.drop (i + 1) := by
        obtain ⟨q, hq⟩ := hpre
        rw [List.getElem?_eq_some_iff] at ha
        obtain ⟨hi, rfl⟩ := ha
        rw [← hq, List.drop_eq_getElem_cons (by simp; omega)]
        rw [List.getElem_append_left hi]
      refine ⟨l ++ l2, by rw [hl2, hl]; simp, ?_⟩
      rw [hdr]
      rw [thread_const h1] at hr
      refine ⟨l, l2, rfl, ?_, hr⟩
      rcases hle with ⟨-, h⟩ | ⟨e, -, -, -, -, h, -⟩ | ⟨-, h, -⟩
      · exact h
      · simp at h
      · simp at h

/-! ## Latest-only mode -/

theorem accepted_append' (s : SigId) (l l' : List Ev) :
    accepted s (l ++ l') = accepted s l ++ accepted s l' := by
  simp [accepted]

def AcceptPre (s : SigId) (t : Task) (w : World) : Prop :=
  0 < (w.sig s).depth ∧ (t.inner? = some s → (w.sig s).emitQueue.length = 1) ∧
    (t.inner? ≠ some s → (w.sig s).emitQueue.length = 0)

/-- While an emission of `s` runs, `_max_recursion_depth` does not decrease, and it changes only by
accepted nested emissions, each of which makes it larger than the current depth. -/
def AcceptPost (s : SigId) (w w' : World) : Prop :=
  (w.sig s).maxDepth ≤ (w'.sig s).maxDepth ∧
  (accepted s w.log).length ≤ (accepted s w'.log).length ∧
  ((accepted s w.log).length = (accepted s w'.log).length → (w.sig s).maxDepth = (w'.sig s).maxDepth) ∧
  ((accepted s w.log).length < (accepted s w'.log).length → (w.sig s).depth < (w'.sig s).maxDepth) ∧
  (w'.sig s).emitQueue.length = 0 ∧ (w'.sig s).depth = (w.sig s).depth

theorem acceptPre_ok (env : Env) (s : SigId) (hm : (env.decl s).mode ≠ .queued) :
    ∀ t w, AcceptPre s t w → (body env t w).Ok env (AcceptPre s)
      (fun _ w w' _ => AcceptPost s w w') (fun w' _ => AcceptPost s w w') := by
  intro t w ⟨h1, h2⟩
  unfold_goal t
  all_goals grind [Comp.Ok, AcceptPre, AcceptPost]

theorem accept_runs {env : Env} {s : SigId} (hm : (env.decl s).mode ≠ .queued) {t w w' r}
    (h : Runs env t w w' r) (hp : AcceptPre s t w) : AcceptPost s w w' :=
  hoare (AcceptPre s) (fun _ w w' _ => AcceptPost s w w') (acceptPre_ok env s hm) h hp

/-- After an accepted emission of `s`, emit loop `em` starts nothing any more: its only further events
are ends of invocations. -/
def NoCallAfter (s : SigId) (em : Nat) (l : List Ev) : Prop :=
  ∀ l₁ b l₂, l = l₁ ++ .req s b :: l₂ → ∀ v ∈ l₂, v.em? = some em →
    ∃ b r, v = .ret (some em) (some s) b r

theorem NoCallAfter.append {s em l l'} (h : accepted s l = []) (h' : NoCallAfter s em l') :
    NoCallAfter s em (l ++ l') := by
  intro l₁ b l₂ e
  rcases List.append_eq_append_iff.1 e with ⟨m, rfl, hm⟩ | ⟨m, rfl, hm⟩
  · exact h' m b l₂ hm
  · cases m with
    | nil => exact h' [] b l₂ (by simpa using hm.symm)
    | cons v m =>
      simp only [List.cons_append, List.cons.injEq] at hm
      obtain ⟨rfl, -⟩ := hm
      simp [accepted] at h

theorem Delivery.noCallAfter {s em th args x seg r} (h : Delivery s em th args x seg r) :
    NoCallAfter s em seg := by
  intro l₁ b l₂ e v hv hem
  rcases h with ⟨-, d, m, inner, rfl, hf⟩ | ⟨t, -, -, -, rfl⟩
  · cases l₁ with
    | nil => simp at e
    | cons y l₁ =>
      simp only [List.cons_append, List.cons.injEq] at e
      obtain ⟨-, e⟩ := e
      have hmem : v ∈ inner ++ [.ret (some em) (some s) x.base r] := by rw [e]; simp [hv]
      rcases List.mem_append.1 hmem with h | h
      · exact absurd hem (hf v h)
      · exact ⟨_, _, List.mem_singleton.1 h⟩
  · cases l₁ with
    | nil => simp at e
    | cons y l₁ => simp at e

theorem forLatest_stop {env : Env} {t w w' r} (h : Runs env t w w' r) : ∀ s em args i,
    (env.decl s).mode ≠ .queued → t = .forLatest s em args i → em < w.nextEm → DeadInv w →
    AcceptPre s t w → ∃ l, w'.log = w.log ++ l ∧ NoCallAfter s em l ∧
      ((w.sig s).maxDepth > (w.sig s).depth → l = []) := by
  refine Runs.induct (P := fun t w w' r => ∀ s em args i,
    (env.decl s).mode ≠ .queued → t = .forLatest s em args i → em < w.nextEm → DeadInv w →
    AcceptPre s t w → ∃ l, w'.log = w.log ++ l ∧ NoCallAfter s em l ∧
      ((w.sig s).maxDepth > (w.sig s).depth → l = [])) ?_ h
  clear h
  rintro t w w' r h s em args i hm rfl hn hdead hp
  have h0 : NoCallAfter s em [] := fun l₁ b l₂ e => by simp at e
  simp only [body] at h
  split at h
  · obtain ⟨rfl, rfl⟩ := h
    exact ⟨[], by simp, h0, by simp⟩
  · rename_i x hx
    split at h
    · obtain ⟨rfl, rfl⟩ := h
      exact ⟨[], by simp, h0, by simp⟩
    · rename_i hmd
      obtain ⟨w1, r1, ⟨h1, -⟩, h2⟩ := h
      obtain ⟨seg, hl, hd⟩ := cb_log h1 hn (hdead s x (List.mem_of_getElem? hx))
      have hpost := accept_runs hm h1 ⟨hp.1, by simp, fun _ => hp.2.2 (by simp)⟩
      cases r1 with
      | error e =>
        obtain ⟨rfl, rfl⟩ := h2
        exact ⟨seg, hl, hd.noCallAfter, fun h => absurd h (by omega)⟩
      | ok u =>
        obtain ⟨w2, r2, ⟨h3, ih⟩, rfl, rfl⟩ := h2
        have nm := nextEm_mono h1
        obtain ⟨l2, hl2, hc, hstop⟩ := ih s em args (i + 1) hm rfl (by omega) (deadInv_runs h1 hdead)
          ⟨by rw [hpost.2.2.2.2.2]; exact hp.1, by simp, fun _ => hpost.2.2.2.2.1⟩
        refine ⟨seg ++ l2, by rw [hl2, hl]; simp, ?_, fun h => absurd h (by omega)⟩
        by_cases ha : accepted s seg = []
        · exact .append ha hc
        · have : (accepted s w.log).length < (accepted s w1.log).length := by
            rw [hl, accepted_append', List.length_append]
            have := List.length_pos_iff.2 ha
            omega
          have h4 := hpost.2.2.2.1 this
          rw [hstop (by rw [hpost.2.2.2.2.2]; exact h4), List.append_nil]
          exact hd.noCallAfter

theorem forLatest_all {env : Env} {t w w' r} (h : Runs env t w w' r) : ∀ s em args i xs,
    (env.decl s).mode ≠ .queued → t = .forLatest s em args i → em < w.nextEm → DeadInv w →
    AcceptPre s t w → (w.sig s).maxDepth ≤ (w.sig s).depth → r = .ok () →
    accepted s w'.log = accepted s w.log →
    (∀ t1 w1, Within env t w t1 w1 → (w1.sig s).slots = xs) →
    ∃ l, w'.log = w.log ++ l ∧ Deliveries s em w.thread args (xs.drop i) l := by
  refine Runs.induct (P := fun t w w' r => ∀ s em args i xs,
    (env.decl s).mode ≠ .queued → t = .forLatest s em args i → em < w.nextEm → DeadInv w →
    AcceptPre s t w → (w.sig s).maxDepth ≤ (w.sig s).depth → r = .ok () →
    accepted s w'.log = accepted s w.log →
    (∀ t1 w1, Within env t w t1 w1 → (w1.sig s).slots = xs) →
    ∃ l, w'.log = w.log ++ l ∧ Deliveries s em w.thread args (xs.drop i) l) ?_ h
  clear h
  rintro t w w' r h s em args i xs hm rfl hn hdead hp hmd hok hacc hxs
  simp only [body] at h
  split at h
  · rename_i hx
    obtain ⟨rfl, rfl⟩ := h
    rw [hxs _ _ .refl, List.getElem?_eq_none_iff] at hx
    exact ⟨[], by simp, by simp [List.drop_eq_nil_of_le hx, Deliveries]⟩
  · rename_i x hx
    have hdrop : xs.drop i = x :: xs.drop (i + 1) := by
      have := hx
      rw [hxs _ _ .refl, List.getElem?_eq_some_iff] at this
      obtain ⟨hi, rfl⟩ := this
      exact List.drop_eq_getElem_cons hi
    split at h
    · omega
    · rename_i hmd'
      obtain ⟨w1, r1, ⟨h1, -⟩, h2⟩ := h
      obtain ⟨seg, hl, hd⟩ := cb_log h1 hn (hdead s x (List.mem_of_getElem? hx))
      have hpost := accept_runs hm h1 ⟨hp.1, by simp, fun _ => hp.2.2 (by simp)⟩
      cases r1 with
      | error e =>
        obtain ⟨rfl, rfl⟩ := h2
        simp at hok
      | ok u =>
        obtain ⟨w2, r2, ⟨h3, ih⟩, rfl, rfl⟩ := h2
        have nm := nextEm_mono h1
        have hp1 : AcceptPre s (.forLatest s em args (i + 1)) w1 :=
          ⟨by rw [hpost.2.2.2.2.2]; exact hp.1, by simp, fun _ => hpost.2.2.2.2.1⟩
        have hpost2 := accept_runs hm h3 hp1
        have ha1 : (accepted s w.log).length = (accepted s w1.log).length := by
          have := congrArg List.length hacc
          have := hpost.2.1
          have := hpost2.2.1
          omega
        have hacc1 : accepted s w1.log = accepted s w.log := by
          rw [hl, accepted_append'] at ha1 ⊢
          rw [List.length_append] at ha1
          have : accepted s seg = [] := List.length_eq_zero_iff.1 (by omega)
          simp [this]
        obtain ⟨l2, hl2, hD⟩ := ih s em args (i + 1) xs hm rfl (by omega) (deadInv_runs h1 hdead) hp1
          (by rw [← hpost.2.2.1 ha1, hpost.2.2.2.2.2]; exact hmd) hok (by rw [hacc1]; exact hacc)
          (fun t1 w2 hw => hxs t1 w2 (.reaches (by
            simp only [body, hx, hmd', if_false]; exact .inr ⟨w1, _, h1, .inl ⟨rfl, rfl⟩⟩) hw))
        rw [thread_const h1] at hD
        rw [hdrop]
        exact ⟨seg ++ l2, by rw [hl2, hl]; simp, seg, l2, rfl, hd, hD⟩

end Psygnal
