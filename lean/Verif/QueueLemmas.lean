import Verif.LoopShape

/-!
# Thread queues (helper lemmas for C17, C18)
-/
namespace Psygnal

/-! ## First in, first out -/

@[grind =] theorem putsTo_append (t : ThreadId) (l l' : List Ev) :
    putsTo t (l ++ l') = putsTo t l ++ putsTo t l' := by simp [putsTo]
@[grind =] theorem putsTo_req (t s a) : putsTo t [.req s a] = [] := rfl
@[grind =] theorem putsTo_fast (t s a e) : putsTo t [.fast s a e] = [] := rfl
@[grind =] theorem putsTo_call (t a1 a2 a3 a4 a5 a6 a7) : putsTo t [.call a1 a2 a3 a4 a5 a6 a7] = [] := rfl
@[grind =] theorem putsTo_ret (t a1 a2 a3 a4) : putsTo t [.ret a1 a2 a3 a4] = [] := rfl
@[grind =] theorem putsTo_put (t t' b a e) :
    putsTo t [.put t' b a e] = if t' = t then [(b, a)] else [] := by
  by_cases h : t' = t <;> simp [putsTo, h]
@[grind =] theorem putsTo_get (t t' b a) : putsTo t [.get t' b a] = [] := rfl

@[grind =] theorem getsFrom_append (t : ThreadId) (l l' : List Ev) :
    getsFrom t (l ++ l') = getsFrom t l ++ getsFrom t l' := by simp [getsFrom]
@[grind =] theorem getsFrom_req (t s a) : getsFrom t [.req s a] = [] := rfl
@[grind =] theorem getsFrom_fast (t s a e) : getsFrom t [.fast s a e] = [] := rfl
@[grind =] theorem getsFrom_call (t a1 a2 a3 a4 a5 a6 a7) :
    getsFrom t [.call a1 a2 a3 a4 a5 a6 a7] = [] := rfl
@[grind =] theorem getsFrom_ret (t a1 a2 a3 a4) : getsFrom t [.ret a1 a2 a3 a4] = [] := rfl
@[grind =] theorem getsFrom_get (t t' b a) :
    getsFrom t [.get t' b a] = if t' = t then [(b, a)] else [] := by
  by_cases h : t' = t <;> simp [getsFrom, h]
@[grind =] theorem getsFrom_put (t t' b a e) : getsFrom t [.put t' b a e] = [] := rfl

/-- Entries put on the queue of `T` are those taken plus those waiting. -/
def Fifo (T : ThreadId) (w : World) : Prop :=
  putsTo T w.log = getsFrom T w.log ++ (w.tq T).map fun p => (p.1.base, p.2)

theorem fifo_ok (env : Env) (T : ThreadId) : ∀ t w, Fifo T w →
    (body env t w).Ok env (fun _ w => Fifo T w) (fun _ _ w' _ => Fifo T w') (fun w' _ => Fifo T w') := by
  intro t w h
  have ht : ∀ l : List (Slot × Args), ∀ x a l', l = (x, a) :: l' → l.tail = l' := by
    rintro _ _ _ _ rfl; rfl
  unfold_goal t
  all_goals grind (ematch := 12) [Comp.Ok, Fifo]

/-! ## Properties of every event of a log, given the events before it -/

/-- Every event of `l` satisfies `R`, given the events before it. -/
def LogOk (R : List Ev → Ev → Prop) (l : List Ev) : Prop :=
  ∀ pre e post, l = pre ++ e :: post → R pre e

theorem logOk_nil (R : List Ev → Ev → Prop) : LogOk R [] := by
  intro pre e post h; simp at h

@[grind =] theorem logOk_append {R : List Ev → Ev → Prop} {l : List Ev} {x : Ev} :
    LogOk R (l ++ [x]) ↔ LogOk R l ∧ R l x := by
  constructor
  · intro h
    exact ⟨fun pre e post he => h pre e (post ++ [x]) (by simp [he]), h l x [] rfl⟩
  · rintro ⟨h, hx⟩ pre e post heq
    rcases List.append_eq_append_iff.1 heq with ⟨as, h1, h2⟩ | ⟨bs, h1, h2⟩
    · cases as with
      | nil =>
        simp only [List.nil_append, List.cons.injEq] at h2
        simp only [List.append_nil] at h1
        rw [h1, ← h2.1]; exact hx
      | cons y ys => simp at h2
    · cases bs with
      | nil =>
        simp only [List.nil_append, List.cons.injEq] at h2
        simp only [List.append_nil] at h1
        rw [← h1, h2.1]; exact hx
      | cons y ys =>
        simp only [List.cons_append, List.cons.injEq] at h2
        exact h pre e ys (by rw [h1, h2.1])

/-! ## Thread-bound callables -/

/-- The invocation rule of a callable that belongs to thread `T`; `own`: threads only drain their own
queue. -/
def BoundEv (b : Base) (T : ThreadId) (own : Prop) (pre : List Ev) : Ev → Prop
  | .call em _ _ _ th b' _ => b' = b →
      (own ∨ em.isSome → th = T) ∧ (em = none → ∃ l a, pre = l ++ [.get T b a])
  | _ => True

@[simp, grind =] theorem boundEv_req (b T o l s a) : BoundEv b T o l (.req s a) = True := rfl
@[simp, grind =] theorem boundEv_fast (b T o l s a e) : BoundEv b T o l (.fast s a e) = True := rfl
@[simp, grind =] theorem boundEv_call (b T o l em s d e th b' a) :
    BoundEv b T o l (.call em s d e th b' a) = (b' = b →
      (o ∨ em.isSome → th = T) ∧ (em = none → ∃ l1 a1, l = l1 ++ [.get T b a1])) := rfl
@[simp, grind =] theorem boundEv_ret (b T o l e s b' r) : BoundEv b T o l (.ret e s b' r) = True := rfl
@[simp, grind =] theorem boundEv_put (b T o l t b' a e) : BoundEv b T o l (.put t b' a e) = True := rfl
@[simp, grind =] theorem boundEv_get (b T o l t b' a) : BoundEv b T o l (.get t b' a) = True := rfl

/-- Waiting invocations of `b` are in the queue of `T`. -/
def BoundTq (b : Base) (T : ThreadId) (tq : ThreadId → List (Slot × Args)) : Prop :=
  ∀ t, ∀ p ∈ tq t, p.1.base = b → t = T

theorem BoundTq.put {b T} {w : World} (h : BoundTq b T w.tq) (t x a em) (hx : x.base = b → t = T) :
    BoundTq b T (w.putQueue t x a em).tq := by
  intro t' p hp
  rw [putQueue_tq] at hp
  dsimp only at hp
  split at hp
  · rename_i ht
    subst ht
    rw [List.mem_append, List.mem_singleton] at hp
    rcases hp with hp | rfl
    · exact h _ p hp
    · exact hx
  · exact h _ p hp

theorem BoundTq.get {b T} {w : World} (h : BoundTq b T w.tq) (t x a) :
    BoundTq b T (w.getQueue t x a).tq := by
  intro t' p hp
  rw [getQueue_tq] at hp
  dsimp only at hp
  split at hp
  · rename_i ht
    subst ht
    exact h _ p (List.mem_of_mem_tail hp)
  · exact h _ p hp

theorem BoundTq.head {b T} {w : World} (h : BoundTq b T w.tq) {t x a l} (hq : w.tq t = (x, a) :: l) :
    x.base = b → t = T := h t (x, a) (by simp [hq])

/-- Connections of `b` are for thread `T`. -/
def BoundSlots (b : Base) (T : ThreadId) (w : World) : Prop :=
  ∀ s, ∀ x ∈ (w.sig s).slots, x.base = b → x.thread = some T

theorem boundSlots_run {env : Env} {b : Base} {T : ThreadId} (hb : ∀ r, b ≠ .relay r) (w : World) (a : Act)
    (ha : BoundTo b T a) : BoundSlots b T w → BoundSlots b T (a.run env w).1 := by
  have happ : ∀ (w : World) s x, (x.base = b → x.thread = some T) → BoundSlots b T w →
      BoundSlots b T (w.plainAppend s x) := by
    intro w s x hx hw s' y hy
    by_cases hs : s' = s
    · subst hs
      rw [plainAppend_same] at hy
      obtain ⟨l₁, l₂, h1, h2⟩ := appendSlot_split (w.sig s') { x with serial := w.nextSerial }
      rw [h2] at hy
      simp only [List.mem_append, List.mem_cons] at hy
      rcases hy with hy | rfl | hy
      · exact hw s' y (by rw [h1]; simp [hy])
      · exact hx
      · exact hw s' y (by rw [h1]; simp [hy])
    · rw [plainAppend_ne _ _ _ _ hs] at hy
      exact hw s' y hy
  refine run_preserves' a w (fun w w' hs hw s x hx => hw s x ((hs.slots s).subset hx)) ?_ ?_ ?_
  · intro w r c _ hw
    exact happ _ _ _ (fun h => absurd h.symm (hb r)) hw
  · intro s c o m he _ _ _ hw
    subst he
    refine happ _ _ _ (fun h => ?_) hw
    rcases ha h with h | ⟨h, rfl⟩ <;> simp [h, resolveThread]
  · intro s b' m p he _ hw
    subst he
    exact happ _ _ _ (fun h => absurd h ha) hw

/-- What a procedure needs. -/
def Task.BoundOk (b : Base) (T : ThreadId) (own : Prop) (w : World) : Task → Prop
  | .cb em _ x _ => em.isSome ∧ (x.base = b → x.thread = some T)
  | .direct em _ x _ => x.base = b → (own ∨ em.isSome → w.thread = T) ∧
      (em = none → ∃ l a, w.log = l ++ [.get T b a])
  | .drain t => own → t = w.thread
  | _ => True

def BoundPre (b : Base) (T : ThreadId) (own : Prop) (t : Task) (w : World) : Prop :=
  BoundTq b T w.tq ∧ LogOk (BoundEv b T own) w.log ∧ w.hook ≠ some b ∧ t.BoundOk b T own w

def BoundPost (b : Base) (T : ThreadId) (own : Prop) (w : World) : Prop :=
  BoundTq b T w.tq ∧ LogOk (BoundEv b T own) w.log ∧ w.hook ≠ some b

theorem boundPre_ok {env : Env} {b : Base} {T : ThreadId} {own : Prop} {Q : Act → Prop}
    (hQ : ∀ a, Q a → BoundTo b T a ∧ (own → ∀ t, a ≠ .emitQueued (some t))) :
    ∀ t w, t.Only Q → BoundSlots b T w → BoundPre b T own t w →
      (body env t w).Ok env (BoundPre b T own) (fun _ _ w' _ => BoundPost b T own w')
        (fun w' _ => BoundPost b T own w') := by
  intro t w ho hs ⟨h1, h2, h3, h4⟩
  have c1 := @BoundTq.put b T
  have c2 := @BoundTq.get b T
  have c3 := @BoundTq.head b T
  have c4 : ∀ s i (x : Slot), (w.sig s).slots[i]? = some x → x.base = b → x.thread = some T :=
    fun s i x hx => hs s x (List.mem_of_getElem? hx)
  have c5 : ∀ a, Q a → (a.run env w).1.hook ≠ some b := by
    intro a ha
    by_cases hk : ∃ k, a = .setHook k
    · obtain ⟨k, rfl⟩ := hk
      exact (hQ _ ha).1
    · rw [(frame_run_noHook env w a fun k e => hk ⟨k, e⟩).hook]
      exact h3
  have c6 : ∀ a t w, Q a → a.task? w = some t → t.BoundOk b T own w := by
    intro a t w ha ht
    have := hQ a ha
    cases a <;> simp only [Act.task?] at ht <;> try (simp at ht; done)
    case emitQueued o =>
      cases o <;> simp at ht <;> subst ht
      · exact fun _ => rfl
      · exact fun ho => absurd rfl (this.2 ho _)
    all_goals
      simp only [Option.some.injEq] at ht
      subst ht
      trivial
  have th := @thread_const env
  clear hs hQ
  unfold_goal t
  all_goals grind (ematch := 10) [Comp.Ok, BoundPre, BoundPost, Task.BoundOk, Task.Only, Prog.Only]

/-! ## What `emit_queued` logs -/

theorem surfacesQueued (e : Exc) : SurfacesQueued e (wrapQueued e) := by
  cases e <;> first | exact .base _ | exact .ordinary _ (by simp)

/-- Without `emit_queued`, queues only grow at the end. -/
theorem tq_grows {env : Env} (he : env.Only NoDrain) {T : ThreadId} {t w w' r}
    (h : Runs env t w w' r) : t.Only NoDrain → (∀ t', t ≠ .drain t') → w.tq T <+: w'.tq T := by
  refine Runs.induct (P := fun t w w' _ => t.Only NoDrain → (∀ t', t ≠ .drain t') →
    w.tq T <+: w'.tq T) ?_ h
  clear h
  intro t w w' r h
  have he' : ∀ b a, (env.body b a).Only NoDrain := he
  have tr : ∀ {a b c : List (Slot × Args)}, a <+: b → b <+: c → a <+: c := fun h g => h.trans g
  have rf : ∀ {a : List (Slot × Args)}, a <+: a := List.prefix_rfl
  have pq : ∀ (w : World) t x a em, w.tq T <+: (w.putQueue t x a em).tq T := by
    intro w t x a em
    rw [putQueue_tq]
    dsimp only
    split
    · rename_i h; subst h; exact List.prefix_append _ _
    · exact List.prefix_rfl
  have ta : ∀ a t w, NoDrain a → a.task? w = some t → t.Only NoDrain ∧ ∀ t', t ≠ .drain t' := by
    intro a t w ha ht
    cases a <;> simp only [Act.task?] at ht <;> try (simp at ht; done)
    case emitQueued => exact ha.elim
    all_goals
      simp only [Option.some.injEq] at ht
      subst ht
      exact ⟨trivial, by simp⟩
  unfold_body t h
  all_goals grind (ematch := 10) [Comp.Via, Task.Only, Prog.Only, -putQueue_tq]

theorem direct_none_log {env : Env} {x args w w' r}
    (h : Runs env (.direct none none x args) w w' r) :
    (w' = w ∧ x.base.isDead w = true ∧ r = .error .referenceError) ∨
    ∃ e inner, w'.log = w.log ++ (.call none none 0 e w.thread x.base (x.receives args) ::
      (inner ++ [.ret none none x.base r])) := by
  rw [runs_iff] at h
  simp only [body] at h
  split at h
  · exact .inl ⟨h.1, by assumption, h.2⟩
  · right
    have key : ∀ t, Comp.Via (Runs env) (.call t
        (w.logCall none none x.base (x.callArgs args))
        fun w' res => .done (w'.logRet none none x.base res) res) w' r →
        ∃ e inner, w'.log = w.log ++ (.call none none 0 e w.thread x.base
          (x.receives args) :: (inner ++ [.ret none none x.base r])) := by
      rintro t ⟨w1, r1, h1, rfl, rfl⟩
      obtain ⟨l, hl⟩ := log_prefix h1
      rw [← receives_eq]
      exact ⟨w.emitter, l, by
        show w1.log ++ _ = _
        rw [← hl]
        simp [World.logCall, World.ev]⟩
    split at h
    · exact key _ h
    · exact key _ h

theorem drain_log {env : Env} {t w w' r} (h : Runs env t w w' r) : ∀ T, t = .drain T →
    ∃ xs l, Served T w.thread xs l ∧
      (r = .ok () → w'.log = w.log ++ l ∧ w'.tq T = [] ∧ (env.Only NoDrain → w.tq T <+: xs)) ∧
      (∀ e', r = .error e' → ∃ x a e tail, w'.log = w.log ++ (l ++ .get T x.base a :: tail) ∧
        SurfacesQueued e e' ∧ Failed w.thread w' x a e tail ∧
        (env.Only NoDrain → w.tq T <+: xs ++ (x, a) :: w'.tq T)) := by
  refine Runs.induct (P := fun t w w' r => ∀ T, t = .drain T →
    ∃ xs l, Served T w.thread xs l ∧
      (r = .ok () → w'.log = w.log ++ l ∧ w'.tq T = [] ∧ (env.Only NoDrain → w.tq T <+: xs)) ∧
      (∀ e', r = .error e' → ∃ x a e tail, w'.log = w.log ++ (l ++ .get T x.base a :: tail) ∧
        SurfacesQueued e e' ∧ Failed w.thread w' x a e tail ∧
        (env.Only NoDrain → w.tq T <+: xs ++ (x, a) :: w'.tq T))) ?_ h
  clear h
  rintro t w w' r h T rfl
  simp only [body] at h
  split at h
  · rename_i hq
    obtain ⟨rfl, rfl⟩ := h
    exact ⟨[], [], rfl, fun _ => ⟨by simp, hq, fun _ => by simp [hq]⟩, by simp⟩
  · rename_i x a rest hq
    obtain ⟨w1, r1, ⟨h1, -⟩, h⟩ := h
    have hgrow : env.Only NoDrain → rest <+: w1.tq T := by
      intro he
      have := tq_grows (T := T) he h1 trivial (by simp)
      simpa [hq] using this
    have hth : w1.thread = w.thread := (thread_const h1).trans (getQueue_thread ..)
    have hlog := direct_none_log h1
    cases r1 with
    | error e =>
      obtain ⟨rfl, rfl⟩ := h
      refine ⟨[], [], rfl, by simp, ?_⟩
      rintro e' he'
      simp only [Except.error.injEq] at he'
      subst he'
      rcases hlog with ⟨rfl, hd, he⟩ | ⟨em, inner, hl⟩
      · simp only [Except.error.injEq] at he
        subst he
        refine ⟨x, a, .referenceError, [], by simp, surfacesQueued _, .inr ⟨rfl, rfl, ?_⟩, ?_⟩
        · unfold Base.isDead at hd
          split at hd
          · simp at hd
          · exact ⟨_, by assumption, hd⟩
        · intro he
          rw [hq]
          simpa using hgrow he
      · refine ⟨x, a, e, _, by rw [hl]; simp, surfacesQueued _, .inl ⟨em, inner, rfl⟩, ?_⟩
        intro he
        rw [hq]
        simpa using hgrow he
    | ok u =>
      obtain ⟨w2, r2, ⟨h2, ih⟩, rfl, rfl⟩ := h
      obtain ⟨xs, l, hs, hok, herr⟩ := ih T rfl
      rcases hlog with ⟨-, -, he⟩ | ⟨em, inner, hl⟩
      · simp at he
      rw [hth] at hs herr
      refine ⟨(x, a) :: xs, _, ⟨em, inner, l, rfl, hs⟩, ?_, ?_⟩
      · intro hr
        obtain ⟨h3, h4, h5⟩ := hok hr
        refine ⟨?_, h4, fun he => ?_⟩
        · rw [h3, hl]; simp
        · rw [hq]
          simpa using (hgrow he).trans (h5 he)
      · intro e' he'
        obtain ⟨x', a', e, tail, h3, h4, h5, h6⟩ := herr e' he'
        refine ⟨x', a', e, tail, ?_, h4, h5, fun he => ?_⟩
        · rw [h3, hl]; simp
        · rw [hq]
          simpa using (hgrow he).trans (h6 he)

end Psygnal
